import Verif.Model.Cli
/-
What a line of the command line means, and what a sequence of lines does: independently of the parsers and of what the
reader remembers.
-/
namespace Mentat
namespace Cli
open Parser (isWhite)

/-- Nothing but whitespace. -/
def White (w : Text) : Prop := ∀ c ∈ w, isWhite c = true

/-- Not empty and without whitespace. -/
def Word (x : Text) : Prop := x ≠ [] ∧ ∀ c ∈ x, isWhite c = false

/-- The end, or whitespace next. -/
def Ends (r : Text) : Prop := ∀ c t, r = c :: t → isWhite c = true

/-- The words of a text. -/
inductive Words : Text → List Text → Prop
  | nil {w : Text} : White w → Words w []
  | cons {w x r : Text} {xs : List Text} : White w → Word x → Ends r → Words r xs → Words (w ++ x ++ r) (x :: xs)

/-- Begins with a bracket or a brace. -/
def Bracketed (a : Text) : Prop := ∃ t, a = '[' :: t ∨ a = '{' :: t

def Direction.word : Direction → Text
  | .forward => "forward".toList
  | .reverse => "reverse".toList
  | .both => "both".toList

/-- What follows the dot, and the command that it is. -/
inductive Means : Text → Command → Prop
  | help {t ws} : Words t ws → Means ("help".toList ++ t) (.help ws)
  | importLong {w x r} : White w → Word x → Ends r → Means ("import".toList ++ w ++ x ++ r) (.importFile x)
  | importShort {w x r} : White w → Word x → Ends r → ¬ "mport".toList <+: w ++ x ++ r →
      Means ("i".toList ++ w ++ x ++ r) (.importFile x)
  | timer {w r} : White w → Means ("timer".toList ++ w ++ "on".toList ++ r) (.timer true)
  | cache {w x w' d r} : White w → Word x → White w' → w' ≠ [] →
      Means ("cache".toList ++ w ++ x ++ w' ++ Direction.word d ++ r) (.cache x d)
  | openDb {t p} : Words t [p] → ¬ "_encrypted".toList <+: t → Means ("open".toList ++ t) (.openDb p)
  | openEncrypted {t p k} : Words t [p, k] → Means ("open_encrypted".toList ++ t) (.openEncrypted p k)
  | close {w} : White w → Means ("close".toList ++ w) .close
  | exit {n w} : n = "exit" ∨ n = "e" → White w → Means (n.toList ++ w) .exit
  | queryExplain {n w a} : n = "explain_query" ∨ n = "eq" → White w → Bracketed a → Means (n.toList ++ w ++ a) (.queryExplain a)
  | queryPrepared {w a} : White w → Bracketed a → Means ("query_prepared".toList ++ w ++ a) (.queryPrepared a)
  | query {n w a} : n = "query" ∨ n = "q" → White w → Bracketed a → Means (n.toList ++ w ++ a) (.query a)
  | schema {w} : White w → Means ("schema".toList ++ w) .schema
  | sync {t ws} : Words t ws → ws ≠ [] → ws.length ≤ 2 → Means ("sync".toList ++ t) (.sync ws)
  | transact {n w a} : n = "transact" ∨ n = "t" → White w → Bracketed a → Means (n.toList ++ w ++ a) (.transact a)

/-- Lines joined. -/
def joined (ls : List Text) : Text := ['\n'].intercalate ls

/-- The lines so far are a command whose EDN is not complete, and so were they after each of them. -/
def Pending (ls : List Text) : Prop :=
  (∃ l r, ls = l :: r ∧ l ≠ []) ∧ ∀ p, p ≠ [] → p <+: ls → ∃ c, command (joined p) = .ok c ∧ c.isComplete = false

/-- No lines, or lines of a command that is not complete. -/
def Waiting (ls : List Text) : Prop := ls = [] ∨ Pending ls

/-- What there is to handle after a sequence of lines, interrupts and ends of input. -/
inductive Session : List UserAction → List Outcome → Prop
  | stop {ls} : Waiting ls → Session (ls.map .text) []
  | quit {ls rest} : Waiting ls → Session (ls.map .text ++ .quit :: rest) []
  | leave {rest} : Session (.interrupt :: rest) []
  | interrupted {ls rest os} : Pending ls → Session rest os → Session (ls.map .text ++ .interrupt :: rest) os
  | blank {rest os} : Session rest os → Session (.text [] :: rest) os
  | entered {ls l c rest os} : Waiting ls → (ls = [] → l ≠ []) → command (joined (ls ++ [l])) = .ok c → c.isComplete = true →
      c ≠ .exit → Session rest os → Session (ls.map .text ++ .text l :: rest) (.ok c :: os)
  | exit {ls l rest} : Waiting ls → command (joined (ls ++ [l])) = .ok .exit →
      Session (ls.map .text ++ .text l :: rest) [.ok .exit]
  | refused {ls l e rest os} : Waiting ls → (ls = [] → l ≠ []) → command (joined (ls ++ [l])) = .error e → Session rest os →
      Session (ls.map .text ++ .text l :: rest) (.error e :: os)

end Cli
end Mentat
