import Verif.Props.EdnParse
/- The texts that write an EDN value: which blanks may stand where. -/
namespace Mentat.EdnText
open Mentat Edn EdnParse

/-- Whitespace (commas are whitespace) and comments up to the end of their line. -/
inductive Blank : Text → Prop
  | nil : Blank []
  | space {c : Char} {w : Text} : isWs c = true → Blank w → Blank (c :: w)
  | comment {s w : Text} {e : Char} : (∀ c ∈ s, c ≠ '\r' ∧ c ≠ '\n') → e = '\r' ∨ e = '\n' → Blank w → Blank (';' :: (s ++ e :: w))

/-- What may stand at the end: a blank, and perhaps a comment whose line does not end. -/
def Final (b : Text) : Prop :=
  ∃ w s, Blank w ∧ b = w ++ s ∧ (s = [] ∨ ∃ t, s = ';' :: t ∧ ∀ c ∈ t, c ≠ '\r' ∧ c ≠ '\n')

/-- A value in a collection: the blank before it, and its text. -/
structure Piece where
  gap : Text
  val : Edn
  text : Text

/-- The text between the brackets. -/
def body : List Piece → Text → Text
  | [], w => w
  | p :: ps, w => p.gap ++ (p.text ++ body ps w)

/-- There is something blank between any two values; there need not be before the first and after the last. -/
def Apart (ps : List Piece) (w : Text) : Prop := (∀ p ∈ ps, Blank p.gap) ∧ (∀ p ∈ ps.tail, p.gap ≠ []) ∧ Blank w

/-- The value is no collection. -/
def Simple (v : Edn) : Prop := ∀ l, v ≠ .vector l ∧ v ≠ .list l ∧ v ≠ .set l ∧ v ≠ .map l

/-- The text writes the value.  Members of sets and entries of maps may come in any order and repeatedly; the last value of a
key counts. -/
inductive Written : Edn → Text → Prop
  | simple {v : Edn} : Readable v → Simple v → Written v (print v)
  | vector {ps : List Piece} {w : Text} : (∀ p ∈ ps, Written p.val p.text) → Apart ps w →
      Written (.vector (ps.map (·.val))) ('[' :: (body ps w ++ [']']))
  | list {ps : List Piece} {w : Text} : (∀ p ∈ ps, Written p.val p.text) → Apart ps w →
      Written (.list (ps.map (·.val))) ('(' :: (body ps w ++ [')']))
  | set {ps : List Piece} {w : Text} {l : List Edn} : (∀ p ∈ ps, Written p.val p.text) → Apart ps w →
      Increasing l → (∀ z, z ∈ l ↔ z ∈ ps.map (·.val)) → Written (.set l) ('#' :: '{' :: (body ps w ++ ['}']))
  | map {ps : List Piece} {w : Text} {l m : List (Edn × Edn)} : (∀ p ∈ ps, Written p.val p.text) → Apart ps w →
      ps.map (·.val) = flat m → Increasing (l.map (·.1)) → (∀ k v, (k, v) ∈ l ↔ lastFor k m v) →
      Written (.map (flat l)) ('{' :: (body ps w ++ ['}']))

end Mentat.EdnText
