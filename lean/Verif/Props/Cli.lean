import Verif.Proofs.CliReader
import Verif.Proofs.KernelRfl
/-
C90: what a line of the command line means.
C91: a command entered over several lines is the command that the lines are together.
-/
namespace Mentat
namespace Cli
open Parser

variable {s : Text} {c : Command}

/-! ### C90 -/

/-- C90.  A text is a command exactly if it is one by the grammar: whitespace, a dot, and the name of the
command, long or short, with its arguments. -/
theorem C90_grammar : command s = .ok c ↔ ∃ w body, White w ∧ s = w ++ '.' :: body ∧ Means body c := command_iff

theorem white_space : White [' '] := by intro c hc; simp at hc; subst hc; decide

theorem word_of_words {t : Text} {ws : List Text} (h : Words t ws) : ∀ x ∈ ws, Word x := by
  induction h with
  | nil => intro x hx; cases hx
  | cons _ h1 _ _ ih =>
    intro y hy
    rcases List.mem_cons.mp hy with rfl | hy
    · exact h1
    · exact ih y hy

theorem words_one {x : Text} (h : Word x) : Words (' ' :: x) [x] := by
  have := Words.cons white_space h (r := []) (by intro c t e; cases e) (.nil (by intro c h; cases h))
  simpa using this

theorem words_two {x y : Text} (hx : Word x) (hy : Word y) : Words (' ' :: x ++ ' ' :: y) [x, y] := by
  have := Words.cons white_space hx (r := ' ' :: y) (by intro c t e; cases e; decide) (words_one hy)
  simpa using this

/-- The commands whose echo is their text. -/
def Command.Plain : Command → Bool
  | .cache .. | .help _ | .sync _ | .timer _ => false
  | _ => true

/-- C90.  Read from what is printed for it, a command is the same command again, if it is not one of the
four whose arguments are printed as data. -/
theorem C90_echo_partial (h : command s = .ok c) (hp : c.Plain = true) : command c.output = .ok c := by
  obtain ⟨w0, body, -, rfl, hm⟩ := command_iff.mp h
  have hend : ∀ {x : Text}, x = [] → Ends x := by rintro _ rfl c t e; cases e
  have start : ∀ {b : Text} {d : Command}, Means b d → command ('.' :: b) = .ok d := fun hm =>
    command_iff.mpr ⟨[], _, (by intro c h; cases h), rfl, hm⟩
  have hnil : White [] := by intro c h; cases h
  cases hm with
  | help => cases hp
  | timer => cases hp
  | cache => cases hp
  | sync => cases hp
  | @importLong w x r hw hx hr =>
    have := start (Means.importLong white_space hx (hend rfl))
    rw [List.append_nil] at this; exact this
  | @importShort w x r hw hx hr =>
    have := start (Means.importLong white_space hx (hend rfl))
    rw [List.append_nil] at this; exact this
  | @openDb t p ht hn =>
    exact start (Means.openDb (words_one (word_of_words ht _ List.mem_cons_self)) (noPrefix rfl))
  | @openEncrypted t p k ht =>
    have h1 := word_of_words ht p List.mem_cons_self
    have h2 := word_of_words ht k (List.mem_cons_of_mem _ List.mem_cons_self)
    exact start (Means.openEncrypted (words_two h1 h2))
  | close => exact start (Means.close hnil)
  | exit => exact start (Means.exit (.inl rfl) hnil)
  | schema => exact start (Means.schema hnil)
  | queryExplain _ _ ha => exact start (Means.queryExplain (.inl rfl) white_space ha)
  | queryPrepared _ ha => exact start (Means.queryPrepared white_space ha)
  | query _ _ ha => exact start (Means.query (.inl rfl) white_space ha)
  | transact _ _ ha => exact start (Means.transact (.inl rfl) white_space ha)

/-- Each of the four is read differently, or not at all. -/
theorem C90_echo_fails :
    (command ".timer on".toList = .ok (.timer true) ∧ command (Command.timer true).output = .error .invalid) ∧
    (command ".cache :x/one both".toList = .ok (.cache ":x/one".toList .both) ∧
      command (Command.cache ":x/one".toList .both).output = .error .invalid) ∧
    (command ".help".toList = .ok (.help []) ∧ command (Command.help []).output = .ok (.help ["[]".toList])) ∧
    (command ".sync u v".toList = .ok (.sync ["u".toList, "v".toList]) ∧
      command (Command.sync ["u".toList, "v".toList]).output = .ok (.sync ["[\"u\",".toList, "\"v\"]".toList])) := by
  refine ⟨⟨?_, ?_⟩, ⟨?_, ?_⟩, ⟨?_, ?_⟩, ?_, ?_⟩ <;> kernel_rfl

/-- No text turns the timer off: `off` is not tried once the `o` has been taken for that of `on`. -/
theorem C90_fails_timer (s : Text) : command s ≠ .ok (.timer false) := by
  intro h
  obtain ⟨w, body, -, -, hm⟩ := command_iff.mp h
  cases hm

/-- A text that follows is not looked at. -/
theorem C90_fails_rest (x : Text) : command (".timer on".toList ++ x) = .ok (.timer true) ∧
    command (".cache :x/one both".toList ++ x) = .ok (.cache ":x/one".toList .both) ∧
    command (".import p ".toList ++ x) = .ok (.importFile "p".toList) := by
  have w1 : White " ".toList := white_space
  have hword : ∀ {t : Text}, t ≠ [] → t.all (fun c => !isWhite c) = true → Word t := by
    intro t h1 h2; refine ⟨h1, fun c hc => ?_⟩; simpa using List.all_eq_true.mp h2 c hc
  refine ⟨command_iff.mpr ⟨[], _, (by intro c h; cases h), rfl, Means.timer (w := " ".toList) (r := x) w1⟩,
    command_iff.mpr ⟨[], _, (by intro c h; cases h), rfl, Means.cache (w := " ".toList) (x := ":x/one".toList) (w' := " ".toList) (d := .both) (r := x)
      w1 (hword (by decide) (by decide)) w1 (by decide)⟩,
    command_iff.mpr ⟨[], _, (by intro c h; cases h), rfl, Means.importLong (w := " ".toList) (x := "p".toList) (r := ' ' :: x) w1
      (hword (by decide) (by decide)) (by intro c t e; cases e; decide)⟩⟩

/-- One argument is enough for `.sync`, but not for syncing. -/
theorem C90_fails_sync : command ".sync u".toList = .ok (.sync ["u".toList]) ∧ syncArgs ["u".toList] = .panic :=
  ⟨by kernel_rfl, rfl⟩

/-- Commands of each kind, and what is none. -/
theorem C90_example :
    command " .q [:find ?x]".toList = .ok (.query "[:find ?x]".toList) ∧
    command ".eq[:find ?x]".toList = .ok (.queryExplain "[:find ?x]".toList) ∧
    command ".e ".toList = .ok .exit ∧ command ".exit now".toList = .error .invalid ∧ command ".exitnow".toList = .error (.unrecognized "now".toList) ∧
    command ".open a b".toList = .error (.unrecognized "b".toList) ∧ command ".open".toList = .error .missing ∧
    command ".open_encrypted a  b ".toList = .ok (.openEncrypted "a".toList "b".toList) ∧
    command ".transact {:a 1}".toList = .ok (.transact "{:a 1}".toList) ∧ command "q []".toList = .error .invalid := by
  refine ⟨?_, ?_, ?_, ?_, ?_, ?_, ?_, ?_, ?_, ?_⟩ <;> kernel_rfl

/-! ### The arguments of the program and of `.cache` -/

/-- The options that give a command. -/
inductive Opt where
  | db | query | importFile | transact
  deriving DecidableEq

def Opt.flag : Opt → Text
  | .db => "-d".toList
  | .query => "-q".toList
  | .importFile => "-i".toList
  | .transact => "-t".toList

def Opt.command (key : Option Text) (v : Text) : Opt → Command
  | .db => match key with
    | some k => .openEncrypted v k
    | none => .openDb v
  | .query => .query v
  | .importFile => .importFile v
  | .transact => .transact v

/-- C90.  Of the arguments of the program, each option gives its command, whatever its argument is, in the
order of the options; other arguments give none. -/
theorem C90_startup_partial (key : Option Text) (l : List (List Text × Opt × Text)) (rest : List Text)
    (h : ∀ x ∈ (l.map (·.1)).flatten, ∀ o : Opt, x ≠ o.flag) (hr : ∀ x ∈ rest, ∀ o : Opt, x ≠ o.flag) :
    startup key ((l.flatMap fun p => p.1 ++ [p.2.1.flag, p.2.2]) ++ rest) = l.map fun p => p.2.1.command key p.2.2 := by
  have step : ∀ (last : Option Text) (arg : Text) (r : List Text), (∀ o : Opt, last ≠ some o.flag) →
      startupFrom key last (arg :: r) = startupFrom key (some arg) r := by
    intro last arg r hl
    rw [startupFrom.eq_def]; dsimp only
    rw [if_neg (show ¬ last = some "-d".toList from hl .db), if_neg (show ¬ last = some "-q".toList from hl .query),
      if_neg (show ¬ last = some "-i".toList from hl .importFile), if_neg (show ¬ last = some "-t".toList from hl .transact)]
  have others : ∀ (xs : List Text) (last : Option Text) (r : List Text), (∀ x ∈ xs, ∀ o : Opt, x ≠ o.flag) → (∀ o : Opt, last ≠ some o.flag) →
      ∃ last', (∀ o : Opt, last' ≠ some o.flag) ∧ startupFrom key last (xs ++ r) = startupFrom key last' r := by
    intro xs
    induction xs with
    | nil => intro last r _ hl; exact ⟨last, hl, rfl⟩
    | cons x xs ih =>
      intro last r hx hl
      obtain ⟨last', h1, h2⟩ := ih (some x) r (fun y hy => hx y (List.mem_cons_of_mem _ hy))
        (fun o e => hx x List.mem_cons_self o (Option.some.inj e))
      exact ⟨last', h1, by rw [List.cons_append, step _ _ _ hl, h2]⟩
  have main : ∀ (last : Option Text), (∀ o : Opt, last ≠ some o.flag) →
      startupFrom key last ((l.flatMap fun p => p.1 ++ [p.2.1.flag, p.2.2]) ++ rest) = l.map fun p => p.2.1.command key p.2.2 := by
    induction l with
    | nil =>
      intro last hl
      obtain ⟨last', h1, h2⟩ := others rest last [] hr hl
      rw [List.append_nil] at h2
      rw [List.flatMap_nil, List.nil_append, h2]; rfl
    | cons p l ih =>
      intro last hl
      obtain ⟨xs, o, v⟩ := p
      obtain ⟨last', h1, h2⟩ := others xs last ([o.flag, v] ++ ((l.flatMap fun p => p.1 ++ [p.2.1.flag, p.2.2]) ++ rest))
        (fun x hx => h x (by simp only [List.map_cons, List.flatten_cons, List.mem_append]; exact .inl hx)) hl
      have ih' := ih (fun x hx => h x (by simp only [List.map_cons, List.flatten_cons, List.mem_append]; exact .inr hx)) none
        (fun o e => by cases e)
      simp only [List.flatMap_cons, List.append_assoc, List.map_cons] at h2 ih' ⊢
      rw [h2]
      show startupFrom key last' (o.flag :: v :: _) = _
      rw [step _ _ _ h1]
      cases o with
      | db => rw [← ih']; cases key <;> rfl
      | query => rw [← ih']; rfl
      | importFile => rw [← ih']; rfl
      | transact => rw [← ih']; rfl
  exact main none (fun o e => by cases e)

/-- A query is run before a transaction that comes after it, though the options say otherwise; and an
option by its long name, or joined with its argument, gives no command. -/
theorem C90_fails_startup :
    startup none ["cli".toList, "-q".toList, "[]".toList, "-t".toList, "[]".toList] = [.query "[]".toList, .transact "[]".toList] ∧
    startup none ["cli".toList, "--query".toList, "[]".toList, "-t[]".toList] = [] ∧
    startup none ["cli".toList, "--query".toList, "-t".toList, "-q".toList, "[]".toList] = [.transact "-q".toList] := by
  refine ⟨?_, ?_, ?_⟩ <;> kernel_rfl

def Separator (c : Char) : Prop := c = ':' ∨ c = '/'

theorem splitOn_ne (p : Char → Bool) (s : Text) : splitOn p s ≠ [] := by
  cases s with
  | nil => simp [splitOn]
  | cons c s =>
    unfold splitOn
    split
    · simp
    · split <;> simp

theorem splitOn_free {p : Char → Bool} {x : Text} (hx : ∀ c ∈ x, p c = false) : splitOn p x = [x] := by
  induction x with
  | nil => rfl
  | cons c x ih =>
    unfold splitOn
    rw [hx c List.mem_cons_self, ih fun d hd => hx d (List.mem_cons_of_mem _ hd)]
    rfl

theorem splitOn_sep {p : Char → Bool} {x : Text} {c : Char} (r : Text) (hx : ∀ c ∈ x, p c = false) (hc : p c = true) :
    splitOn p (x ++ c :: r) = x :: splitOn p r := by
  induction x with
  | nil => simp [splitOn, hc]
  | cons d x ih =>
    rw [List.cons_append, splitOn, hx d List.mem_cons_self, ih fun d hd => hx d (List.mem_cons_of_mem _ hd)]
    rfl

/-- Every text is a piece, or a piece, a separator and the rest. -/
theorem splitOn_cases (p : Char → Bool) (s : Text) :
    (splitOn p s = [s] ∧ ∀ c ∈ s, p c = false) ∨
      ∃ x c r, s = x ++ c :: r ∧ (∀ d ∈ x, p d = false) ∧ p c = true ∧ splitOn p s = x :: splitOn p r := by
  induction s with
  | nil => exact .inl ⟨rfl, by intro c h; cases h⟩
  | cons d s ih =>
    by_cases hd : p d = true
    · exact .inr ⟨[], d, s, rfl, (by intro c h; cases h), hd, by simp [splitOn, hd]⟩
    · have hd' : p d = false := by simpa using hd
      rcases ih with ⟨h1, h2⟩ | ⟨x, c, r, rfl, hx, hc, h⟩
      · refine .inl ⟨by simp [splitOn, hd', h1], ?_⟩
        intro c hc
        rcases List.mem_cons.mp hc with rfl | hc
        · exact hd'
        · exact h2 c hc
      · refine .inr ⟨d :: x, c, r, rfl, ?_, hc, by simp [splitOn, hd', h]⟩
        intro e he
        rcases List.mem_cons.mp he with rfl | he
        · exact hd'
        · exact hx e he

/-- C90.  An attribute to cache is a keyword exactly if it is a separator, a namespace, a separator and a
name, neither empty. -/
theorem C90_attribute_partial {k : NName} : parseNamespacedKeyword s = .ok (some k) ↔
    ∃ c ns c' n, Separator c ∧ Separator c' ∧ ns ≠ [] ∧ n ≠ [] ∧ (∀ d ∈ ns ++ n, ¬ Separator d) ∧ s = c :: ns ++ c' :: n ∧
      k = ⟨ns ++ '/' :: n, ns.length⟩ := by
  let p : Char → Bool := fun c => c = ':' || c = '/'
  have hp : ∀ c, p c = true ↔ Separator c := fun c => by simp [p, Separator]
  have hp' : ∀ c, p c = false ↔ ¬ Separator c := fun c => by rw [← hp]; simp
  constructor
  · intro h
    unfold parseNamespacedKeyword at h
    split at h
    · rename_i ns n e
      have e : splitOn p s = [[], ns, n] := e
      rcases splitOn_cases p s with ⟨h1, -⟩ | ⟨x, c, r, rfl, hx, hc, h1⟩
      · rw [h1] at e; cases e
      have e1 := h1.symm.trans e
      injection e1 with e1 e2
      subst e1
      rcases splitOn_cases p r with ⟨h2, -⟩ | ⟨x', c', r', rfl, hx', hc', h2⟩
      · have := h2.symm.trans e2; cases this
      have e3 := h2.symm.trans e2
      injection e3 with e3 e4
      subst e3
      rcases splitOn_cases p r' with ⟨h3, h4⟩ | ⟨x'', c'', r'', rfl, hx'', hc'', h3⟩
      · have e5 := h3.symm.trans e4
        injection e5 with e5 _
        subst e5
        unfold NName.namespaced at h
        split at h
        · cases h
        · rename_i hn
          split at h
          · cases h
          · rename_i hns
            cases h
            refine ⟨c, x', c', r', (hp c).mp hc, (hp c').mp hc', hns, hn, ?_, by simp, rfl⟩
            intro d hd
            rcases List.mem_append.mp hd with hd | hd
            · exact (hp' d).mp (hx' d hd)
            · exact (hp' d).mp (h4 d hd)
      · have e5 := h3.symm.trans e4
        injection e5 with _ e5
        exact absurd e5 (splitOn_ne _ _)
    · cases h
  · rintro ⟨c, ns, c', n, h1, h2, h3, h4, h5, rfl, rfl⟩
    have e : splitOn p (c :: ns ++ c' :: n) = [[], ns, n] := by
      have e1 := splitOn_sep (p := p) (x := []) (c := c) (ns ++ c' :: n) (by intro d h; cases h) ((hp c).mpr h1)
      have e2 := splitOn_sep (p := p) (x := ns) (c := c') n (fun d hd => (hp' d).mpr (h5 d (List.mem_append_left _ hd))) ((hp c').mpr h2)
      have e3 := splitOn_free (p := p) (x := n) (fun d hd => (hp' d).mpr (h5 d (List.mem_append_right _ hd)))
      rw [e2, e3] at e1
      exact e1
    unfold parseNamespacedKeyword
    rw [show splitOn (fun c => c = ':' || c = '/') (c :: ns ++ c' :: n) = [[], ns, n] from e]
    simp [NName.namespaced, h3, h4, Res.bind]

/-- The separators may be the wrong ones, and without a namespace, or a name, the program ends. -/
theorem C90_fails_attribute : parseNamespacedKeyword "/x:one".toList = .ok (some ⟨"x/one".toList, 1⟩) ∧
    parseNamespacedKeyword ":/one".toList = .panic ∧ parseNamespacedKeyword ":x/".toList = .panic := by
  refine ⟨?_, ?_, ?_⟩ <;> kernel_rfl

/-! ### C91 -/

variable {as : List UserAction} {os : List Outcome}

/-- C91.  What is handled is, line by line, what the lines are: the lines since the last command that was
complete or refused, joined, are read as one text. -/
theorem C91_session : Reader.run {} as = os ↔ Session as os :=
  ⟨fun h => h ▸ run_session as (ls := []) (.inl ⟨rfl, rfl⟩), session_run⟩

/-- C91.  One session, then, and no other, for any lines. -/
theorem C91_unique {os' : List Outcome} (h : Session as os) (h' : Session as os') : os = os' :=
  (session_run h).symm.trans (session_run h')

/-- C91.  However its text is broken into lines, a query is the query of the text: the command in hand
with the lines joined. -/
theorem C91_lines {ls : List Text} {l : Text} {rest : List UserAction} (hw : Pending ls) (hc : command (joined (ls ++ [l])) = .ok c)
    (hf : c.isComplete = true) : ∃ os, Reader.run {} (ls.map .text ++ .text l :: rest) = .ok c :: os ∧
      (c ≠ .exit → os = Reader.run {} rest) := by
  by_cases hx : c = .exit
  · subst hx
    exact ⟨[], session_run (.exit (.inr hw) hc), fun h => absurd rfl h⟩
  · exact ⟨_, session_run (.entered (.inr hw) (fun h => absurd h hw.ne) hc hf hx (run_session rest (ls := []) (.inl ⟨rfl, rfl⟩))), fun _ => rfl⟩

/-- C91.  Interrupted in the middle of a command, the command line forgets it; otherwise it ends. -/
theorem C91_interrupt {ls : List Text} {rest : List UserAction} (hp : Pending ls) :
    Reader.run {} (ls.map .text ++ .interrupt :: rest) = Reader.run {} rest ∧ Reader.run {} (.interrupt :: rest) = [] :=
  ⟨session_run (.interrupted hp (run_session rest (ls := []) (.inl ⟨rfl, rfl⟩))), rfl⟩

/-- A session: a query in two lines, a transaction given up, a refusal, an exit. -/
theorem C91_example : Reader.run {} [.text ".q [:find".toList, .text [], .text "?x]".toList, .text [], .text ".t [1".toList, .interrupt,
    .text "help".toList, .text ".exit".toList, .text ".help".toList] =
    [.ok (.query "[:find\n\n?x]".toList), .error .invalid, .ok .exit] := by kernel_rfl

/-- The first lines are those of a command that is not complete. -/
theorem C91_example_pending : Pending [".q [:find".toList, []] := by
  refine ⟨⟨_, _, rfl, by decide⟩, ?_⟩
  intro p hp hpre
  have h1 : command (joined [".q [:find".toList]) = .ok (.query "[:find".toList) := by kernel_rfl
  have h2 : command (joined [".q [:find".toList, []]) = .ok (.query "[:find\n".toList) := by kernel_rfl
  have : p = [".q [:find".toList] ∨ p = [".q [:find".toList, []] := by
    rcases List.prefix_cons_iff.mp hpre with rfl | ⟨t, rfl, ht⟩
    · exact absurd rfl hp
    rcases List.prefix_cons_iff.mp ht with rfl | ⟨t', rfl, ht'⟩
    · exact .inl rfl
    · rw [List.prefix_nil.mp ht']; exact .inr rfl
  rcases this with rfl | rfl
  · exact ⟨_, h1, by kernel_rfl⟩
  · exact ⟨_, h2, by kernel_rfl⟩

end Cli
end Mentat
