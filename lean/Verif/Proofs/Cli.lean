import Verif.Spec.Cli
/-
The parsers of the command line, taken as functions that succeed or not.
-/
namespace Mentat
namespace Cli
open Parser

def Parse.val {α : Type} : Parse α → Option (α × Text)
  | .ok a r _ => some (a, r)
  | .fail _ => none

variable {α β : Type}

theorem val_seq (p : Parser α) (f : α → Parser β) (s : Text) :
    (p.seq f s).val = (p s).val.bind fun q => (f q.1 q.2).val := by
  unfold Parser.seq
  cases p s with
  | fail t => rfl
  | ok a r t =>
    simp only [Parse.val, Option.bind_some]
    cases f a r <;> rfl

theorem val_map (p : Parser α) (f : α → β) (s : Text) : (p.map f s).val = (p s).val.map fun q => (f q.1, q.2) := by
  unfold Parser.map
  cases p s <;> rfl

theorem val_attempt (p : Parser α) (s : Text) : (attempt p s).val = (p s).val := by
  unfold attempt
  cases p s <;> rfl

theorem val_attempt_or (p q : Parser α) (s : Text) : ((attempt p).or q s).val = (p s).val.or (q s).val := by
  unfold attempt Parser.or
  cases h : p s <;> simp [h, Parse.val]

theorem val_str_iff {p : Text} : ∀ {s r : Text} {t : Bool} {u : Unit}, (strFrom t p s).val = some (u, r) ↔ s = p ++ r := by
  induction p with
  | nil => intro s r t u; simp [strFrom, Parse.val]
  | cons c p ih =>
    intro s r t u
    cases s with
    | nil => simp [strFrom, Parse.val]
    | cons d s =>
      unfold strFrom
      split
      · rename_i h; subst h
        rw [ih]; simp
      · rename_i h
        simp only [Parse.val, reduceCtorEq, List.cons_append, List.cons.injEq, false_iff, not_and]
        exact fun e => absurd e.symm h

theorem val_str (p : String) {s r : Text} {u : Unit} : (str p s).val = some (u, r) ↔ s = p.toList ++ r := val_str_iff

theorem val_str_append (p : String) (r : Text) : (str p (p.toList ++ r)).val = some ((), r) := (val_str p).mpr rfl

theorem val_str_none (p : String) {s : Text} : (str p s).val = none ↔ ¬ p.toList <+: s := by
  constructor
  · rintro h ⟨r, rfl⟩
    rw [val_str_append] at h; cases h
  · intro h
    cases hv : (str p s).val with
    | none => rfl
    | some q => exact absurd ⟨q.2, ((val_str p).mp hv).symm⟩ h

theorem val_token {c : Char} {s r : Text} {u : Unit} : (token c s).val = some (u, r) ↔ s = c :: r := by
  unfold token
  cases s with
  | nil => simp [Parse.val]
  | cons d s =>
    simp only
    split
    · rename_i h; subst h; simp [Parse.val]
    · rename_i h; simp only [Parse.val, reduceCtorEq, List.cons.injEq, false_iff, not_and]; exact fun e => absurd e.symm h

theorem white_dropWhile {w r : Text} (hw : White w) : (w ++ r).dropWhile isWhite = r.dropWhile isWhite := by
  induction w with
  | nil => rfl
  | cons c w ih =>
    rw [List.cons_append, List.dropWhile_cons, if_pos (hw c List.mem_cons_self)]
    exact ih fun d hd => hw d (List.mem_cons_of_mem _ hd)

theorem white_takeWhile (s : Text) : White (s.takeWhile isWhite) := fun _ hc => by
  induction s with
  | nil => cases hc
  | cons d s ih =>
    rw [List.takeWhile_cons] at hc
    split at hc
    · rcases List.mem_cons.mp hc with rfl | hc
      · assumption
      · exact ih hc
    · cases hc

/-- What comes first is not whitespace. -/
def Starts (s : Text) : Prop := ∀ c t, s = c :: t → isWhite c = false

theorem starts_dropWhile (s : Text) : Starts (s.dropWhile isWhite) := by
  induction s with
  | nil => intro c t h; cases h
  | cons d s ih =>
    rw [List.dropWhile_cons]
    split
    · exact ih
    · rename_i h
      intro c t e
      cases e
      simpa using h

theorem dropWhile_starts {s : Text} (h : Starts s) : s.dropWhile isWhite = s := by
  cases s with
  | nil => rfl
  | cons c s => rw [List.dropWhile_cons, h c s rfl]; rfl

theorem val_spaces {s r : Text} {u : Unit} : (spaces s).val = some (u, r) ↔ ∃ w, White w ∧ s = w ++ r ∧ Starts r := by
  simp only [spaces, Parse.val, Option.some.injEq, Prod.mk.injEq, true_and]
  constructor
  · rintro rfl
    exact ⟨s.takeWhile isWhite, white_takeWhile s, (List.takeWhile_append_dropWhile).symm, starts_dropWhile s⟩
  · rintro ⟨w, hw, rfl, hr⟩
    rw [white_dropWhile hw, dropWhile_starts hr]

theorem word_takeWhile (s : Text) : ∀ c ∈ s.takeWhile (fun c => !isWhite c), isWhite c = false := fun _ hc => by
  induction s with
  | nil => cases hc
  | cons d s ih =>
    rw [List.takeWhile_cons] at hc
    split at hc
    · rename_i h
      rcases List.mem_cons.mp hc with rfl | hc
      · simpa using h
      · exact ih hc
    · cases hc

theorem ends_dropWhile (s : Text) : Ends (s.dropWhile fun c => !isWhite c) := by
  induction s with
  | nil => intro c t h; cases h
  | cons d s ih =>
    rw [List.dropWhile_cons]
    split
    · exact ih
    · rename_i h
      intro c t e
      cases e
      simpa using h

theorem word_split {x r : Text} (hx : ∀ c ∈ x, isWhite c = false) (hr : Ends r) :
    (x ++ r).takeWhile (fun c => !isWhite c) = x ∧ (x ++ r).dropWhile (fun c => !isWhite c) = r := by
  induction x with
  | nil =>
    cases r with
    | nil => exact ⟨rfl, rfl⟩
    | cons c r => simp [hr c r rfl]
  | cons c x ih =>
    have hc := hx c List.mem_cons_self
    obtain ⟨h1, h2⟩ := ih fun d hd => hx d (List.mem_cons_of_mem _ hd)
    simp only [List.cons_append, List.takeWhile_cons, List.dropWhile_cons, hc, Bool.not_false, if_true, h1, h2, and_self]

theorem val_argument {s r x : Text} : (argument s).val = some (x, r) ↔ Word x ∧ Ends r ∧ s = x ++ r := by
  unfold argument many1
  constructor
  · split
    · simp [Parse.val]
    · rename_i h
      simp only [Parse.val, Option.some.injEq, Prod.mk.injEq]
      rintro ⟨rfl, rfl⟩
      exact ⟨⟨h, word_takeWhile s⟩, ends_dropWhile s, (List.takeWhile_append_dropWhile).symm⟩
  · rintro ⟨⟨h1, h2⟩, hr, rfl⟩
    obtain ⟨e1, e2⟩ := word_split h2 hr
    rw [e1, e2, if_neg h1]; rfl

/-! ### Words -/

theorem words_of : ∀ (n : Nat) (s : Text), s.length ≤ n → Words s (wordsOf n s)
  | 0, s, h => by
    cases s with
    | nil => exact .nil (by intro c hc; cases hc)
    | cons c s => simp at h
  | n + 1, s, h => by
    unfold wordsOf
    have hs : s = s.takeWhile isWhite ++ s.dropWhile isWhite := (List.takeWhile_append_dropWhile).symm
    by_cases hd : s.dropWhile isWhite = []
    · simp only [hd, if_pos]
      refine .nil ?_
      rw [hs, hd, List.append_nil]
      exact white_takeWhile s
    · simp only [hd, if_neg, not_false_eq_true, if_false]
      have h1 := starts_dropWhile s
      have hlen : (s.dropWhile isWhite).length ≤ n + 1 := Nat.le_trans (List.dropWhile_suffix _).length_le h
      generalize s.dropWhile isWhite = d at *
      cases d with
      | nil => exact absurd rfl hd
      | cons c d =>
        have hc := h1 c d rfl
        have e : c :: d = (c :: d).takeWhile (fun c => !isWhite c) ++ (c :: d).dropWhile (fun c => !isWhite c) :=
          (List.takeWhile_append_dropWhile).symm
        have hw : Word ((c :: d).takeWhile (fun c => !isWhite c)) := by
          refine ⟨?_, word_takeWhile _⟩
          rw [List.takeWhile_cons, hc]; simp
        have hr := words_of n ((c :: d).dropWhile fun c => !isWhite c) (by
          rw [List.dropWhile_cons, hc]
          simp only [Bool.not_false, if_true]
          exact Nat.le_trans (List.dropWhile_suffix _).length_le (by simpa using hlen))
        have := Words.cons (white_takeWhile s) hw (ends_dropWhile _) hr
        rw [List.append_assoc, ← e, ← hs] at this
        exact this

theorem words_len {s : Text} {ws : List Text} (h : Words s ws) : ∀ {n : Nat}, s.length ≤ n → wordsOf n s = ws := by
  induction h with
  | nil hw =>
    intro n _
    cases n with
    | zero => rfl
    | succ n =>
      have := white_dropWhile (r := []) hw
      rw [List.append_nil] at this
      unfold wordsOf
      rw [this]; rfl
  | @cons w x r xs hw hx hr _ ih =>
    intro n hn
    obtain ⟨h1, h2⟩ := hx
    cases n with
    | zero =>
      exfalso
      have : 0 < x.length := List.length_pos_iff.mpr h1
      simp at hn; simp [hn] at this
    | succ n =>
      unfold wordsOf
      obtain ⟨e1, e2⟩ := word_split h2 hr
      have hs : Starts (x ++ r) := by
        intro c t e
        cases x with
        | nil => exact absurd rfl h1
        | cons d x => cases e; exact h2 _ List.mem_cons_self
      rw [List.append_assoc, white_dropWhile hw, dropWhile_starts hs]
      have hne : x ++ r ≠ [] := by simp [h1]
      simp only [if_neg hne, e1, e2]
      rw [ih]
      have : 0 < x.length := List.length_pos_iff.mpr h1
      simp only [List.length_append] at hn
      omega

theorem words_iff {s : Text} {ws : List Text} : Words s ws ↔ wordsOf s.length s = ws :=
  ⟨fun h => words_len h (Nat.le_refl _), fun h => h ▸ words_of _ _ (Nat.le_refl _)⟩

theorem words_total (s : Text) : ∃ ws, Words s ws := ⟨_, words_of _ s (Nat.le_refl _)⟩

theorem words_unique {s : Text} {ws ws' : List Text} (h : Words s ws) (h' : Words s ws') : ws = ws' :=
  (words_iff.mp h).symm.trans (words_iff.mp h')

theorem words_white {w r : Text} {ws : List Text} (hw : White w) (h : Words r ws) : Words (w ++ r) ws := by
  have happ : ∀ {w' : Text}, White w' → White (w ++ w') := fun h' c hc => by
    rcases List.mem_append.mp hc with hc | hc
    · exact hw c hc
    · exact h' c hc
  cases h with
  | nil h => exact .nil (happ h)
  | cons h1 h2 h3 h4 =>
    have := Words.cons (happ h1) h2 h3 h4
    simpa [List.append_assoc] using this

theorem val_arguments {s : Text} {f : List Text → β} {o : β} {r : Text} :
    ((spaces.seq fun _ => arguments.map f) s).val = some (o, r) ↔ ∃ ws, Words s ws ∧ o = f ws ∧ r = [] := by
  rw [val_seq]
  simp only [Option.bind_eq_some_iff, Prod.exists, val_map, Option.map_eq_some_iff, Prod.mk.injEq]
  constructor
  · rintro ⟨u, s', hs, ws, r', ha, rfl, rfl⟩
    obtain ⟨w, hw, rfl, hst⟩ := val_spaces.mp hs
    unfold arguments at ha
    split at ha
    · rename_i hh
      cases s' with
      | nil =>
        cases ha
        exact ⟨[], .nil (by simpa using hw), rfl, rfl⟩
      | cons c t =>
        have := hst c t rfl
        simp [this] at hh
    · cases ha
      exact ⟨_, words_white hw (words_of _ _ (Nat.le_refl _)), rfl, rfl⟩
  · rintro ⟨ws, hws, rfl, rfl⟩
    refine ⟨(), s.dropWhile isWhite, ?_, ws, [], ?_, rfl, rfl⟩
    · exact val_spaces.mpr ⟨s.takeWhile isWhite, white_takeWhile s, (List.takeWhile_append_dropWhile).symm, starts_dropWhile s⟩
    · have h1 : Words (s.dropWhile isWhite) ws := by
        obtain ⟨ws', h'⟩ := words_total (s.dropWhile isWhite)
        have := words_white (white_takeWhile s) h'
        rw [List.takeWhile_append_dropWhile] at this
        rw [words_unique hws this]; exact h'
      have h2 := starts_dropWhile s
      generalize s.dropWhile isWhite = d at *
      unfold arguments
      cases d with
      | nil =>
        simp only [List.head?_nil, Option.all_none, if_true, Parse.val, Option.some.injEq, Prod.mk.injEq, and_true]
        exact words_unique (.nil (by intro c hc; cases hc)) h1
      | cons c t =>
        simp only [List.head?_cons, Option.all_some, h2 c t rfl, Bool.false_eq_true, if_false, Parse.val, Option.some.injEq,
          Prod.mk.injEq, and_true]
        exact words_iff.mp h1

theorem val_arguments_ne {s : Text} {f : List Text → β} : ((spaces.seq fun _ => arguments.map f) s).val ≠ none := by
  obtain ⟨ws, h⟩ := words_total s
  have := (val_arguments (f := f)).mpr ⟨ws, h, rfl, rfl⟩
  rw [this]; simp

theorem val_noArg {s r : Text} {c d : Command} :
    ((noArgParser.map (bare c)) s).val = some (.ok d, r) ↔ White s ∧ d = c ∧ r = [] := by
  unfold noArgParser
  simp only [val_map, val_seq, Option.map_eq_some_iff, Option.bind_eq_some_iff, Prod.exists, Prod.mk.injEq]
  constructor
  · rintro ⟨ws, r1, ⟨args, s', ha, u, s'', hs, u', r', he, rfl, rfl⟩, hb, rfl⟩
    have hr : s'' = [] ∧ r' = [] := by
      unfold eof at he
      split at he
      · cases he; exact ⟨by assumption, rfl⟩
      · cases he
    obtain ⟨rfl, rfl⟩ := hr
    obtain ⟨w, hw, rfl, -⟩ := val_spaces.mp hs
    unfold arguments at ha
    split at ha
    · cases ha
      cases hb
      exact ⟨by simpa using hw, rfl, rfl⟩
    · rename_i hh
      simp only [Parse.val, Option.some.injEq, Prod.mk.injEq] at ha
      obtain ⟨rfl, -⟩ := ha
      exfalso
      cases s with
      | nil => simp at hh
      | cons x t =>
        have hx : isWhite x = false := by simpa using hh
        simp only [List.length_cons, wordsOf, List.dropWhile_cons, hx, Bool.false_eq_true, if_false, reduceCtorEq, bare] at hb
  · rintro ⟨hs, rfl, rfl⟩
    refine ⟨[], [], ⟨[], s, ?_, (), [], ?_, (), [], rfl, rfl, rfl⟩, rfl, rfl⟩
    · unfold arguments
      rw [if_pos]
      · rfl
      · cases s with
        | nil => rfl
        | cons c t => simpa using hs c List.mem_cons_self
    · exact val_spaces.mpr ⟨s, hs, by simp, by intro c t h; cases h⟩

theorem bracketed_starts {a : Text} (h : Bracketed a) : Starts a := by
  obtain ⟨t, rfl | rfl⟩ := h <;> (intro c t e; cases e; decide)

theorem val_ednArg {s r : Text} {f : Text → β} {o : β} :
    ((ednArgParser.map f) s).val = some (o, r) ↔ ∃ w a, White w ∧ Bracketed a ∧ s = w ++ a ∧ o = f a ∧ r = [] := by
  unfold ednArgParser
  simp only [val_map, val_seq, Option.map_eq_some_iff, Option.bind_eq_some_iff, Prod.exists, Prod.mk.injEq]
  have key : ∀ s' : Text, ∀ u s'', (lookAhead ((str "[").or (str "{")) s').val = some (u, s'') ↔ Bracketed s' ∧ s'' = s' := by
    intro s' u s''
    unfold lookAhead Parser.or str strFrom Bracketed
    cases s' with
    | nil => simp [Parse.val]
    | cons c t =>
      have e1 : "[".toList = ['['] := rfl
      have e2 : "{".toList = ['{'] := rfl
      simp only [e1, e2]
      by_cases h1 : '[' = c
      · subst h1
        simp only [if_true, strFrom, Parse.val]
        simp [eq_comm]
      · by_cases h2 : '{' = c
        · subst h2
          simp [strFrom, Parse.val, eq_comm]
        · have h1' : ¬ c = '[' := fun h => h1 h.symm
          have h2' : ¬ c = '{' := fun h => h2 h.symm
          simp [h1, h2, h1', h2', Parse.val]
  have many : ∀ s' : Text, ∀ x r', (many1 (fun _ => true) s').val = some (x, r') ↔ s' ≠ [] ∧ x = s' ∧ r' = [] := by
    intro s' x r'
    have e1 : s'.takeWhile (fun _ => true) = s' := by
      induction s' with
      | nil => rfl
      | cons c t ih => rw [List.takeWhile_cons, ih]; rfl
    have e2 : s'.dropWhile (fun _ => true) = [] := by
      induction s' with
      | nil => rfl
      | cons c t ih => rw [List.dropWhile_cons, ih (by simpa using e1)]; rfl
    unfold many1
    rw [e1, e2]
    split
    · rename_i h; subst h; simp [Parse.val]
    · rename_i h
      simp only [Parse.val, Option.some.injEq, Prod.mk.injEq, ne_eq, h, not_false_eq_true, true_and]
      exact ⟨fun ⟨a, b⟩ => ⟨a.symm, b.symm⟩, fun ⟨a, b⟩ => ⟨a.symm, b.symm⟩⟩
  constructor
  · rintro ⟨a, r', ⟨u, s', hs, u', s'', hl, hm⟩, rfl, rfl⟩
    obtain ⟨w, hw, rfl, -⟩ := val_spaces.mp hs
    obtain ⟨hb, rfl⟩ := (key _ _ _).mp hl
    obtain ⟨-, rfl, rfl⟩ := (many _ _ _).mp hm
    exact ⟨w, _, hw, hb, rfl, rfl, rfl⟩
  · rintro ⟨w, a, hw, hb, rfl, rfl, rfl⟩
    refine ⟨a, [], ⟨(), a, val_spaces.mpr ⟨w, hw, rfl, bracketed_starts hb⟩, (), a, (key _ _ _).mpr ⟨hb, rfl⟩, ?_⟩, rfl, rfl⟩
    refine (many _ _ _).mpr ⟨?_, rfl, rfl⟩
    obtain ⟨t, rfl | rfl⟩ := hb <;> simp

/-! ### Names of commands -/

theorem val_name (a : String) {k : Unit → Parser β} {s : Text} {o : β × Text} :
    ((str a).seq k s).val = some o ↔ ∃ t, s = a.toList ++ t ∧ (k () t).val = some o := by
  simp only [val_seq, Option.bind_eq_some_iff, Prod.exists]
  constructor
  · rintro ⟨u, t, h1, h2⟩
    exact ⟨t, (val_str a).mp h1, h2⟩
  · rintro ⟨t, h1, h2⟩
    exact ⟨(), t, (val_str a).mpr h1, h2⟩

theorem val_name_none (a : String) {k : Unit → Parser β} {s : Text} (h : ¬ a.toList <+: s) : ((str a).seq k s).val = none := by
  rw [val_seq, (val_str_none a).mpr h]; rfl

theorem val_names (a b : String) {k : Unit → Parser β} {s : Text} {o : β × Text} :
    (((attempt (str a)).or (attempt (str b))).seq k s).val = some o ↔
      (∃ t, s = a.toList ++ t ∧ (k () t).val = some o) ∨
      (¬ a.toList <+: s ∧ ∃ t, s = b.toList ++ t ∧ (k () t).val = some o) := by
  simp only [val_seq, val_attempt_or, val_attempt, Option.bind_eq_some_iff, Prod.exists, Option.or_eq_some_iff]
  constructor
  · rintro ⟨u, t, h1 | ⟨h0, h1⟩, h2⟩
    · exact .inl ⟨t, (val_str a).mp h1, h2⟩
    · exact .inr ⟨(val_str_none a).mp h0, t, (val_str b).mp h1, h2⟩
  · rintro (⟨t, h1, h2⟩ | ⟨h0, t, h1, h2⟩)
    · exact ⟨(), t, .inl ((val_str a).mpr h1), h2⟩
    · exact ⟨(), t, .inr ⟨(val_str_none a).mpr h0, (val_str b).mpr h1⟩, h2⟩

theorem val_names_none (a b : String) {k : Unit → Parser β} {s : Text} (ha : ¬ a.toList <+: s) (hb : ¬ b.toList <+: s) :
    (((attempt (str a)).or (attempt (str b))).seq k s).val = none := by
  rw [val_seq, val_attempt_or, val_attempt, (val_str_none a).mpr ha, (val_str_none b).mpr hb]; rfl

theorem val_choice {p : Parser β} {ps : List (Parser β)} {s : Text} {o : β × Text} :
    (choice (attempt p :: ps) s).val = some o ↔ (p s).val = some o ∨ ((p s).val = none ∧ (choice ps s).val = some o) := by
  rw [choice, val_attempt_or, Option.or_eq_some_iff]

/-! ### Each command -/

theorem val_help {s r : Text} {c : Command} : (helpParser s).val = some (.ok c, r) ↔
    r = [] ∧ ∃ t ws, s = "help".toList ++ t ∧ Words t ws ∧ c = .help ws := by
  unfold helpParser
  rw [val_name]
  simp only [val_arguments, Except.ok.injEq]
  constructor
  · rintro ⟨t, h1, ws, h2, h3, h4⟩; exact ⟨h4, t, ws, h1, h2, h3⟩
  · rintro ⟨h4, t, ws, h1, h2, h3⟩; exact ⟨t, h1, ws, h2, h3, h4⟩

theorem val_path {s r : Text} {f : Text → β} {o : β} : ((spaces.seq fun _ => argument.map f) s).val = some (o, r) ↔
    ∃ w x, White w ∧ Word x ∧ Ends r ∧ s = w ++ x ++ r ∧ o = f x := by
  simp only [val_seq, val_map, Option.bind_eq_some_iff, Option.map_eq_some_iff, Prod.exists, Prod.mk.injEq]
  constructor
  · rintro ⟨u, s', h1, x, r', h2, rfl, rfl⟩
    obtain ⟨w, hw, rfl, -⟩ := val_spaces.mp h1
    obtain ⟨h3, h4, rfl⟩ := val_argument.mp h2
    exact ⟨w, x, hw, h3, h4, by simp, rfl⟩
  · rintro ⟨w, x, hw, hx, hr, rfl, rfl⟩
    refine ⟨(), x ++ r, val_spaces.mpr ⟨w, hw, by simp, ?_⟩, x, r, val_argument.mpr ⟨hx, hr, rfl⟩, rfl, rfl⟩
    intro c t e
    obtain ⟨h1, h2⟩ := hx
    cases x with
    | nil => exact absurd rfl h1
    | cons d x => cases e; exact h2 _ List.mem_cons_self

theorem val_timer {s r : Text} {o : Outcome} : (timerParser s).val = some (o, r) ↔
    ∃ w, White w ∧ s = "timer".toList ++ w ++ "on".toList ++ r ∧ o = .ok (.timer true) := by
  unfold timerParser
  rw [val_name]
  simp only [val_seq, val_map, Option.bind_eq_some_iff, Option.map_eq_some_iff, Prod.exists, Prod.mk.injEq]
  have key : ∀ (s r : Text) (b : Bool), ((((str "on").map fun _ => true).or ((str "off").map fun _ => false)) s).val = some (b, r) ↔
      s = "on".toList ++ r ∧ b = true := by
    intro s r b
    have e1 : "on".toList = ['o', 'n'] := rfl
    have e2 : "off".toList = ['o', 'f', 'f'] := rfl
    unfold Parser.or Parser.map str
    rw [e1, e2]
    cases s with
    | nil => simp [strFrom, Parse.val]
    | cons c s =>
      by_cases h1 : 'o' = c
      · subst h1
        cases s with
        | nil => simp [strFrom, Parse.val]
        | cons d s =>
          by_cases h2 : 'n' = d
          · subst h2; simp [strFrom, Parse.val, eq_comm, and_comm]
          · have h2' : ¬ d = 'n' := fun h => h2 h.symm
            simp [strFrom, Parse.val, h2, h2']
      · have h1' : ¬ c = 'o' := fun h => h1 h.symm
        simp [strFrom, Parse.val, h1, h1']
  constructor
  · rintro ⟨t, rfl, u, s', h1, b, r', h2, rfl, rfl⟩
    obtain ⟨w, hw, rfl, -⟩ := val_spaces.mp h1
    obtain ⟨rfl, rfl⟩ := (key _ _ _).mp h2
    exact ⟨w, hw, by simp, rfl⟩
  · rintro ⟨w, hw, rfl, rfl⟩
    refine ⟨w ++ ("on".toList ++ r), by simp, (), "on".toList ++ r, val_spaces.mpr ⟨w, hw, rfl, ?_⟩, true, r, (key _ _ _).mpr ⟨rfl, rfl⟩, rfl, rfl⟩
    intro c t e
    have e1 : "on".toList = ['o', 'n'] := rfl
    rw [e1] at e
    cases e; decide

theorem val_direction {s r : Text} {d : Direction} : (directionParser s).val = some (d, r) ↔ s = d.word ++ r := by
  have e1 : "forward".toList = ['f', 'o', 'r', 'w', 'a', 'r', 'd'] := rfl
  have e2 : "reverse".toList = ['r', 'e', 'v', 'e', 'r', 's', 'e'] := rfl
  have e3 : "both".toList = ['b', 'o', 't', 'h'] := rfl
  have hs : ∀ (p : Parser Direction) (q : Parser Direction), (∀ t, p s ≠ .fail t) ∨ (p s = .fail false) ∨ (p s = .fail true ∧ (q s).val = none) →
      (p.or q s).val = (p s).val.or (q s).val := by
    intro p q h
    unfold Parser.or
    cases hp : p s with
    | ok a r t => simp [Parse.val]
    | fail t =>
      rcases h with h | h | ⟨h, hq⟩
      · exact absurd hp (h t)
      · rw [hp] at h; cases h; simp [Parse.val]
      · rw [hp] at h; cases h; rw [hq]; rfl
  have first : ∀ (c : Char) (p : Text) (s : Text), (∃ a r t, strFrom false (c :: p) s = .ok a r t) ∨ strFrom false (c :: p) s = .fail false ∨
      (strFrom false (c :: p) s = .fail true ∧ ∃ t, s = c :: t) := by
    intro c p s
    cases s with
    | nil => exact .inr (.inl rfl)
    | cons d s =>
      by_cases h : c = d
      · subst h
        unfold strFrom
        rw [if_pos rfl]
        have taken : ∀ (p s : Text), (∃ a r t, strFrom true p s = .ok a r t) ∨ strFrom true p s = .fail true := by
          intro p
          induction p with
          | nil => intro s; exact .inl ⟨_, _, _, rfl⟩
          | cons x p ih =>
            intro s
            cases s with
            | nil => exact .inr rfl
            | cons y s =>
              unfold strFrom
              split
              · exact ih s
              · exact .inr rfl
        rcases taken p s with h | h
        · exact .inl h
        · exact .inr (.inr ⟨h, _, rfl⟩)
      · exact .inr (.inl (by unfold strFrom; rw [if_neg h]))
  unfold directionParser
  rw [hs, hs]
  · simp only [val_map, Option.or_eq_some_iff, Option.map_eq_some_iff, Option.map_eq_none_iff, Prod.exists, Prod.mk.injEq, Option.or_eq_none_iff]
    simp only [val_str, val_str_none]
    constructor
    · rintro (⟨u, t, rfl, rfl, rfl⟩ | ⟨-, ⟨u, t, rfl, rfl, rfl⟩ | ⟨-, u, t, rfl, rfl, rfl⟩⟩) <;> rfl
    · rintro rfl
      cases d with
      | forward => exact .inl ⟨(), r, rfl, rfl, rfl⟩
      | reverse => exact .inr ⟨by simp [Direction.word, e1, e2], .inl ⟨(), r, rfl, rfl, rfl⟩⟩
      | both => exact .inr ⟨by simp [Direction.word, e1, e3], .inr ⟨by simp [Direction.word, e2, e3], (), r, rfl, rfl, rfl⟩⟩
  · unfold str Parser.map
    rw [e2, e3]
    rcases first 'r' ['e', 'v', 'e', 'r', 's', 'e'] s with ⟨a, r, t, h⟩ | h | ⟨h, t, rfl⟩
    · left; intro t; rw [h]; simp
    · right; left; rw [h]
    · right; right; rw [h]; exact ⟨rfl, by simp [strFrom, Parse.val]⟩
  · unfold str Parser.map
    rw [e1, e2, e3]
    rcases first 'f' ['o', 'r', 'w', 'a', 'r', 'd'] s with ⟨a, r, t, h⟩ | h | ⟨h, t, rfl⟩
    · left; intro t; rw [h]; simp
    · right; left; rw [h]
    · right; right; rw [h]; exact ⟨rfl, by simp [Parser.or, strFrom, Parse.val]⟩

theorem starts_direction (d : Direction) (r : Text) : ∃ c t, d.word ++ r = c :: t ∧ isWhite c = false := by
  cases d
  · exact ⟨'f', "orward".toList ++ r, rfl, by decide⟩
  · exact ⟨'r', "everse".toList ++ r, rfl, by decide⟩
  · exact ⟨'b', "oth".toList ++ r, rfl, by decide⟩

theorem val_cache {s r : Text} {o : Outcome} : (cacheParser s).val = some (o, r) ↔
    ∃ w x w' d, White w ∧ Word x ∧ White w' ∧ w' ≠ [] ∧ s = "cache".toList ++ w ++ x ++ w' ++ Direction.word d ++ r ∧ o = .ok (.cache x d) := by
  unfold cacheParser
  rw [val_name]
  simp only [val_seq, val_map, Option.bind_eq_some_iff, Option.map_eq_some_iff, Prod.exists, Prod.mk.injEq]
  constructor
  · rintro ⟨t, rfl, u, s', h1, x, s2, h2, u', s3, h3, d, r', h4, rfl, rfl⟩
    obtain ⟨w, hw, rfl, -⟩ := val_spaces.mp h1
    obtain ⟨hx, he, rfl⟩ := val_argument.mp h2
    obtain ⟨w', hw', rfl, -⟩ := val_spaces.mp h3
    rw [val_direction] at h4
    subst h4
    refine ⟨w, x, w', d, hw, hx, hw', ?_, by simp [List.append_assoc], rfl⟩
    rintro rfl
    obtain ⟨c, t, e, hc⟩ := starts_direction d r'
    have := he c t (by simpa using e)
    rw [hc] at this; cases this
  · rintro ⟨w, x, w', d, hw, hx, hw', hne, rfl, rfl⟩
    refine ⟨w ++ (x ++ (w' ++ (d.word ++ r))), by simp [List.append_assoc], (), x ++ (w' ++ (d.word ++ r)), val_spaces.mpr ⟨w, hw, rfl, ?_⟩,
      x, w' ++ (d.word ++ r), val_argument.mpr ⟨hx, ?_, rfl⟩, (), d.word ++ r, val_spaces.mpr ⟨w', hw', rfl, ?_⟩, d, r, val_direction.mpr rfl, rfl, rfl⟩
    · intro c t e
      obtain ⟨h1, h2⟩ := hx
      cases x with
      | nil => exact absurd rfl h1
      | cons d x => cases e; exact h2 _ List.mem_cons_self
    · intro c t e
      cases w' with
      | nil => exact absurd rfl hne
      | cons d x => cases e; exact hw' _ List.mem_cons_self
    · intro c t e
      obtain ⟨c', t', e', hc⟩ := starts_direction d r
      rw [e'] at e
      cases e; exact hc

/-! ### The grammar -/

theorem noPrefix {p s : Text} (h : p.isPrefixOf s = false) : ¬ p <+: s := by
  intro h'
  rw [List.isPrefixOf_iff_prefix.mpr h'] at h
  cases h

theorem skip {p : Parser β} {ps : List (Parser β)} {s : Text} {o : β × Text} (h : (p s).val = none)
    (h' : (choice ps s).val = some o) : (choice (attempt p :: ps) s).val = some o := val_choice.mpr (.inr ⟨h, h'⟩)

theorem here {p : Parser β} {ps : List (Parser β)} {s : Text} {o : β × Text} (h : (p s).val = some o) :
    (choice (attempt p :: ps) s).val = some o := val_choice.mpr (.inl h)

/-- A name goes on with neither whitespace nor a bracket. -/
theorem not_prefix_arg {w a x : Text} {d : Char} (hw : White w) (ha : Bracketed a) (h1 : isWhite d = false) (h2 : d ≠ '[') (h3 : d ≠ '{') :
    ¬ d :: x <+: w ++ a := by
  rintro ⟨r, e⟩
  cases w with
  | nil =>
    obtain ⟨t, rfl | rfl⟩ := ha <;> (cases e; contradiction)
  | cons c w =>
    have e : d :: (x ++ r) = c :: (w ++ a) := e
    injection e with e _
    subst e
    have := hw d List.mem_cons_self
    rw [h1] at this; cases this

theorem not_prefix_white {w x : Text} {d : Char} (hw : White w) (h1 : isWhite d = false) : ¬ d :: x <+: w := by
  rintro ⟨r, rfl⟩
  have := hw d List.mem_cons_self
  rw [h1] at this; cases this

theorem not_prefix_append {n x t : Text} (h : ¬ x <+: t) : ¬ n ++ x <+: n ++ t := by
  rwa [List.prefix_append_right_inj]

theorem val_open {s r : Text} {c : Command} (h : (openParser s).val = some (.ok c, r)) :
    ∃ t p, s = "open".toList ++ t ∧ Words t [p] ∧ c = .openDb p := by
  unfold openParser opener at h
  rw [val_map, Option.map_eq_some_iff] at h
  obtain ⟨⟨q, r'⟩, h, e⟩ := h
  rw [val_name] at h
  obtain ⟨t, rfl, h⟩ := h
  obtain ⟨ws, hws, rfl, rfl⟩ := val_arguments.mp h
  simp only [Prod.mk.injEq] at e
  obtain ⟨e, rfl⟩ := e
  split at e
  · cases e
  · split at e
    · cases e
    · cases e
      have : ws.length = 1 := by omega
      match ws, this with
      | [p], _ => exact ⟨t, p, rfl, hws, rfl⟩

theorem val_open_mpr {t p : Text} (h : Words t [p]) : (openParser ("open".toList ++ t)).val = some (.ok (.openDb p), []) := by
  unfold openParser opener
  rw [val_map, Option.map_eq_some_iff]
  exact ⟨(.ok [p], []), (val_name "open").mpr ⟨t, rfl, val_arguments.mpr ⟨_, h, rfl, rfl⟩⟩, rfl⟩

theorem val_openEncrypted {s r : Text} {c : Command} (h : (openEncryptedParser s).val = some (.ok c, r)) :
    ∃ t p k, s = "open_encrypted".toList ++ t ∧ Words t [p, k] ∧ c = .openEncrypted p k := by
  unfold openEncryptedParser opener at h
  rw [val_map, Option.map_eq_some_iff] at h
  obtain ⟨⟨q, r'⟩, h, e⟩ := h
  rw [val_name] at h
  obtain ⟨t, rfl, h⟩ := h
  obtain ⟨ws, hws, rfl, rfl⟩ := val_arguments.mp h
  simp only [Prod.mk.injEq] at e
  obtain ⟨e, rfl⟩ := e
  split at e
  · cases e
  · split at e
    · cases e
    · cases e
      have : ws.length = 2 := by omega
      match ws, this with
      | [p, k], _ => exact ⟨t, p, k, rfl, hws, rfl⟩

theorem val_openEncrypted_mpr {t p k : Text} (h : Words t [p, k]) :
    (openEncryptedParser ("open_encrypted".toList ++ t)).val = some (.ok (.openEncrypted p k), []) := by
  unfold openEncryptedParser opener
  rw [val_map, Option.map_eq_some_iff]
  exact ⟨(.ok [p, k], []), (val_name "open_encrypted").mpr ⟨t, rfl, val_arguments.mpr ⟨_, h, rfl, rfl⟩⟩, rfl⟩

theorem val_openEncrypted_none {s : Text} (h : (openEncryptedParser s).val = none) : ¬ "open_encrypted".toList <+: s := by
  rintro ⟨t, rfl⟩
  unfold openEncryptedParser opener at h
  rw [val_map, Option.map_eq_none_iff, val_seq, val_str_append] at h
  exact val_arguments_ne h

theorem openEncrypted_none {s : Text} (h : ¬ "open_encrypted".toList <+: s) : (openEncryptedParser s).val = none := by
  unfold openEncryptedParser opener
  rw [val_map, Option.map_eq_none_iff]
  exact val_name_none _ h

theorem open_none {s : Text} (h : ¬ "open".toList <+: s) : (openParser s).val = none := by
  unfold openParser opener
  rw [val_map, Option.map_eq_none_iff]
  exact val_name_none _ h

theorem means_of_val {s r : Text} {c : Command} (h : (parsers s).val = some (.ok c, r)) : Means s c := by
  unfold parsers at h
  rcases val_choice.mp h with h | ⟨-, h⟩
  · obtain ⟨-, t, ws, rfl, h1, rfl⟩ := val_help.mp h
    exact .help h1
  rcases val_choice.mp h with h | ⟨-, h⟩
  · rcases (val_names "import" "i").mp h with ⟨t, rfl, h0⟩ | ⟨hn, t, rfl, h0⟩
    · obtain ⟨w, x, hw, hx, hr, rfl, e⟩ := val_path.mp h0
      cases e
      have := Means.importLong hw hx hr
      simpa [List.append_assoc] using this
    · obtain ⟨w, x, hw, hx, hr, rfl, e⟩ := val_path.mp h0
      cases e
      have := Means.importShort hw hx hr (fun h => hn ((List.prefix_append_right_inj "i".toList).mpr h))
      simpa [List.append_assoc] using this
  rcases val_choice.mp h with h | ⟨-, h⟩
  · obtain ⟨w, hw, rfl, e⟩ := val_timer.mp h
    cases e
    exact .timer hw
  rcases val_choice.mp h with h | ⟨-, h⟩
  · obtain ⟨w, x, w', d, h1, h2, h3, h4, rfl, e⟩ := val_cache.mp h
    cases e
    exact .cache h1 h2 h3 h4
  rcases val_choice.mp h with h | ⟨hn, h⟩
  · obtain ⟨t, p, k, rfl, h1, rfl⟩ := val_openEncrypted h
    exact .openEncrypted h1
  rcases val_choice.mp h with h | ⟨-, h⟩
  · obtain ⟨t, p, rfl, h1, rfl⟩ := val_open h
    exact .openDb h1 (fun h => val_openEncrypted_none hn ((List.prefix_append_right_inj "open".toList).mpr h))
  rcases val_choice.mp h with h | ⟨-, h⟩
  · obtain ⟨t, rfl, h0⟩ := (val_name "close").mp h
    obtain ⟨h1, rfl, -⟩ := val_noArg.mp h0
    exact .close h1
  rcases val_choice.mp h with h | ⟨-, h⟩
  · rcases (val_names "explain_query" "eq").mp h with ⟨t, rfl, h0⟩ | ⟨hn, t, rfl, h0⟩
    · obtain ⟨w, a, hw, ha, rfl, e, -⟩ := val_ednArg.mp h0
      cases e
      rw [← List.append_assoc]; exact .queryExplain (.inl rfl) hw ha
    · obtain ⟨w, a, hw, ha, rfl, e, -⟩ := val_ednArg.mp h0
      cases e
      rw [← List.append_assoc]; exact .queryExplain (.inr rfl) hw ha
  rcases val_choice.mp h with h | ⟨-, h⟩
  · rcases (val_names "exit" "e").mp h with ⟨t, rfl, h0⟩ | ⟨hn, t, rfl, h0⟩
    · obtain ⟨h1, rfl, -⟩ := val_noArg.mp h0
      exact .exit (.inl rfl) h1
    · obtain ⟨h1, rfl, -⟩ := val_noArg.mp h0
      exact .exit (.inr rfl) h1
  rcases val_choice.mp h with h | ⟨-, h⟩
  · obtain ⟨t, rfl, h0⟩ := (val_name "query_prepared").mp h
    obtain ⟨w, a, hw, ha, rfl, e, -⟩ := val_ednArg.mp h0
    cases e
    rw [← List.append_assoc]; exact .queryPrepared hw ha
  rcases val_choice.mp h with h | ⟨-, h⟩
  · rcases (val_names "query" "q").mp h with ⟨t, rfl, h0⟩ | ⟨hn, t, rfl, h0⟩
    · obtain ⟨w, a, hw, ha, rfl, e, -⟩ := val_ednArg.mp h0
      cases e
      rw [← List.append_assoc]; exact .query (.inl rfl) hw ha
    · obtain ⟨w, a, hw, ha, rfl, e, -⟩ := val_ednArg.mp h0
      cases e
      rw [← List.append_assoc]; exact .query (.inr rfl) hw ha
  rcases val_choice.mp h with h | ⟨-, h⟩
  · obtain ⟨t, rfl, h0⟩ := (val_name "schema").mp h
    obtain ⟨h1, rfl, -⟩ := val_noArg.mp h0
    exact .schema h1
  rcases val_choice.mp h with h | ⟨-, h⟩
  · obtain ⟨t, rfl, h0⟩ := (val_name "sync").mp h
    obtain ⟨ws, hws, e, -⟩ := val_arguments.mp h0
    split at e
    · cases e
    · split at e
      · cases e
      · cases e
        exact .sync hws (by assumption) (by omega)
  rcases val_choice.mp h with h | ⟨-, h⟩
  · rcases (val_names "transact" "t").mp h with ⟨t, rfl, h0⟩ | ⟨hn, t, rfl, h0⟩
    · obtain ⟨w, a, hw, ha, rfl, e, -⟩ := val_ednArg.mp h0
      cases e
      rw [← List.append_assoc]; exact .transact (.inl rfl) hw ha
    · obtain ⟨w, a, hw, ha, rfl, e, -⟩ := val_ednArg.mp h0
      cases e
      rw [← List.append_assoc]; exact .transact (.inr rfl) hw ha
  · cases h

theorem val_timer_none {s : Text} (h : ¬ "timer".toList <+: s) : (timerParser s).val = none := val_name_none _ h

theorem val_of_means {s : Text} {c : Command} (h : Means s c) : ∃ r, (parsers s).val = some (.ok c, r) := by
  unfold parsers
  cases h with
  | help h => exact ⟨[], here (val_help.mpr ⟨rfl, _, _, rfl, h, rfl⟩)⟩
  | @importLong w x r hw hx hr =>
    refine ⟨r, skip (val_name_none _ (noPrefix rfl)) (here ((val_names "import" "i").mpr (.inl ⟨w ++ x ++ r, by simp [List.append_assoc], ?_⟩)))⟩
    exact val_path.mpr ⟨w, x, hw, hx, hr, rfl, rfl⟩
  | @importShort w x r hw hx hr hn =>
    refine ⟨r, skip (val_name_none _ (noPrefix rfl)) (here ((val_names "import" "i").mpr (.inr ⟨?_, w ++ x ++ r, by simp [List.append_assoc], ?_⟩)))⟩
    · rw [List.append_assoc, List.append_assoc, ← List.append_assoc w]; exact not_prefix_append (n := "i".toList) hn
    · exact val_path.mpr ⟨w, x, hw, hx, hr, rfl, rfl⟩
  | @timer w r hw =>
    exact ⟨r, skip (val_name_none _ (noPrefix rfl)) (skip (val_names_none _ _ (noPrefix rfl) (noPrefix rfl))
      (here (val_timer.mpr ⟨w, hw, rfl, rfl⟩)))⟩
  | @cache w x w' d r h1 h2 h3 h4 =>
    refine ⟨r, skip (val_name_none _ (noPrefix ?_)) (skip (val_names_none _ _ (noPrefix ?_) (noPrefix ?_)) (skip (val_timer_none (noPrefix ?_))
      (here (val_cache.mpr ⟨w, x, w', d, h1, h2, h3, h4, rfl, rfl⟩))))⟩ <;> rfl
  | @openDb t p h hn =>
    refine ⟨[], skip (val_name_none _ (noPrefix rfl)) (skip (val_names_none _ _ (noPrefix rfl) (noPrefix rfl)) (skip (val_timer_none (noPrefix rfl))
      (skip (val_name_none _ (noPrefix rfl)) (skip (openEncrypted_none ?_) (here (val_open_mpr h))))))⟩
    exact not_prefix_append (n := "open".toList) hn
  | @openEncrypted t p k h =>
    exact ⟨[], skip (val_name_none _ (noPrefix rfl)) (skip (val_names_none _ _ (noPrefix rfl) (noPrefix rfl)) (skip (val_timer_none (noPrefix rfl))
      (skip (val_name_none _ (noPrefix rfl)) (here (val_openEncrypted_mpr h)))))⟩
  | @close w hw =>
    exact ⟨[], skip (val_name_none _ (noPrefix rfl)) (skip (val_names_none _ _ (noPrefix rfl) (noPrefix rfl)) (skip (val_timer_none (noPrefix rfl))
      (skip (val_name_none _ (noPrefix rfl)) (skip (openEncrypted_none (noPrefix rfl)) (skip (open_none (noPrefix rfl))
      (here ((val_name "close").mpr ⟨w, rfl, val_noArg.mpr ⟨hw, rfl, rfl⟩⟩)))))))⟩
  | @exit n w hn hw =>
    rcases hn with rfl | rfl
    · exact ⟨[], skip (val_name_none _ (noPrefix rfl)) (skip (val_names_none _ _ (noPrefix rfl) (noPrefix rfl)) (skip (val_timer_none (noPrefix rfl))
        (skip (val_name_none _ (noPrefix rfl)) (skip (openEncrypted_none (noPrefix rfl)) (skip (open_none (noPrefix rfl))
        (skip (val_name_none _ (noPrefix rfl)) (skip (val_names_none _ _ (noPrefix rfl) (noPrefix rfl))
        (here ((val_names "exit" "e").mpr (.inl ⟨w, rfl, val_noArg.mpr ⟨hw, rfl, rfl⟩⟩))))))))))⟩
    · refine ⟨[], skip (val_name_none _ (noPrefix rfl)) (skip (val_names_none _ _ (noPrefix rfl) (noPrefix rfl)) (skip (val_timer_none (noPrefix rfl))
        (skip (val_name_none _ (noPrefix rfl)) (skip (openEncrypted_none (noPrefix rfl)) (skip (open_none (noPrefix rfl))
        (skip (val_name_none _ (noPrefix rfl)) (skip (val_names_none _ _ ?_ ?_)
        (here ((val_names "exit" "e").mpr (.inr ⟨?_, w, rfl, val_noArg.mpr ⟨hw, rfl, rfl⟩⟩))))))))))⟩
      · exact not_prefix_append (n := "e".toList) (x := "xplain_query".toList) (not_prefix_white hw (d := 'x') (by decide))
      · exact not_prefix_append (n := "e".toList) (x := "q".toList) (not_prefix_white hw (d := 'q') (by decide))
      · exact not_prefix_append (n := "e".toList) (x := "xit".toList) (not_prefix_white hw (d := 'x') (by decide))
  | @queryExplain n w a hn hw ha =>
    rcases hn with rfl | rfl
    · exact ⟨[], skip (val_name_none _ (noPrefix rfl)) (skip (val_names_none _ _ (noPrefix rfl) (noPrefix rfl)) (skip (val_timer_none (noPrefix rfl))
        (skip (val_name_none _ (noPrefix rfl)) (skip (openEncrypted_none (noPrefix rfl)) (skip (open_none (noPrefix rfl))
        (skip (val_name_none _ (noPrefix rfl))
        (here ((val_names "explain_query" "eq").mpr (.inl ⟨w ++ a, by simp, val_ednArg.mpr ⟨w, a, hw, ha, rfl, rfl, rfl⟩⟩)))))))))⟩
    · exact ⟨[], skip (val_name_none _ (noPrefix rfl)) (skip (val_names_none _ _ (noPrefix rfl) (noPrefix rfl)) (skip (val_timer_none (noPrefix rfl))
        (skip (val_name_none _ (noPrefix rfl)) (skip (openEncrypted_none (noPrefix rfl)) (skip (open_none (noPrefix rfl))
        (skip (val_name_none _ (noPrefix rfl))
        (here ((val_names "explain_query" "eq").mpr (.inr ⟨noPrefix rfl, w ++ a, by simp, val_ednArg.mpr ⟨w, a, hw, ha, rfl, rfl, rfl⟩⟩)))))))))⟩
  | @queryPrepared w a hw ha =>
    exact ⟨[], skip (val_name_none _ (noPrefix rfl)) (skip (val_names_none _ _ (noPrefix rfl) (noPrefix rfl)) (skip (val_timer_none (noPrefix rfl))
        (skip (val_name_none _ (noPrefix rfl)) (skip (openEncrypted_none (noPrefix rfl)) (skip (open_none (noPrefix rfl))
        (skip (val_name_none _ (noPrefix rfl)) (skip (val_names_none _ _ (noPrefix rfl) (noPrefix rfl)) (skip (val_names_none _ _ (noPrefix rfl) (noPrefix rfl))
        (here ((val_name "query_prepared").mpr ⟨w ++ a, by simp, val_ednArg.mpr ⟨w, a, hw, ha, rfl, rfl, rfl⟩⟩))))))))))⟩
  | @query n w a hn hw ha =>
    rcases hn with rfl | rfl
    · refine ⟨[], skip (val_name_none _ (noPrefix rfl)) (skip (val_names_none _ _ (noPrefix rfl) (noPrefix rfl)) (skip (val_timer_none (noPrefix rfl))
        (skip (val_name_none _ (noPrefix rfl)) (skip (openEncrypted_none (noPrefix rfl)) (skip (open_none (noPrefix rfl))
        (skip (val_name_none _ (noPrefix rfl)) (skip (val_names_none _ _ (noPrefix rfl) (noPrefix rfl)) (skip (val_names_none _ _ (noPrefix rfl) (noPrefix rfl))
        (skip (val_name_none _ ?_)
        (here ((val_names "query" "q").mpr (.inl ⟨w ++ a, by simp, val_ednArg.mpr ⟨w, a, hw, ha, rfl, rfl, rfl⟩⟩))))))))))))⟩
      rw [List.append_assoc]
      exact not_prefix_append (n := "query".toList) (x := "_prepared".toList) (not_prefix_arg hw ha (d := '_') (by decide) (by decide) (by decide))
    · refine ⟨[], skip (val_name_none _ (noPrefix rfl)) (skip (val_names_none _ _ (noPrefix rfl) (noPrefix rfl)) (skip (val_timer_none (noPrefix rfl))
        (skip (val_name_none _ (noPrefix rfl)) (skip (openEncrypted_none (noPrefix rfl)) (skip (open_none (noPrefix rfl))
        (skip (val_name_none _ (noPrefix rfl)) (skip (val_names_none _ _ (noPrefix rfl) (noPrefix rfl)) (skip (val_names_none _ _ (noPrefix rfl) (noPrefix rfl))
        (skip (val_name_none _ ?_)
        (here ((val_names "query" "q").mpr (.inr ⟨?_, w ++ a, by simp, val_ednArg.mpr ⟨w, a, hw, ha, rfl, rfl, rfl⟩⟩))))))))))))⟩
      · rw [List.append_assoc]
        exact not_prefix_append (n := "q".toList) (x := "uery_prepared".toList) (not_prefix_arg hw ha (d := 'u') (by decide) (by decide) (by decide))
      · rw [List.append_assoc]
        exact not_prefix_append (n := "q".toList) (x := "uery".toList) (not_prefix_arg hw ha (d := 'u') (by decide) (by decide) (by decide))
  | @schema w hw =>
    exact ⟨[], skip (val_name_none _ (noPrefix rfl)) (skip (val_names_none _ _ (noPrefix rfl) (noPrefix rfl)) (skip (val_timer_none (noPrefix rfl))
        (skip (val_name_none _ (noPrefix rfl)) (skip (openEncrypted_none (noPrefix rfl)) (skip (open_none (noPrefix rfl))
        (skip (val_name_none _ (noPrefix rfl)) (skip (val_names_none _ _ (noPrefix rfl) (noPrefix rfl)) (skip (val_names_none _ _ (noPrefix rfl) (noPrefix rfl))
        (skip (val_name_none _ (noPrefix rfl)) (skip (val_names_none _ _ (noPrefix rfl) (noPrefix rfl))
        (here ((val_name "schema").mpr ⟨w, rfl, val_noArg.mpr ⟨hw, rfl, rfl⟩⟩))))))))))))⟩
  | @sync t ws h h1 h2 =>
    refine ⟨[], skip (val_name_none _ (noPrefix rfl)) (skip (val_names_none _ _ (noPrefix rfl) (noPrefix rfl)) (skip (val_timer_none (noPrefix rfl))
        (skip (val_name_none _ (noPrefix rfl)) (skip (openEncrypted_none (noPrefix rfl)) (skip (open_none (noPrefix rfl))
        (skip (val_name_none _ (noPrefix rfl)) (skip (val_names_none _ _ (noPrefix rfl) (noPrefix rfl)) (skip (val_names_none _ _ (noPrefix rfl) (noPrefix rfl))
        (skip (val_name_none _ (noPrefix rfl)) (skip (val_names_none _ _ (noPrefix rfl) (noPrefix rfl)) (skip (val_name_none _ (noPrefix rfl))
        (here ((val_name "sync").mpr ⟨t, rfl, val_arguments.mpr ⟨ws, h, ?_, rfl⟩⟩)))))))))))))⟩
    rw [if_neg h1, if_neg (by omega)]
  | @transact n w a hn hw ha =>
    rcases hn with rfl | rfl
    · exact ⟨[], skip (val_name_none _ (noPrefix rfl)) (skip (val_names_none _ _ (noPrefix rfl) (noPrefix rfl)) (skip (val_timer_none (noPrefix rfl))
        (skip (val_name_none _ (noPrefix rfl)) (skip (openEncrypted_none (noPrefix rfl)) (skip (open_none (noPrefix rfl))
        (skip (val_name_none _ (noPrefix rfl)) (skip (val_names_none _ _ (noPrefix rfl) (noPrefix rfl)) (skip (val_names_none _ _ (noPrefix rfl) (noPrefix rfl))
        (skip (val_name_none _ (noPrefix rfl)) (skip (val_names_none _ _ (noPrefix rfl) (noPrefix rfl)) (skip (val_name_none _ (noPrefix rfl)) (skip (val_name_none _ (noPrefix rfl))
        (here ((val_names "transact" "t").mpr (.inl ⟨w ++ a, by simp, val_ednArg.mpr ⟨w, a, hw, ha, rfl, rfl, rfl⟩⟩)))))))))))))))⟩
    · refine ⟨[], skip (val_name_none _ (noPrefix rfl)) (skip (val_names_none _ _ (noPrefix rfl) (noPrefix rfl)) (skip (val_timer_none ?_)
        (skip (val_name_none _ (noPrefix rfl)) (skip (openEncrypted_none (noPrefix rfl)) (skip (open_none (noPrefix rfl))
        (skip (val_name_none _ (noPrefix rfl)) (skip (val_names_none _ _ (noPrefix rfl) (noPrefix rfl)) (skip (val_names_none _ _ (noPrefix rfl) (noPrefix rfl))
        (skip (val_name_none _ (noPrefix rfl)) (skip (val_names_none _ _ (noPrefix rfl) (noPrefix rfl)) (skip (val_name_none _ (noPrefix rfl)) (skip (val_name_none _ (noPrefix rfl))
        (here ((val_names "transact" "t").mpr (.inr ⟨?_, w ++ a, by simp, val_ednArg.mpr ⟨w, a, hw, ha, rfl, rfl, rfl⟩⟩)))))))))))))))⟩
      · rw [List.append_assoc]
        exact not_prefix_append (n := "t".toList) (x := "imer".toList) (not_prefix_arg hw ha (d := 'i') (by decide) (by decide) (by decide))
      · rw [List.append_assoc]
        exact not_prefix_append (n := "t".toList) (x := "ransact".toList) (not_prefix_arg hw ha (d := 'r') (by decide) (by decide) (by decide))

theorem command_iff {s : Text} {c : Command} : command s = .ok c ↔ ∃ w body, White w ∧ s = w ++ '.' :: body ∧ Means body c := by
  have e : command s = .ok c ↔ ∃ r, ((spaces.seq fun _ => (token '.').seq fun _ => parsers) s).val = some (.ok c, r) := by
    unfold command
    cases (spaces.seq fun _ => (token '.').seq fun _ => parsers) s <;> simp [Parse.val]
  rw [e]
  simp only [val_seq, Option.bind_eq_some_iff, Prod.exists]
  constructor
  · rintro ⟨r, u, s', h1, u', body, h2, h3⟩
    obtain ⟨w, hw, rfl, -⟩ := val_spaces.mp h1
    rw [val_token] at h2
    subst h2
    exact ⟨w, body, hw, rfl, means_of_val h3⟩
  · rintro ⟨w, body, hw, rfl, h⟩
    obtain ⟨r, h⟩ := val_of_means h
    refine ⟨r, (), '.' :: body, val_spaces.mpr ⟨w, hw, rfl, ?_⟩, (), body, val_token.mpr rfl, h⟩
    intro c t e; cases e; decide

end Cli
end Mentat
