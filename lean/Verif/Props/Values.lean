import Verif.Model.SqlValue
/- C01–C05: stored values, instants and keywords. -/
namespace Mentat

/-! ### C04: reversal -/

/-- The keyword `:ns/name` for any non-empty parts. -/
theorem namespaced_ok {ns n : Text} (h1 : ns ≠ []) (h2 : n ≠ []) :
    NName.namespaced ns n = .ok ⟨ns ++ '/' :: n, ns.length⟩ := by
  simp [NName.namespaced, h1, h2]

theorem parts_namespaced {ns n : Text} (h1 : ns ≠ []) :
    (⟨ns ++ '/' :: n, ns.length⟩ : NName).ns = some ns ∧
    (⟨ns ++ '/' :: n, ns.length⟩ : NName).name = n := by
  have : 0 < ns.length := List.length_pos_iff.mpr h1
  constructor
  · simp [NName.ns, this]
  · unfold NName.name
    rw [if_neg (by simp; exact h1)]
    show (ns ++ '/' :: n).drop (ns.length + 1) = n
    rw [← List.drop_drop]; simp

theorem parts_plain {n : Text} : (⟨n, 0⟩ : NName).ns = none ∧ (⟨n, 0⟩ : NName).name = n := by
  simp [NName.ns, NName.name]

/-- Keywords the constructors can build. -/
def NName.Built (k : NName) : Prop :=
  (∃ n, NName.plain n = .ok k) ∨ ∃ ns n, NName.namespaced ns n = .ok k

theorem new_name {o : Option Text} {n : Text} {k : NName} (h : NName.new o n = .ok k) :
    k.ns = o ∧ k.name = n ∧ n ≠ [] := by
  unfold NName.new at h
  cases o with
  | none =>
    simp only [NName.plain] at h
    split at h
    · simp at h
    · rename_i hn; cases h; exact ⟨parts_plain.1, parts_plain.2, hn⟩
  | some ns =>
    simp only [NName.namespaced] at h
    split at h
    · simp at h
    · split at h
      · simp at h
      · rename_i hn hns; cases h
        exact ⟨(parts_namespaced hns).1, (parts_namespaced hns).2, hn⟩

theorem built_new {k : NName} (hb : k.Built) : NName.new k.ns k.name = .ok k := by
  rcases hb with ⟨n, h⟩ | ⟨ns, n, h⟩
  · obtain ⟨h1, h2, -⟩ := new_name (o := none) h
    rw [h1, h2]; exact h
  · obtain ⟨h1, h2, -⟩ := new_name (o := some ns) h
    rw [h1, h2]; exact h

theorem built_name {k : NName} (hb : k.Built) : k.name ≠ [] := (new_name (built_new hb)).2.2

theorem new_built {o n k} (h : NName.new o n = .ok k) : k.Built := by
  cases o with
  | none => exact Or.inl ⟨n, h⟩
  | some ns => exact Or.inr ⟨ns, n, h⟩

theorem new_of_built {k : NName} (hb : k.Built) {n : Text} (hn : n ≠ []) :
    ∃ k', NName.new k.ns n = .ok k' := by
  rcases hb with ⟨m, h⟩ | ⟨ns, m, h⟩
  · rw [(new_name (o := none) h).1]; simp [NName.new, NName.plain, hn]
  · have h0 := h
    rw [(new_name (o := some ns) h).1]
    simp only [NName.namespaced] at h0
    split at h0
    · simp at h0
    · split at h0
      · simp at h0
      · rename_i h1; simp [NName.new, NName.namespaced, hn, h1]

/-- C04: a keyword is exactly one of forward and backward, backward meaning that its name begins
with an underscore. -/
theorem C04_one_direction (k : NName) :
    (k.isBackward = true ↔ ∃ r, k.name = '_' :: r) ∧ (k.isForward = true ↔ ¬ ∃ r, k.name = '_' :: r) := by
  have : k.isBackward = true ↔ ∃ r, k.name = '_' :: r := by
    unfold NName.isBackward
    cases k.name with
    | nil => simp
    | cons c r => simp
  refine ⟨this, ?_⟩
  rw [← this]; simp [NName.isForward]

/-- C04: for a forward keyword, reversing gives a backward keyword with the same namespace, and
unreversing that, or reversing it again, gives the keyword back. -/
theorem C04_reverse_forward {k : NName} (hb : k.Built) (hf : k.isForward = true) :
    ∃ k', k.toReversed = .ok k' ∧ k'.Built ∧ k'.isBackward = true ∧ k'.ns = k.ns ∧
      k'.name = '_' :: k.name ∧ k'.unreversed = .ok (some k) ∧ k'.toReversed = .ok k := by
  have hh : k.name.head? ≠ some '_' := by
    intro h; simp [NName.isForward, NName.isBackward, h] at hf
  obtain ⟨k', hk'⟩ := new_of_built hb (n := '_' :: k.name) (by simp)
  obtain ⟨h1, h2, -⟩ := new_name hk'
  have hback : k'.isBackward = true := by simp [NName.isBackward, h2]
  have hrev : k'.toReversed = .ok k := by
    unfold NName.toReversed
    rw [h2, h1]; simp [built_new hb]
  refine ⟨k', by simp [NName.toReversed, hh, hk'], new_built hk', hback, h1, h2, ?_, hrev⟩
  simp [NName.unreversed, hback, hrev]

/-- C04, exactly: reversing twice is the identity, without a panic, for exactly the keywords whose
name is not `_` and does not begin with two underscores.  (The rest of the statement fails,
`C04_fails`.) -/
theorem C04_involution_partial {k : NName} (hb : k.Built) :
    ((∃ k', k.toReversed = .ok k' ∧ k'.toReversed = .ok k) ↔
      k.name ≠ ['_'] ∧ ∀ r, k.name ≠ '_' :: '_' :: r) := by
  cases hf : k.isForward with
  | true =>
    obtain ⟨k', h1, -, -, -, -, -, h2⟩ := C04_reverse_forward hb hf
    have hh := ((C04_one_direction k).2.mp hf)
    refine ⟨fun _ => ⟨fun h => hh ⟨_, h⟩, fun r h => hh ⟨_, h⟩⟩, fun _ => ⟨k', h1, h2⟩⟩
  | false =>
    have hback : k.isBackward = true := by simpa [NName.isForward] using hf
    obtain ⟨r, hr⟩ := (C04_one_direction k).1.mp hback
    have hrev : k.toReversed = NName.new k.ns r := by simp [NName.toReversed, hr]
    rw [hrev, hr]
    constructor
    · rintro ⟨k', h1, h2⟩
      obtain ⟨e1, e2, e3⟩ := new_name h1
      refine ⟨by simpa using e3, ?_⟩
      rintro r' hr'
      simp only [List.cons.injEq, true_and] at hr'
      unfold NName.toReversed at h2
      rw [e2, hr'] at h2
      simp only [List.head?_cons, if_true, List.drop_one, List.tail_cons] at h2
      have := (new_name h2).2.1
      rw [hr, hr'] at this
      have := congrArg List.length this
      simp at this; omega
    · rintro ⟨h1, h2⟩
      have hr0 : r ≠ [] := by simpa using h1
      obtain ⟨k', hk'⟩ := new_of_built hb hr0
      obtain ⟨e1, e2, -⟩ := new_name hk'
      refine ⟨k', hk', ?_⟩
      have : r.head? ≠ some '_' := by
        cases r with
        | nil => simp
        | cons c r' => simp; rintro rfl; exact h2 r' rfl
      unfold NName.toReversed
      rw [e2, if_neg this, e1]
      have := built_new hb
      rw [hr] at this; exact this

/-- C04: neither operation panics on a keyword whose name is not a single underscore. -/
theorem C04_no_panic {k : NName} (hb : k.Built) (h : k.name ≠ ['_']) :
    k.toReversed ≠ .panic ∧ k.unreversed ≠ .panic := by
  have : ∃ k', k.toReversed = .ok k' := by
    unfold NName.toReversed
    split
    · rename_i hh
      refine new_of_built hb ?_
      cases hn : k.name with
      | nil => rw [hn] at hh; simp at hh
      | cons c r =>
        rw [hn] at hh h; simp at hh; subst hh
        simp at h ⊢; exact h
    · exact new_of_built hb (by simp)
  obtain ⟨k', hk'⟩ := this
  refine ⟨by simp [hk'], ?_⟩
  unfold NName.unreversed
  rw [hk']; split <;> simp

/-- The full C04 fails: `:a/__b` reversed twice is `:a/b`, and reversing (or unreversing) `:a/_`
panics. -/
theorem C04_fails :
    (∃ k k1 k2 : NName, k.Built ∧ k.toReversed = .ok k1 ∧ k1.toReversed = .ok k2 ∧ k2 ≠ k) ∧
    (∃ k : NName, k.Built ∧ k.toReversed = .panic ∧ k.unreversed = .panic) := by
  refine ⟨⟨⟨"a/__b".toList, 1⟩, ⟨"a/_b".toList, 1⟩, ⟨"a/b".toList, 1⟩, Or.inr ⟨"a".toList, "__b".toList, by decide⟩,
    by decide, by decide, by decide⟩, ⟨"a/_".toList, 1⟩, Or.inr ⟨"a".toList, "_".toList, by decide⟩, by decide, by decide⟩

/-! ### C05: printing -/

/-- A namespace or name as the reader accepts it: not empty, and without separators. -/
def ValidPart (s : Text) : Prop := s ≠ [] ∧ ∀ c ∈ s, c ≠ ':' ∧ c ≠ '/'

theorem splitChars_ne_nil (p : Char → Bool) (s : Text) : splitChars p s ≠ [] := by
  cases s with
  | nil => simp [splitChars]
  | cons c r => unfold splitChars; split <;> (try split) <;> simp

theorem splitChars_clean {p : Char → Bool} {s : Text} (h : ∀ c ∈ s, p c = false) :
    splitChars p s = [s] := by
  induction s with
  | nil => rfl
  | cons c r ih =>
    unfold splitChars
    rw [h c (by simp), ih fun x hx => h x (List.mem_cons_of_mem _ hx)]
    simp

theorem splitChars_append {p : Char → Bool} {s : Text} (h : ∀ c ∈ s, p c = false) {c : Char}
    (hc : p c = true) (r : Text) : splitChars p (s ++ c :: r) = s :: splitChars p r := by
  induction s with
  | nil => simp [splitChars, hc]
  | cons x s ih =>
    show splitChars p (x :: (s ++ c :: r)) = _
    rw [splitChars, h x (by simp), ih fun y hy => h y (List.mem_cons_of_mem _ hy)]
    simp

theorem splitChars_inv {p : Char → Bool} {s : Text} :
    (∀ x ∈ splitChars p s, ∀ c ∈ x, p c = false) := by
  induction s with
  | nil => simp [splitChars]
  | cons c r ih =>
    intro x hx
    unfold splitChars at hx
    split at hx
    · simp only [List.mem_cons] at hx
      rcases hx with rfl | hx
      · simp
      · exact ih x hx
    · rename_i hp
      split at hx
      · rename_i s rest hs
        rw [hs] at ih
        simp only [List.mem_cons] at hx
        rcases hx with rfl | hx
        · intro d hd
          simp only [List.mem_cons] at hd
          rcases hd with rfl | hd
          · simpa using hp
          · exact ih s (by simp) d hd
        · exact ih x (by simp [hx])
      · simp only [List.mem_singleton] at hx
        subst hx; simpa using hp

theorem splitChars_three {p : Char → Bool} {s a b c : Text} (h : splitChars p s = [a, b, c]) :
    ∃ x y, p x = true ∧ p y = true ∧ s = a ++ x :: b ++ y :: c := by
  have h1 : ∀ {s a} {l : List Text}, l ≠ [] → splitChars p s = a :: l →
      ∃ x r, p x = true ∧ s = a ++ x :: r ∧ splitChars p r = l := by
    intro s
    induction s with
    | nil => intro a l hl h; simp [splitChars] at h; exact absurd h.2 hl
    | cons d s ih =>
      intro a l hl h
      unfold splitChars at h
      split at h
      · rename_i hp
        simp only [List.cons.injEq] at h
        exact ⟨d, s, hp, by simp [← h.1], h.2⟩
      · split at h
        · rename_i s' rest hs
          simp only [List.cons.injEq] at h
          obtain ⟨x, r, hx, hr, hs2⟩ := ih (l := l) hl (by rw [hs, ← h.2])
          exact ⟨x, r, hx, by rw [hr, ← h.1]; simp, hs2⟩
        · rename_i hs; exact absurd hs (splitChars_ne_nil _ _)
  have h2 : ∀ {s a}, splitChars p s = [a] → s = a := by
    intro s
    induction s with
    | nil => intro a h; simpa [splitChars] using h
    | cons d s ih =>
      intro a h
      unfold splitChars at h
      split at h
      · simp at h; exact absurd h.2 (splitChars_ne_nil _ _)
      · split at h
        · rename_i s' rest hs
          simp only [List.cons.injEq] at h
          obtain ⟨h3, h4⟩ := h
          subst h4
          rw [ih hs, h3]
        · rename_i hs; exact absurd hs (splitChars_ne_nil _ _)
  obtain ⟨x, r, hx, hr, h⟩ := h1 (by simp) h
  obtain ⟨y, r', hy, hr', h⟩ := h1 (by simp) h
  rw [h2 h] at hr'
  exact ⟨x, y, hx, hy, by rw [hr, hr']; simp⟩

/-- C05: a namespaced keyword with valid parts prints to a text that reads back as that keyword. -/
theorem C05_round_trip {ns n : Text} {k : NName} (h1 : ValidPart ns) (h2 : ValidPart n)
    (hk : NName.namespaced ns n = .ok k) :
    toNamespacedKeyword k.displayKeyword = .ok k ∧ k.ns = some ns ∧ k.name = n := by
  rw [namespaced_ok h1.1 h2.1] at hk
  cases hk
  refine ⟨?_, parts_namespaced h1.1⟩
  unfold toNamespacedKeyword NName.displayKeyword NName.display
  simp only
  have e : splitChars (fun c => decide (c = ':') || decide (c = '/')) (':' :: (ns ++ '/' :: n)) = [[], ns, n] := by
    rw [splitChars]
    simp only [decide_true, Bool.true_or, if_true]
    rw [splitChars_append (by simpa using h1.2) (by simp), splitChars_clean (by simpa using h2.2)]
  rw [e]
  exact namespaced_ok h1.1 h2.1

/-- C05: a text that reads as a keyword has valid parts, begins with a separator, and is that
keyword's printed text up to which of the two separators were used. -/
theorem C05_read {s : Text} {k : NName} (h : toNamespacedKeyword s = .ok k) :
    ∃ ns n x y, ValidPart ns ∧ ValidPart n ∧ (x = ':' ∨ x = '/') ∧ (y = ':' ∨ y = '/') ∧
      s = x :: ns ++ y :: n ∧ k.ns = some ns ∧ k.name = n := by
  unfold toNamespacedKeyword at h
  split at h
  · rename_i ns n hs
    obtain ⟨x, y, hx, hy, he⟩ := splitChars_three hs
    have hv := splitChars_inv (p := fun c => decide (c = ':') || decide (c = '/')) (s := s)
    rw [hs] at hv
    obtain ⟨h1, h2, h3⟩ := new_name (o := some ns) h
    have hns : ns ≠ [] := by
      intro hn; subst hn; simp [NName.namespaced] at h
    refine ⟨ns, n, x, y, ⟨hns, ?_⟩, ⟨h3, ?_⟩, by simpa using hx, by simpa using hy, by simpa using he, h1, h2⟩
    · intro c hc; have := hv ns (by simp) c hc; simpa using this
    · intro c hc; have := hv n (by simp) c hc; simpa using this
  · simp at h

/-- C05: keywords with valid parts, namespaced or not, never print the same text. -/
theorem C05_distinct {k k' : NName}
    (hk : (∃ n, ValidPart n ∧ k = ⟨n, 0⟩) ∨ ∃ ns n, ValidPart ns ∧ ValidPart n ∧ k = ⟨ns ++ '/' :: n, ns.length⟩)
    (hk' : (∃ n, ValidPart n ∧ k' = ⟨n, 0⟩) ∨ ∃ ns n, ValidPart ns ∧ ValidPart n ∧ k' = ⟨ns ++ '/' :: n, ns.length⟩)
    (h : k.displayKeyword = k'.displayKeyword) : k = k' := by
  simp only [NName.displayKeyword, NName.display, List.cons.injEq, true_and] at h
  rcases hk with ⟨n, hn, rfl⟩ | ⟨ns, n, hns, hn, rfl⟩ <;> rcases hk' with ⟨n', hn', rfl⟩ | ⟨ns', n', hns', hn', rfl⟩
  · simpa using h
  · simp only at h
    exact absurd rfl ((hn.2 '/' (by rw [h]; simp)).2)
  · simp only at h
    exact absurd rfl ((hn'.2 '/' (by rw [← h]; simp)).2)
  · simp only at h
    have e1 := splitChars_append (p := fun c => decide (c = '/')) (s := ns) (by simpa using fun c hc => (hns.2 c hc).2) (c := '/') (by simp) n
    have e2 := splitChars_append (p := fun c => decide (c = '/')) (s := ns') (by simpa using fun c hc => (hns'.2 c hc).2) (c := '/') (by simp) n'
    rw [h, e2] at e1
    simp only [List.cons.injEq] at e1
    rw [h, e1.1]

/-- C05: the hypotheses hold of ordinary keywords. -/
theorem C05_example : ValidPart "db.type".toList ∧ ValidPart "_x".toList ∧
    toNamespacedKeyword ":db.type/_x".toList = .ok ⟨"db.type/_x".toList, 7⟩ := by
  refine ⟨⟨by decide, by decide⟩, ⟨by decide, by decide⟩, by decide⟩

/-- C05 needs valid parts, which the constructors do not check: different keywords that print the
same; a keyword that does not read back; and a text on which the reader panics. -/
theorem C05_fails :
    (∃ k k' : NName, k.Built ∧ k'.Built ∧ k ≠ k' ∧ k.displayKeyword = k'.displayKeyword) ∧
    (∃ k : NName, k.Built ∧ k.isNamespaced = true ∧ ∀ k', toNamespacedKeyword k.displayKeyword ≠ .ok k') ∧
    (∃ s, toNamespacedKeyword s = .panic) :=
  ⟨⟨⟨"a/b".toList, 0⟩, ⟨"a/b".toList, 1⟩, Or.inl ⟨"a/b".toList, by decide⟩,
      Or.inr ⟨"a".toList, "b".toList, by decide⟩, by decide, by decide⟩,
    ⟨⟨"a/b:c".toList, 1⟩, Or.inr ⟨"a".toList, "b:c".toList, by decide⟩, by decide, by
      intro k' h; have e : toNamespacedKeyword (⟨"a/b:c".toList, 1⟩ : NName).displayKeyword = .err .notYetImplemented := by decide
      rw [e] at h; simp at h⟩,
    ⟨":/x".toList, by decide⟩⟩

/-! ### C03: instants -/

/-- An instant at microsecond precision (and not inside a leap second). -/
def DateTime.Micro (t : DateTime) : Prop := 0 ≤ t.nanos ∧ t.nanos < 1000000000 ∧ t.nanos % 1000 = 0

/-- The moment, in nanoseconds since 1970. -/
def DateTime.moment (t : DateTime) : Int := t.secs * 1000000000 + t.nanos

theorem fromMicros_moment (ts : Int) : (DateTime.fromMicros ts).moment =
    if 0 ≤ ts then ts * 1000 else (Int.tdiv ts 1000000) * 1000000000 - (Int.tmod ts 1000000) * 1000 := by
  have h := Int.mul_tdiv_add_tmod ts 1000000
  unfold DateTime.fromMicros DateTime.moment
  simp only
  split
  · rename_i hp
    have : 0 ≤ Int.tmod ts 1000000 := Int.tmod_nonneg _ hp
    omega
  · rename_i hp
    have : Int.tmod ts 1000000 ≤ 0 := by
      have := Int.tmod_nonneg (a := -ts) 1000000 (by omega)
      rw [Int.neg_tmod] at this; omega
    omega

/-- C03, exactly: an instant at microsecond precision survives storing as microseconds and reading
back if and only if it is not before 1970 or is on a whole second.  (The rest fails, `C03_fails`.) -/
theorem C03_micros_partial {t : DateTime} (h : t.Micro) :
    DateTime.fromMicros t.toMicros = t ↔ 0 ≤ t.secs ∨ t.nanos = 0 := by
  obtain ⟨secs, nanos⟩ := t
  obtain ⟨h1, h2, h3⟩ := h
  simp only at h1 h2 h3
  unfold DateTime.fromMicros DateTime.toMicros
  simp only [DateTime.mk.injEq]
  generalize hx : secs * 1000000 + nanos / 1000 = x
  have hd := Int.mul_tdiv_add_tmod x 1000000
  by_cases hp : 0 ≤ x
  · have e1 : Int.tdiv x 1000000 = x / 1000000 := Int.tdiv_eq_ediv_of_nonneg hp
    have e2 : Int.tmod x 1000000 = x % 1000000 := Int.tmod_eq_emod_of_nonneg hp
    rw [e1, e2]
    omega
  · have hm : Int.tmod x 1000000 ≤ 0 ∧ -1000000 < Int.tmod x 1000000 := by
      have a1 := Int.tmod_nonneg (a := -x) 1000000 (by omega)
      have a2 := Int.tmod_lt_of_pos (-x) (b := 1000000) (by omega)
      rw [Int.neg_tmod] at a1 a2
      omega
    generalize Int.tdiv x 1000000 = q at *
    generalize Int.tmod x 1000000 = r at *
    constructor
    · rintro ⟨rfl, h5⟩
      omega
    · rintro (h4 | h4)
      · omega
      · omega

/-- C03: microseconds survive the other way round in the same cases. -/
theorem C03_from_micros_partial (ts : Int) :
    (DateTime.fromMicros ts).toMicros = ts ↔ 0 ≤ ts ∨ ts % 1000000 = 0 := by
  unfold DateTime.fromMicros DateTime.toMicros
  have hd := Int.mul_tdiv_add_tmod ts 1000000
  simp only
  by_cases hp : 0 ≤ ts
  · have := Int.tmod_nonneg 1000000 hp
    omega
  · have hm : Int.tmod ts 1000000 ≤ 0 ∧ -1000000 < Int.tmod ts 1000000 := by
      have a1 := Int.tmod_nonneg (a := -ts) 1000000 (by omega)
      have a2 := Int.tmod_lt_of_pos (-ts) (b := 1000000) (by omega)
      rw [Int.neg_tmod] at a1 a2
      omega
    generalize Int.tdiv ts 1000000 = q at *
    generalize Int.tmod ts 1000000 = r at *
    omega

/-- C03, exactly: `from_millis` denotes the moment so many milliseconds from 1970 if and only if it
is a whole second. -/
theorem C03_millis_partial (ts : Int) :
    (DateTime.fromMillis ts).moment = ts * 1000000 ↔ ts % 1000 = 0 := by
  unfold DateTime.fromMillis DateTime.moment
  have hd := Int.mul_tdiv_add_tmod ts 1000
  simp only
  by_cases hp : 0 ≤ ts
  · have := Int.tmod_nonneg 1000 hp
    have := Int.tmod_lt_of_pos ts (b := 1000) (by omega)
    omega
  · have hm : Int.tmod ts 1000 ≤ 0 ∧ -1000 < Int.tmod ts 1000 := by
      have a1 := Int.tmod_nonneg (a := -ts) 1000 (by omega)
      have a2 := Int.tmod_lt_of_pos (-ts) (b := 1000) (by omega)
      rw [Int.neg_tmod] at a1 a2
      omega
    generalize Int.tdiv ts 1000 = q at *
    generalize Int.tmod ts 1000 = r at *
    omega

/-- C03: truncation to microseconds keeps the moment within a microsecond and is idempotent; what is
stored for the truncated instant is what would be stored for the instant. -/
theorem C03_truncate (t : DateTime) (h : 0 ≤ t.nanos ∧ t.nanos < 1000000000) :
    t.microsecondPrecision.Micro ∧ t.microsecondPrecision.moment ≤ t.moment ∧
    t.moment < t.microsecondPrecision.moment + 1000 ∧
    t.microsecondPrecision.toMicros = t.toMicros ∧
    t.microsecondPrecision.microsecondPrecision = t.microsecondPrecision := by
  unfold DateTime.microsecondPrecision DateTime.Micro DateTime.moment DateTime.toMicros
  split
  · refine ⟨⟨h.1, h.2, by assumption⟩, by omega, by omega, rfl, rfl⟩
  · refine ⟨?_, ?_, ?_, ?_, ?_⟩
    · simp only; omega
    · simp only; omega
    · simp only; omega
    · simp only; omega
    · simp only
      rw [if_pos (by omega)]

/-- The full C03 fails: half a second before 1970 is read back as half a second after; one
millisecond is read as a microsecond. -/
theorem C03_fails :
    (∃ t : DateTime, t.Micro ∧ DateTime.fromMicros t.toMicros ≠ t) ∧
    (∃ ts, (DateTime.fromMillis ts).moment ≠ ts * 1000000) ∧
    (∃ ts, (DateTime.fromMillis ts).toMillis ≠ ts) :=
  ⟨⟨⟨-1, 500000000⟩, by refine ⟨?_, ?_, ?_⟩ <;> decide, by decide⟩, ⟨1, by decide⟩, ⟨1, by decide⟩⟩

/-! ### C01, C02: stored values -/

theorem toBytes_length (n u : Nat) : (toBytes n u).length = n := by
  induction n generalizing u with
  | zero => rfl
  | succ n ih => simp [toBytes, ih]

theorem ofBytes_toBytes (n u : Nat) (h : u < 256 ^ n) : ofBytes (toBytes n u) = u := by
  induction n generalizing u with
  | zero => simp at h; subst h; rfl
  | succ n ih =>
    have h1 : u / 256 < 256 ^ n := by rw [Nat.pow_succ] at h; omega
    unfold ofBytes at *
    simp only [toBytes, List.foldl_append, ih _ h1, List.foldl_cons, List.foldl_nil]
    omega

/-- Values of the code's types: 128-bit UUIDs, and keywords whose parts the reader accepts. -/
def TypedValue.Proper : TypedValue → Prop
  | .uuid u => u < 2 ^ 128
  | .keyword k => (k.ns = [] ∨ ValidPart k.ns) ∧ ValidPart k.name
  | _ => True

/-- A text read as a keyword never gives a keyword without a namespace. -/
theorem plain_unread {n : Text} (h : ValidPart n) (k : NName) :
    toNamespacedKeyword (NName.displayKeyword ⟨n, 0⟩) ≠ .ok k := by
  unfold toNamespacedKeyword NName.displayKeyword NName.display
  simp only
  have e : splitChars (fun c => decide (c = ':') || decide (c = '/')) (':' :: n) = [[], n] := by
    rw [splitChars]
    simp only [decide_true, Bool.true_or, if_true]
    rw [splitChars_clean (by simpa using h.2)]
  rw [e]; simp

theorem keyword_round {k : Keyword} (h1 : ValidPart k.ns) (h2 : ValidPart k.name) :
    ∃ n, toNamespacedKeyword k.nname.displayKeyword = .ok n ∧ n.toKeyword = k := by
  have := (C05_round_trip h1 h2 (namespaced_ok h1.1 h2.1)).1
  have e0 : k.nname = ⟨k.ns ++ '/' :: k.name, k.ns.length⟩ := by simp [Keyword.nname, h1.1]
  rw [e0]
  refine ⟨_, this, ?_⟩
  unfold NName.toKeyword NName.parts
  have hp : 0 < k.ns.length := List.length_pos_iff.mpr h1.1
  rw [if_pos hp]
  have e := (parts_namespaced (ns := k.ns) (n := k.name) h1.1).2
  unfold NName.name at e
  rw [if_neg (by simp; exact h1.1)] at e
  simp only at e ⊢
  rw [e]; simp

/-- C01, exactly: a proper value reads back as itself if and only if it is not the nil UUID, not an
instant before 1970 with a fraction of a second, and not a keyword without a namespace.  (The rest
fails, `C01_fails`.) -/
theorem C01_round_trip_partial {v : TypedValue} (h : v.Proper) :
    fromSql v.toSql.1 v.toSql.2 = .ok v ↔
      v ≠ .uuid 0 ∧ (∀ us, v = .instant us → 0 ≤ us ∨ us % 1000000 = 0) ∧
      (∀ k, v = .keyword k → k.ns ≠ []) := by
  cases v with
  | ref e => simp [TypedValue.toSql, fromSql]
  | boolean b => cases b <;> simp [TypedValue.toSql, fromSql]
  | long n => simp [TypedValue.toSql, fromSql]
  | double n => simp [TypedValue.toSql, fromSql]
  | instant us =>
    simp only [TypedValue.toSql, fromSql, Res.ok.injEq, TypedValue.instant.injEq, C03_from_micros_partial]
    simp
  | string s => simp [TypedValue.toSql, fromSql]
  | keyword k =>
    by_cases h0 : k.ns = []
    · have e0 : k.nname = ⟨k.name, 0⟩ := by simp [Keyword.nname, h0]
      have := plain_unread h.2
      simp only [TypedValue.toSql, fromSql, e0]
      constructor
      · intro hx
        cases hc : toNamespacedKeyword (NName.displayKeyword ⟨k.name, 0⟩) with
        | ok n => exact absurd hc (this n)
        | err e => rw [hc] at hx; simp at hx
        | panic => rw [hc] at hx; simp at hx
      · rintro ⟨-, -, h3⟩
        exact absurd h0 (h3 k rfl)
    · obtain ⟨n, h1, h2⟩ := keyword_round (h.1.resolve_left h0) h.2
      simp [TypedValue.toSql, fromSql, h1, h2, h0]
  | uuid u =>
    have e := ofBytes_toBytes 16 u (by have : u < 2 ^ 128 := h; omega)
    simp only [TypedValue.toSql, fromSql, toBytes_length, e]
    by_cases hu : u = 0 <;> simp [hu]

/-- C01: reading back never yields a different value of another type, and the tag written is that of
the value's type. -/
theorem C01_tag (v : TypedValue) : v.toSql.2 = v.valueType.tag := by cases v <;> rfl

theorem C01_example : (TypedValue.keyword ⟨"db.type".toList, "ref".toList⟩).Proper ∧
    (TypedValue.uuid (2 ^ 127)).Proper ∧
    fromSql (.text ":db.type/ref".toList) 13 = .ok (.keyword ⟨"db.type".toList, "ref".toList⟩) := by
  refine ⟨⟨Or.inr ⟨by decide, by decide⟩, ⟨by decide, by decide⟩⟩, ?_, by decide⟩
  show 2 ^ 127 < 2 ^ 128
  omega

/-- The full C01 fails: the nil UUID and keywords without a namespace are refused, and an instant
before 1970 comes back as another instant. -/
theorem C01_fails :
    (∃ v : TypedValue, v.Proper ∧ v.valueType = .uuid ∧ ∃ e, fromSql v.toSql.1 v.toSql.2 = .err e) ∧
    (∃ v : TypedValue, v.Proper ∧ v.valueType = .keyword ∧ ∃ e, fromSql v.toSql.1 v.toSql.2 = .err e) ∧
    (∃ v w : TypedValue, v.Proper ∧ fromSql v.toSql.1 v.toSql.2 = .ok w ∧ w ≠ v) :=
  ⟨⟨.uuid 0, by show 0 < 2 ^ 128; decide, rfl, _, rfl⟩,
    ⟨.keyword ⟨[], "plain".toList⟩, ⟨Or.inl rfl, ⟨by decide, by decide⟩⟩, rfl, _, rfl⟩, ⟨.instant (-500000), .instant 500000, trivial, by decide, by decide⟩⟩

/-- C02: within one value type, stored values are equal for SQLite exactly if they are the same
value.  Partial: the parts of keywords must be valid, see `C02_fails`. -/
theorem C02_same_type_partial {v w : TypedValue} (hv : v.Proper) (hw : w.Proper)
    (ht : v.valueType = w.valueType) : sqlPairEq v.toSql w.toSql = true ↔ v = w := by
  cases v <;> cases w <;> simp only [TypedValue.valueType, reduceCtorEq] at ht <;>
    simp only [sqlPairEq, TypedValue.toSql, SqlValue.eq, decide_true, Bool.true_and, decide_eq_true_eq,
      TypedValue.ref.injEq, TypedValue.boolean.injEq, TypedValue.long.injEq, TypedValue.double.injEq,
      TypedValue.instant.injEq, TypedValue.string.injEq, TypedValue.keyword.injEq, TypedValue.uuid.injEq]
  · rename_i a b; cases a <;> cases b <;> simp
  · rename_i a b
    constructor
    · intro h
      have key : ∀ {c : Keyword}, (TypedValue.keyword c).Proper →
          (∃ n, ValidPart n ∧ c.nname = ⟨n, 0⟩) ∨
          ∃ ns n, ValidPart ns ∧ ValidPart n ∧ c.nname = ⟨ns ++ '/' :: n, ns.length⟩ := by
        intro c hc
        unfold Keyword.nname
        split
        · exact Or.inl ⟨c.name, hc.2, rfl⟩
        · rename_i h0; exact Or.inr ⟨c.ns, c.name, hc.1.resolve_left h0, hc.2, rfl⟩
      have e := C05_distinct (key hv) (key hw) (by simpa using h)
      obtain ⟨ns, n⟩ := a
      obtain ⟨ns', n'⟩ := b
      unfold Keyword.nname at e
      simp only at e
      split at e <;> split at e
      · simp_all
      · rename_i h1 h2; simp at e; exact absurd (List.length_eq_zero_iff.mp e.2.symm) h2
      · rename_i h1 h2; simp at e; exact absurd e.2 h1
      · rename_i h1 h2
        simp only [NName.mk.injEq] at e
        have := List.append_inj e.1 e.2
        simp at this; simp [this]
    · rintro rfl; rfl
  · rename_i a b
    constructor
    · intro h
      have hv : a < 2 ^ 128 := hv
      have hw : b < 2 ^ 128 := hw
      rw [← ofBytes_toBytes 16 a (by omega), ← ofBytes_toBytes 16 b (by omega), h]
    · rintro rfl; rfl

/-- C02, between types: SQLite identifies stored values of different types only for a long and a
double that are the same number. -/
theorem C02_cross_type {v w : TypedValue} (ht : v.valueType ≠ w.valueType) :
    sqlPairEq v.toSql w.toSql = true ↔
      ∃ n : Int, (v = .long n ∧ w = .double (n * 2 ^ 1074)) ∨ (w = .long n ∧ v = .double (n * 2 ^ 1074)) := by
  cases v <;> cases w <;> simp only [TypedValue.valueType, ne_eq, not_true_eq_false] at ht <;>
    simp [sqlPairEq, TypedValue.toSql, SqlValue.eq, eq_comm]

/-- C02 needs keywords with valid parts: these two are different and stored alike. -/
theorem C02_fails : ∃ v w : TypedValue, v.valueType = w.valueType ∧ v ≠ w ∧
    sqlPairEq v.toSql w.toSql = true :=
  ⟨.keyword ⟨"a/b".toList, "c".toList⟩, .keyword ⟨"a".toList, "b/c".toList⟩, rfl, by decide, by decide⟩

end Mentat
