import Verif.Proofs.QueryAnswers
/-
The types known of a variable matter only to the clauses that name it.  `or-join` leaves types of its
local variables behind; here it is shown that, as long as no other clause names them, the run of the
algebrizer goes on as it would without them.
-/
namespace Mentat
namespace CC

/-- A map without the keys `D`. -/
noncomputable def dropKeys {α : Type} (D : Var → Prop) (m : AMap Var α) : AMap Var α := by
  classical exact m.filter fun p => decide (¬ D p.1)

theorem dropKeys_get {α : Type} (D : Var → Prop) (m : AMap Var α) {x : Var} (hx : ¬ D x) :
    AMap.get (dropKeys D m) x = AMap.get m x := by
  classical
  unfold dropKeys
  induction m with
  | nil => rfl
  | cons p m ih =>
    obtain ⟨y, v⟩ := p
    by_cases hy : D y
    · rw [List.filter_cons_of_neg (by simpa using hy), ih, AMap.get_cons, if_neg (fun e : y = x => hx (e ▸ hy))]
    · rw [List.filter_cons_of_pos (by simpa using hy), AMap.get_cons, AMap.get_cons, ih]

theorem dropKeys_mem {α : Type} {D : Var → Prop} {m : AMap Var α} {p : Var × α} : p ∈ dropKeys D m ↔ p ∈ m ∧ ¬ D p.1 := by
  classical
  unfold dropKeys
  simp

theorem dropKeys_none {α : Type} (D : Var → Prop) (m : AMap Var α) {x : Var} (hx : D x) : AMap.get (dropKeys D m) x = none := by
  cases h : AMap.get (dropKeys D m) x with
  | none => rfl
  | some v => exact absurd hx (dropKeys_mem.mp (AMap.get_some_mem h)).2

theorem dropKeys_insert {α : Type} {D : Var → Prop} (m : AMap Var α) {x : Var} (hx : ¬ D x) (v : α) :
    dropKeys D (AMap.insert m x v) = AMap.insert (dropKeys D m) x v := by
  classical
  unfold dropKeys
  induction m with
  | nil => simp [AMap.insert, hx]
  | cons p m ih =>
    obtain ⟨y, w⟩ := p
    conv_lhs => unfold AMap.insert
    by_cases he : y = x
    · subst he
      rw [if_pos rfl, List.filter_cons_of_pos (by simpa using hx), List.filter_cons_of_pos (by simpa using hx)]
      simp [AMap.insert]
    · rw [if_neg he]
      by_cases hy : D y
      · rw [List.filter_cons_of_neg (by simpa using hy), List.filter_cons_of_neg (by simpa using hy), ih]
      · rw [List.filter_cons_of_pos (by simpa using hy), List.filter_cons_of_pos (by simpa using hy), ih]
        simp [AMap.insert, he]

theorem dropKeys_insert_of {α : Type} {D : Var → Prop} (m : AMap Var α) {x : Var} (hx : D x) (v : α) :
    dropKeys D (AMap.insert m x v) = dropKeys D m := by
  classical
  unfold dropKeys
  induction m with
  | nil => simp [AMap.insert, hx]
  | cons p m ih =>
    obtain ⟨y, w⟩ := p
    conv_lhs => unfold AMap.insert
    by_cases he : y = x
    · subst he
      rw [if_pos rfl, List.filter_cons_of_neg (by simpa using hx), List.filter_cons_of_neg (by simpa using hx)]
    · rw [if_neg he]
      by_cases hy : D y
      · rw [List.filter_cons_of_neg (by simpa using hy), List.filter_cons_of_neg (by simpa using hy), ih]
      · rw [List.filter_cons_of_pos (by simpa using hy), List.filter_cons_of_pos (by simpa using hy), ih]

theorem dropKeys_withKeys {α : Type} {D : Var → Prop} (m : AMap Var α) {ks : List Var} (hk : ∀ x ∈ ks, ¬ D x) :
    withKeys (dropKeys D m) ks = withKeys m ks := by
  classical
  unfold dropKeys withKeys
  rw [List.filter_filter]
  refine List.filter_congr fun p _ => ?_
  by_cases h : p.1 ∈ ks
  · simp [h, hk _ h]
  · simp [h]

theorem dropKeys_self {α : Type} {D : Var → Prop} {m : AMap Var α} (h : ∀ x, D x → AMap.get m x = none) : dropKeys D m = m := by
  classical
  unfold dropKeys
  refine List.filter_eq_self.mpr fun p hp => ?_
  by_cases hd : D p.1
  · have := h p.1 hd
    rw [AMap.get_eq_none_iff] at this
    exact absurd (List.mem_map.mpr ⟨p, hp, rfl⟩) this
  · simpa using hd

/-- The second is the first without the types known of the variables `D`; nothing is required of these
variables, and no type tag of theirs is looked for. -/
def Like (D : Var → Prop) (a b : CC) : Prop :=
  ∃ K, b = { a with known := K } ∧ K = dropKeys D a.known ∧
    ∀ x, D x → AMap.get a.extracted x = none ∧ AMap.get a.required x = none

/-- The same of results: if the first is a success, so is the second. -/
def LikeR (D : Var → Prop) (a b : Res CC) : Prop := ∀ a', a = .ok a' → ∃ b', b = .ok b' ∧ Like D a' b'

section
variable {D : Var → Prop} {a b : CC}

theorem Like.refl (h : ∀ x, D x → AMap.get a.known x = none ∧ AMap.get a.extracted x = none ∧ AMap.get a.required x = none) :
    Like D a a := ⟨a.known, rfl, (dropKeys_self fun x hx => (h x hx).1).symm, fun x hx => (h x hx).2⟩

theorem Like.clean (h : Like D a b) {x : Var} (hx : D x) : AMap.get b.known x = none := by
  obtain ⟨K, rfl, rfl, -⟩ := h
  exact dropKeys_none _ _ hx

theorem Like.trans {c : CC} (h : Like D a b) (h' : Like D b c) : Like D a c := by
  obtain ⟨K, rfl, hK, hq⟩ := h
  obtain ⟨K', rfl, hK', -⟩ := h'
  subst hK
  exact ⟨K', rfl, by rw [hK', dropKeys_self fun x hx => dropKeys_none D _ hx], hq⟩

theorem Like.ite {c : Prop} [Decidable c] {a1 a2 b1 b2 : CC} (h : Like D a1 b1) (h' : Like D a2 b2) :
    Like D (if c then a1 else a2) (if c then b1 else b2) := by split <;> assumption

theorem LikeR.ok (h : Like D a b) : LikeR D (.ok a) (.ok b) := by
  intro a' e; obtain rfl := Res.ok.inj e; exact ⟨b, rfl, h⟩

theorem LikeR.err {e : Err} {r : Res CC} : LikeR D (.err e) r := by intro a' h; cases h

theorem agree_insert {m K : AMap Var TypeSet} (h : K = dropKeys D m) {y : Var} (hy : ¬ D y) (ts : TypeSet) :
    AMap.insert K y ts = dropKeys D (AMap.insert m y ts) := by rw [dropKeys_insert m hy, h]

theorem agree_get {m K : AMap Var TypeSet} (h : K = dropKeys D m) {y : Var} (hy : ¬ D y) : AMap.get K y = AMap.get m y := by
  rw [h, dropKeys_get D m hy]

theorem Like.knownType (h : Like D a b) {x : Var} (hx : ¬ D x) : b.knownType x = a.knownType x := by
  obtain ⟨K, rfl, hK, -⟩ := h
  simp only [CC.knownType, agree_get hK hx]

theorem Like.knownTypeSet (h : Like D a b) {x : Var} (hx : ¬ D x) : b.knownTypeSet x = a.knownTypeSet x := by
  obtain ⟨K, rfl, hK, -⟩ := h
  simp only [CC.knownTypeSet, agree_get hK hx]

theorem Like.markEmpty (h : Like D a b) : Like D a.markEmpty b.markEmpty := by
  obtain ⟨K, rfl, hK, hq⟩ := h
  exact ⟨K, rfl, hK, hq⟩

theorem Like.addWhere (h : Like D a b) (c : Constraint) : Like D (a.addWhere c) (b.addWhere c) := by
  obtain ⟨K, rfl, hK, hq⟩ := h
  exact ⟨K, rfl, hK, hq⟩

theorem Like.constrainType (h : Like D a b) {x : Var} (hx : ¬ D x) (t : ValueType) :
    Like D (a.constrainType x t) (b.constrainType x t) := by
  obtain ⟨K, rfl, hK, hq⟩ := h
  unfold CC.constrainType
  simp only [agree_get hK hx]
  cases AMap.get a.known x with
  | none => exact ⟨_, rfl, agree_insert hK hx _, hq⟩
  | some s =>
    simp only
    split <;> exact ⟨_, rfl, agree_insert hK hx _, hq⟩

theorem Like.narrowTypes (h : Like D a b) {x : Var} (hx : ¬ D x) (ts : TypeSet) :
    Like D (a.narrowTypes x ts) (b.narrowTypes x ts) := by
  obtain ⟨K, rfl, hK, hq⟩ := h
  unfold CC.narrowTypes
  simp only [agree_get hK hx]
  split
  · exact ⟨_, rfl, hK, hq⟩
  · cases AMap.get a.known x with
    | none => exact ⟨_, rfl, agree_insert hK hx _, hq⟩
    | some s =>
      simp only
      split <;> exact ⟨_, rfl, agree_insert hK hx _, hq⟩

theorem Like.addRequirement (h : Like D a b) {x : Var} (hx : ¬ D x) (ts : TypeSet) :
    Like D (a.addRequirement x ts) (b.addRequirement x ts) := by
  obtain ⟨K, rfl, hK, hq⟩ := h
  have hq' : ∀ u y, D y → AMap.get a.extracted y = none ∧ AMap.get (AMap.insert a.required x u) y = none := by
    intro u y hy
    refine ⟨(hq y hy).1, ?_⟩
    rw [AMap.get_insert, if_neg (fun e : x = y => hx (e ▸ hy))]
    exact (hq y hy).2
  unfold CC.addRequirement
  split
  · exact ⟨_, rfl, hK, hq⟩
  · cases AMap.get a.required x with
    | none => exact ⟨_, rfl, hK, hq' _⟩
    | some s =>
      simp only
      split <;> exact ⟨_, rfl, hK, hq' _⟩

theorem Like.pushColumn (h : Like D a b) (q : QA) (x : Var) : Like D (a.pushColumn q x) (b.pushColumn q x) := by
  obtain ⟨K, rfl, hK, hq⟩ := h
  exact ⟨K, rfl, hK, hq⟩

theorem Like.constrainConst (h : Like D a b) (q : QA) (v : TypedValue) :
    Like D (a.constrainConst q v) (b.constrainConst q v) := by
  cases v <;> exact h.addWhere _

theorem Like.vals (h : Like D a b) : b.vals = a.vals := by obtain ⟨K, rfl, -, -⟩ := h; rfl
theorem Like.colb (h : Like D a b) : b.colb = a.colb := by obtain ⟨K, rfl, -, -⟩ := h; rfl
theorem Like.empty (h : Like D a b) : b.empty = a.empty := by obtain ⟨K, rfl, -, -⟩ := h; rfl
theorem Like.counter (h : Like D a b) : b.counter = a.counter := by obtain ⟨K, rfl, -, -⟩ := h; rfl
theorem Like.inputs (h : Like D a b) : b.inputs = a.inputs := by obtain ⟨K, rfl, -, -⟩ := h; rfl
theorem Like.extracted (h : Like D a b) : b.extracted = a.extracted := by obtain ⟨K, rfl, -, -⟩ := h; rfl
theorem Like.required (h : Like D a b) : b.required = a.required := by obtain ⟨K, rfl, -, -⟩ := h; rfl
theorem Like.tables (h : Like D a b) : b.tables = a.tables := by obtain ⟨K, rfl, -, -⟩ := h; rfl
theorem Like.computed (h : Like D a b) : b.computed = a.computed := by obtain ⟨K, rfl, -, -⟩ := h; rfl
theorem Like.wheres (h : Like D a b) : b.wheres = a.wheres := by obtain ⟨K, rfl, -, -⟩ := h; rfl
theorem Like.panics (h : Like D a b) : b.panics = a.panics := by obtain ⟨K, rfl, -, -⟩ := h; rfl

theorem Like.needsTag (h : Like D a b) {x : Var} (hx : ¬ D x) : b.needsTag x = a.needsTag x := by
  unfold CC.needsTag
  rw [h.knownType hx, h.inputs, h.extracted]

theorem Like.tagged (h : Like D a b) {x : Var} (hx : ¬ D x) (q : QA) : Like D (a.tagged q x) (b.tagged q x) := by
  unfold CC.tagged
  rw [h.needsTag hx]
  split
  · cases typeTag q with
    | none => exact h
    | some t =>
      obtain ⟨K, rfl, hK, hq⟩ := h
      refine ⟨K, rfl, hK, fun y hy => ⟨?_, (hq y hy).2⟩⟩
      simp only [AMap.get_insert, if_neg (fun e : x = y => hx (e ▸ hy))]
      exact (hq y hy).1
  · exact h

theorem Like.bindColumn (h : Like D a b) {x : Var} (hx : ¬ D x) (s : Schema) (q : QA) :
    Like D (a.bindColumn s q x) (b.bindColumn s q x) := by
  cases hv : AMap.get a.vals x with
  | none =>
    rw [bindColumn_none hv, bindColumn_none (by rw [h.vals]; exact hv)]
    exact (h.tagged hx q).pushColumn q x
  | some v =>
    unfold CC.bindColumn
    rw [h.vals, hv]
    simp only
    split
    · cases v with
      | keyword k =>
        simp only
        cases AMap.get s.identMap k with
        | none => exact h.markEmpty
        | some e => exact h.addWhere _
      | ref e => exact h.addWhere _
      | _ => exact h.markEmpty
    · exact h.constrainConst q v

/-! ### Patterns -/

theorem Like.constrainRef (h : Like D a b) {p : ENonValue} (hp : ∀ x, p = .var x → ¬ D x) :
    Like D (a.constrainRef p) (b.constrainRef p) := by
  cases p with
  | var x => exact h.constrainType (hp x rfl) _
  | _ => exact h

theorem Like.applyRefPlace (h : Like D a b) (s : Schema) (al : Alias) (c : Col) {p : ENonValue} (hp : ∀ x, p = .var x → ¬ D x) :
    Like D (a.applyRefPlace s al c p) (b.applyRefPlace s al c p) := by
  cases p with
  | var x => exact h.bindColumn (hp x rfl) _ _
  | entid e => exact h.addWhere _
  | placeholder => exact h

theorem Like.applyValuePlace (h : Like D a b) (s : Schema) (al : Alias) (t : Option ValueType) {p : EValue}
    (hp : ∀ x, p = .var x → ¬ D x) :
    Like D (a.applyValuePlace s al t p).1 (b.applyValuePlace s al t p).1 ∧
      (b.applyValuePlace s al t p).2 = (a.applyValuePlace s al t p).2 := by
  cases p with
  | var x =>
    have hx := hp x rfl
    have h1 : Like D (match t with | some t => a.constrainType x t | none => a)
        (match t with | some t => b.constrainType x t | none => b) := by
      cases t with
      | none => exact h
      | some t => exact h.constrainType hx t
    cases t with
    | none => exact ⟨h.bindColumn hx _ _, rfl⟩
    | some t =>
      simp only at h1
      unfold CC.applyValuePlace
      simp only [h1.empty, Option.isSome_some, Bool.true_and]
      by_cases he : (a.constrainType x t).empty = true
      · rw [if_pos he, if_pos he]; exact ⟨h1, rfl⟩
      · rw [if_neg he, if_neg he]; exact ⟨h1.bindColumn hx _ _, rfl⟩
  | placeholder => exact ⟨h, rfl⟩
  | entid i =>
    unfold CC.applyValuePlace
    cases t with
    | none => exact ⟨h.addWhere _, rfl⟩
    | some t => cases t <;> first | exact ⟨h.addWhere _, rfl⟩ | exact ⟨h.markEmpty, rfl⟩
  | entidOrInteger i =>
    unfold CC.applyValuePlace
    cases t with
    | none => exact ⟨h.addWhere _, rfl⟩
    | some t => cases t <;> exact ⟨h.addWhere _, rfl⟩
  | identOrKeyword k =>
    have hk : Like D ((a.addWhere (eqValue (al, .v) (.keyword k))).addWhere (hasUnitType al .keyword))
        ((b.addWhere (eqValue (al, .v) (.keyword k))).addWhere (hasUnitType al .keyword)) := (h.addWhere _).addWhere _
    unfold CC.applyValuePlace
    cases t with
    | none => exact ⟨hk, rfl⟩
    | some t =>
      cases t <;> try exact ⟨hk, rfl⟩
      simp only
      cases AMap.get s.identMap k with
      | none => exact ⟨h.markEmpty, rfl⟩
      | some e => exact ⟨h.addWhere _, rfl⟩
  | value v =>
    unfold CC.applyValuePlace
    simp only
    split
    · refine ⟨?_, rfl⟩
      simp only
      split
      · exact (h.constrainConst _ _).addWhere _
      · exact h.constrainConst _ _
    · exact ⟨h.markEmpty, rfl⟩

theorem Like.valueTypeOf (h : Like D a b) (s : Schema) (p : EPattern) : b.valueTypeOf s p = a.valueTypeOf s p := by
  obtain ⟨K, rfl, -, -⟩ := h; rfl

/-- The pattern names none of the variables. -/
def EPattern.Clear (D : Var → Prop) (p : EPattern) : Prop := ∀ x, p.Has x → ¬ D x

theorem Like.applyForAlias (h : Like D a b) (s : Schema) {p : EPattern} (hp : EPattern.Clear D p) (al : Alias) :
    Like D (a.applyForAlias s p al) (b.applyForAlias s p al) := by
  have he : ∀ x, p.e = .var x → ¬ D x := fun x hx => hp x (.inl hx)
  have ha : ∀ x, p.a = .var x → ¬ D x := fun x hx => hp x (.inr (.inl hx))
  have hv : ∀ x, p.v = .var x → ¬ D x := fun x hx => hp x (.inr (.inr (.inl hx)))
  have ht : ∀ x, p.tx = .var x → ¬ D x := fun x hx => hp x (.inr (.inr (.inr hx)))
  have h1 := ((h.constrainRef ht).constrainRef he).constrainRef ha
  have h2 := h1.applyRefPlace s al .e he
  have h3 := h2.applyRefPlace s al .a ha
  obtain ⟨h4, e4⟩ := h3.applyValuePlace s al (((((a.constrainRef p.tx).constrainRef p.e).constrainRef p.a).applyRefPlace s al .e p.e).applyRefPlace s al .a p.a |>.valueTypeOf s p) hv
  unfold CC.applyForAlias
  simp only [h.empty, h3.valueTypeOf, e4]
  exact .ite h (.ite h2.markEmpty (.ite (h4.applyRefPlace s al .tx ht) h4))

theorem Like.tableFor (h : Like D a b) (s : Schema) (p : ENonValue) {v : EValue} (hv : ∀ x, v = .var x → ¬ D x) :
    b.tableFor s p v = a.tableFor s p v := by
  have hu : b.tableForUnknown v = a.tableForUnknown v := by
    cases v with
    | var x =>
      obtain ⟨K, rfl, hK, -⟩ := h
      simp only [CC.tableForUnknown, agree_get hK (hv x rfl)]
    | value v => cases v <;> rfl
    | _ => rfl
  unfold CC.tableFor
  rw [hu, h.vals]

theorem Like.applyPattern (h : Like D a b) {k : Known} (hk : k.cache = none) {p : EPattern} (hp : EPattern.Clear D p) :
    LikeR D (a.applyPattern k p) (b.applyPattern k p) := by
  unfold CC.applyPattern
  split
  · intro a' e; cases e
  · have hc : b.cacheLookup k p = (a.cacheLookup k p).map fun _ => b.markEmpty := by
      unfold CC.cacheLookup Known.cachedForward Known.cachedReverse
      rw [hk]
      simp only [Option.any_none, Bool.or_self, Bool.false_eq_true, if_false]
      split
      · rfl
      · cases p.a with
        | entid e => simp only; cases k.schema.attr e <;> rfl
        | _ => rfl
    have hc' : ∀ c, a.cacheLookup k p = some c → c = a.markEmpty := by
      intro c
      unfold CC.cacheLookup Known.cachedForward Known.cachedReverse
      rw [hk]
      simp only [Option.any_none, Bool.or_self, Bool.false_eq_true, if_false]
      split
      · intro e; cases e
      · cases p.a with
        | entid e => simp only; cases k.schema.attr e <;> simp; exact fun e => e.symm
        | _ => simp
    rw [hc]
    cases hac : a.cacheLookup k p with
    | some c =>
      rw [hc' c hac]
      exact .ok h.markEmpty
    | none =>
      simp only [Option.map_none]
      rw [h.tableFor k.schema p.a fun x hx => hp x (.inr (.inr (.inl hx)))]
      cases a.tableFor k.schema p.a p.v with
      | none => exact .ok h.markEmpty
      | some t =>
        simp only [h.counter]
        have h1 : Like D { a with counter := a.counter + 1 } { b with counter := a.counter + 1 } := by
          obtain ⟨K, rfl, hK, hq⟩ := h; exact ⟨K, rfl, hK, hq⟩
        have h2 := h1.applyForAlias k.schema hp ⟨t, a.counter⟩
        refine .ok ?_
        obtain ⟨K, e, hK, hq⟩ := h2
        rw [e]
        exact ⟨K, rfl, hK, hq⟩

theorem Like.reEvolve (h : Like D a b) (p : EPattern) : b.reEvolve p = a.reEvolve p := by
  unfold CC.reEvolve; rw [h.vals]

theorem has_of_reEvolve {p q : EPattern} (h : a.reEvolve p = some q) {x : Var} (hx : q.Has x) : p.Has x := by
  unfold CC.reEvolve at h
  have key : ∀ {e : ENonValue}, (e = p.e ∨ ∀ y, e ≠ .var y) →
      ∀ {v : EValue}, (v = p.v ∨ ∀ y, v ≠ .var y) → ({ p with e := e, v := v } : EPattern).Has x → p.Has x := by
    intro e he v hv hx
    rcases hx with hx | hx | hx | hx
    · rcases he with rfl | he
      · exact .inl hx
      · exact absurd hx (he x)
    · exact .inr (.inl hx)
    · rcases hv with rfl | hv
      · exact .inr (.inr (.inl hx))
      · exact absurd hx (hv x)
    · exact .inr (.inr (.inr hx))
  have hv : ∀ v, v = (match p.v with | .var x => (match AMap.get a.vals x with | none => p.v | some w => .value w) | w => w) →
      v = p.v ∨ ∀ y, v ≠ .var y := by
    rintro v rfl
    cases hpv : p.v with
    | var y =>
      simp only
      cases AMap.get a.vals y with
      | none => exact .inl rfl
      | some w => exact .inr (by simp)
    | _ => exact .inl rfl
  simp only at h
  split at h
  · split at h
    · obtain rfl := Option.some.inj h
      exact key (.inl rfl) (hv _ rfl) hx
    · obtain rfl := Option.some.inj h
      exact key (.inr (by simp)) (hv _ rfl) hx
    · cases h
  · obtain rfl := Option.some.inj h
    exact key (.inl rfl) (hv _ rfl) hx

theorem Like.applyEvolved {k : Known} (hk : k.cache = none) : ∀ (ps : List EPattern) {a b : CC}, Like D a b →
    (∀ p ∈ ps, EPattern.Clear D p) → LikeR D (a.applyEvolved k ps) (b.applyEvolved k ps)
  | [], a, b, h, _ => .ok h
  | p :: ps, a, b, h, hp => by
    unfold CC.applyEvolved
    rw [h.reEvolve]
    cases hr : a.reEvolve p with
    | none => exact .ok h.markEmpty
    | some q =>
      intro a' ha
      obtain ⟨a1, h1, ha⟩ := bind_iff.mp ha
      obtain ⟨b1, g1, l1⟩ := h.applyPattern hk (p := q) (fun x hx => hp p (by simp) x (has_of_reEvolve hr hx)) a1 h1
      obtain ⟨b', g2, l2⟩ := Like.applyEvolved hk ps l1 (fun p hp' => hp p (List.mem_cons_of_mem _ hp')) a' ha
      exact ⟨b', bind_iff.mpr ⟨b1, g1, g2⟩, l2⟩

theorem Like.evolveNonValue (h : Like D a b) (s : Schema) (p : NonValue) : b.evolveNonValue s p = a.evolveNonValue s p := by
  unfold CC.evolveNonValue; rw [h.vals]

theorem Like.evolveAttribute (h : Like D a b) (s : Schema) (p : NonValue) : b.evolveAttribute s p = a.evolveAttribute s p := by
  unfold CC.evolveAttribute; rw [h.evolveNonValue]

theorem Like.evolveValue (h : Like D a b) (s : Schema) (t : Option ValueType) {p : PatValue} (hp : ∀ x ∈ p.vars, ¬ D x) :
    b.evolveValue s t p = a.evolveValue s t p := by
  cases p with
  | var x =>
    have hc : ∀ t, b.canConstrain x t = a.canConstrain x t := by
      obtain ⟨K, rfl, hK, -⟩ := h
      intro t
      simp only [CC.canConstrain, agree_get hK (hp x (by simp [PatValue.vars]))]
    unfold CC.evolveValue
    simp only [h.vals, hc]
  | _ => rfl

theorem Like.evolvePattern (h : Like D a b) (s : Schema) {p : Pattern} (hp : ∀ x ∈ p.vars, ¬ D x) :
    b.evolvePattern s p = a.evolvePattern s p := by
  unfold CC.evolvePattern
  have hv : ∀ t, b.evolveValue s t p.v = a.evolveValue s t p.v := fun t =>
    h.evolveValue s t fun x hx => hp x (by simp [Pattern.vars, hx])
  simp only [h.evolveNonValue, h.evolveAttribute, hv]

/-! ### Comparisons -/

theorem LikeR.bind {a b : Res CC} {f g : CC → Res CC} (h : LikeR D a b) (hf : ∀ a' b', Like D a' b' → LikeR D (f a') (g b')) :
    LikeR D (a.bind f) (b.bind g) := by
  intro r hr
  obtain ⟨a1, h1, h2⟩ := bind_iff.mp hr
  obtain ⟨b1, g1, l1⟩ := h a1 h1
  obtain ⟨b2, g2, l2⟩ := hf a1 b1 l1 r h2
  exact ⟨b2, bind_iff.mpr ⟨b1, g1, g2⟩, l2⟩

theorem LikeR.bindSame {α : Type} {x : Res α} {f g : α → Res CC} (h : ∀ v, x = .ok v → LikeR D (f v) (g v)) :
    LikeR D (x.bind f) (x.bind g) := by
  cases x with
  | ok v => exact h v rfl
  | err e => exact .err
  | panic => intro a' h; cases h

theorem LikeR.ite {c : Prop} [Decidable c] {a1 a2 b1 b2 : Res CC} (h : LikeR D a1 b1) (h' : LikeR D a2 b2) :
    LikeR D (if c then a1 else a2) (if c then b1 else b2) := by split <;> assumption

/-- Results with an expression. -/
def LikeE (D : Var → Prop) (a b : Res (CC × SExpr)) : Prop :=
  ∀ a' e, a = .ok (a', e) → ∃ b', b = .ok (b', e) ∧ Like D a' b'

theorem LikeE.ok (h : Like D a b) (e : SExpr) : LikeE D (.ok (a, e)) (.ok (b, e)) := by
  intro a' e' he
  obtain ⟨rfl, rfl⟩ := Prod.mk.inj (Res.ok.inj he)
  exact ⟨b, rfl, h⟩

theorem LikeE.err {e : Err} {r : Res (CC × SExpr)} : LikeE D (.err e) r := by intro a' x h; cases h

theorem LikeE.bind {r t : Res (CC × SExpr)} {f g : CC × SExpr → Res CC} (h : LikeE D r t)
    (hf : ∀ a' b' e, Like D a' b' → LikeR D (f (a', e)) (g (b', e))) : LikeR D (r.bind f) (t.bind g) := by
  intro c hc
  obtain ⟨⟨a1, e⟩, h1, h2⟩ := bind_iff.mp hc
  obtain ⟨b1, g1, l1⟩ := h a1 e h1
  obtain ⟨b2, g2, l2⟩ := hf a1 b1 e l1 c h2
  exact ⟨b2, bind_iff.mpr ⟨_, g1, g2⟩, l2⟩

theorem Like.firstColumn (h : Like D a b) (x : Var) : LikeE D ((a.firstColumn x).bind fun e => .ok (a, e))
    ((b.firstColumn x).bind fun e => .ok (b, e)) := by
  intro a' e he
  have : b.firstColumn x = a.firstColumn x := by unfold CC.firstColumn; rw [h.colb]
  rw [this]
  obtain ⟨c, h1, h2⟩ := bind_iff.mp he
  obtain ⟨rfl, rfl⟩ := Prod.mk.inj (Res.ok.inj h2)
  exact ⟨b, bind_iff.mpr ⟨_, h1, rfl⟩, h⟩

theorem Like.potentialTypes (h : Like D a b) (s : Schema) {x : FnArg} (hx : ∀ y ∈ argVars [x], ¬ D y) :
    b.potentialTypes s x = a.potentialTypes s x := by
  cases x with
  | var y => simp only [CC.potentialTypes, h.knownTypeSet (hx y (by simp [argVars]))]
  | const c => cases c <;> rfl
  | _ => rfl

theorem Like.resolveNumeric (h : Like D a b) {x : FnArg} (hx : ∀ y ∈ argVars [x], ¬ D y) :
    LikeE D (a.resolveNumeric x) (b.resolveNumeric x) := by
  cases x with
  | var y =>
    have hy := hx y (by simp [argVars])
    unfold CC.resolveNumeric
    simp only [h.vals]
    cases AMap.get a.vals y with
    | none => exact (h.narrowTypes hy _).firstColumn y
    | some v =>
      simp only
      by_cases hn : TypeSet.numeric v.valueType = true
      · rw [if_pos hn, if_pos hn]; exact .ok h _
      · rw [if_neg hn]; exact .err
  | int i => exact .ok h _
  | const c =>
    cases c with
    | float d => exact .ok h _
    | _ => exact .err
  | _ => exact .err

theorem Like.resolveInstant (h : Like D a b) {x : FnArg} (hx : ∀ y ∈ argVars [x], ¬ D y) :
    LikeE D (a.resolveInstant x) (b.resolveInstant x) := by
  cases x with
  | var y =>
    have hy := hx y (by simp [argVars])
    unfold CC.resolveInstant
    simp only [h.vals]
    cases AMap.get a.vals y with
    | none => exact (h.constrainType hy _).firstColumn y
    | some v => cases v <;> first | exact .ok h _ | exact .err
  | const c =>
    cases c with
    | instant d => exact .ok h _
    | _ => exact .err
  | _ => exact .err

theorem Like.resolveRef (h : Like D a b) (s : Schema) {x : FnArg} (hx : ∀ y ∈ argVars [x], ¬ D y) :
    LikeE D (a.resolveRef s x) (b.resolveRef s x) := by
  cases x with
  | var y =>
    have h1 := h.constrainType (hx y (by simp [argVars])) .ref
    unfold CC.resolveRef
    simp only [h1.vals]
    cases AMap.get (a.constrainType y .ref).vals y with
    | none => exact h1.firstColumn y
    | some v => cases v <;> first | exact .ok h1 _ | exact h1.firstColumn y
  | int i => exact .ok h _
  | kw k =>
    unfold CC.resolveRef
    simp only
    cases AMap.get s.identMap k with
    | none => exact .err
    | some e => exact .ok h _
  | _ => exact .err

theorem argVars_mem {args : List FnArg} {x : FnArg} (h : x ∈ args) {y : Var} (hy : y ∈ argVars [x]) : y ∈ argVars args := by
  obtain ⟨z, hz, e⟩ := List.mem_filterMap.mp hy
  obtain rfl := List.mem_singleton.mp hz
  exact List.mem_filterMap.mpr ⟨z, h, e⟩

theorem Like.applyInequality (h : Like D a b) (s : Schema) (op : Ineq) {args : List FnArg} (hx : ∀ y ∈ argVars args, ¬ D y) :
    LikeR D (a.applyInequality s op args) (b.applyInequality s op args) := by
  have hx' : ∀ x ∈ args, ∀ y ∈ argVars [x], ¬ D y := fun x hm y hy => hx y (argVars_mem hm hy)
  unfold CC.applyInequality
  match args, hx' with
  | [], _ => exact .err
  | [_], _ => exact .err
  | _ :: _ :: _ :: _, _ => exact .err
  | [l, r], hx' =>
    have hl := hx' l (by simp)
    have hr := hx' r (by simp)
    simp only [h.potentialTypes s hl, h.potentialTypes s hr]
    refine .bindSame fun pl _ => .ite .err (.bindSame fun pr _ => .ite .err ?_)
    generalize TypeSet.inter (if pl.inter op.supported ValueType.long = true then _ else _) _ = sh
    refine .ite (.ok h.markEmpty) ?_
    have hR : ∀ {a b : CC}, Like D a b → ∀ x, (∀ y ∈ argVars [x], ¬ D y) →
          LikeE D ((if sh.eq (TypeSet.one .instant) = true then CC.resolveInstant else if sh.onlyNumeric = true then CC.resolveNumeric
            else if sh.eq (TypeSet.one .ref) = true then fun c a => c.resolveRef s a else fun _ _ => .err .other : CC → FnArg → Res (CC × SExpr)) a x)
          ((if sh.eq (TypeSet.one .instant) = true then CC.resolveInstant else if sh.onlyNumeric = true then CC.resolveNumeric
            else if sh.eq (TypeSet.one .ref) = true then fun c a => c.resolveRef s a else fun _ _ => .err .other : CC → FnArg → Res (CC × SExpr)) b x) := by
        intro a b h x hx
        by_cases k1 : sh.eq (TypeSet.one .instant) = true
        · rw [if_pos k1]; exact h.resolveInstant hx
        rw [if_neg k1]
        by_cases k2 : sh.onlyNumeric = true
        · rw [if_pos k2]; exact h.resolveNumeric hx
        rw [if_neg k2]
        by_cases k3 : sh.eq (TypeSet.one .ref) = true
        · rw [if_pos k3]; exact h.resolveRef s hx
        rw [if_neg k3]; exact .err
    exact (hR h l hl).bind fun a1 b1 e1 l1 => (hR l1 r hr).bind fun a2 b2 e2 l2 => .ok (l2.addWhere _)

/-! ### Functions -/

theorem Like.bindTyped (h : Like D a b) (s : Schema) (q : QA) (t : ValueType) {o : Option Var} (ho : ∀ x, o = some x → ¬ D x) :
    Like D (a.bindTyped s q t o).1 (b.bindTyped s q t o).1 ∧ (b.bindTyped s q t o).2 = (a.bindTyped s q t o).2 := by
  cases o with
  | none => exact ⟨h, rfl⟩
  | some x =>
    have h1 := h.constrainType (ho x rfl) t
    unfold CC.bindTyped
    simp only [h1.empty]
    by_cases he : (a.constrainType x t).empty = true
    · rw [if_pos he, if_pos he]; exact ⟨h1, rfl⟩
    · rw [if_neg he, if_neg he]; exact ⟨h1.bindColumn (ho x rfl) _ _, rfl⟩

theorem Like.withLog (h : Like D a b) : Like D a.withLog b.withLog ∧ b.logAlias = a.logAlias := by
  obtain ⟨K, rfl, hK, hq⟩ := h
  exact ⟨⟨K, rfl, hK, hq⟩, rfl⟩

theorem Like.bindLog (s : Schema) (al : Alias) : ∀ (l : List (Col × Option ValueType × Option Var)) {a b : CC}, Like D a b →
    (∀ p ∈ l, ∀ x, p.2.2 = some x → ¬ D x) → Like D (a.bindLog s al l) (b.bindLog s al l)
  | [], a, b, h, _ => h
  | (c, some t, o) :: r, a, b, h, hl => by
    obtain ⟨h1, e1⟩ := h.bindTyped s (al, c) t (hl (c, some t, o) (by simp))
    unfold CC.bindLog
    simp only [e1]
    split
    · exact Like.bindLog s al r h1 fun p hp => hl p (List.mem_cons_of_mem _ hp)
    · exact h1
  | (c, none, some x) :: r, a, b, h, hl => by
    unfold CC.bindLog
    exact Like.bindLog s al r (h.bindColumn (hl (c, none, some x) (by simp) x rfl) _ _) fun p hp => hl p (List.mem_cons_of_mem _ hp)
  | (c, none, none) :: r, a, b, h, hl => by
    unfold CC.bindLog
    exact Like.bindLog s al r h fun p hp => hl p (List.mem_cons_of_mem _ hp)

theorem txVar_mem {bd : Binding} {x : Var} (h : txVar bd = some x) : some x ∈ bd.vars := by
  unfold txVar at h
  split at h
  · obtain rfl := Option.some.inj h; simp [Binding.vars]
  · obtain rfl := Option.some.inj h; simp [Binding.vars]
  · cases h

theorem Like.applyTxIds (h : Like D a b) (s : Schema) {args : List FnArg} {bd : Binding} (hx : ∀ y ∈ argVars args, ¬ D y)
    (hb : ∀ x, some x ∈ bd.vars → ¬ D x) : LikeR D (a.applyTxIds s args bd) (b.applyTxIds s args bd) := by
  have hx' : ∀ x ∈ args, ∀ y ∈ argVars [x], ¬ D y := fun x hm y hy => hx y (argVars_mem hm hy)
  unfold CC.applyTxIds
  split
  · split
    · exact .err
    split
    · exact .err
    split
    · exact .err
    rename_i x hxv
    split
    · refine (h.resolveRef s (hx' _ (by simp))).bind fun a1 b1 e1 l1 => (l1.resolveRef s (hx' _ (by simp))).bind fun a2 b2 e2 l2 => ?_
      obtain ⟨l3, e3⟩ := l2.withLog
      obtain ⟨l4, e4⟩ := l3.bindTyped s (a2.logAlias, .tx) .ref (o := some x) (fun y hy => by
        obtain rfl := Option.some.inj hy; exact hb _ (txVar_mem hxv))
      simp only [e3, e4]
      exact .ok (.ite ((l4.addWhere _).addWhere _) l4)
    · exact .err
  · exact .err

theorem Like.applyTxData (h : Like D a b) (s : Schema) {args : List FnArg} {bd : Binding} (hx : ∀ y ∈ argVars args, ¬ D y)
    (hb : ∀ x, some x ∈ bd.vars → ¬ D x) : LikeR D (a.applyTxData s args bd) (b.applyTxData s args bd) := by
  have hx' : ∀ x ∈ args, ∀ y ∈ argVars [x], ¬ D y := fun x hm y hy => hx y (argVars_mem hm hy)
  unfold CC.applyTxData
  split
  · split
    · exact .err
    split
    · exact .err
    split
    · rename_i bs _ _
      split
      · exact .err
      split
      · refine (h.resolveRef s (hx' _ (by simp))).bind fun a1 b1 e1 l1 => ?_
        obtain ⟨l3, e3⟩ := l1.withLog
        simp only [e3]
        refine .ok (Like.bindLog s _ _ (l3.addWhere _) ?_)
        have hj : ∀ (i : Nat) x, (bs[i]?).join = some x → ¬ D x := by
          intro i x hi
          refine hb x ?_
          rw [Binding.vars]
          cases hg : bs[i]? with
          | none => rw [hg] at hi; cases hi
          | some o => rw [hg] at hi; simp only [Option.join_some] at hi; rw [hi] at hg; exact List.mem_of_getElem? hg
        intro p hp x hpx
        simp only [List.mem_cons, List.not_mem_nil, or_false] at hp
        rcases hp with rfl | rfl | rfl | rfl | rfl <;> exact hj _ x hpx
      · exact .err
    · exact .err
  · exact .err

theorem Like.bindText (h : Like D a b) (s : Schema) (q : QA) {o : Option Var} (ho : ∀ x, o = some x → ¬ D x) :
    ∀ a' e, a.bindText s q o = .ok (a', e) → ∃ b', b.bindText s q o = .ok (b', e) ∧ Like D a' b' := by
  cases o with
  | none =>
    intro a' e he
    obtain ⟨rfl, rfl⟩ := Prod.mk.inj (Res.ok.inj he)
    exact ⟨b, rfl, h⟩
  | some x =>
    have h1 := h.constrainType (ho x rfl) .string
    unfold CC.bindText
    simp only [h1.empty, h1.vals]
    intro a' e he
    by_cases hem : (a.constrainType x .string).empty = true
    · rw [if_pos hem] at he ⊢
      obtain ⟨rfl, rfl⟩ := Prod.mk.inj (Res.ok.inj he)
      exact ⟨_, rfl, h1⟩
    · rw [if_neg hem] at he ⊢
      cases hv : AMap.get (a.constrainType x .string).vals x with
      | some v => rw [hv] at he; cases he
      | none =>
        rw [hv] at he
        obtain ⟨rfl, rfl⟩ := Prod.mk.inj (Res.ok.inj he)
        exact ⟨_, rfl, h1.bindColumn (ho x rfl) _ _⟩

theorem Like.bindValue (h : Like D a b) {x : Var} (hx : ¬ D x) (v : TypedValue) :
    Like D (a.bindValue x v) (b.bindValue x v) := by
  have h1 := h.constrainType hx v.valueType
  have key : ∀ {c d : CC}, Like D c d →
      Like D
      (let e := match AMap.get c.extracted x with
        | some q => c.addWhere (hasUnitType q.1 v.valueType)
        | none => c
      { e with vals := AMap.insert e.vals x v })
      (let e := match AMap.get d.extracted x with
        | some q => d.addWhere (hasUnitType q.1 v.valueType)
        | none => d
      { e with vals := AMap.insert e.vals x v }) := by
    intro c d h
    rw [h.extracted]
    cases AMap.get c.extracted x with
    | none => obtain ⟨K, rfl, hK, hq⟩ := h; exact ⟨K, rfl, hK, hq⟩
    | some q => obtain ⟨K, rfl, hK, hq⟩ := h; exact ⟨K, rfl, hK, hq⟩
  unfold CC.bindValue
  simp only [h1.colb]
  cases AMap.get (a.constrainType x v.valueType).colb x with
  | none => exact key h1
  | some l =>
    cases l with
    | nil => exact key h1
    | cons q l => exact key (h1.addWhere _)

theorem Like.bindScore (h : Like D a b) {o : Option Var} (ho : ∀ x, o = some x → ¬ D x) :
    LikeR D (a.bindScore o) (b.bindScore o) := by
  cases o with
  | none => exact .ok h
  | some x =>
    have h1 := h.constrainType (ho x rfl) .double
    unfold CC.bindScore
    show LikeR D (if _ then _ else _) (if ((b.constrainType x .double).vals.get x).isSome = true ∨ x ∈ (b.constrainType x .double).inputs then _ else _)
    rw [h1.vals, h1.inputs]
    exact .ite .err (.ok (h1.bindValue (ho x rfl) _))

theorem Like.bindSearch (h : Like D a b) (s : Schema) (text datoms : Alias) {bs : List (Option Var)}
    (hj : ∀ (i : Nat) x, (bs[i]?).join = some x → ¬ D x) : LikeR D (a.bindSearch s text datoms bs) (b.bindSearch s text datoms bs) := by
  obtain ⟨l1, e1⟩ := h.bindTyped s (datoms, .e) .ref (hj 0)
  unfold CC.bindSearch
  simp only [e1]
  split
  · exact .ok l1
  · intro a' ha
    obtain ⟨⟨a2, g⟩, h2, ha⟩ := bind_iff.mp ha
    obtain ⟨b2, g2, l2⟩ := l1.bindText s (text, .text) (hj 1) a2 g h2
    rw [g2]
    simp only [Res.bind] at ha ⊢
    obtain ⟨l3, e3⟩ := l2.bindTyped s (datoms, .tx) .ref (hj 2)
    simp only [e3]
    split at ha
    · rename_i n1
      rw [if_pos n1]
      exact LikeR.ok l2 a' ha
    · rename_i n1
      rw [if_neg n1]
      split at ha
      · rename_i n2
        rw [if_pos n2]
        exact LikeR.ok l3 a' ha
      · rename_i n2
        rw [if_neg n2]
        exact l3.bindScore (hj 3) a' ha

theorem Like.applyFulltext (h : Like D a b) (s : Schema) {args : List FnArg} {bd : Binding} (hx : ∀ y ∈ argVars args, ¬ D y)
    (hb : ∀ x, some x ∈ bd.vars → ¬ D x) : LikeR D (a.applyFulltext s args bd) (b.applyFulltext s args bd) := by
  have hx' : ∀ x ∈ args, ∀ y ∈ argVars [x], ¬ D y := fun x hm y hy => hx y (argVars_mem hm hy)
  unfold CC.applyFulltext
  split
  · rename_i src attr what
    split
    · exact .err
    split
    · exact .err
    split
    · rename_i bs _ _
      split
      · exact .err
      split
      · have hat : b.searchAttribute s attr = a.searchAttribute s attr := by
          cases attr with
          | var x => simp only [CC.searchAttribute, h.vals]
          | _ => rfl
        rw [hat]
        intro a' ha
        obtain ⟨at', h1, ha⟩ := bind_iff.mp ha
        rw [h1]
        simp only [Res.bind]
        cases hs : s.attr at' with
        | none => rw [hs] at ha; cases ha
        | some A =>
          rw [hs] at ha
          simp only at ha ⊢
          split at ha
          · rename_i n1
            rw [if_pos n1]
            exact LikeR.ok h.markEmpty a' ha
          · rename_i n1
            rw [if_neg n1]
            have l1 : Like D (a.withTexts at') (b.withTexts at') ∧ b.textAlias = a.textAlias ∧ b.textDatoms = a.textDatoms := by
              obtain ⟨K, rfl, hK, hq⟩ := h
              exact ⟨⟨K, rfl, hK, hq⟩, rfl, rfl⟩
            obtain ⟨l1, e1, e2⟩ := l1
            have hsa : (b.withTexts at').searchArgument what = (a.withTexts at').searchArgument what := by
              cases what with
              | var x =>
                simp only [CC.searchArgument, l1.vals, l1.inputs, l1.knownType (hx' (.var x) (by simp) x (by simp [argVars])),
                  CC.firstColumn, l1.colb]
              | const c => cases c <;> rfl
              | _ => rfl
            rw [hsa]
            obtain ⟨e, h2, ha⟩ := bind_iff.mp ha
            rw [h2]
            simp only [e1, e2]
            refine Like.bindSearch (l1.addWhere _) s _ _ ?_ a' ha
            intro i x hi
            refine hb x ?_
            rw [Binding.vars]
            cases hg : bs[i]? with
            | none => rw [hg] at hi; cases hi
            | some o => rw [hg] at hi; simp only [Option.join_some] at hi; rw [hi] at hg; exact List.mem_of_getElem? hg
      · exact .err
    · exact .err
  · exact .err

/-! ### Copies, tables, types of arms -/

theorem Like.template (h : Like D a b) {ks : List Var} (hk : ∀ x ∈ ks, ¬ D x) : b.template ks = a.template ks := by
  obtain ⟨K, rfl, rfl, -⟩ := h
  simp only [CC.template, dropKeys_withKeys a.known hk]

theorem withKeys_none {α : Type} {m : AMap Var α} {ks : List Var} {x : Var} (hx : x ∉ ks) : AMap.get (withKeys m ks) x = none := by
  cases h : AMap.get (withKeys m ks) x with
  | none => rfl
  | some v =>
    have := (List.mem_filter.mp (AMap.get_some_mem h)).2
    exact absurd (by simpa using this) hx

theorem template_like (cc : CC) {ks : List Var} (hk : ∀ x ∈ ks, ¬ D x) : Like D (cc.template ks) (cc.template ks) :=
  .refl fun x hx => ⟨withKeys_none fun hm => hk x hm hx, withKeys_none fun hm => hk x hm hx, withKeys_none fun hm => hk x hm hx⟩

theorem Like.receptacle (h : Like D a b) : Like D a.receptacle b.receptacle := by
  obtain ⟨K, rfl, hK, hq⟩ := h
  exact ⟨K, rfl, hK, hq⟩

theorem Like.withCounter (h : Like D a b) (n : Nat) : Like D { a with counter := n } { b with counter := n } := by
  obtain ⟨K, rfl, hK, hq⟩ := h
  exact ⟨K, rfl, hK, hq⟩

theorem Like.firstPass : ∀ (cs : List WhereClause) {a b : CC}, Like D a b →
    (∀ c ∈ cs, (∀ x t, c = .typeAnno x t → ¬ D x) ∧ ∀ p, c = .pattern p → ∀ x ∈ p.vars, ¬ D x) →
    LikeR D (a.firstPass cs) (b.firstPass cs)
  | [], a, b, h, _ => .ok h
  | c :: cs, a, b, h, hc => by
    have hc' := fun d (hd : d ∈ cs) => hc d (List.mem_cons_of_mem _ hd)
    have hx := hc c (by simp)
    cases c with
    | typeAnno x t =>
      rw [CC.firstPass, CC.firstPass]
      cases t with
      | none => exact .err
      | some t =>
        exact Like.firstPass cs (h.addRequirement (hx.1 x _ rfl) _) hc'
    | pattern p =>
      rw [CC.firstPass, CC.firstPass]
      have hm : ∀ {a b : CC} (q : NonValue), (∀ x ∈ q.vars, ¬ D x) → Like D a b → Like D (a.markRef q) (b.markRef q) := by
        intro a b q hq h
        cases q with
        | var x => exact h.constrainType (hq x (by simp [NonValue.vars])) _
        | _ => exact h
      have hv : ∀ x ∈ p.vars, ¬ D x := hx.2 p rfl
      exact Like.firstPass cs (hm p.tx (fun x hx => hv x (by simp [Pattern.vars, hx])) (hm p.a (fun x hx => hv x (by simp [Pattern.vars, hx]))
        (hm p.e (fun x hx => hv x (by simp [Pattern.vars, hx])) h))) hc'
    | _ => simpa only [CC.firstPass] using Like.firstPass cs h hc'

theorem clear_marks {cs : List WhereClause} (h : ∀ c ∈ cs, ∀ x ∈ c.vars, ¬ D x) :
    ∀ c ∈ cs, (∀ x t, c = .typeAnno x t → ¬ D x) ∧ ∀ p, c = .pattern p → ∀ x ∈ p.vars, ¬ D x := by
  refine fun c hc => ⟨?_, ?_⟩
  · rintro x t rfl; exact h _ hc x (by simp [WhereClause.vars])
  · rintro p rfl; simpa [WhereClause.vars] using h _ hc

theorem evolveNonValue_mem {cc : CC} {s : Schema} {p : NonValue} {x : Var} (h : cc.evolveNonValue s p = some (.var x)) : x ∈ p.vars := by
  rw [(evolveNonValue_var h).1]; simp [NonValue.vars]

theorem evolveAttribute_var {cc : CC} {s : Schema} {p : NonValue} {x : Var} {t : Option ValueType}
    (h : cc.evolveAttribute s p = some (.var x, t)) : x ∈ p.vars := by
  unfold CC.evolveAttribute at h
  split at h
  · cases h
  · split at h <;> cases h
  · rename_i q _ hq
    cases h
    exact evolveNonValue_mem hq

theorem evolveValue_var {cc : CC} {s : Schema} {p : PatValue} {x : Var} {t : Option ValueType}
    (h : cc.evolveValue s t p = .ok (some (.var x))) : x ∈ p.vars := by
  cases p with
  | var y =>
    unfold CC.evolveValue at h
    simp only at h
    split at h
    · cases h; simp [PatValue.vars]
    · split at h <;> cases h
    · split at h <;> cases h
  | entidOrInteger i =>
    unfold CC.evolveValue at h
    simp only at h
    split at h <;> cases h
  | identOrKeyword k =>
    unfold CC.evolveValue at h
    simp only at h
    split at h
    · have := Res.ok.inj h
      rw [Option.map_eq_some_iff] at this; obtain ⟨_, _, h⟩ := this; cases h
    · cases h
    · cases h
    · cases h
  | constant c =>
    unfold CC.evolveValue at h
    obtain ⟨v, _, h⟩ := bind_iff.mp h
    cases h
  | placeholder => cases h

/-- The variables of an evolved pattern are those of the pattern. -/
theorem evolved_clear {cc : CC} {s : Schema} {p : Pattern} {q : EPattern} (h : cc.evolvePattern s p = .ok (some q))
    (hp : ∀ x ∈ p.vars, ¬ D x) : EPattern.Clear D q := by
  unfold CC.evolvePattern at h
  cases h1 : cc.evolveNonValue s p.e with
  | none => rw [h1] at h; cases h
  | some e =>
    rw [h1] at h
    simp only at h
    cases h2 : cc.evolveAttribute s p.a with
    | none => rw [h2] at h; cases h
    | some at' =>
      obtain ⟨at', t⟩ := at'
      rw [h2] at h
      simp only at h
      obtain ⟨ov, h3, h⟩ := bind_iff.mp h
      cases ov with
      | none => cases h
      | some v =>
        simp only at h
        cases h4 : cc.evolveNonValue s p.tx with
        | none => rw [h4] at h; cases h
        | some tx =>
          rw [h4] at h
          obtain rfl := Option.some.inj (Res.ok.inj h)
          rintro x (e | e | e | e)
          · exact hp x (by simp only [Pattern.vars, List.mem_append]; simp only at e; subst e; simp [evolveNonValue_mem h1])
          · exact hp x (by simp only [Pattern.vars, List.mem_append]; simp only at e; subst e; simp [evolveAttribute_var h2])
          · exact hp x (by simp only [Pattern.vars, List.mem_append]; simp only at e; subst e; simp [evolveValue_var h3])
          · exact hp x (by simp only [Pattern.vars, List.mem_append]; simp only at e; subst e; simp [evolveNonValue_mem h4])

theorem Like.applyLonePattern (h : Like D a b) {k : Known} (hk : k.cache = none) {p : Pattern} (hp : ∀ x ∈ p.vars, ¬ D x) :
    LikeR D (a.applyLonePattern k p) (b.applyLonePattern k p) := by
  unfold CC.applyLonePattern
  rw [h.evolvePattern k.schema hp]
  refine .bindSame fun o ho => ?_
  cases o with
  | none => exact .ok h.markEmpty
  | some q => exact h.applyPattern hk (evolved_clear ho hp)

theorem broaden_none : ∀ (l : List (Var × TypeSet)) {a c : CC}, (∀ p ∈ l, ¬ D p.1) → (∀ x, D x → AMap.get a.known x = none) →
    a.broadenTypes l = .ok c → ∀ x, D x → AMap.get c.known x = none
  | [], a, c, _, h, e => by obtain rfl := Res.ok.inj e; exact h
  | (y, ts) :: l, a, c, hl, h, e => by
    have hy : ¬ D y := hl (y, ts) (by simp)
    have hl' : ∀ p ∈ l, ¬ D p.1 := fun p hp => hl p (List.mem_cons_of_mem _ hp)
    have key : ∀ u x, D x → AMap.get (AMap.insert a.known y u) x = none := by
      intro u x hx
      rw [AMap.get_insert, if_neg (fun e : y = x => hy (e ▸ hx))]
      exact h x hx
    rw [broadenTypes] at e
    cases hg : AMap.get a.known y with
    | none => rw [hg] at e; exact broaden_none l hl' (key _) e
    | some s =>
      rw [hg] at e
      simp only at e
      split at e
      · cases e
      · exact broaden_none l hl' (key _) e

theorem foldTypes_none : ∀ (l : List CC) {a c : CC}, (∀ d ∈ l, ∀ p ∈ d.known, ¬ D p.1) → (∀ x, D x → AMap.get a.known x = none) →
    foldTypes l a = .ok c → ∀ x, D x → AMap.get c.known x = none
  | [], a, c, _, h, e => by obtain rfl := Res.ok.inj e; exact h
  | d :: l, a, c, hl, h, e => by
    rw [foldTypes] at e
    obtain ⟨a1, h1, e⟩ := bind_iff.mp e
    exact foldTypes_none l (fun d' hd' => hl d' (List.mem_cons_of_mem _ hd')) (broaden_none d.known (hl d (by simp)) h h1) e

theorem keys_of_none {m : AMap Var TypeSet} (h : ∀ x, D x → AMap.get m x = none) : ∀ p ∈ m, ¬ D p.1 := by
  intro p hp hd
  exact AMap.get_eq_none_iff.mp (h p.1 hd) (List.mem_map.mpr ⟨p, hp, rfl⟩)

theorem Like.narrowAll : ∀ (l : List (Var × TypeSet)) {a b : CC}, Like D a b → (∀ p ∈ l, ¬ D p.1) →
    Like D (a.narrowAll l) (b.narrowAll l)
  | [], a, b, h, _ => h
  | (x, ts) :: l, a, b, h, hl =>
    Like.narrowAll l (h.narrowTypes (hl (x, ts) (by simp)) ts) fun p hp => hl p (List.mem_cons_of_mem _ hp)

theorem Like.broadenTypes : ∀ (l : List (Var × TypeSet)) {a b : CC}, Like D a b → (∀ p ∈ l, ¬ D p.1) →
    LikeR D (a.broadenTypes l) (b.broadenTypes l)
  | [], a, b, h, _ => .ok h
  | (x, ts) :: l, a, b, h, hl => by
    have hx : ¬ D x := hl (x, ts) (by simp)
    have hl' : ∀ p ∈ l, ¬ D p.1 := fun p hp => hl p (List.mem_cons_of_mem _ hp)
    obtain ⟨K, rfl, hK, hq⟩ := h
    rw [CC.broadenTypes, CC.broadenTypes]
    simp only [agree_get hK hx]
    cases AMap.get a.known x with
    | none =>
      refine Like.broadenTypes l ⟨_, rfl, agree_insert hK hx _, fun y hy => ⟨?_, (hq y hy).2⟩⟩ hl'
      show AMap.get (if ts.isUnit = true then AMap.erase a.extracted x else a.extracted) y = none
      split
      · rw [AMap.get_erase, (hq y hy).1]; simp
      · exact (hq y hy).1
    | some s =>
      simp only
      refine .ite (fun _ h => by cases h) ?_
      exact Like.broadenTypes l ⟨_, rfl, agree_insert hK hx _, hq⟩ hl'

theorem Like.bindVars (s : Schema) (al : Alias) : ∀ (l : List Var) {a b : CC}, Like D a b → (∀ x ∈ l, ¬ D x) →
    Like D (a.bindVars s al l) (b.bindVars s al l)
  | [], a, b, h, _ => h
  | x :: l, a, b, h, hl => Like.bindVars s al l (h.bindColumn (hl x (by simp)) s _) fun y hy => hl y (List.mem_cons_of_mem _ hy)

theorem foldl_insert_none {α : Type} (f : Var → α) : ∀ (l : List Var) (m : AMap Var α), (∀ x ∈ l, ¬ D x) → ∀ y, D y →
    AMap.get m y = none → AMap.get (l.foldl (fun m x => AMap.insert m x (f x)) m) y = none
  | [], _, _, _, _, h => h
  | x :: l, m, hl, y, hy, h => by
    refine foldl_insert_none f l _ (fun z hz => hl z (List.mem_cons_of_mem _ hz)) y hy ?_
    rw [AMap.get_insert, if_neg (fun e : x = y => hl x (by simp) (e ▸ hy))]
    exact h

theorem unionTypes_keys {m o : AMap Var TypeSet} (hm : ∀ p ∈ m, ¬ D p.1) (ho : ∀ p ∈ o, ¬ D p.1) : ∀ p ∈ unionTypes m o, ¬ D p.1 := by
  intro p hp
  rcases List.mem_append.mp hp with hp | hp
  · obtain ⟨q, hq, rfl⟩ := List.mem_map.mp hp
    exact hm q hq
  · obtain ⟨q, hq, rfl⟩ := List.mem_map.mp hp
    exact ho q (List.mem_filter.mp hq).1

theorem union_keys : ∀ (l : List CC) {m : AMap Var TypeSet}, (∀ p ∈ m, ¬ D p.1) → (∀ d ∈ l, ∀ p ∈ d.known, ¬ D p.1) →
    ∀ p ∈ l.foldl (fun m c => unionTypes m c.known) m, ¬ D p.1
  | [], m, hm, _ => hm
  | d :: l, m, hm, hl => union_keys l (unionTypes_keys hm (hl d (by simp))) fun e he => hl e (List.mem_cons_of_mem _ he)

/-- What is joined when the types are those given. -/
def joinWith (cc : CC) (s : Schema) (projected : List Var) (typeNeeded : List Var) (qs : Res (List Select))
    (additional : AMap Var TypeSet) : Res CC :=
  (cc.broadenTypes additional).bind fun cc1 =>
    let al : Alias := ⟨.computed, cc1.computed.length⟩
    let cc2 := match qs with
      | .ok qs => { cc1 with computed := cc1.computed ++ [STable.union qs al] }
      | _ => { cc1 with computed := cc1.computed ++ [STable.union [] al], panics := true }
    let cc3 := cc2.bindVars s al projected
    let cc4 := { cc3 with
      extracted := typeNeeded.foldl (fun m x => AMap.insert m x (al, .varTag x)) cc3.extracted }
    .ok { cc4 with tables := cc4.tables ++ [al] }

theorem joinArms_eq (cc : CC) (s : Schema) (U : List Var) (first : CC) (rest : List CC) :
    cc.joinArms s U (first :: rest) = cc.joinWith s U (U.filter fun x => (first :: rest).any fun c => (c.knownType x).isNone)
      (armSelects U (U.filter fun x => (first :: rest).any fun c => (c.knownType x).isNone) (first :: rest))
      (rest.foldl (fun m c => unionTypes m c.known) first.known) := rfl

theorem Like.joined {a1 b1 : CC} (h : Like D a1 b1) (s : Schema) {U needed : List Var} (hU : ∀ x ∈ U, ¬ D x) (hn : ∀ x ∈ needed, ¬ D x)
    (qs : Res (List Select)) :
    let r (cc1 : CC) : CC :=
      let al : Alias := ⟨.computed, cc1.computed.length⟩
      let cc2 := match qs with
        | .ok qs => { cc1 with computed := cc1.computed ++ [STable.union qs al] }
        | _ => { cc1 with computed := cc1.computed ++ [STable.union [] al], panics := true }
      let cc3 := cc2.bindVars s al U
      let cc4 := { cc3 with
        extracted := needed.foldl (fun m x => AMap.insert m x (al, .varTag x)) cc3.extracted }
      { cc4 with tables := cc4.tables ++ [al] }
    Like D (r a1) (r b1) := by
  intro r
  simp only [r]
  rw [h.computed]
  have h2 : Like D (match qs with
        | .ok qs => { a1 with computed := a1.computed ++ [STable.union qs ⟨.computed, a1.computed.length⟩] }
        | _ => { a1 with computed := a1.computed ++ [STable.union [] ⟨.computed, a1.computed.length⟩], panics := true })
      (match qs with
        | .ok qs => { b1 with computed := a1.computed ++ [STable.union qs ⟨.computed, a1.computed.length⟩] }
        | _ => { b1 with computed := a1.computed ++ [STable.union [] ⟨.computed, a1.computed.length⟩], panics := true }) := by
    obtain ⟨K, rfl, hK, hq⟩ := h
    cases qs <;> exact ⟨K, rfl, hK, hq⟩
  have h3 := Like.bindVars s ⟨.computed, a1.computed.length⟩ U h2 hU
  obtain ⟨K, e, hK, hq⟩ := h3
  rw [e]
  exact ⟨K, rfl, hK, fun x hx => ⟨foldl_insert_none _ needed _ hn x hx (hq x hx).1, (hq x hx).2⟩⟩

theorem Like.joinArms (h : Like D a b) (s : Schema) {U : List Var} (hU : ∀ x ∈ U, ¬ D x) {acc : List CC}
    (hacc : ∀ c ∈ acc, ∀ p ∈ c.known, ¬ D p.1) : LikeR D (a.joinArms s U acc) (b.joinArms s U acc) := by
  cases acc with
  | nil => exact .ok h.markEmpty
  | cons first rest =>
    rw [joinArms_eq, joinArms_eq]
    unfold joinWith
    exact (Like.broadenTypes _ h (union_keys rest (hacc first (by simp)) fun d hd => hacc d (by simp [hd]))).bind fun a1 b1 h1 =>
      .ok (h1.joined s hU (fun x hx => hU x (List.mem_filter.mp hx).1) _)

/-! ### Simple disjunctions -/

theorem Like.tableForArm (h : Like D a b) (s : Schema) {p : Pattern} (hp : ∀ x ∈ p.vars, ¬ D x) :
    b.tableForArm s p = a.tableForArm s p := by
  unfold CC.tableForArm
  rw [h.evolveAttribute]
  cases a.evolveAttribute s p.a with
  | none => rfl
  | some q =>
    obtain ⟨q, t⟩ := q
    have hv : ∀ x ∈ p.v.vars, ¬ D x := fun x hx => hp x (by simp [Pattern.vars, hx])
    simp only [h.evolveValue s t hv]
    cases h3 : a.evolveValue s t p.v with
    | ok o =>
      cases o with
      | none => rfl
      | some v =>
        simp only [Res.bind]
        rw [h.tableFor s q fun x hx => hv x (evolveValue_var (hx ▸ h3))]
    | err e => rfl
    | panic => rfl

theorem Like.deconstruct (h : Like D a b) (s : Schema) : ∀ (arms : List OrClause) (pats : List Pattern) (tbl : Option DTable)
    (mask : List Bool), (∀ x ∈ OrClause.varsAll arms, ¬ D x) → b.deconstruct s pats tbl mask arms = a.deconstruct s pats tbl mask arms
  | [], _, _, _, _ => rfl
  | .clause (.pattern p) :: arms, pats, tbl, mask, hx => by
    have hp : ∀ x ∈ p.vars, ¬ D x := fun x hm => hx x (by simp [OrClause.varsAll, OrClause.vars, WhereClause.vars, hm])
    have hr : ∀ x ∈ OrClause.varsAll arms, ¬ D x := fun x hm => hx x (by simp [OrClause.varsAll, hm])
    rw [CC.deconstruct.eq_def b, CC.deconstruct.eq_def a]; simp only; rw [h.tableForArm s hp]
    congr 1
    funext ot
    cases ot with
    | none => exact h.deconstruct s arms _ _ _ hr
    | some t => simp only [h.deconstruct s arms _ _ _ hr]
  | .clause (.pred _ _) :: arms, pats, tbl, mask, hx => by simp [CC.deconstruct]
  | .clause (.whereFn _ _ _) :: arms, pats, tbl, mask, hx => by simp [CC.deconstruct]
  | .clause (.or _ _) :: arms, pats, tbl, mask, hx => by simp [CC.deconstruct]
  | .clause (.not _ _) :: arms, pats, tbl, mask, hx => by simp [CC.deconstruct]
  | .clause (.typeAnno _ _) :: arms, pats, tbl, mask, hx => by simp [CC.deconstruct]
  | .and _ :: arms, pats, tbl, mask, hx => by simp [CC.deconstruct]

theorem Like.evolveAll (h : Like D a b) (s : Schema) : ∀ (ps : List Pattern), (∀ p ∈ ps, ∀ x ∈ p.vars, ¬ D x) →
    b.evolveAll s ps = a.evolveAll s ps
  | [], _ => rfl
  | p :: ps, hp => by
    rw [CC.evolveAll, CC.evolveAll, h.evolvePattern s (hp p (by simp)), h.evolveAll s ps fun q hq => hp q (List.mem_cons_of_mem _ hq)]

theorem evolveAll_clear {cc : CC} {s : Schema} : ∀ (ps : List Pattern) {eps : List EPattern}, (∀ p ∈ ps, ∀ x ∈ p.vars, ¬ D x) →
    cc.evolveAll s ps = .ok eps → ∀ q ∈ eps, EPattern.Clear D q
  | [], eps, _, h => by obtain rfl := Res.ok.inj h; simp
  | p :: ps, eps, hp, h => by
    rw [CC.evolveAll] at h
    obtain ⟨o, h1, h⟩ := bind_iff.mp h
    obtain ⟨r, h2, h⟩ := bind_iff.mp h
    have ih := evolveAll_clear ps (fun q hq => hp q (List.mem_cons_of_mem _ hq)) h2
    obtain rfl := Res.ok.inj h
    cases o with
    | none => exact ih
    | some q =>
      intro q' hq'
      rcases List.mem_cons.mp hq' with rfl | hq'
      · exact evolved_clear h1 (hp p (by simp))
      · exact ih q' hq'

theorem Like.applySimpleOr (h : Like D a b) (s : Schema) {ps : List Pattern} (hp : ∀ p ∈ ps, ∀ x ∈ p.vars, ¬ D x) {ks : List Var}
    (hk : ∀ x ∈ ks, ¬ D x) : LikeR D (a.applySimpleOr s ps ks) (b.applySimpleOr s ps ks) := by
  unfold CC.applySimpleOr
  rw [h.empty, h.evolveAll s ps hp, h.template hk, h.counter]
  refine .ite (.ok h) (.bindSame fun eps heps => ?_)
  have hc := evolveAll_clear ps hp heps
  cases eps with
  | nil => intro _ h; cases h
  | cons p eps =>
    simp only
    rw [h.tableFor s p.a fun x hx => hc p (by simp) x (.inr (.inr (.inl hx)))]
    cases a.tableFor s p.a p.v with
    | none => intro _ h; cases h
    | some t =>
      simp only
      have h1 : Like D { a with counter := a.counter + 1 } { b with counter := a.counter + 1 } := h.withCounter _
      have hs : ∀ c ∈ simpleArms (a.template ks) s ⟨t, a.counter⟩ (p :: eps), ∀ q ∈ c.known, ¬ D q.1 := by
        intro c hm
        obtain ⟨e, he, rfl⟩ := List.mem_map.mp (List.mem_filter.mp hm).1
        exact keys_of_none fun x hx => ((template_like a hk).receptacle.applyForAlias s (hc e he) _).clean hx
      generalize simpleArms (a.template ks) s ⟨t, a.counter⟩ (p :: eps) = arms at hs ⊢
      cases arms with
      | nil => exact .ok h1.markEmpty
      | cons first rest =>
        simp only
        refine .bindSame fun folded hf => .ok ?_
        refine Like.narrowAll _ ?_ (keys_of_none (foldTypes_none _ hs (fun x _ => rfl) hf))
        obtain ⟨K, rfl, hK, hq⟩ := h
        exact ⟨K, rfl, hK, hq⟩

theorem deconstruct_vars {cc : CC} {s : Schema} : ∀ (arms : List OrClause) (pats : List Pattern) (tbl : Option DTable) (mask : List Bool)
    {sh : OrShape}, (∀ x ∈ OrClause.varsAll arms, ¬ D x) → (∀ p ∈ pats, ∀ x ∈ p.vars, ¬ D x) →
    cc.deconstruct s pats tbl mask arms = .ok sh →
    (∀ p, sh = .unit p → ∀ x ∈ p.vars, ¬ D x) ∧ ∀ ps, sh = .simple ps → ∀ p ∈ ps, ∀ x ∈ p.vars, ¬ D x
  | [], pats, _, _, sh, _, hp, h => by
    match pats, hp, h with
    | [], _, h => obtain rfl := Res.ok.inj h; exact ⟨fun _ h => (nomatch h), fun _ h => nomatch h⟩
    | [p], hp, h => obtain rfl := Res.ok.inj h; exact ⟨fun _ h => (by cases h; exact hp _ (by simp)), fun _ h => nomatch h⟩
    | _ :: _ :: _, hp, h => obtain rfl := Res.ok.inj h; exact ⟨fun _ h => (nomatch h), fun _ h => (by cases h; exact hp)⟩
  | .clause (.pattern p) :: arms, pats, tbl, mask, sh, hx, hp, h => by
    have hv : ∀ x ∈ p.vars, ¬ D x := fun x hm => hx x (by simp [OrClause.varsAll, OrClause.vars, WhereClause.vars, hm])
    have hr : ∀ x ∈ OrClause.varsAll arms, ¬ D x := fun x hm => hx x (by simp [OrClause.varsAll, hm])
    rw [CC.deconstruct.eq_def] at h; simp only at h
    obtain ⟨ot, _, h⟩ := bind_iff.mp h
    cases ot with
    | none => exact deconstruct_vars arms _ _ _ hr hp h
    | some t =>
      have hp' : ∀ q ∈ pats ++ [p], ∀ x ∈ q.vars, ¬ D x := by
        intro q hq
        rcases List.mem_append.mp hq with hq | hq
        · exact hp q hq
        · obtain rfl := List.mem_singleton.mp hq
          exact hv
      simp only at h
      generalize (_ && _ : Bool) = same at h
      cases same with
      | true => exact deconstruct_vars arms _ _ _ hr hp' h
      | false =>
        obtain rfl := Res.ok.inj h
        exact ⟨fun _ h => (nomatch h), fun _ h => nomatch h⟩
  | .clause (.pred _ _) :: arms, pats, tbl, mask, sh, _, _, h => by
    simp only [CC.deconstruct] at h; obtain rfl := Res.ok.inj h; exact ⟨fun _ h => (nomatch h), fun _ h => nomatch h⟩
  | .clause (.whereFn _ _ _) :: arms, pats, tbl, mask, sh, _, _, h => by
    simp only [CC.deconstruct] at h; obtain rfl := Res.ok.inj h; exact ⟨fun _ h => (nomatch h), fun _ h => nomatch h⟩
  | .clause (.or _ _) :: arms, pats, tbl, mask, sh, _, _, h => by
    simp only [CC.deconstruct] at h; obtain rfl := Res.ok.inj h; exact ⟨fun _ h => (nomatch h), fun _ h => nomatch h⟩
  | .clause (.not _ _) :: arms, pats, tbl, mask, sh, _, _, h => by
    simp only [CC.deconstruct] at h; obtain rfl := Res.ok.inj h; exact ⟨fun _ h => (nomatch h), fun _ h => nomatch h⟩
  | .clause (.typeAnno _ _) :: arms, pats, tbl, mask, sh, _, _, h => by
    simp only [CC.deconstruct] at h; obtain rfl := Res.ok.inj h; exact ⟨fun _ h => (nomatch h), fun _ h => nomatch h⟩
  | .and _ :: arms, pats, tbl, mask, sh, _, _, h => by
    simp only [CC.deconstruct] at h; obtain rfl := Res.ok.inj h; exact ⟨fun _ h => (nomatch h), fun _ h => nomatch h⟩

/-! ### Negations and finishing -/

theorem Like.notBindings (h : Like D a b) : ∀ (xs : List Var) (t : CC), b.notBindings t xs = a.notBindings t xs
  | [], _ => rfl
  | x :: xs, t => by
    simp only [CC.notBindings, h.vals, h.colb, h.notBindings xs]

theorem Like.joinNot (h : Like D a b) (t : CC) : LikeR D (a.joinNot t) (b.joinNot t) := by
  have h1 := h.withCounter t.counter
  unfold CC.joinNot
  refine .ite (.ok h1) (.bindSame fun t' _ => .ite (.ok h1) (.ite (.ok h1) ?_))
  cases t'.toSelect [] false [] none with
  | ok q => exact .ok (h1.addWhere _)
  | err e => obtain ⟨K, rfl, hK, hq⟩ := h; exact .ok ⟨K, rfl, hK, hq⟩
  | panic => obtain ⟨K, rfl, hK, hq⟩ := h; exact .ok ⟨K, rfl, hK, hq⟩

theorem Like.expand (h : Like D a b) : Like D a.expand b.expand := by
  obtain ⟨K, rfl, hK, hq⟩ := h
  exact ⟨K, rfl, hK, hq⟩

theorem Like.prune (h : Like D a b) : Like D a.prune b.prune := by
  obtain ⟨K, rfl, hK, hq⟩ := h
  have : ({ a with known := K } : CC).prune = { a.prune with known := K } := by
    unfold CC.prune
    congr 1
    refine List.filter_congr fun p hp => ?_
    simp only
    rw [agree_get hK fun hd => AMap.get_eq_none_iff.mp (hq p.1 hd).1 (List.mem_map.mpr ⟨p, hp, rfl⟩)]
  rw [this]
  refine ⟨K, rfl, hK, fun x hx => ⟨?_, (hq x hx).2⟩⟩
  have := (hq x hx).1
  rw [AMap.get_eq_none_iff] at this ⊢
  intro hm
  obtain ⟨p, hp, rfl⟩ := List.mem_map.mp hm
  exact this (List.mem_map.mpr ⟨p, (List.mem_filter.mp hp).1, rfl⟩)

theorem Like.processLoop : ∀ (l : List (Var × TypeSet)) {a b : CC}, Like D a b → (∀ p ∈ l, ¬ D p.1) →
    LikeR D (a.processLoop l) (b.processLoop l)
  | [], a, b, h, _ => .ok h
  | (x, ts) :: l, a, b, h, hl => by
    have hx : ¬ D x := hl (x, ts) (by simp)
    have hl' : ∀ p ∈ l, ¬ D p.1 := fun p hp => hl p (List.mem_cons_of_mem _ hp)
    have hn := h.narrowTypes hx ts
    have go : LikeR D (match AMap.get (a.narrowTypes x ts).extracted x with
        | none => .err .unboundVariable
        | some q => CC.processLoop ((a.narrowTypes x ts).addWhere (hasTypes q.1 ts true)) l)
      (match AMap.get (b.narrowTypes x ts).extracted x with
        | none => .err .unboundVariable
        | some q => CC.processLoop ((b.narrowTypes x ts).addWhere (hasTypes q.1 ts true)) l) := by
      rw [hn.extracted]
      cases AMap.get (a.narrowTypes x ts).extracted x with
      | none => exact .err
      | some q => exact Like.processLoop l (hn.addWhere _) hl'
    have hg : AMap.get b.known x = AMap.get a.known x := by
      obtain ⟨K, rfl, hK, -⟩ := h
      exact agree_get hK hx
    rw [CC.processLoop, CC.processLoop, hg]
    cases AMap.get a.known x with
    | none => exact go
    | some s => exact .ite (.ok h.markEmpty) (.ite (Like.processLoop l h hl') go)

theorem mem_insertVar {α : Type} {p q : Var × α} : ∀ {l : List (Var × α)}, q ∈ insertVar p l → q = p ∨ q ∈ l
  | [], h => by simpa [insertVar] using h
  | r :: l, h => by
    rw [insertVar] at h
    split at h
    · rcases List.mem_cons.mp h with h | h
      · exact .inr (by simp [h])
      · rcases mem_insertVar h with h | h
        · exact .inl h
        · exact .inr (by simp [h])
    · simpa using h

theorem mem_sortVars' {α : Type} {q : Var × α} : ∀ {l : List (Var × α)}, q ∈ sortVars l → q ∈ l
  | [], h => h
  | r :: l, h => by
    rcases mem_insertVar (l := sortVars l) h with h | h
    · simp [h]
    · exact List.mem_cons_of_mem _ (mem_sortVars' h)

theorem Like.finish (h : Like D a b) : LikeR D a.finish b.finish := by
  have h1 := h.expand.prune
  unfold CC.finish CC.processRequired
  rw [h1.empty, h1.required]
  refine .ite (.ok h1) (Like.processLoop _ h1 ?_)
  intro p hp hd
  have := mem_sortVars' hp
  obtain ⟨K, -, hK, hq⟩ := h1
  exact AMap.get_eq_none_iff.mp (hq p.1 hd).2 (List.mem_map.mpr ⟨p, this, rfl⟩)

/-! ### Clauses -/

theorem runPattern_clear {cc : CC} {s : Schema} {p : Pattern} {q : EPattern} {pending : List EPattern}
    (h : cc.evolvePattern s p = .ok (some q)) (hp : ∀ x ∈ p.vars, ¬ D x) (hq : ∀ q ∈ pending, EPattern.Clear D q) :
    ∀ q' ∈ pending ++ [q], EPattern.Clear D q' := by
  intro q' hm
  rcases List.mem_append.mp hm with hm | hm
  · exact hq q' hm
  · obtain rfl := List.mem_singleton.mp hm
    exact evolved_clear h hp

mutual
/-- A clause that names none of the variables goes on as it would without the types known of them. -/
theorem Like.applyClause {k : Known} (hk : k.cache = none) {s : Schema} {L : Var → Prop} : ∀ (c : WhereClause)
    {vals : Var → Option TypedValue} {a b : CC}, c.Simple s L vals → (∀ x ∈ c.vars, ¬ D x) → Like D a b →
    LikeR D (applyClause k a c) (applyClause k b c)
  | .pattern p, vals, a, b, hs, hx, h => by
    rw [CC.applyClause, CC.applyClause]
    exact h.applyLonePattern hk (by simpa [WhereClause.vars] using hx)
  | .pred op args, vals, a, b, hs, hx, h => by
    cases op with
    | none => rw [CC.applyClause]; exact .err
    | some op =>
      rw [CC.applyClause, CC.applyClause]
      exact h.applyInequality k.schema op (by simpa [WhereClause.vars] using hx)
  | .typeAnno x t, vals, a, b, hs, hx, h => by
    rw [CC.applyClause, CC.applyClause]
    cases t with
    | none => exact .err
    | some t => exact .ok (h.addRequirement (hx x (by simp [WhereClause.vars])) _)
  | .whereFn f args bd, vals, a, b, hs, hx, h => by
    rw [CC.applyClause, CC.applyClause]
    have h1 : ∀ y ∈ argVars args, ¬ D y := fun y hy => hx y (by simp [WhereClause.vars, hy])
    have h2 : ∀ x, some x ∈ bd.vars → ¬ D x := fun x hm => hx x (by simp [WhereClause.vars, hm])
    cases f with
    | fulltext => exact h.applyFulltext k.schema h1 h2
    | txIds => exact h.applyTxIds k.schema h1 h2
    | txData => exact h.applyTxData k.schema h1 h2
    | ground => simp [WhereClause.Simple] at hs
    | other => exact .err
  | .not unify cs, vals, a, b, hs, hx, h => by
    rw [CC.applyClause.eq_def, CC.applyClause.eq_def]; simp only
    by_cases hval : (!validateNot unify cs) = true
    · rw [if_pos hval]; exact .err
    rw [if_neg hval, if_neg hval]
    rw [WhereClause.vars] at hx
    cases unify with
    | none =>
      simp only [h.template (ks := dedup (WhereClause.varsAll cs)) fun x hm => hx x (mem_dedup.mp hm), h.notBindings]
      exact .bindSame fun t _ => .bindSame fun t0 _ => .bindSame fun t1 _ => h.joinNot t1
    | some vs =>
      have : varsSubset vs (WhereClause.varsAll cs) = true := by simpa [validateNot] using hval
      simp only [h.template (ks := dedup vs) fun x hm => hx x (by simpa using List.all_eq_true.mp this x (mem_dedup.mp hm)), h.notBindings]
      exact .bindSame fun t _ => .bindSame fun t0 _ => .bindSame fun t1 _ => h.joinNot t1
  | .or unify [], vals, a, b, hs, hx, h => by
    rw [WhereClause.Simple] at hs
    exact absurd rfl hs.1
  | .or unify [arm], vals, a, b, hs, hx, h => by
    rw [WhereClause.Simple] at hs
    obtain ⟨-, hf, -, -, hs⟩ := hs
    rw [OrClause.SimpleAll] at hs
    rw [CC.applyClause.eq_def, CC.applyClause.eq_def]
    simp only [hf, if_true]
    exact .ite .err (Like.applyOrClause hk arm hs.1 (fun x hm => hx x (by simp [WhereClause.vars, OrClause.varsAll, hm])) h)
  | .or unify (a1 :: a2 :: arms), vals, a, b, hs, hx, h => by
    have hv : ∀ x ∈ OrClause.varsAll (a1 :: a2 :: arms), ¬ D x := by simpa [WhereClause.vars] using hx
    rw [WhereClause.Simple] at hs
    obtain ⟨-, hf, -, -, hs⟩ := hs
    have ih := fun {tmpl : CC} (ht : Like D tmpl tmpl) {n mask r} => @Like.applyArms k hk s L (a1 :: a2 :: arms) vals hs hv tmpl ht n mask r
    rw [CC.applyClause.eq_def, CC.applyClause.eq_def]
    simp only [hf, if_true, h.deconstruct k.schema (a1 :: a2 :: arms) [] none [] hv, h.counter]
    refine .ite .err (.bindSame fun shape hsh => ?_)
    obtain ⟨d1, d2⟩ := deconstruct_vars (a1 :: a2 :: arms) [] none [] hv (by simp) hsh
    cases shape with
    | empty => exact .ok h.markEmpty
    | unit p => exact h.applyLonePattern hk (d1 p rfl)
    | simple ps => exact h.applySimpleOr k.schema (d2 ps rfl) fun x hm => hv x (mem_dedup.mp hm)
    | complex mask =>
      have hp : ∀ x ∈ dedup (OrClause.varsAll ((((a1 :: a2 :: arms).zip mask).filter (·.2)).map (·.1))), ¬ D x := by
        intro x hm
        rw [mem_dedup] at hm
        obtain ⟨arm, h1, h2⟩ := mem_orVarsAll.mp hm
        exact hv x (mem_orVarsAll.mpr ⟨arm, mem_keptArms h1, h2⟩)
      simp only [h.template hp]
      refine .bindSame fun r hr => ?_
      refine (h.withCounter r.2).joinArms k.schema hp fun c hc => ?_
      exact keys_of_none fun x hx' => (ih (template_like a hp) hr c hc).clean hx'
theorem Like.applyRun {k : Known} (hk : k.cache = none) {s : Schema} {L : Var → Prop} : ∀ (cs : List WhereClause)
    {vals : Var → Option TypedValue} {a b : CC} (pending : List EPattern), WhereClause.SimpleAll s L vals cs →
    (∀ x ∈ WhereClause.varsAll cs, ¬ D x) → (∀ q ∈ pending, EPattern.Clear D q) → Like D a b →
    LikeR D (applyRun k a pending cs) (applyRun k b pending cs)
  | [], vals, a, b, pending, hs, hx, hq, h => by
    rw [CC.applyRun, CC.applyRun]
    exact Like.applyEvolved hk pending h hq
  | c :: cs, vals, a, b, pending, hs, hx, hq, h => by
    rw [WhereClause.SimpleAll] at hs
    have hx1 : ∀ x ∈ c.vars, ¬ D x := fun x hm => hx x (by simp [WhereClause.varsAll, hm])
    have hx2 : ∀ x ∈ WhereClause.varsAll cs, ¬ D x := fun x hm => hx x (by simp [WhereClause.varsAll, hm])
    have i1 := fun {a b : CC} (h : Like D a b) => Like.applyClause hk c hs.1 hx1 h
    have i2 := fun {a b : CC} (h : Like D a b) pending hq => Like.applyRun hk cs (a := a) (b := b) pending hs.2 hx2 hq h
    cases c with
    | typeAnno x t => rw [CC.applyRun, CC.applyRun]; exact i2 h pending hq
    | pattern p =>
      have hp : ∀ x ∈ p.vars, ¬ D x := by simpa [WhereClause.vars] using hx1
      rw [CC.applyRun, CC.applyRun, h.evolvePattern k.schema hp]
      refine .bindSame fun o ho => ?_
      cases o with
      | none => exact .ok h.markEmpty
      | some q => exact i2 h _ (runPattern_clear ho hp hq)
    | _ =>
      rw [applyRun_other (by simp) (by simp [WhereClause.IsAnno]), applyRun_other (by simp) (by simp [WhereClause.IsAnno])]
      exact (Like.applyEvolved hk pending h hq).bind fun a1 b1 h1 => (i1 h1).bind fun a2 b2 h2 => i2 h2 [] (by simp)
theorem Like.applyOrClause {k : Known} (hk : k.cache = none) {s : Schema} {L : Var → Prop} : ∀ (arm : OrClause)
    {vals : Var → Option TypedValue} {a b : CC}, arm.Simple s L vals → (∀ x ∈ arm.vars, ¬ D x) → Like D a b →
    LikeR D (applyOrClause k a arm) (applyOrClause k b arm)
  | .clause c, vals, a, b, hs, hx, h => by
    rw [OrClause.Simple] at hs
    rw [OrClause.vars] at hx
    rw [CC.applyOrClause, CC.applyOrClause]
    exact Like.applyClause hk c hs hx h
  | .and cs, vals, a, b, hs, hx, h => by
    rw [OrClause.Simple] at hs
    rw [OrClause.vars] at hx
    rw [CC.applyOrClause, CC.applyOrClause]
    exact (Like.firstPass cs h (clear_marks fun c hc x hm => hx x (mem_varsAll.mpr ⟨c, hc, hm⟩))).bind fun a1 b1 h1 =>
      Like.applyRun hk cs [] hs hx (by simp) h1
theorem Like.applyArms {k : Known} (hk : k.cache = none) {s : Schema} {L : Var → Prop} : ∀ (arms : List OrClause)
    {vals : Var → Option TypedValue}, OrClause.SimpleAll s L vals arms → (∀ x ∈ OrClause.varsAll arms, ¬ D x) →
    ∀ {tmpl : CC}, Like D tmpl tmpl → ∀ {n : Nat} {mask : List Bool} {r : List CC × Nat},
    applyArms k tmpl n mask arms = .ok r → ∀ c ∈ r.1, Like D c c
  | [], vals, hs, hx, tmpl, ht, n, mask, r, hr => by
    rw [CC.applyArms] at hr
    obtain rfl := Res.ok.inj hr
    simp
  | arm :: arms, vals, hs, hx, tmpl, ht, n, mask, r, hr => by
    rw [OrClause.SimpleAll] at hs
    have hx1 : ∀ x ∈ arm.vars, ¬ D x := fun x hm => hx x (by simp [OrClause.varsAll, hm])
    have hx2 : ∀ x ∈ OrClause.varsAll arms, ¬ D x := fun x hm => hx x (by simp [OrClause.varsAll, hm])
    have i1 := Like.applyOrClause hk arm hs.1 hx1 (ht.receptacle.withCounter n)
    have i2 := fun {n mask r} => @Like.applyArms k hk s L arms vals hs.2 hx2 tmpl ht n mask r
    rw [CC.applyArms] at hr
    split at hr
    · obtain ⟨c, h1, hr⟩ := bind_iff.mp hr
      obtain ⟨c', h1', l1⟩ := i1 c h1
      obtain rfl := Res.ok.inj (h1.symm.trans h1')
      split at hr
      · exact i2 hr
      · obtain ⟨d, h2, hr⟩ := bind_iff.mp hr
        obtain ⟨d', h2', l2⟩ := l1.finish d h2
        obtain rfl := Res.ok.inj (h2.symm.trans h2')
        obtain ⟨r', h3, hr⟩ := bind_iff.mp hr
        obtain rfl := Res.ok.inj hr
        intro c' hc'
        rcases List.mem_cons.mp hc' with rfl | hc'
        · exact l2
        · exact i2 h3 c' hc'
    · exact i2 hr
end

end
end CC
end Mentat
