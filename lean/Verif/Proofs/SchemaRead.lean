import Verif.Proofs.AttrMaps
import Verif.Proofs.IdentMaps
/-
What opening a store reads back as the schema, and the invariant that makes it the schema in memory.
-/
namespace Mentat

/-! ### Attributes as described by datoms -/

theorem built_unique {D : Entid → TypedValue → Prop} {a a' : Attribute}
    (hf : ∀ v v', D DB_VALUE_TYPE v → D DB_VALUE_TYPE v' → v = v') (h : Built D a) (h' : Built D a') : a = a' := by
  have key : ∀ {α : Type} (A : Entid) (d : TypedValue → Option α) (x y z : α),
      (∀ v, D A v → d v = some x) → ((∀ v, ¬ D A v) → x = z) →
      (∀ v, D A v → d v = some y) → ((∀ v, ¬ D A v) → y = z) → x = y := by
    intro α A d x y z h1 h2 h3 h4
    by_cases hv : ∃ v, D A v
    · obtain ⟨v, hv⟩ := hv
      exact Option.some.inj ((h1 v hv).symm.trans (h3 v hv))
    · rw [h2 (not_exists.1 hv), h4 (not_exists.1 hv)]
  have e1 : a.valueType = a'.valueType := by
    obtain ⟨v, hv, hd⟩ := h.valueType
    obtain ⟨v', hv', hd'⟩ := h'.valueType
    rw [hf v' v hv' hv, hd] at hd'
    exact Option.some.inj hd'
  have e2 := key DB_CARDINALITY _ _ _ _ h.multival h.multival' h'.multival h'.multival'
  have e3 : a.unique = a'.unique := by
    by_cases hv : ∃ v, D DB_UNIQUE v
    · obtain ⟨v, hv⟩ := hv
      exact (h.unique v hv).1.symm.trans (h'.unique v hv).1
    · rw [h.unique' (not_exists.1 hv), h'.unique' (not_exists.1 hv)]
  have e4 := key DB_INDEX _ _ _ _ h.index h.index' h'.index h'.index'
  have e5 := key DB_FULLTEXT _ _ _ _ h.fulltext h.fulltext' h'.fulltext h'.fulltext'
  have e6 := key DB_IS_COMPONENT _ _ _ _ h.component h.component' h'.component h'.component'
  have e7 : a.noHistory = a'.noHistory := h.noHistory.trans h'.noHistory.symm
  clear key h h'
  cases a; cases a'
  simp only at e1 e2 e3 e4 e5 e6 e7
  subst e1 e2 e3 e4 e5 e6 e7
  rfl

theorem built_exists {D : Entid → TypedValue → Prop} (hd : ∀ a v, a ∈ schemaList → D a v → Decodable_ a v)
    (hf : ∀ a v v', a ∈ schemaList → D a v → D a v' → v = v') (hv : ∃ v, D DB_VALUE_TYPE v) : ∃ at_, Built D at_ := by
  have key : ∀ {α : Type} (A : Entid) (d : TypedValue → Option α) (z : α), A ∈ schemaList →
      (∀ v, D A v → (d v).isSome = true) →
      ∃ x, (∀ v, D A v → d v = some x) ∧ ((∀ v, ¬ D A v) → x = z) := by
    intro α A d z hA h1
    by_cases hv : ∃ v, D A v
    · obtain ⟨v, hv⟩ := hv
      obtain ⟨x, hx⟩ := Option.isSome_iff_exists.1 (h1 v hv)
      exact ⟨x, fun v' hv' => by rw [hf A v' v hA hv' hv, hx], fun hn => absurd hv (hn v)⟩
    · exact ⟨z, fun v h => absurd ⟨v, h⟩ hv, fun _ => rfl⟩
  obtain ⟨vt, hvt⟩ := hv
  obtain ⟨t, ht⟩ := Option.isSome_iff_exists.1 ((hd _ _ (by decide) hvt).valueType rfl)
  obtain ⟨mv, m1, m2⟩ := key DB_CARDINALITY decodeCardinality false (by decide)
    fun v h => (hd _ _ (by decide) h).multival rfl
  obtain ⟨un, u1, u2⟩ := key DB_UNIQUE (fun v => (decodeUnique v).map some) none (by decide)
    fun v h => by simpa using (hd _ _ (by decide) h).unique rfl
  obtain ⟨ix, i1, i2⟩ := key DB_INDEX decodeBool false (by decide)
    fun v h => (hd _ _ (by decide) h).bool (Or.inl rfl)
  obtain ⟨ft, f1, f2⟩ := key DB_FULLTEXT decodeBool false (by decide)
    fun v h => (hd _ _ (by decide) h).bool (Or.inr (Or.inl rfl))
  obtain ⟨co, c1, c2⟩ := key DB_IS_COMPONENT decodeBool false (by decide)
    fun v h => (hd _ _ (by decide) h).bool (Or.inr (Or.inr rfl))
  refine ⟨{ valueType := t, multival := mv, unique := un, index := ix, fulltext := ft,
            component := co, noHistory := false },
    ⟨vt, hvt, ht⟩, m1, m2, ?_, u2, i1, i2, f1, f2, c1, c2, rfl⟩
  intro v h
  have := u1 v h
  cases hx : decodeUnique v with
  | none => rw [hx] at this; cases this
  | some u => rw [hx] at this; simp only [Option.map_some, Option.some.injEq] at this; rw [← this]; exact ⟨rfl, rfl⟩

theorem Built.congr {D D' : Entid → TypedValue → Prop} {at_ : Attribute}
    (h : ∀ a v, a ∈ schemaList → (D a v ↔ D' a v)) (hb : Built D at_) : Built D' at_ := by
  have c1 := fun v => h DB_VALUE_TYPE v (by decide)
  have c2 := fun v => h DB_CARDINALITY v (by decide)
  have c3 := fun v => h DB_UNIQUE v (by decide)
  have c4 := fun v => h DB_INDEX v (by decide)
  have c5 := fun v => h DB_FULLTEXT v (by decide)
  have c6 := fun v => h DB_IS_COMPONENT v (by decide)
  obtain ⟨v, hv, hd⟩ := hb.valueType
  exact ⟨⟨v, (c1 v).1 hv, hd⟩, fun v hv => hb.multival v ((c2 v).2 hv),
    fun hn => hb.multival' fun v hv => hn v ((c2 v).1 hv), fun v hv => hb.unique v ((c3 v).2 hv),
    fun hn => hb.unique' fun v hv => hn v ((c3 v).1 hv), fun v hv => hb.index v ((c4 v).2 hv),
    fun hn => hb.index' fun v hv => hn v ((c4 v).1 hv), fun v hv => hb.fulltext v ((c5 v).2 hv),
    fun hn => hb.fulltext' fun v hv => hn v ((c5 v).1 hv), fun v hv => hb.component v ((c6 v).2 hv),
    fun hn => hb.component' fun v hv => hn v ((c6 v).1 hv), hb.noHistory⟩

/-! ### Reading the tables back -/

theorem readIdentMap_ok {l : List (Entid × TypedValue)} {m : AMap Keyword Entid}
    (hk : ∀ e v, (e, v) ∈ l → ∃ k, v = .keyword k)
    (hu : ∀ k e e', (e, .keyword k) ∈ l → (e', .keyword k) ∈ l → e = e')
    (hm : ∀ k e e', AMap.get m k = some e → (e', .keyword k) ∈ l → e = e') (hw : AMap.WF m) :
    ∃ m', readIdentMap l m = .ok m' ∧ AMap.WF m' ∧
      ∀ k e, AMap.get m' k = some e ↔ (e, .keyword k) ∈ l ∨ AMap.get m k = some e := by
  induction l generalizing m with
  | nil => exact ⟨m, rfl, hw, by simp⟩
  | cons p r ih =>
    obtain ⟨e0, v⟩ := p
    obtain ⟨k0, rfl⟩ := hk e0 v (by simp)
    obtain ⟨m', h1, hw', h2⟩ := ih (m := AMap.insert m k0 e0) (fun e v h => hk e v (by simp [h]))
      (fun k e e' h h' => hu k e e' (by simp [h]) (by simp [h']))
      (by
        intro k e e' hg h'
        by_cases hkk : k0 = k
        · subst hkk
          rw [AMap.get_insert_self, Option.some.injEq] at hg
          subst hg
          exact hu k0 e0 e' (by simp) (by simp [h'])
        · rw [AMap.get_insert_ne _ _ hkk] at hg
          exact hm k e e' hg (by simp [h']))
      (AMap.wf_insert hw _ _)
    refine ⟨m', h1, hw', fun k e => ?_⟩
    rw [h2]
    by_cases hkk : k0 = k
    · subst hkk
      rw [AMap.get_insert_self]
      constructor
      · rintro (h | h)
        · exact Or.inl (by simp [h])
        · cases h; exact Or.inl (by simp)
      · rintro (h | h)
        · simp only [List.mem_cons, Prod.mk.injEq, and_true] at h
          rcases h with rfl | h
          · exact Or.inr rfl
          · exact Or.inl h
        · have := hm k0 e e0 h (by simp)
          exact Or.inr (by rw [this])
    · rw [AMap.get_insert_ne _ _ hkk]
      have : (e, TypedValue.keyword k) ∈ (e0, TypedValue.keyword k0) :: r ↔ (e, TypedValue.keyword k) ∈ r := by
        simp only [List.mem_cons, Prod.mk.injEq, TypedValue.keyword.injEq]
        exact ⟨fun h => h.resolve_left fun h => hkk h.2.symm, Or.inr⟩
      rw [this]

theorem foldl_inverse {im : AMap Keyword Entid} {m : AMap Entid Keyword}
    (hu : ∀ k k' e, (k, e) ∈ im → (k', e) ∈ im → k = k')
    (hm : ∀ e k k', AMap.get m e = some k → (k', e) ∈ im → k = k') :
    ∀ e k, AMap.get (im.foldl (fun (m : AMap Entid Keyword) p => AMap.insert m p.2 p.1) m) e = some k ↔
      (k, e) ∈ im ∨ AMap.get m e = some k := by
  induction im generalizing m with
  | nil => intro e k; simp
  | cons p r ih =>
    obtain ⟨k0, e0⟩ := p
    intro e k
    simp only [List.foldl_cons]
    rw [ih (m := AMap.insert m e0 k0) (fun k k' e h h' => hu k k' e (by simp [h]) (by simp [h']))
      (by
        intro e k k' hg h'
        by_cases hee : e0 = e
        · subst hee
          rw [AMap.get_insert_self, Option.some.injEq] at hg
          subst hg
          exact hu k0 k' e0 (by simp) (by simp [h'])
        · rw [AMap.get_insert_ne _ _ hee] at hg
          exact hm e k k' hg (by simp [h']))]
    by_cases hee : e0 = e
    · subst hee
      rw [AMap.get_insert_self]
      constructor
      · rintro (h | h)
        · exact Or.inl (by simp [h])
        · cases h; exact Or.inl (by simp)
      · rintro (h | h)
        · simp only [List.mem_cons, Prod.mk.injEq] at h
          rcases h with ⟨rfl, -⟩ | h
          · exact Or.inr rfl
          · exact Or.inl h
        · have := hm e0 k k0 h (by simp)
          exact Or.inr (by rw [this])
    · rw [AMap.get_insert_ne _ _ hee]
      have : (k, e) ∈ (k0, e0) :: r ↔ (k, e) ∈ r := by
        simp only [List.mem_cons, Prod.mk.injEq]
        exact ⟨fun h => h.resolve_left fun h => hee h.2.symm, Or.inr⟩
      rw [this]

theorem assertBuilder_total {b : AttributeBuilder} {a v} (ha : a ∈ schemaList) (hd : Decodable_ a v) :
    ∃ b', assertBuilder b a v = .ok b' := by
  simp only [schemaList, List.mem_cons, List.not_mem_nil, or_false] at ha
  rcases ha with rfl | rfl | rfl | rfl | rfl | rfl
  · obtain ⟨x, hx⟩ := Option.isSome_iff_exists.1 (hd.multival rfl)
    exact ⟨_, by unfold assertBuilder; simp only [hx]; rfl⟩
  · obtain ⟨x, hx⟩ := Option.isSome_iff_exists.1 (hd.bool (Or.inr (Or.inl rfl)))
    exact ⟨_, by unfold assertBuilder; simp only [hx]; rfl⟩
  · obtain ⟨x, hx⟩ := Option.isSome_iff_exists.1 (hd.bool (Or.inl rfl))
    exact ⟨_, by unfold assertBuilder; simp only [hx]; rfl⟩
  · obtain ⟨x, hx⟩ := Option.isSome_iff_exists.1 (hd.bool (Or.inr (Or.inr rfl)))
    exact ⟨_, by unfold assertBuilder; simp only [hx]; rfl⟩
  · obtain ⟨x, hx⟩ := Option.isSome_iff_exists.1 (hd.unique rfl)
    exact ⟨_, by unfold assertBuilder; simp only [hx]; rfl⟩
  · obtain ⟨x, hx⟩ := Option.isSome_iff_exists.1 (hd.valueType rfl)
    exact ⟨_, by unfold assertBuilder; simp only [hx]; rfl⟩

theorem assertAll_total {l : List EAV} (bs : AMap Entid AttributeBuilder)
    (h : ∀ e a v, (e, a, v) ∈ l → a ∈ schemaList ∧ Decodable_ a v) : ∃ bs', assertAll l bs = .ok bs' := by
  induction l generalizing bs with
  | nil => exact ⟨bs, rfl⟩
  | cons p r ih =>
    obtain ⟨e, a, v⟩ := p
    obtain ⟨ha, hd⟩ := h e a v (by simp)
    rw [assertAll_cons]
    obtain ⟨b', hb⟩ := assertBuilder_total (b := builderOr bs e) ha hd
    rw [hb]
    exact ih _ fun e a v hm => h e a v (by simp [hm])

theorem applyBuilders_total {bs : AMap Entid AttributeBuilder} (am : AMap Entid Attribute) (rep : MetadataReport)
    (hw : AMap.WF bs) (h : ∀ e b, AMap.get bs e = some b →
      AMap.get am e = none ∧ b.valueType.isSome = true ∧ b.build.valid = true) :
    ∃ r, applyBuilders bs am rep = .ok r := by
  induction bs generalizing am rep with
  | nil => exact ⟨_, rfl⟩
  | cons p r ih =>
    obtain ⟨e, b⟩ := p
    have hk : e ∉ AMap.keys r ∧ AMap.WF r := by
      simp only [AMap.WF, AMap.keys, List.map_cons, List.nodup_cons] at hw; exact hw
    obtain ⟨h1, h2, h3⟩ := h e b (AMap.mem_get hw (by simp))
    unfold applyBuilders
    simp only [h1, h2, h3, Bool.and_self, if_true]
    refine ih _ _ hk.2 fun e' b' hg => ?_
    have hne : e' ≠ e := by
      rintro rfl
      exact hk.1 (AMap.get_isSome_iff.1 (by rw [hg]; rfl))
    obtain ⟨k1, k2⟩ := h e' b' (AMap.mem_get hw (by simp [AMap.get_some_mem hg]))
    exact ⟨by rw [AMap.get_insert_ne _ _ hne.symm]; exact k1, k2⟩

theorem wf_applyBuilders {bs : AMap Entid AttributeBuilder} {am am' : AMap Entid Attribute} {rep rep' : MetadataReport}
    (hw : AMap.WF am) (h : applyBuilders bs am rep = .ok (am', rep')) : AMap.WF am' := by
  induction bs generalizing am rep with
  | nil => simp only [applyBuilders, Res.ok.injEq, Prod.mk.injEq] at h; exact h.1 ▸ hw
  | cons p r ih =>
    obtain ⟨e, b⟩ := p
    unfold applyBuilders at h
    cases hg : AMap.get am e with
    | none =>
      simp only [hg] at h
      split at h
      · exact ih (AMap.wf_insert hw _ _) h
      · cases h
    | some at_ =>
      simp only [hg] at h
      split at h
      · cases h
      · exact ih (AMap.wf_insert hw _ _) h

/-- Reading a `schema` table that describes valid attributes. -/
theorem readAttributes {L : List EAV} (hs : ∀ e a v, (e, a, v) ∈ L → a ∈ schemaList ∧ Decodable_ a v)
    (hf : ∀ e a v v', (e, a, v) ∈ L → (e, a, v') ∈ L → v = v')
    (ht : ∀ e a v, (e, a, v) ∈ L → ∃ v', (e, DB_VALUE_TYPE, v') ∈ L)
    (hv : ∀ e at_, Built (fun a v => (e, a, v) ∈ L) at_ → at_.valid = true) :
    ∃ am rep, updateAttributeMap [] L [] = .ok (am, rep) ∧
      (∀ e at_, AMap.get am e = some at_ ↔ Built (fun a v => (e, a, v) ∈ L) at_) ∧
      ∀ p ∈ am, p.2.valid = true := by
  obtain ⟨bs, hbs⟩ := assertAll_total [] hs
  have hnh : ∀ e v, (e, DB_NO_HISTORY, v) ∉ L := fun e v h => absurd (hs _ _ _ h).1 (by decide)
  have hwf : AMap.WF bs := wf_assertAll AMap.wf_nil hbs
  obtain ⟨⟨am, rep⟩, hr⟩ := applyBuilders_total [] {} hwf (by
    intro e b hg
    refine ⟨rfl, ?_⟩
    obtain ⟨g1, g2, g3⟩ := assertAll_get hbs e
    have hin : ∃ a v, (e, a, v) ∈ L := by
      by_contra hn
      rw [g1 (by intro a v h; exact hn ⟨a, v, h⟩)] at hg
      cases hg
    obtain ⟨a, v, hin⟩ := hin
    obtain ⟨v', hv'⟩ := ht e a v hin
    obtain ⟨-, vt2, vt3⟩ := assertAll_field setBy_valueType hbs e
    have hbo : builderOr bs e = b := by unfold builderOr; rw [hg]
    have hvt : b.valueType.isSome = true := by
      rw [← hbo, vt3 v' hv' fun v'' h' => hf _ _ _ _ h' hv']; exact vt2 v' hv'
    exact ⟨hvt, hv e _ (built_of_assertAll hbs (hf e) (hnh e) rfl hg hvt)⟩)
  have hu : updateAttributeMap [] L [] = .ok (am, rep) := by
    unfold updateAttributeMap
    rw [show retractAll [] [] [] = .ok [] from rfl]
    show (assertAll L []).bind _ = _
    rw [hbs]; exact hr
  have hget : ∀ e at_, AMap.get am e = some at_ ↔ Built (fun a v => (e, a, v) ∈ L) at_ := by
    intro e at_
    obtain ⟨k1, k2, -⟩ := updateAttributeMap_step hu e (hf e) (hnh e)
    constructor
    · intro hg
      by_cases hin : ∃ a v, (e, a, v) ∈ L
      · obtain ⟨a, v, hin⟩ := hin
        rcases k2 ⟨a, v, Or.inl hin⟩ with ⟨-, at2, h1, -, h2, -⟩ | ⟨x, y, hx, -⟩
        · rw [h1] at hg; cases hg; exact h2
        · cases hx
      · rw [k1 (fun a v h => hin ⟨a, v, h⟩) (by simp)] at hg; cases hg
    · intro hb
      obtain ⟨v, hvm, -⟩ := hb.valueType
      rcases k2 ⟨_, v, Or.inl hvm⟩ with ⟨-, at2, h1, -, h2, -⟩ | ⟨x, y, hx, -⟩
      · rw [h1, built_unique (hf e DB_VALUE_TYPE) h2 hb]
      · cases hx
  refine ⟨am, rep, hu, hget, fun p hp => ?_⟩
  have hwa : AMap.WF am := wf_applyBuilders AMap.wf_nil hr
  exact hv p.1 p.2 ((hget p.1 p.2).1 (AMap.mem_get hwa hp))

/-! ### The invariant -/

/-- The attributes in memory, the schema datoms and the `schema` table describe the same
attributes. -/
structure AttrsInv (s : Schema) (rows : List Row) (schema : List EAV) : Prop where
  attrs : ∀ e at_, s.attr e = some at_ ↔ Built (Has rows e) at_
  decodable : ∀ e a v, a ∈ schemaList → Has rows e a v → Decodable_ a v
  typed : ∀ e a v, a ∈ schemaList → Has rows e a v → ∃ v', Has rows e DB_VALUE_TYPE v'
  one : ∀ e a v v', a ∈ schemaList → Has rows e a v → Has rows e a v' → v = v'
  table : ∀ e at_, Built (fun a v => (e, a, v) ∈ schema) at_ ↔ Built (Has rows e) at_
  tableSchema : ∀ e a v, (e, a, v) ∈ schema → a ∈ schemaList ∧ Decodable_ a v
  tableTyped : ∀ e a v, (e, a, v) ∈ schema → ∃ v', (e, DB_VALUE_TYPE, v') ∈ schema
  tableOne : ∀ e a v v', (e, a, v) ∈ schema → (e, a, v') ∈ schema → v = v'

/-- An entity that stops being an attribute keeps no schema datoms. -/
def CleanRemoval (rows rows' : List Row) : Prop :=
  ∀ e v, Has rows e DB_VALUE_TYPE v → (∀ v', ¬ Has rows' e DB_VALUE_TYPE v') →
    ∀ a ∈ schemaList, ∀ v', ¬ Has rows' e a v'

/-- An attribute that stays unique has no other schema datom changed, unless its `:db/isComponent`
is retracted. -/
def KeepsUnique (rows rows' : List Row) : Prop :=
  ∀ e v, Has rows e DB_UNIQUE v → Has rows' e DB_UNIQUE v →
    (∀ a ∈ schemaList, ∀ v', Has rows e a v' ↔ Has rows' e a v') ∨
      ((∃ v', Has rows e DB_IS_COMPONENT v') ∧ ∀ v', ¬ Has rows' e DB_IS_COMPONENT v')

theorem same_of_unchanged {rows rows' : List Row} {e : Entid}
    (hf : ∀ a v v', a ∈ schemaList → Has rows e a v → Has rows e a v' → v = v')
    (hg : ∀ a v, ¬ Gains rows rows' e a v) (hl : ∀ a v, ¬ Loses rows rows' e a v) (a v) (ha : a ∈ schemaList) :
    Has rows e a v ↔ Has rows' e a v := by
  have back : ∀ v, Has rows' e a v → Has rows e a v := by
    intro v h
    by_contra hn
    exact hg a v ⟨ha, h, hn⟩
  refine ⟨fun h => ?_, back v⟩
  by_contra hn
  by_cases hx : ∃ v', Has rows' e a v'
  · obtain ⟨v', hx⟩ := hx
    rw [hf a v v' ha h (back v' hx)] at hn
    exact hn hx
  · exact hl a v ⟨ha, h, not_exists.1 hx⟩

/-- A schema datom neither gained nor its attribute bare-retracted was there before. -/
theorem alter_built {rows rows' : List Row} {e : Entid} {at_ at' : Attribute}
    (hf' : ∀ a v v', a ∈ schemaList → Has rows' e a v → Has rows' e a v' → v = v')
    (hf : ∀ a v v', a ∈ schemaList → Has rows e a v → Has rows e a v' → v = v')
    (hu : ∀ v, Has rows e DB_UNIQUE v → Has rows' e DB_UNIQUE v →
      (∀ a ∈ schemaList, ∀ v', Has rows e a v' ↔ Has rows' e a v') ∨
        ((∃ v', Has rows e DB_IS_COMPONENT v') ∧ ∀ v', ¬ Has rows' e DB_IS_COMPONENT v'))
    (hx : ∃ a v, Gains rows rows' e a v ∨ Loses rows rows' e a v)
    (hc : Changed (Gains rows rows' e) (Loses rows rows' e) at_ at') (hb : Built (Has rows e) at_) :
    Built (Has rows' e) at' := by
  have noL : ∀ a v, a ≠ DB_IS_COMPONENT → a ≠ DB_UNIQUE → ¬ Loses rows rows' e a v := by
    intro a v h1 h2 h
    rcases hc.only a v h with h | h
    · exact h1 h
    · exact h2 h
  have stay : ∀ a v, a ∈ schemaList → Has rows' e a v → ¬ Gains rows rows' e a v → Has rows e a v := by
    intro a v ha h hn
    by_contra hh
    exact hn ⟨ha, h, hh⟩
  have gainU : ∀ a v, Has rows' e a v → Has rows e a v → ∀ v', ¬ Gains rows rows' e a v' := by
    intro a v h h0 v' hg
    rw [hf' a v' v hg.1 hg.2.1 h] at hg
    exact hg.2.2 h0
  have empty : ∀ a, a ∈ schemaList → (∀ v, ¬ Has rows' e a v) → (∀ v, ¬ Gains rows rows' e a v) ∧
      ∀ v, Has rows e a v → Loses rows rows' e a v :=
    fun a ha h => ⟨fun v hg => h v hg.2.1, fun v h0 => ⟨ha, h0, h⟩⟩
  have field : ∀ {α : Type} (A : Entid) (d : TypedValue → Option α) (x x' z : α), A ∈ schemaList →
      A ≠ DB_IS_COMPONENT → A ≠ DB_UNIQUE →
      (∀ v, Has rows e A v → d v = some x) → ((∀ v, ¬ Has rows e A v) → x = z) →
      (∀ v, Gains rows rows' e A v → d v = some x') → ((∀ v, ¬ Gains rows rows' e A v) → x' = x) →
      (∀ v, Has rows' e A v → d v = some x') ∧ ((∀ v, ¬ Has rows' e A v) → x' = z) := by
    intro α A d x x' z hA hA1 hA2 h1 h2 h3 h4
    refine ⟨fun v hv => ?_, fun hn => ?_⟩
    · by_cases hg : Gains rows rows' e A v
      · exact h3 v hg
      · have h0 := stay A v hA hv hg
        rw [h4 (gainU A v hv h0)]
        exact h1 v h0
    · obtain ⟨g, l⟩ := empty A hA hn
      rw [h4 g]
      exact h2 fun v hv => noL A v hA1 hA2 (l v hv)
  have fm := field DB_CARDINALITY _ _ _ _ (by decide) (by decide) (by decide) hb.multival hb.multival' hc.multival hc.multival'
  have fi := field DB_INDEX _ _ _ _ (by decide) (by decide) (by decide) hb.index hb.index' hc.index hc.index'
  have ff := field DB_FULLTEXT _ _ at'.fulltext _ (by decide) (by decide) (by decide) hb.fulltext hb.fulltext'
    (fun v h => absurd h (hc.noFulltext v)) (fun _ => hc.fulltext)
  refine ⟨?_, fm.1, fm.2, ?_, ?_, fi.1, fi.2, ff.1, ff.2, ?_, ?_, hc.noHistory.trans hb.noHistory⟩
  · obtain ⟨v, hv, hd⟩ := hb.valueType
    refine ⟨v, ?_, by rw [hc.valueType]; exact hd⟩
    by_cases hn : ∃ v', Has rows' e DB_VALUE_TYPE v'
    · obtain ⟨v', hv'⟩ := hn
      have h0 := stay _ v' (by decide) hv' (hc.noValueType v')
      rw [hf _ v v' (by decide) hv h0]; exact hv'
    · exact absurd ((empty DB_VALUE_TYPE (by decide) (not_exists.1 hn)).2 v hv) (noL _ _ (by decide) (by decide))
  · intro v hv
    by_cases hg : Gains rows rows' e DB_UNIQUE v
    · exact hc.unique v hg
    · have h0 := stay _ v (by decide) hv hg
      have hng := gainU _ v hv h0
      have hnl : ∀ v', ¬ Loses rows rows' e DB_UNIQUE v' := fun v' h => h.2.2 v hv
      rcases hu v h0 hv with hs | ⟨⟨v', h1⟩, h2⟩
      · obtain ⟨a, w, h | h⟩ := hx
        · exact absurd ((hs a h.1 w).2 h.2.1) h.2.2
        · exact absurd ((hs a h.1 w).1 h.2.1) (h.2.2 w)
      · rw [hc.kept hng hnl ⟨v', by decide, h1, h2⟩]
        exact hb.unique v h0
  · intro hn
    obtain ⟨g, l⟩ := empty DB_UNIQUE (by decide) hn
    by_cases h0 : ∃ v, Has rows e DB_UNIQUE v
    · obtain ⟨v, h0⟩ := h0
      exact hc.unique' g ⟨v, l v h0⟩
    · have hnl : ∀ v', ¬ Loses rows rows' e DB_UNIQUE v' := fun v' h => h0 ⟨v', h.2.1⟩
      by_cases hl : ∃ v, Loses rows rows' e DB_IS_COMPONENT v
      · rw [hc.kept g hnl hl]; exact hb.unique' (not_exists.1 h0)
      · exact hc.reset g hnl (not_exists.1 hl)
  · intro v hv
    by_cases hg : Gains rows rows' e DB_IS_COMPONENT v
    · exact hc.component v hg
    · have h0 := stay _ v (by decide) hv hg
      rw [hc.component'' (gainU _ v hv h0) (fun v' h => h.2.2 v hv)]
      exact hb.component v h0
  · intro hn
    obtain ⟨g, l⟩ := empty DB_IS_COMPONENT (by decide) hn
    by_cases h0 : ∃ v, Has rows e DB_IS_COMPONENT v
    · obtain ⟨v, h0⟩ := h0
      exact hc.component' g ⟨v, l v h0⟩
    · rw [hc.component'' g (fun v' h => h0 ⟨v', h.2.1⟩)]
      exact hb.component' (not_exists.1 h0)

/-- The invariant through one transaction. -/
theorem attrsInv_step {db sfm now terms ids db' rep} (hi : RowsInv db.schema db.store.rows)
    (ht : TxInstantOk db.schema) (hso : SchemaOne db.schema)
    (hinv : AttrsInv sfm db.store.rows db.views.schema)
    (hcr : CleanRemoval db.store.rows db'.store.rows) (hku : KeepsUnique db.store.rows db'.store.rows)
    (h : transactTermsWith db sfm now terms ids .materializeAndCommit = .ok (db', rep)) :
    AttrsInv db'.schema db'.store.rows db'.views.schema := by
  obtain ⟨h1, h2, h3, h4⟩ := attrs_step hi ht hso h
  have hdec : ∀ e a v, a ∈ schemaList → Has db'.store.rows e a v → Decodable_ a v := by
    intro e a v ha hv
    by_cases h0 : Has db.store.rows e a v
    · exact hinv.decodable e a v ha h0
    · exact h2 e a v ha hv h0
  -- what each case leaves
  have key : ∀ e, (∃ at_, db'.schema.attr e = some at_ ∧ Built (Has db'.store.rows e) at_) ∨
      (db'.schema.attr e = none ∧ ∀ a ∈ schemaList, ∀ v, ¬ Has db'.store.rows e a v) := by
    intro e
    have notyet : sfm.attr e = none → ∀ a ∈ schemaList, ∀ v, ¬ Has db.store.rows e a v := by
      intro hn a ha v hv
      obtain ⟨at_, hat⟩ := built_exists (D := Has db.store.rows e) (fun a v => hinv.decodable e a v) (hinv.one e)
        (hinv.typed e a v ha hv)
      rw [(hinv.attrs e at_).2 hat] at hn; cases hn
    have hst := h1 e
    generalize ho : sfm.attr e = o at hst notyet
    generalize ho' : db'.schema.attr e = o' at hst
    cases hst with
    | same _ hg hl =>
      have hs := same_of_unchanged (hinv.one e) hg hl
      cases o with
      | none => exact Or.inr ⟨rfl, fun a ha v hv => notyet rfl a ha v ((hs a v ha).2 hv)⟩
      | some at_ => exact Or.inl ⟨at_, rfl, ((hinv.attrs e at_).1 ho).congr hs⟩
    | gone _ _ hvt _ =>
      obtain ⟨v, hv⟩ := hvt
      exact Or.inr ⟨rfl, hcr e v hv.2.1 hv.2.2⟩
    | installed _ hb _ =>
      refine Or.inl ⟨_, rfl, hb.congr fun a v ha => ?_⟩
      exact ⟨fun h => h.2.1, fun h => ⟨ha, h, notyet rfl a ha v⟩⟩
    | altered hx hc =>
      exact Or.inl ⟨_, rfl, alter_built (h4 e) (hinv.one e) (hku e) hx hc ((hinv.attrs e _).1 ho)⟩
  have hattr : ∀ e at_, db'.schema.attr e = some at_ ↔ Built (Has db'.store.rows e) at_ := by
    intro e at_
    rcases key e with ⟨at2, k1, k2⟩ | ⟨k1, k2⟩
    · constructor
      · intro hh; rw [k1] at hh; cases hh; exact k2
      · intro hh; rw [k1, built_unique (fun v v' => h4 e _ v v' (by decide)) k2 hh]
    · constructor
      · intro hh; rw [k1] at hh; cases hh
      · intro hh
        obtain ⟨v, hv, -⟩ := hh.valueType
        exact absurd hv (k2 _ (by decide) v)
  have htyped : ∀ e a v, a ∈ schemaList → Has db'.store.rows e a v → ∃ v', Has db'.store.rows e DB_VALUE_TYPE v' := by
    intro e a v ha hv
    rcases key e with ⟨at2, -, k2⟩ | ⟨-, k2⟩
    · obtain ⟨v', hv', -⟩ := k2.valueType; exact ⟨v', hv'⟩
    · exact absurd hv (k2 a ha v)
  rcases h3 with ⟨hv, hsame⟩ | hv
  · rw [hv]
    refine ⟨hattr, hdec, htyped, h4, fun e at_ => ?_, hinv.tableSchema, hinv.tableTyped, hinv.tableOne⟩
    rw [hinv.table, ← hinv.attrs, ← hattr, hsame]
  · have hv' : ∀ e a v, a ∈ schemaList → ((e, a, v) ∈ db'.views.schema ↔ Has db'.store.rows e a v) := by
      intro e a v ha
      rw [hv]
      exact ⟨fun h => h.2.1, fun h => ⟨ha, h, htyped e a v ha h⟩⟩
    refine ⟨hattr, hdec, htyped, h4, fun e at_ => ?_, fun e a v hm => ?_, fun e a v hm => ?_, fun e a v v' hm hm' => ?_⟩
    · exact ⟨fun hb => hb.congr fun a v ha => hv' e a v ha, fun hb => hb.congr fun a v ha => (hv' e a v ha).symm⟩
    · obtain ⟨k1, k2, -⟩ := (hv e a v).1 hm
      exact ⟨k1, hdec e a v k1 k2⟩
    · obtain ⟨-, -, v', k3⟩ := (hv e a v).1 hm
      exact ⟨v', (hv' e _ v' (by decide)).2 k3⟩
    · obtain ⟨k1, k2, -⟩ := (hv e a v).1 hm
      exact h4 e a v v' k1 k2 ((hv e a v').1 hm').2.1

/-- What a fresh connection reads. -/
theorem readSchema_of_inv {s : Schema} {rows : List Row} {vs : Views} (h : AttrsInv s rows vs.schema)
    (hv : ∀ e at_, s.attr e = some at_ → at_.valid = true)
    (he : EntidsMatch s rows) (hi : IdentsMatch s rows) (ht : IdentsTable vs rows)
    (hir : ∀ e v, Has rows e DB_IDENT v → ∃ k, v = .keyword k) :
    ∃ s', readSchema vs = .ok s' ∧ (∀ e, s'.attr e = s.attr e) ∧
      (∀ k, AMap.get s'.identMap k = AMap.get s.identMap k) ∧
      (∀ e, AMap.get s'.entidMap e = AMap.get s.entidMap e) := by
  obtain ⟨im, h1, hw, h2⟩ := readIdentMap_ok (l := vs.idents) (m := [])
    (fun e v hm => hir e v ((ht e v).1 hm))
    (by
      intro k e e' h h'
      have a1 := (hi k e).2 ((ht e _).1 h)
      have a2 := (hi k e').2 ((ht e' _).1 h')
      rw [a1] at a2; exact Option.some.inj a2)
    (by intro k e e' h; cases h) AMap.wf_nil
  obtain ⟨am, rep, h3, h4, h5⟩ := readAttributes (L := vs.schema) h.tableSchema h.tableOne h.tableTyped
    (fun e at_ hb => hv e at_ ((h.attrs e at_).2 ((h.table e at_).1 hb)))
  have him : ∀ k e, AMap.get im k = some e ↔ Has rows e DB_IDENT (.keyword k) := by
    intro k e
    rw [h2, ht]
    exact ⟨fun h => h.resolve_right (by intro h; cases h), Or.inl⟩
  refine ⟨{ entidMap := im.foldl (fun (m : AMap Entid Keyword) p => AMap.insert m p.2 p.1) [],
            identMap := im, attributeMap := am }, ?_, fun e => ?_, fun k => ?_, fun e => ?_⟩
  · unfold readSchema
    show (readIdentMap vs.idents []).bind _ = _
    rw [h1]
    show (updateAttributeMap [] vs.schema []).bind _ = _
    rw [h3]
    show (if _ then _ else _) = _
    rw [if_pos (by rw [List.all_eq_true]; exact fun p hp => h5 p hp)]
    rfl
  · apply Option.ext
    intro at_
    show AMap.get am e = some at_ ↔ _
    rw [h4, h.table, ← h.attrs]
  · apply Option.ext
    intro e
    show AMap.get im k = some e ↔ _
    rw [him, ← hi]
  · apply Option.ext
    intro k
    show AMap.get (im.foldl _ []) e = some k ↔ _
    have hmem : ∀ k e, (k, e) ∈ im ↔ Has rows e DB_IDENT (.keyword k) := fun k e => by
      rw [← him]; exact ⟨fun h => AMap.mem_get hw h, AMap.get_some_mem⟩
    rw [foldl_inverse (im := im) (m := []) (by
        intro k k' e h h'
        have a1 := (he e k).2 ((hmem k e).1 h)
        have a2 := (he e k').2 ((hmem k' e).1 h')
        rw [a1] at a2; exact Option.some.inj a2)
      (by intro e k k' h; cases h), hmem, he]
    exact ⟨fun h => h.resolve_right (by intro h; cases h), Or.inl⟩

end Mentat
