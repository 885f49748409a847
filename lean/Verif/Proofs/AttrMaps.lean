import Verif.Proofs.IdentMaps
/- What one transaction's metadata changes do to the attribute map and to the `schema` table. -/
namespace Mentat

/-! ### Builders -/

/-- `π` is the property of a builder set by asserting `A`. -/
def SetBy {α : Type} (π : AttributeBuilder → Option α) (A : Entid) (d : TypedValue → Option α) : Prop :=
  ∀ b a v b', assertBuilder b a v = .ok b' →
    (a = A → ∃ x, d v = some x ∧ π b' = some x) ∧ (a ≠ A → π b' = π b)

theorem setBy_valueType : SetBy (·.valueType) DB_VALUE_TYPE decodeValueType := by
  intro b a v b' h
  unfold assertBuilder at h
  repeat' (split at h)
  all_goals first
    | (cases h; done)
    | (cases h; subst_vars; simp_all [DB_VALUE_TYPE, DB_CARDINALITY, DB_UNIQUE, DB_INDEX, DB_FULLTEXT, DB_IS_COMPONENT, DB_NO_HISTORY])

theorem setBy_multival : SetBy (·.multival) DB_CARDINALITY decodeCardinality := by
  intro b a v b' h
  unfold assertBuilder at h
  repeat' (split at h)
  all_goals first
    | (cases h; done)
    | (cases h; subst_vars; simp_all [DB_VALUE_TYPE, DB_CARDINALITY, DB_UNIQUE, DB_INDEX, DB_FULLTEXT, DB_IS_COMPONENT, DB_NO_HISTORY])

theorem setBy_unique : SetBy (·.unique) DB_UNIQUE (fun v => (decodeUnique v).map some) := by
  intro b a v b' h
  unfold assertBuilder at h
  repeat' (split at h)
  all_goals first
    | (cases h; done)
    | (cases h; subst_vars; simp_all [DB_VALUE_TYPE, DB_CARDINALITY, DB_UNIQUE, DB_INDEX, DB_FULLTEXT, DB_IS_COMPONENT, DB_NO_HISTORY])

theorem setBy_index : SetBy (·.index) DB_INDEX decodeBool := by
  intro b a v b' h
  unfold assertBuilder at h
  repeat' (split at h)
  all_goals first
    | (cases h; done)
    | (cases h; subst_vars; simp_all [DB_VALUE_TYPE, DB_CARDINALITY, DB_UNIQUE, DB_INDEX, DB_FULLTEXT, DB_IS_COMPONENT, DB_NO_HISTORY])

theorem setBy_fulltext : SetBy (·.fulltext) DB_FULLTEXT decodeBool := by
  intro b a v b' h
  unfold assertBuilder at h
  repeat' (split at h)
  all_goals first
    | (cases h; done)
    | (cases h; subst_vars; simp_all [DB_VALUE_TYPE, DB_CARDINALITY, DB_UNIQUE, DB_INDEX, DB_FULLTEXT, DB_IS_COMPONENT, DB_NO_HISTORY])

theorem setBy_component : SetBy (·.component) DB_IS_COMPONENT decodeBool := by
  intro b a v b' h
  unfold assertBuilder at h
  repeat' (split at h)
  all_goals first
    | (cases h; done)
    | (cases h; subst_vars; simp_all [DB_VALUE_TYPE, DB_CARDINALITY, DB_UNIQUE, DB_INDEX, DB_FULLTEXT, DB_IS_COMPONENT, DB_NO_HISTORY])

theorem setBy_noHistory : SetBy (·.noHistory) DB_NO_HISTORY decodeBool := by
  intro b a v b' h
  unfold assertBuilder at h
  repeat' (split at h)
  all_goals first
    | (cases h; done)
    | (cases h; subst_vars; simp_all [DB_VALUE_TYPE, DB_CARDINALITY, DB_UNIQUE, DB_INDEX, DB_FULLTEXT, DB_IS_COMPONENT, DB_NO_HISTORY])

/-- The builder an entity starts from. -/
def builderOr (bs : AMap Entid AttributeBuilder) (e : Entid) : AttributeBuilder :=
  match AMap.get bs e with
  | some b => b
  | none => {}

theorem assertAll_cons (e a : Entid) (v : TypedValue) (r : List EAV) (bs : AMap Entid AttributeBuilder) :
    assertAll ((e, a, v) :: r) bs =
      match assertBuilder (builderOr bs e) a v with
      | .ok b' => assertAll r (AMap.insert bs e b')
      | .err er => .err er
      | .panic => .panic := rfl

theorem assertAll_get {l : List EAV} {bs bs' : AMap Entid AttributeBuilder} (h : assertAll l bs = .ok bs')
    (e : Entid) :
    ((∀ a v, (e, a, v) ∉ l) → AMap.get bs' e = AMap.get bs e) ∧
    ((∃ a v, (e, a, v) ∈ l) → (AMap.get bs' e).isSome = true) ∧
    ((AMap.get bs e).isSome = true → (AMap.get bs' e).isSome = true) := by
  induction l generalizing bs with
  | nil => cases h; simp
  | cons x r ih =>
    obtain ⟨e', a', v'⟩ := x
    rw [assertAll_cons] at h
    cases hab : assertBuilder (builderOr bs e') a' v' with
    | ok b' =>
      simp only [hab] at h
      obtain ⟨i1, i2, i3⟩ := ih h
      refine ⟨fun hn => ?_, fun hx => ?_, fun hs => ?_⟩
      · rw [i1 fun a v hm => hn a v (List.mem_cons_of_mem _ hm)]
        exact AMap.get_insert_ne _ _ fun he => hn a' v' (by simp [he])
      · obtain ⟨a, v, hm⟩ := hx
        rcases List.mem_cons.1 hm with hm | hm
        · cases hm; exact i3 (by simp)
        · exact i2 ⟨a, v, hm⟩
      · refine i3 ?_
        rw [AMap.get_insert]
        split
        · rfl
        · exact hs
    | err er => simp [hab] at h
    | panic => simp [hab] at h

theorem assertAll_field {α : Type} {π : AttributeBuilder → Option α} {A d} (hp : SetBy π A d)
    {l : List EAV} {bs bs' : AMap Entid AttributeBuilder} (h : assertAll l bs = .ok bs') (e : Entid) :
    ((∀ v, (e, A, v) ∉ l) → π (builderOr bs' e) = π (builderOr bs e)) ∧
    (∀ v, (e, A, v) ∈ l → (d v).isSome = true) ∧
    (∀ v, (e, A, v) ∈ l → (∀ v', (e, A, v') ∈ l → v' = v) → π (builderOr bs' e) = d v) := by
  induction l generalizing bs with
  | nil => cases h; simp
  | cons x r ih =>
    obtain ⟨e', a', v'⟩ := x
    rw [assertAll_cons] at h
    cases hab : assertBuilder (builderOr bs e') a' v' with
    | ok b' =>
      simp only [hab] at h
      obtain ⟨i1, i2, i3⟩ := ih h
      obtain ⟨p1, p2⟩ := hp _ _ _ _ hab
      have hins : builderOr (AMap.insert bs e' b') e = if e' = e then b' else builderOr bs e := by
        unfold builderOr
        rw [AMap.get_insert]
        by_cases he : e' = e
        · simp [he]
        · simp [he]
      refine ⟨fun hn => ?_, fun v hm => ?_, fun v hm hu => ?_⟩
      · rw [i1 fun v hm => hn v (List.mem_cons_of_mem _ hm), hins]
        split
        · rename_i he
          subst he
          exact p2 fun ha => hn v' (by simp [ha])
        · rfl
      · rcases List.mem_cons.1 hm with hm | hm
        · cases hm
          obtain ⟨x, hx, -⟩ := p1 rfl
          simp [hx]
        · exact i2 v hm
      · by_cases hr : ∃ v2, (e, A, v2) ∈ r
        · obtain ⟨v2, hr⟩ := hr
          obtain rfl := hu v2 (List.mem_cons_of_mem _ hr)
          exact i3 _ hr fun v3 h3 => hu v3 (List.mem_cons_of_mem _ h3)
        · rw [not_exists] at hr
          rw [i1 hr, hins]
          rcases List.mem_cons.1 hm with hm | hm
          · cases hm
            obtain ⟨x, hx, hx'⟩ := p1 rfl
            simp [hx, hx']
          · exact absurd hm (hr v)
    | err er => simp [hab] at h
    | panic => simp [hab] at h

/-- The builder a retraction starts from. -/
def builderOrModify (am : AMap Entid Attribute) (bs : AMap Entid AttributeBuilder) (e : Entid) : AttributeBuilder :=
  match AMap.get bs e with
  | some b => b
  | none => match AMap.get am e with
    | some at_ => AttributeBuilder.modify at_
    | none => {}

theorem retractBuilder_ok {b b' : AttributeBuilder} {a v} (h : retractBuilder b a v = .ok b') :
    (a = DB_IS_COMPONENT ∧ (∃ x, b.component = some x) ∧ b' = { b with component := some false }) ∨
    (a = DB_UNIQUE ∧ (∃ x, b.unique = some x) ∧ b' = { b with unique := some none }) := by
  unfold retractBuilder at h
  split at h
  · rename_i ha
    split at h
    · split at h
      · rename_i hx; cases h; exact Or.inl ⟨ha, ⟨_, hx⟩, rfl⟩
      · cases h
    · cases h
  · split at h
    · rename_i ha
      split at h
      · split at h
        · rename_i hx; cases h
          refine Or.inr ⟨ha, ?_, rfl⟩
          rcases hx with ⟨-, hx⟩ | ⟨-, hx⟩ <;> exact ⟨_, hx⟩
        · cases h
      · cases h
    · cases h

theorem retractAll_cons (am : AMap Entid Attribute) (e a : Entid) (v : TypedValue) (r : List EAV)
    (bs : AMap Entid AttributeBuilder) :
    retractAll am ((e, a, v) :: r) bs =
      match retractBuilder (builderOrModify am bs e) a v with
      | .ok b' => retractAll am r (AMap.insert bs e b')
      | .err er => .err er
      | .panic => .panic := rfl

/-- `b'` is `b` after retracting what `l` says of `e`. -/
structure RetractedFrom (l : List EAV) (e : Entid) (b b' : AttributeBuilder) : Prop where
  valueType : b'.valueType = b.valueType
  multival : b'.multival = b.multival
  index : b'.index = b.index
  fulltext : b'.fulltext = b.fulltext
  noHistory : b'.noHistory = b.noHistory
  component : (∃ v, (e, DB_IS_COMPONENT, v) ∈ l) → b'.component = some false
  component' : (∀ v, (e, DB_IS_COMPONENT, v) ∉ l) → b'.component = b.component
  unique : (∃ v, (e, DB_UNIQUE, v) ∈ l) → b'.unique = some none
  unique' : (∀ v, (e, DB_UNIQUE, v) ∉ l) → b'.unique = b.unique

/-- Retractions start from the attribute as it is; what each leaves. -/
theorem retractAll_get {am : AMap Entid Attribute} {l : List EAV} {bs bs' : AMap Entid AttributeBuilder}
    (h : retractAll am l bs = .ok bs') (e : Entid) :
    (∀ a v, (e, a, v) ∈ l → a = DB_IS_COMPONENT ∨ a = DB_UNIQUE) ∧
    ((∀ a v, (e, a, v) ∉ l) → AMap.get bs' e = AMap.get bs e) ∧
    ((∃ a v, (e, a, v) ∈ l) → ∃ b', AMap.get bs' e = some b' ∧
      ((AMap.get bs e).isSome = true ∨ (AMap.get am e).isSome = true) ∧
      RetractedFrom l e (builderOrModify am bs e) b') := by
  induction l generalizing bs with
  | nil => cases h; simp
  | cons x r ih =>
    obtain ⟨e', a', v'⟩ := x
    rw [retractAll_cons] at h
    cases hrb : retractBuilder (builderOrModify am bs e') a' v' with
    | ok b' =>
      simp only [hrb] at h
      obtain ⟨i0, i1, i2⟩ := ih h
      have hok := retractBuilder_ok hrb
      refine ⟨fun a v hm => ?_, fun hn => ?_, fun hx => ?_⟩
      · rcases List.mem_cons.1 hm with hm | hm
        · cases hm
          rcases hok with ⟨h1, -⟩ | ⟨h1, -⟩
          · exact Or.inl h1
          · exact Or.inr h1
        · exact i0 a v hm
      · rw [i1 fun a v hm => hn a v (List.mem_cons_of_mem _ hm)]
        exact AMap.get_insert_ne _ _ fun he => hn a' v' (by simp [he])
      · by_cases he : e' = e
        · subst he
          have hsome : (AMap.get bs e').isSome = true ∨ (AMap.get am e').isSome = true := by
            unfold builderOrModify at hok
            cases hg : AMap.get bs e' with
            | some b => simp
            | none =>
              cases hg2 : AMap.get am e' with
              | some b => simp
              | none => rw [hg, hg2] at hok; simp at hok
          have hins : builderOrModify am (AMap.insert bs e' b') e' = b' := by
            unfold builderOrModify; simp
          by_cases hr : ∃ a v, (e', a, v) ∈ r
          · obtain ⟨b2, g2, -, hb2⟩ := i2 hr
            rw [hins] at hb2
            refine ⟨b2, g2, hsome, ?_⟩
            have hne : DB_IS_COMPONENT ≠ DB_UNIQUE := by decide
            rcases hok with ⟨rfl, -, rfl⟩ | ⟨rfl, -, rfl⟩
            · refine ⟨hb2.valueType, hb2.multival, hb2.index, hb2.fulltext, hb2.noHistory, fun _ => ?_,
                fun hn => absurd List.mem_cons_self (hn v'), fun hx => hb2.unique ?_,
                fun hn => hb2.unique' fun v hm => hn v (List.mem_cons_of_mem _ hm)⟩
              · by_cases hv : ∃ v, (e', DB_IS_COMPONENT, v) ∈ r
                · exact hb2.component hv
                · exact hb2.component' (not_exists.1 hv)
              · obtain ⟨v, hv⟩ := hx
                rcases List.mem_cons.1 hv with hv | hv
                · cases hv
                · exact ⟨v, hv⟩
            · refine ⟨hb2.valueType, hb2.multival, hb2.index, hb2.fulltext, hb2.noHistory,
                fun hx => hb2.component ?_, fun hn => hb2.component' fun v hm => hn v (List.mem_cons_of_mem _ hm),
                fun _ => ?_, fun hn => absurd List.mem_cons_self (hn v')⟩
              · obtain ⟨v, hv⟩ := hx
                rcases List.mem_cons.1 hv with hv | hv
                · cases hv
                · exact ⟨v, hv⟩
              · by_cases hv : ∃ v, (e', DB_UNIQUE, v) ∈ r
                · exact hb2.unique hv
                · exact hb2.unique' (not_exists.1 hv)
          · have hr' : ∀ a v, (e', a, v) ∉ r := fun a v hm => hr ⟨a, v, hm⟩
            refine ⟨b', by rw [i1 hr']; simp, hsome, ?_⟩
            rcases hok with ⟨rfl, -, rfl⟩ | ⟨rfl, -, rfl⟩
            · refine ⟨rfl, rfl, rfl, rfl, rfl, fun _ => rfl, fun hn => absurd List.mem_cons_self (hn v'),
                fun hx => ?_, fun _ => rfl⟩
              obtain ⟨v, hv⟩ := hx
              rcases List.mem_cons.1 hv with hv | hv
              · cases hv
              · exact absurd hv (hr' _ _)
            · refine ⟨rfl, rfl, rfl, rfl, rfl, fun hx => ?_, fun _ => rfl, fun _ => rfl,
                fun hn => absurd List.mem_cons_self (hn v')⟩
              obtain ⟨v, hv⟩ := hx
              rcases List.mem_cons.1 hv with hv | hv
              · cases hv
              · exact absurd hv (hr' _ _)
        · have hx' : ∃ a v, (e, a, v) ∈ r := by
            obtain ⟨a, v, hm⟩ := hx
            rcases List.mem_cons.1 hm with hm | hm
            · cases hm; exact absurd rfl he
            · exact ⟨a, v, hm⟩
          obtain ⟨b2, g2, hs2, hb2⟩ := i2 hx'
          have hins : builderOrModify am (AMap.insert bs e' b') e = builderOrModify am bs e := by
            unfold builderOrModify; rw [AMap.get_insert_ne _ _ he]
          rw [hins] at hb2
          rw [AMap.get_insert_ne _ _ he] at hs2
          have hmem : ∀ a v, (e, a, v) ∈ (e', a', v') :: r ↔ (e, a, v) ∈ r := by
            intro a v; simp [Ne.symm he]
          refine ⟨b2, g2, hs2, hb2.valueType, hb2.multival, hb2.index, hb2.fulltext, hb2.noHistory, ?_, ?_, ?_, ?_⟩
          · simp only [hmem]; exact hb2.component
          · simp only [hmem]; exact hb2.component'
          · simp only [hmem]; exact hb2.unique
          · simp only [hmem]; exact hb2.unique'
    | err er => simp [hrb] at h
    | panic => simp [hrb] at h

/-! ### Removing whole attributes -/

/-- The retractions take both the value type and the cardinality of `e`. -/
def GoneBy (l : List EAV) (e : Entid) : Prop :=
  (∃ v, (e, DB_CARDINALITY, v) ∈ l) ∧ ∃ v, (e, DB_VALUE_TYPE, v) ∈ l

theorem schemaRetractions_go_exact {sus : List EAV} {idr : AMap Entid Keyword} {l : List EAV} {am filt am' filt'}
    (h : schemaRetractions.go idr sus l am filt = .ok (am', filt')) :
    (∀ e, ((∃ a v, (e, a, v) ∈ l) → GoneBy sus e → AMap.get am' e = none ∧ AMap.contains idr e = true) ∧
      (AMap.get am e = none → AMap.get am' e = none) ∧
      (¬ GoneBy sus e → AMap.get am' e = AMap.get am e)) ∧
    (∀ e a v, (e, a, v) ∈ filt' ↔ (e, a, v) ∈ filt ∨ ((e, a, v) ∈ l ∧ ¬ GoneBy sus e)) := by
  induction l generalizing am filt with
  | nil =>
    simp only [schemaRetractions.go, Res.ok.injEq, Prod.mk.injEq] at h
    obtain ⟨rfl, rfl⟩ := h
    simp
  | cons x r ih =>
    obtain ⟨e0, a0, v0⟩ := x
    unfold schemaRetractions.go at h
    simp only at h
    have hcond : (DB_CARDINALITY ∈ (sus.filter fun x => decide (x.1 = e0)).map (·.2.1) ∧
        DB_VALUE_TYPE ∈ (sus.filter fun x => decide (x.1 = e0)).map (·.2.1)) ↔ GoneBy sus e0 := by
      unfold GoneBy
      simp only [List.mem_map, List.mem_filter, decide_eq_true_eq]
      constructor
      · rintro ⟨⟨⟨e, a, v⟩, ⟨h1, rfl⟩, h2⟩, ⟨⟨e', a', v'⟩, ⟨h3, h4⟩, h5⟩⟩
        simp only at h2 h4 h5
        subst h2 h4 h5
        exact ⟨⟨v, h1⟩, ⟨v', h3⟩⟩
      · rintro ⟨⟨v, h1⟩, ⟨v', h2⟩⟩
        exact ⟨⟨_, ⟨h1, rfl⟩, rfl⟩, ⟨_, ⟨h2, rfl⟩, rfl⟩⟩
    split at h
    · rename_i hc
      have hg := hcond.1 hc
      split at h
      · rename_i hid
        obtain ⟨i1, i2⟩ := ih h
        refine ⟨fun e => ⟨fun hx hge => ?_, fun hn => ?_, fun hng => ?_⟩, fun e a v => ?_⟩
        · by_cases he : e0 = e
          · subst he
            exact ⟨(i1 e0).2.1 (by simp), hid⟩
          · obtain ⟨a, v, hm⟩ := hx
            rcases List.mem_cons.1 hm with hm | hm
            · cases hm; exact absurd rfl he
            · exact (i1 e).1 ⟨a, v, hm⟩ hge
        · exact (i1 e).2.1 (by simp [AMap.get_erase, hn])
        · rw [(i1 e).2.2 hng, AMap.get_erase]
          rw [if_neg]
          rintro rfl
          exact hng hg
        · rw [i2]
          constructor
          · rintro (h | ⟨h1, h2⟩)
            · exact Or.inl h
            · exact Or.inr ⟨List.mem_cons_of_mem _ h1, h2⟩
          · rintro (h | ⟨h1, h2⟩)
            · exact Or.inl h
            · rcases List.mem_cons.1 h1 with h1 | h1
              · cases h1; exact absurd hg h2
              · exact Or.inr ⟨h1, h2⟩
      · cases h
    · rename_i hc
      have hg : ¬ GoneBy sus e0 := fun hg => hc (hcond.2 hg)
      obtain ⟨i1, i2⟩ := ih h
      refine ⟨fun e => ⟨fun hx hge => ?_, (i1 e).2.1, (i1 e).2.2⟩, fun e a v => ?_⟩
      · obtain ⟨a, v, hm⟩ := hx
        rcases List.mem_cons.1 hm with hm | hm
        · cases hm; exact absurd hge hg
        · exact (i1 e).1 ⟨a, v, hm⟩ hge
      · rw [i2, List.mem_append, List.mem_singleton]
        constructor
        · rintro ((h | h) | ⟨h1, h2⟩)
          · exact Or.inl h
          · cases h; exact Or.inr ⟨by simp, hg⟩
          · exact Or.inr ⟨List.mem_cons_of_mem _ h1, h2⟩
        · rintro (h | ⟨h1, h2⟩)
          · exact Or.inl (Or.inl h)
          · rcases List.mem_cons.1 h1 with h1 | h1
            · cases h1; exact Or.inl (Or.inr rfl)
            · exact Or.inr ⟨h1, h2⟩

theorem schemaRetractions_exact {am : AMap Entid Attribute} {retr : List EAV} {idr am' retr'}
    (h : schemaRetractions am retr idr = .ok (am', retr'))
    (hs : ∀ e a v, (e, a, v) ∈ retr → isASchemaAttribute a = true) :
    (∀ e, (GoneBy retr e → AMap.get am' e = none ∧ AMap.contains idr e = true) ∧
      (¬ GoneBy retr e → AMap.get am' e = AMap.get am e)) ∧
    (∀ e a v, (e, a, v) ∈ retr' ↔ (e, a, v) ∈ retr ∧ ¬ GoneBy retr e) := by
  unfold schemaRetractions at h
  have f1 : (retr.filter fun x => isASchemaAttribute x.2.1) = retr := by
    rw [List.filter_eq_self]
    rintro ⟨e, a, v⟩ hm; exact hs e a v hm
  have f2 : (retr.filter fun x => !isASchemaAttribute x.2.1) = [] := by
    rw [List.filter_eq_nil_iff]
    rintro ⟨e, a, v⟩ hm; simp [hs e a v hm]
  simp only [f1, f2] at h
  obtain ⟨h1, h2⟩ := schemaRetractions_go_exact h
  refine ⟨fun e => ⟨fun hg => (h1 e).1 ?_ hg, (h1 e).2.2⟩, fun e a v => by rw [h2]; simp⟩
  obtain ⟨⟨v, hv⟩, -⟩ := hg
  exact ⟨_, v, hv⟩

/-! ### One attribute, one transaction -/

/-- An attribute as its additions `A` (attribute and value) describe it. -/
structure Built (A : Entid → TypedValue → Prop) (at_ : Attribute) : Prop where
  valueType : ∃ v, A DB_VALUE_TYPE v ∧ decodeValueType v = some at_.valueType
  multival : ∀ v, A DB_CARDINALITY v → decodeCardinality v = some at_.multival
  multival' : (∀ v, ¬ A DB_CARDINALITY v) → at_.multival = false
  unique : ∀ v, A DB_UNIQUE v → decodeUnique v = at_.unique ∧ at_.unique.isSome = true
  unique' : (∀ v, ¬ A DB_UNIQUE v) → at_.unique = none
  index : ∀ v, A DB_INDEX v → decodeBool v = some at_.index
  index' : (∀ v, ¬ A DB_INDEX v) → at_.index = false
  fulltext : ∀ v, A DB_FULLTEXT v → decodeBool v = some at_.fulltext
  fulltext' : (∀ v, ¬ A DB_FULLTEXT v) → at_.fulltext = false
  component : ∀ v, A DB_IS_COMPONENT v → decodeBool v = some at_.component
  component' : (∀ v, ¬ A DB_IS_COMPONENT v) → at_.component = false
  noHistory : at_.noHistory = false

/-- An attribute changed by additions `A` and (bare) retractions `R`. -/
structure Changed (A R : Entid → TypedValue → Prop) (at_ at' : Attribute) : Prop where
  valueType : at'.valueType = at_.valueType
  noValueType : ∀ v, ¬ A DB_VALUE_TYPE v
  fulltext : at'.fulltext = at_.fulltext
  noFulltext : ∀ v, ¬ A DB_FULLTEXT v
  noHistory : at'.noHistory = at_.noHistory
  only : ∀ a v, R a v → a = DB_IS_COMPONENT ∨ a = DB_UNIQUE
  multival : ∀ v, A DB_CARDINALITY v → decodeCardinality v = some at'.multival
  multival' : (∀ v, ¬ A DB_CARDINALITY v) → at'.multival = at_.multival
  index : ∀ v, A DB_INDEX v → decodeBool v = some at'.index
  index' : (∀ v, ¬ A DB_INDEX v) → at'.index = at_.index
  component : ∀ v, A DB_IS_COMPONENT v → decodeBool v = some at'.component
  component' : (∀ v, ¬ A DB_IS_COMPONENT v) → (∃ v, R DB_IS_COMPONENT v) → at'.component = false
  component'' : (∀ v, ¬ A DB_IS_COMPONENT v) → (∀ v, ¬ R DB_IS_COMPONENT v) → at'.component = at_.component
  unique : ∀ v, A DB_UNIQUE v → decodeUnique v = at'.unique ∧ at'.unique.isSome = true
  unique' : (∀ v, ¬ A DB_UNIQUE v) → (∃ v, R DB_UNIQUE v) → at'.unique = none
  kept : (∀ v, ¬ A DB_UNIQUE v) → (∀ v, ¬ R DB_UNIQUE v) → (∃ v, R DB_IS_COMPONENT v) → at'.unique = at_.unique
  reset : (∀ v, ¬ A DB_UNIQUE v) → (∀ v, ¬ R DB_UNIQUE v) → (∀ v, ¬ R DB_IS_COMPONENT v) → at'.unique = none

/-- What a transaction with additions `A` and bare retractions `R` about one entity does to its
attribute. -/
inductive AttrStep (A R : Entid → TypedValue → Prop) : Option Attribute → Option Attribute → Prop
  | same (o) : (∀ a v, ¬ A a v) → (∀ a v, ¬ R a v) → AttrStep A R o o
  | gone (o) : (∃ v, R DB_CARDINALITY v) → (∃ v, R DB_VALUE_TYPE v) → (∀ a v, ¬ A a v) → AttrStep A R o none
  | installed {at_} : (∀ a v, ¬ R a v) → Built A at_ → at_.valid = true → AttrStep A R none (some at_)
  | altered {at_ at'} : (∃ a v, A a v ∨ R a v) → Changed A R at_ at' → AttrStep A R (some at_) (some at')

/-- A builder made of assertions only. -/
theorem built_of_assertAll {L : List EAV} {bs0 bs : AMap Entid AttributeBuilder} {e : Entid} {b : AttributeBuilder}
    (h1 : assertAll L bs0 = .ok bs) (hf : ∀ a v v', (e, a, v) ∈ L → (e, a, v') ∈ L → v = v')
    (hh : ∀ v, (e, DB_NO_HISTORY, v) ∉ L) (h00 : builderOr bs0 e = {}) (hgb : AMap.get bs e = some b)
    (k2 : b.valueType.isSome = true) : Built (fun a v => (e, a, v) ∈ L) b.build := by
  obtain ⟨vt1, vt2, vt3⟩ := assertAll_field setBy_valueType h1 e
  obtain ⟨mv1, mv2, mv3⟩ := assertAll_field setBy_multival h1 e
  obtain ⟨uq1, uq2, uq3⟩ := assertAll_field setBy_unique h1 e
  obtain ⟨ix1, ix2, ix3⟩ := assertAll_field setBy_index h1 e
  obtain ⟨ft1, ft2, ft3⟩ := assertAll_field setBy_fulltext h1 e
  obtain ⟨co1, co2, co3⟩ := assertAll_field setBy_component h1 e
  obtain ⟨nh1, -, -⟩ := assertAll_field setBy_noHistory h1 e
  have uqs : ∀ v, (e, DB_UNIQUE, v) ∈ L → (decodeUnique v).isSome = true := by
    intro v hv; have := uq2 v hv; simpa using this
  have hbo : builderOr bs e = b := by unfold builderOr; rw [hgb]
  rw [hbo] at vt1 vt3 mv1 mv3 uq1 uq3 ix1 ix3 ft1 ft3 co1 co3 nh1
  rw [h00] at vt1 mv1 uq1 ix1 ft1 co1 nh1
  refine ⟨?_, ?_, ?_, ?_, ?_, ?_, ?_, ?_, ?_, ?_, ?_, ?_⟩
  · by_cases hv : ∃ v, (e, DB_VALUE_TYPE, v) ∈ L
    · obtain ⟨v, hv⟩ := hv
      refine ⟨v, hv, ?_⟩
      rw [← vt3 v hv fun v' h' => hf _ _ _ h' hv]
      obtain ⟨t, ht⟩ := Option.isSome_iff_exists.1 k2
      simp [AttributeBuilder.build, ht, orKeep]
    · rw [vt1 (not_exists.1 hv)] at k2; cases k2
  · intro v hv
    have h2 := mv2 v hv
    have h3 := mv3 v hv fun v' h' => hf _ _ _ h' hv
    obtain ⟨x, hx⟩ := Option.isSome_iff_exists.1 h2
    simp only [hx] at h3 ⊢
    simp [AttributeBuilder.build, h3, orKeep]
  · intro hn
    have := mv1 hn
    simp only at this
    simp [AttributeBuilder.build, this, orKeep]
  · intro v hv
    have h2 := uqs v hv
    have h3 := uq3 v hv fun v' h' => hf _ _ _ h' hv
    obtain ⟨x, hx⟩ := Option.isSome_iff_exists.1 h2
    simp only [hx, Option.map_some] at h3 ⊢
    simp [AttributeBuilder.build, h3, orKeep]
  · intro hn
    have := uq1 hn
    simp only at this
    simp [AttributeBuilder.build, this, orKeep]
  · intro v hv
    have h2 := ix2 v hv
    have h3 := ix3 v hv fun v' h' => hf _ _ _ h' hv
    obtain ⟨x, hx⟩ := Option.isSome_iff_exists.1 h2
    simp only [hx] at h3 ⊢
    simp [AttributeBuilder.build, h3, orKeep]
  · intro hn
    have := ix1 hn
    simp only at this
    simp [AttributeBuilder.build, this, orKeep]
  · intro v hv
    have h2 := ft2 v hv
    have h3 := ft3 v hv fun v' h' => hf _ _ _ h' hv
    obtain ⟨x, hx⟩ := Option.isSome_iff_exists.1 h2
    simp only [hx] at h3 ⊢
    simp [AttributeBuilder.build, h3, orKeep]
  · intro hn
    have := ft1 hn
    simp only at this
    simp [AttributeBuilder.build, this, orKeep]
  · intro v hv
    have h2 := co2 v hv
    have h3 := co3 v hv fun v' h' => hf _ _ _ h' hv
    obtain ⟨x, hx⟩ := Option.isSome_iff_exists.1 h2
    simp only [hx] at h3 ⊢
    simp [AttributeBuilder.build, h3, orKeep]
  · intro hn
    have := co1 hn
    simp only at this
    simp [AttributeBuilder.build, this, orKeep]
  · have := nh1 hh
    simp only at this
    simp [AttributeBuilder.build, this, orKeep]

theorem updateAttributeMap_step {am am' : AMap Entid Attribute} {L retr : List EAV} {rep}
    (h : updateAttributeMap am L retr = .ok (am', rep)) (e : Entid)
    (hf : ∀ a v v', (e, a, v) ∈ L → (e, a, v') ∈ L → v = v') (hh : ∀ v, (e, DB_NO_HISTORY, v) ∉ L) :
    ((∀ a v, (e, a, v) ∉ L) → (∀ a v, (e, a, v) ∉ retr) → AMap.get am' e = AMap.get am e) ∧
    ((∃ a v, (e, a, v) ∈ L ∨ (e, a, v) ∈ retr) →
      ((AMap.get am e = none ∧ ∃ at_, AMap.get am' e = some at_ ∧ (∀ a v, (e, a, v) ∉ retr) ∧
          Built (fun a v => (e, a, v) ∈ L) at_ ∧ at_.valid = true ∧ e ∈ rep.installed) ∨
       (∃ at_ at', AMap.get am e = some at_ ∧ AMap.get am' e = some at' ∧
          Changed (fun a v => (e, a, v) ∈ L) (fun a v => (e, a, v) ∈ retr) at_ at' ∧
          (AMap.get rep.altered e).isSome = true))) ∧
    (∀ v, (e, DB_VALUE_TYPE, v) ∈ L → (decodeValueType v).isSome = true) ∧
    (∀ v, (e, DB_CARDINALITY, v) ∈ L → (decodeCardinality v).isSome = true) ∧
    (∀ v, (e, DB_UNIQUE, v) ∈ L → (decodeUnique v).isSome = true) ∧
    (∀ a v, a = DB_INDEX ∨ a = DB_FULLTEXT ∨ a = DB_IS_COMPONENT → (e, a, v) ∈ L → (decodeBool v).isSome = true) := by
  obtain ⟨bs, bs0, h0, h1, -, hb⟩ := updateAttributeMap_ok h
  obtain ⟨r0, r1, r2⟩ := retractAll_get h0 e
  obtain ⟨g1, g2, g3⟩ := assertAll_get h1 e
  obtain ⟨vt1, vt2, vt3⟩ := assertAll_field setBy_valueType h1 e
  obtain ⟨mv1, mv2, mv3⟩ := assertAll_field setBy_multival h1 e
  obtain ⟨uq1, uq2, uq3⟩ := assertAll_field setBy_unique h1 e
  obtain ⟨ix1, ix2, ix3⟩ := assertAll_field setBy_index h1 e
  obtain ⟨ft1, ft2, ft3⟩ := assertAll_field setBy_fulltext h1 e
  obtain ⟨co1, co2, co3⟩ := assertAll_field setBy_component h1 e
  obtain ⟨nh1, -, -⟩ := assertAll_field setBy_noHistory h1 e
  have uqs : ∀ v, (e, DB_UNIQUE, v) ∈ L → (decodeUnique v).isSome = true := by
    intro v hv; have := uq2 v hv; simpa using this
  refine ⟨fun ha hr => ?_, fun hx => ?_, vt2, mv2, uqs, ?_⟩
  · refine (hb.untouched e ?_).1
    rw [g1 ha, r1 hr]; rfl
  · have hsome : (AMap.get bs e).isSome = true := by
      obtain ⟨a, v, hm | hm⟩ := hx
      · exact g2 ⟨a, v, hm⟩
      · obtain ⟨b', hb', -⟩ := r2 ⟨a, v, hm⟩
        exact g3 (by rw [hb']; rfl)
    obtain ⟨b, hgb⟩ := Option.isSome_iff_exists.1 hsome
    have hbo : builderOr bs e = b := by unfold builderOr; rw [hgb]
    rw [hbo] at vt1 vt3 mv1 mv3 uq1 uq3 ix1 ix3 ft1 ft3 co1 co3 nh1
    have hno : (∀ a v, (e, a, v) ∉ retr) → builderOr bs0 e = {} := by
      intro hr; unfold builderOr; rw [r1 hr]; rfl
    cases hg : AMap.get am e with
    | none =>
      have hr : ∀ a v, (e, a, v) ∉ retr := by
        intro a v hm
        obtain ⟨b', -, hs, -⟩ := r2 ⟨a, v, hm⟩
        simp [hg] at hs
      have h00 := hno hr
      obtain ⟨k1, k2, k3, k4, -⟩ := hb.installed e b hgb hg
      exact Or.inl ⟨rfl, b.build, k1, hr, built_of_assertAll h1 hf hh h00 hgb k2, k3, k4⟩
    | some at_ =>
      obtain ⟨k1, k2, k3, k4⟩ := hb.altered e b at_ hgb hg
      refine Or.inr ⟨at_, _, rfl, k1, ?_, by rw [k2]; rfl⟩
      -- the builder the assertions start from
      have hb0 : (∃ a v, (e, a, v) ∈ retr) →
          RetractedFrom retr e (AttributeBuilder.modify at_) (builderOr bs0 e) := by
        intro hr
        obtain ⟨b', hb', -, hrf⟩ := r2 hr
        have e1 : builderOrModify am [] e = AttributeBuilder.modify at_ := by
          unfold builderOrModify; rw [hg]; rfl
        have e2 : builderOr bs0 e = b' := by unfold builderOr; rw [hb']
        rw [e1] at hrf; rw [e2]; exact hrf
      have hempty : (∀ a v, (e, a, v) ∉ retr) ∨ ∃ a v, (e, a, v) ∈ retr := by
        by_cases hr : ∃ a v, (e, a, v) ∈ retr
        · exact Or.inr hr
        · exact Or.inl fun a v hm => hr ⟨a, v, hm⟩
      have m0 : (builderOr bs0 e).multival = none ∨ (builderOr bs0 e).multival = some at_.multival := by
        rcases hempty with hr | hr
        · left; rw [hno hr]
        · right; rw [(hb0 hr).multival]; rfl
      have i0 : (builderOr bs0 e).index = none := by
        rcases hempty with hr | hr
        · rw [hno hr]
        · rw [(hb0 hr).index]; rfl
      have n0 : (builderOr bs0 e).noHistory = none := by
        rcases hempty with hr | hr
        · rw [hno hr]
        · rw [(hb0 hr).noHistory]; rfl
      refine ⟨rfl, ?_, rfl, ?_, ?_, r0, ?_, ?_, ?_, ?_, ?_, ?_, ?_, ?_, ?_, ?_, ?_⟩
      · intro v hv
        have h3 := vt3 v hv fun v' h' => hf _ _ _ h' hv
        rw [k3] at h3
        have := vt2 v hv
        rw [← h3] at this; cases this
      · intro v hv
        have h3 := ft3 v hv fun v' h' => hf _ _ _ h' hv
        rw [k4] at h3
        have := ft2 v hv
        rw [← h3] at this; cases this
      · have := nh1 hh
        simp only [n0] at this
        simp [AttributeBuilder.mutate, this, orKeep]
      · intro v hv
        obtain ⟨x, hx⟩ := Option.isSome_iff_exists.1 (mv2 v hv)
        have h3 := mv3 v hv fun v' h' => hf _ _ _ h' hv
        simp only [hx] at h3 ⊢
        simp [AttributeBuilder.mutate, h3, orKeep]
      · intro hn
        have := mv1 hn
        rcases m0 with m0 | m0 <;> rw [m0] at this <;> simp [AttributeBuilder.mutate, this, orKeep]
      · intro v hv
        obtain ⟨x, hx⟩ := Option.isSome_iff_exists.1 (ix2 v hv)
        have h3 := ix3 v hv fun v' h' => hf _ _ _ h' hv
        simp only [hx] at h3 ⊢
        simp [AttributeBuilder.mutate, h3, orKeep]
      · intro hn
        have := ix1 hn
        simp only [i0] at this
        simp [AttributeBuilder.mutate, this, orKeep]
      · intro v hv
        obtain ⟨x, hx⟩ := Option.isSome_iff_exists.1 (co2 v hv)
        have h3 := co3 v hv fun v' h' => hf _ _ _ h' hv
        simp only [hx] at h3 ⊢
        simp [AttributeBuilder.mutate, h3, orKeep]
      · intro hn hr
        have := co1 hn
        obtain ⟨v, hv⟩ := hr
        rw [(hb0 ⟨_, v, hv⟩).component ⟨v, hv⟩] at this
        simp [AttributeBuilder.mutate, this, orKeep]
      · intro hn hr
        have := co1 hn
        rcases hempty with hr2 | hr2
        · rw [hno hr2] at this; simp [AttributeBuilder.mutate, this, orKeep]
        · rw [(hb0 hr2).component' hr] at this
          simp [AttributeBuilder.mutate, this, orKeep, AttributeBuilder.modify]
      · intro v hv
        obtain ⟨x, hx⟩ := Option.isSome_iff_exists.1 (uqs v hv)
        have h3 := uq3 v hv fun v' h' => hf _ _ _ h' hv
        simp only [hx, Option.map_some] at h3 ⊢
        simp [AttributeBuilder.mutate, h3]
      · intro hn hr
        have := uq1 hn
        obtain ⟨v, hv⟩ := hr
        rw [(hb0 ⟨_, v, hv⟩).unique ⟨v, hv⟩] at this
        simp [AttributeBuilder.mutate, this]
      · intro hn hr hc
        have := uq1 hn
        obtain ⟨v, hv⟩ := hc
        rw [(hb0 ⟨_, v, hv⟩).unique' hr] at this
        simp [AttributeBuilder.mutate, this, AttributeBuilder.modify]
      · intro hn hr hc
        have hr' : ∀ a v, (e, a, v) ∉ retr := by
          intro a v hm
          rcases r0 a v hm with rfl | rfl
          · exact hc v hm
          · exact hr v hm
        have := uq1 hn
        simp only [hno hr'] at this
        simp [AttributeBuilder.mutate, this]
  · rintro a v (rfl | rfl | rfl) hv
    · exact ix2 v hv
    · exact ft2 v hv
    · exact co2 v hv

/-- `v` is a value the schema attribute `a` can be given. -/
structure Decodable_ (a : Entid) (v : TypedValue) : Prop where
  valueType : a = DB_VALUE_TYPE → (decodeValueType v).isSome = true
  multival : a = DB_CARDINALITY → (decodeCardinality v).isSome = true
  unique : a = DB_UNIQUE → (decodeUnique v).isSome = true
  bool : a = DB_INDEX ∨ a = DB_FULLTEXT ∨ a = DB_IS_COMPONENT → (decodeBool v).isSome = true

theorem mem_triplesOf {m : AMap (Entid × Entid) TypedValue} {e a v} :
    (e, a, v) ∈ triplesOf m ↔ ((e, a), v) ∈ m := by
  unfold triplesOf
  simp only [List.mem_map, Prod.mk.injEq]
  constructor
  · rintro ⟨⟨⟨e', a'⟩, v'⟩, hm, rfl, rfl, rfl⟩; exact hm
  · intro hm; exact ⟨_, hm, rfl, rfl, rfl⟩

/-- The effect of `updateSchema` on one attribute, given the schema datoms there were (`old`) and are
(`new`) and that the quadruples are the difference. -/
theorem updateSchema_attrs {s quads s' rep} {old new : Entid → Entid → TypedValue → Prop}
    (h : updateSchema s quads = .ok (s', rep)) (hn : quads.Nodup)
    (hm : ∀ e a v b, (e, a, v, b) ∈ quads → a ∈ metadataList)
    (hA : ∀ e a v, a ∈ schemaList → ((e, a, v, true) ∈ quads ↔ new e a v ∧ ¬ old e a v))
    (hR : ∀ e a v, a ∈ schemaList → ((e, a, v, false) ∈ quads ↔ old e a v ∧ ¬ new e a v))
    (o1 : ∀ e a v v', a ∈ schemaList → old e a v → old e a v' → v = v')
    (n1 : ∀ e a v v', a ∈ schemaList → new e a v → new e a v' → v = v') (e : Entid) :
    AttrStep (fun a v => a ∈ schemaList ∧ new e a v ∧ ¬ old e a v)
      (fun a v => a ∈ schemaList ∧ old e a v ∧ ∀ v', ¬ new e a v') (s.attr e) (s'.attr e) ∧
    (∀ a v, a ∈ schemaList → new e a v → ¬ old e a v → Decodable_ a v) ∧
    (rep.installed = [] → rep.altered = [] → rep.identsAltered = [] → s'.attr e = s.attr e) := by
  obtain ⟨as_, is, am, retr, am', rep0, hc, hsr, hu, ham, -, hrep⟩ := updateSchema_ok h
  obtain ⟨has, -⟩ := collectMeta_eq hc
  have hsl : ∀ a, a ∈ metadataList → a ≠ DB_IDENT → a ∈ schemaList := by
    intro a h1 h2
    simp only [metadataList, schemaList, List.mem_cons, List.not_mem_nil, or_false] at h1 ⊢
    rcases h1 with h1 | h1 | h1 | h1 | h1 | h1 | h1
    · exact Or.inl h1
    · exact Or.inr (Or.inl h1)
    · exact absurd h1 h2
    · exact Or.inr (Or.inr (Or.inl h1))
    · exact Or.inr (Or.inr (Or.inr (Or.inl h1)))
    · exact Or.inr (Or.inr (Or.inr (Or.inr (Or.inl h1))))
    · exact Or.inr (Or.inr (Or.inr (Or.inr (Or.inr h1))))
  have hid : ∀ a, a ∈ schemaList → a ≠ DB_IDENT := by
    intro a ha; rintro rfl; exact absurd ha (by decide)
  have hmem : ∀ e a v b, ((e, a), v, b) ∈ attrChanges quads ↔ (e, a, v, b) ∈ quads ∧ a ∈ schemaList := by
    intro e a v b
    rw [mem_attrChanges]
    constructor
    · rintro ⟨h1, h2⟩; exact ⟨h1, hsl a (hm e a v b h1) h2⟩
    · rintro ⟨h1, h2⟩; exact ⟨h1, hid a h2⟩
  have hmA : ∀ e a v, ((e, a), v, true) ∈ attrChanges quads ↔ a ∈ schemaList ∧ new e a v ∧ ¬ old e a v := by
    intro e a v
    rw [hmem]
    constructor
    · rintro ⟨h1, h2⟩; exact ⟨h2, (hA e a v h2).1 h1⟩
    · rintro ⟨h2, h1⟩; exact ⟨(hA e a v h2).2 h1, h2⟩
  have hmR : ∀ e a v, ((e, a), v, false) ∈ attrChanges quads ↔ a ∈ schemaList ∧ old e a v ∧ ¬ new e a v := by
    intro e a v
    rw [hmem]
    constructor
    · rintro ⟨h1, h2⟩; exact ⟨h2, (hR e a v h2).1 h1⟩
    · rintro ⟨h2, h1⟩; exact ⟨(hR e a v h2).2 h1, h2⟩
  obtain ⟨c1, c2, c3⟩ := classified (nodup_attrChanges hn)
    (fun (k : Entid × Entid) v v' h h' => by
      obtain ⟨e, a⟩ := k
      exact n1 e a v v' ((hmA e a v).1 h).1 ((hmA e a v).1 h).2.1 ((hmA e a v').1 h').2.1)
    (fun (k : Entid × Entid) v v' h h' => by
      obtain ⟨e, a⟩ := k
      exact o1 e a v v' ((hmR e a v).1 h).1 ((hmR e a v).1 h).2.1 ((hmR e a v').1 h').2.1)
  rw [← has] at c1 c2 c3
  -- the assertions and the retractions that are processed
  have hL : ∀ e a v, (e, a, v) ∈ triplesOf as_.asserted ++
      as_.altered.map (fun (p : (Entid × Entid) × TypedValue × TypedValue) => (p.1.1, p.1.2, p.2.2)) ↔
      a ∈ schemaList ∧ new e a v ∧ ¬ old e a v := by
    intro e a v
    rw [List.mem_append, mem_triplesOf, c1, hmA]
    constructor
    · rintro (⟨h1, -⟩ | h1)
      · exact h1
      · simp only [List.mem_map, Prod.mk.injEq] at h1
        obtain ⟨⟨⟨e', a'⟩, o, n⟩, hx, rfl, rfl, rfl⟩ := h1
        exact (hmA _ _ _).1 ((c3 _ _ _).1 hx).2
    · intro h1
      by_cases hex : ∃ o, ((e, a), o, false) ∈ attrChanges quads
      · obtain ⟨o, ho⟩ := hex
        right
        rw [List.mem_map]
        exact ⟨((e, a), o, v), (c3 _ _ _).2 ⟨ho, (hmA _ _ _).2 h1⟩, rfl⟩
      · exact Or.inl ⟨h1, not_exists.1 hex⟩
  have hR0 : ∀ e a v, (e, a, v) ∈ triplesOf as_.retracted ↔ a ∈ schemaList ∧ old e a v ∧ ∀ v', ¬ new e a v' := by
    intro e a v
    rw [mem_triplesOf, c2, hmR]
    constructor
    · rintro ⟨⟨h1, h2, h3⟩, h4⟩
      refine ⟨h1, h2, fun v' hv' => ?_⟩
      by_cases ho : old e a v'
      · exact h3 (o1 e a v v' h1 h2 ho ▸ hv')
      · exact h4 v' ((hmA _ _ _).2 ⟨h1, hv', ho⟩)
    · rintro ⟨h1, h2, h3⟩
      exact ⟨⟨h1, h2, h3 v⟩, fun n hx => h3 n ((hmA _ _ _).1 hx).2.1⟩
  have hschema : ∀ e a v, (e, a, v) ∈ triplesOf as_.retracted → isASchemaAttribute a = true := by
    intro e a v hx
    have := ((hR0 e a v).1 hx).1
    simp only [schemaList, List.mem_cons, List.not_mem_nil, or_false] at this
    rcases this with rfl | rfl | rfl | rfl | rfl | rfl <;> decide
  obtain ⟨q1, q2⟩ := schemaRetractions_exact hsr hschema
  generalize hLdef : triplesOf as_.asserted ++ as_.altered.map
    (fun (p : (Entid × Entid) × TypedValue × TypedValue) => (p.1.1, p.1.2, p.2.2)) = L at hu hL
  have hcard : DB_CARDINALITY ∈ schemaList := by decide
  have hvt : DB_VALUE_TYPE ∈ schemaList := by decide
  obtain ⟨u1, u2, d1, d2, d3, d4⟩ := updateAttributeMap_step hu e
    (fun a v v' hx hy => n1 e a v v' ((hL _ _ _).1 hx).1 ((hL _ _ _).1 hx).2.1 ((hL _ _ _).1 hy).2.1)
    (fun v hx => absurd ((hL _ _ _).1 hx).1 (by decide))
  have hattr' : s'.attr e = AMap.get am' e := by unfold Schema.attr; rw [ham]
  have hdec : ∀ a v, a ∈ schemaList → new e a v → ¬ old e a v → Decodable_ a v := by
    intro a v h1 h2 h3
    have hx := (hL e a v).2 ⟨h1, h2, h3⟩
    refine ⟨?_, ?_, ?_, fun ho => d4 a v ho hx⟩
    · rintro rfl; exact d1 v hx
    · rintro rfl; exact d2 v hx
    · rintro rfl; exact d3 v hx
  have hAfun : (fun a v => (e, a, v) ∈ L) = fun a v => a ∈ schemaList ∧ new e a v ∧ ¬ old e a v := by
    funext a v; exact propext (hL e a v)
  by_cases hgone : GoneBy (triplesOf as_.retracted) e
  · have hnoA : ∀ a v, (e, a, v) ∉ L := by
      intro a v hx
      rcases u2 ⟨a, v, Or.inl hx⟩ with ⟨-, at_, -, -, hbt, -⟩ | ⟨at_, at', hg, -⟩
      · obtain ⟨w, hw, -⟩ := hbt.valueType
        obtain ⟨-, ⟨v', hv'⟩⟩ := hgone
        exact ((hR0 _ _ _).1 hv').2.2 w ((hL _ _ _).1 hw).2.1
      · rw [((q1 e).1 hgone).1] at hg; cases hg
    have hnoR : ∀ a v, (e, a, v) ∉ retr := fun a v hx => ((q2 _ _ _).1 hx).2 hgone
    have hnone : s'.attr e = none := by
      rw [hattr', u1 hnoA hnoR]; exact ((q1 e).1 hgone).1
    refine ⟨?_, hdec, fun _ _ hi => ?_⟩
    · rw [hnone]
      obtain ⟨⟨v, hv⟩, ⟨v', hv'⟩⟩ := hgone
      exact .gone _ ⟨v, (hR0 _ _ _).1 hv⟩ ⟨v', (hR0 _ _ _).1 hv'⟩ fun a v hx => hnoA a v ((hL _ _ _).2 hx)
    · exfalso
      rw [hrep] at hi
      simp only [List.append_eq_nil_iff] at hi
      have := ((q1 e).1 hgone).2
      unfold AMap.contains at this
      rw [AMap.get_isSome_iff, hi.2] at this
      cases this
  · have hRfun : (fun a v => (e, a, v) ∈ retr) = fun a v => a ∈ schemaList ∧ old e a v ∧ ∀ v', ¬ new e a v' := by
      funext a v
      refine propext ?_
      rw [q2, hR0]
      exact ⟨fun hx => hx.1, fun hx => ⟨hx, hgone⟩⟩
    have hR' : ∀ a v, (e, a, v) ∈ retr ↔ a ∈ schemaList ∧ old e a v ∧ ∀ v', ¬ new e a v' :=
      fun a v => iff_of_eq (congrFun (congrFun hRfun a) v)
    have hsame : AMap.get am e = s.attr e := (q1 e).2 hgone
    by_cases hx : ∃ a v, (e, a, v) ∈ L ∨ (e, a, v) ∈ retr
    · refine ⟨?_, hdec, fun hi ha _ => ?_⟩
      · rcases u2 hx with ⟨g0, at_, g1, hr, hbt, hval, -⟩ | ⟨at_, at', g0, g1, hch, -⟩
        · rw [← hsame, hattr', g0, g1]
          refine .installed (fun a v hy => hr a v ((hR' a v).2 hy)) ?_ hval
          rw [← hAfun]; exact hbt
        · rw [← hsame, hattr', g0, g1]
          refine .altered ?_ ?_
          · obtain ⟨a, v, hy | hy⟩ := hx
            · exact ⟨a, v, Or.inl ((hL e a v).1 hy)⟩
            · exact ⟨a, v, Or.inr ((hR' a v).1 hy)⟩
          · rw [← hAfun, ← hRfun]; exact hch
      · exfalso
        have hi0 : rep0.installed = [] := by rw [hrep] at hi; exact hi
        have ha0 : rep0.altered = [] := by rw [hrep] at ha; exact ha
        rcases u2 hx with ⟨-, at_, -, -, -, -, hmem⟩ | ⟨at_, at', -, -, -, hal⟩
        · rw [hi0] at hmem; cases hmem
        · rw [ha0] at hal; cases hal
    · have hnoA : ∀ a v, (e, a, v) ∉ L := fun a v hy => hx ⟨a, v, Or.inl hy⟩
      have hnoR : ∀ a v, (e, a, v) ∉ retr := fun a v hy => hx ⟨a, v, Or.inr hy⟩
      have heq : s'.attr e = s.attr e := by rw [hattr', u1 hnoA hnoR, hsame]
      refine ⟨?_, hdec, fun _ _ _ => heq⟩
      rw [heq]
      exact .same _ (fun a v hy => hnoA a v ((hL _ _ _).2 hy)) (fun a v hy => hnoR a v ((hR' a v).2 hy))

/-- The attributes that describe attributes have cardinality one, as bootstrapped. -/
def SchemaOne (s : Schema) : Prop :=
  ∀ a ∈ schemaList, ∃ at_, s.attr a = some at_ ∧ at_.multival = false

/-- A schema datom about `e` that a transaction adds. -/
def Gains (rows rows' : List Row) (e a : Entid) (v : TypedValue) : Prop :=
  a ∈ schemaList ∧ Has rows' e a v ∧ ¬ Has rows e a v

/-- A schema datom about `e` that a transaction takes away without putting another in its place. -/
def Loses (rows rows' : List Row) (e a : Entid) (v : TypedValue) : Prop :=
  a ∈ schemaList ∧ Has rows e a v ∧ ∀ v', ¬ Has rows' e a v'

theorem RowsInv.one_schema {s : Schema} {rows : List Row} (h : RowsInv s rows) (hs : SchemaOne s)
    {e a v v'} (ha : a ∈ schemaList) (h1 : Has rows e a v) (h2 : Has rows e a v') : v = v' := by
  obtain ⟨at_, hat, hm⟩ := hs a ha
  obtain ⟨r, hr, he, hra, rfl⟩ := h1
  obtain ⟨r', hr', he', hra', rfl⟩ := h2
  rw [h.one r hr r' hr' at_ (by rw [hra]; exact hat) hm (he.trans he'.symm) (hra.trans hra'.symm)]

/-- The effect of one transaction on the attributes and on the `schema` table. -/
theorem attrs_step {db sfm now terms ids db' rep} (hi : RowsInv db.schema db.store.rows)
    (ht : TxInstantOk db.schema) (hso : SchemaOne db.schema)
    (h : transactTermsWith db sfm now terms ids .materializeAndCommit = .ok (db', rep)) :
    (∀ e, AttrStep (Gains db.store.rows db'.store.rows e) (Loses db.store.rows db'.store.rows e)
      (sfm.attr e) (db'.schema.attr e)) ∧
    (∀ e a v, a ∈ schemaList → Has db'.store.rows e a v → ¬ Has db.store.rows e a v → Decodable_ a v) ∧
    ((db'.views.schema = db.views.schema ∧ ∀ e, db'.schema.attr e = sfm.attr e) ∨
      ∀ e a v, (e, a, v) ∈ db'.views.schema ↔
        a ∈ schemaList ∧ Has db'.store.rows e a v ∧ ∃ v', Has db'.store.rows e DB_VALUE_TYPE v') ∧
    (∀ e a v v', a ∈ schemaList → Has db'.store.rows e a v → Has db'.store.rows e a v' → v = v') := by
  obtain ⟨T⟩ := transact_trace h
  have hi' := rowsInv_apply hi (T.qok ht) T.applied
  have hap := applySpec hi.uniq T.applied
  have hsm : ∀ a ∈ schemaList, a ∈ metadataList := by decide
  have hone : ∀ e a v v', a ∈ schemaList → Has T.store.rows e a v → Has T.store.rows e a v' → v = v' :=
    fun e a v v' ha => hi'.one_schema hso ha
  unfold Gains Loses
  simp only [T.has_iff]
  rcases T.md with ⟨hm, -⟩ | ⟨hs, -, hv, hq⟩
  · unfold applyMetadata at hm
    rw [Res.bind_eq_ok] at hm
    obtain ⟨⟨s1, rp⟩, h1, hm⟩ := hm
    simp only at hm
    have key := fun e => updateSchema_attrs (old := Has db.store.rows) (new := Has T.store.rows) h1
      (metadataAssertions_nodup hap.nodup hap.stamp)
      (by
        intro e a v b hx
        unfold metadataAssertions at hx
        simp only [mem_sortQuads, List.mem_map, List.mem_filter, decide_eq_true_eq, Prod.mk.injEq] at hx
        obtain ⟨l, ⟨-, hl⟩, -, rfl, -⟩ := hx
        exact hl)
      (fun e a v ha => (mem_metadataAssertions hap (hsm a ha)).1)
      (fun e a v ha => (mem_metadataAssertions hap (hsm a ha)).2)
      (fun e a v v' ha => hi.one_schema hso ha) hone e
    split at hm
    · rw [Res.bind_eq_ok] at hm
      obtain ⟨⟨rows1, views1⟩, h2, hm⟩ := hm
      simp only [Res.pure_eq, Res.ok.injEq, Prod.mk.injEq] at hm
      obtain ⟨rfl, -, rfl⟩ := hm
      refine ⟨fun e => (key e).1, fun e => (key e).2.1, ?_, hone⟩
      unfold updateMetadata at h2
      cases ha : applyAllAlterations db'.schema rp.altered T.store.rows with
      | ok rows2 =>
        simp only [ha, Res.ok.injEq, Prod.mk.injEq] at h2
        obtain ⟨-, h2⟩ := h2
        by_cases hall : (rp.installed.isEmpty && rp.altered.isEmpty && rp.identsAltered.isEmpty) = true
        · left
          simp only [hall, if_true] at h2
          simp only [Bool.and_eq_true, List.isEmpty_iff] at hall
          refine ⟨?_, fun e => (key e).2.2 hall.1.1 hall.1.2 hall.2⟩
          rw [← h2]
          split <;> rfl
        · right
          simp only [hall, Bool.false_eq_true, if_false] at h2
          intro e a v
          rw [← h2]
          unfold schemaOf Has
          simp only [List.mem_map, List.mem_filter, Bool.and_eq_true, decide_eq_true_eq, List.any_eq_true,
            Prod.mk.injEq]
          constructor
          · rintro ⟨r, ⟨hr, hra, r', hr', hva, hve⟩, rfl, rfl, rfl⟩
            exact ⟨hra, ⟨r, hr, rfl, rfl, rfl⟩, r'.v, r', hr', hve, hva, rfl⟩
          · rintro ⟨hra, ⟨r, hr, rfl, rfl, rfl⟩, v', r', hr', hve, hva, -⟩
            exact ⟨r, ⟨hr, hra, r', hr', hva, hve⟩, rfl, rfl, rfl⟩
      | err er => simp [ha] at h2
      | panic => simp [ha] at h2
    · rename_i hsame
      simp only [Bool.not_eq_true, Bool.not_eq_false'] at hsame
      simp only [Res.pure_eq, Res.ok.injEq, Prod.mk.injEq] at hm
      obtain ⟨rfl, -, hv⟩ := hm
      refine ⟨fun e => ?_, fun e => (key e).2.1, Or.inl ⟨by rw [hv], fun _ => rfl⟩, hone⟩
      have := (key e).1
      rwa [same_attr hsame e] at this
  · -- nothing about the schema was touched
    have hsame : ∀ e a, a ∈ schemaList → ∀ v, Has T.store.rows e a v ↔ Has db.store.rows e a v := by
      intro e a ha v
      rw [← T.has_iff]
      refine T.unchanged (fun q hm _ hqa => ?_) v
      have := hq q hm
      rw [hqa] at this
      simp only [schemaList, List.mem_cons, List.not_mem_nil, or_false] at ha
      rcases ha with rfl | rfl | rfl | rfl | rfl | rfl <;> exact absurd this (by decide)
    refine ⟨fun e => ?_, fun e a v ha h1 h2 => absurd ((hsame e a ha v).1 h1) h2,
      Or.inl ⟨by rw [hv], fun e => by rw [hs]⟩, hone⟩
    rw [hs]
    refine .same _ ?_ ?_
    · rintro a v ⟨ha, h1, h2⟩; exact h2 ((hsame e a ha v).1 h1)
    · rintro a v ⟨ha, h1, h2⟩; exact h2 v ((hsame e a ha v).2 h1)

end Mentat
