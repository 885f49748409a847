import Verif.Proofs.Apply
/- Schema updates and their effect on rows. -/
namespace Mentat

theorem mem_insert_amap {K V : Type} [DecidableEq K] {m : AMap K V} {k k' : K} {v v' : V}
    (h : (k', v') ∈ AMap.insert m k v) : (k', v') ∈ m ∨ (k' = k ∧ v' = v) := by
  induction m with
  | nil => simp [AMap.insert] at h; exact Or.inr h
  | cons p r ih =>
    obtain ⟨k2, v2⟩ := p
    unfold AMap.insert at h
    split at h
    · rcases List.mem_cons.mp h with h | h
      · right; simpa using h
      · exact Or.inl (List.mem_cons_of_mem _ h)
    · rcases List.mem_cons.mp h with h | h
      · left; rw [h]; exact List.mem_cons_self
      · rcases ih h with h | h
        · exact Or.inl (List.mem_cons_of_mem _ h)
        · exact Or.inr h

/-! ### Builders -/

theorem wf_retractAll {am rs bs bs'} (hw : AMap.WF bs) (h : retractAll am rs bs = .ok bs') :
    AMap.WF bs' := by
  induction rs generalizing bs with
  | nil => simp only [retractAll, Res.ok.injEq] at h; subst h; exact hw
  | cons x r ih =>
    obtain ⟨e, a, v⟩ := x
    unfold retractAll at h
    simp only at h
    split at h
    · exact ih (AMap.wf_insert hw _ _) h
    · simp at h
    · simp at h

theorem wf_assertAll {rs bs bs'} (hw : AMap.WF bs) (h : assertAll rs bs = .ok bs') :
    AMap.WF bs' := by
  induction rs generalizing bs with
  | nil => simp only [assertAll, Res.ok.injEq] at h; subst h; exact hw
  | cons x r ih =>
    obtain ⟨e, a, v⟩ := x
    unfold assertAll at h
    simp only at h
    split at h
    · exact ih (AMap.wf_insert hw _ _) h
    · simp at h
    · simp at h

/-- Effect of `applyBuilders`, attribute by attribute. -/
structure BuildersSpec (bs : AMap Entid AttributeBuilder) (am am' : AMap Entid Attribute)
    (rep rep' : MetadataReport) : Prop where
  untouched : ∀ e, AMap.get bs e = none → AMap.get am' e = AMap.get am e ∧
    AMap.get rep'.altered e = AMap.get rep.altered e ∧ (e ∈ rep'.installed ↔ e ∈ rep.installed)
  installed : ∀ e b, AMap.get bs e = some b → AMap.get am e = none →
    AMap.get am' e = some b.build ∧ b.valueType.isSome ∧ b.build.valid = true ∧
    e ∈ rep'.installed ∧ AMap.get rep'.altered e = AMap.get rep.altered e
  altered : ∀ e b at_, AMap.get bs e = some b → AMap.get am e = some at_ →
    AMap.get am' e = some (b.mutate at_).1 ∧ AMap.get rep'.altered e = some (b.mutate at_).2 ∧
    b.valueType = none ∧ b.fulltext = none
  wfAltered : AMap.WF rep.altered → AMap.WF rep'.altered
  wfAm : AMap.WF am → AMap.WF am'

theorem applyBuilders_spec {bs am am' rep rep'} (hw : AMap.WF bs)
    (h : applyBuilders bs am rep = .ok (am', rep')) : BuildersSpec bs am am' rep rep' := by
  induction bs generalizing am rep with
  | nil =>
    simp only [applyBuilders, Res.ok.injEq, Prod.mk.injEq] at h
    obtain ⟨rfl, rfl⟩ := h
    exact ⟨by simp, by simp, by simp, id, id⟩
  | cons p r ih =>
    obtain ⟨e, b⟩ := p
    have hw' : AMap.WF r := by
      simp only [AMap.WF, AMap.keys, List.map_cons, List.nodup_cons] at hw; exact hw.2
    have her : AMap.get r e = none := by
      rw [AMap.get_eq_none_iff]
      simp only [AMap.WF, AMap.keys, List.map_cons, List.nodup_cons] at hw
      exact hw.1
    unfold applyBuilders at h
    split at h
    · rename_i hnone
      split at h
      · rename_i hv
        simp only [Bool.and_eq_true] at hv
        have hs := ih hw' h
        refine ⟨?_, ?_, ?_, hs.wfAltered, fun hwa => hs.wfAm (AMap.wf_insert hwa _ _)⟩
        · intro e' he'
          simp only [AMap.get_cons] at he'
          split at he'
          · simp at he'
          · rename_i hne
            obtain ⟨h1, h2, h3⟩ := hs.untouched e' he'
            refine ⟨by rw [h1, AMap.get_insert_ne _ _ hne], h2, ?_⟩
            rw [h3]; simp only [List.mem_append, List.mem_singleton]
            constructor
            · rintro (h | h)
              · exact h
              · exact absurd h.symm hne
            · exact Or.inl
        · intro e' b' he' hn'
          simp only [AMap.get_cons] at he'
          split at he'
          · rename_i heq; subst heq
            simp only [Option.some.injEq] at he'; subst he'
            obtain ⟨h1, h2, h3⟩ := hs.untouched _ her
            refine ⟨by rw [h1]; simp, hv.1, hv.2, ?_, h2⟩
            rw [h3]; simp
          · rename_i hne
            exact hs.installed e' b' he' (by rw [AMap.get_insert_ne _ _ hne]; exact hn')
        · intro e' b' at_ he' hs'
          simp only [AMap.get_cons] at he'
          split at he'
          · rename_i heq; subst heq; rw [hnone] at hs'; simp at hs'
          · rename_i hne
            exact hs.altered e' b' at_ he' (by rw [AMap.get_insert_ne _ _ hne]; exact hs')
      · simp at h
    · rename_i at0 hsome
      split at h
      · simp at h
      · rename_i hv
        simp only [Bool.or_eq_true, not_or, Bool.not_eq_true, Option.isSome_eq_false_iff,
          Option.isNone_iff_eq_none] at hv
        simp only at h
        have hs := ih hw' h
        refine ⟨?_, ?_, ?_, fun hwa => hs.wfAltered (AMap.wf_insert hwa _ _),
          fun hwa => hs.wfAm (AMap.wf_insert hwa _ _)⟩
        · intro e' he'
          simp only [AMap.get_cons] at he'
          split at he'
          · simp at he'
          · rename_i hne
            obtain ⟨h1, h2, h3⟩ := hs.untouched e' he'
            exact ⟨by rw [h1, AMap.get_insert_ne _ _ hne],
              by rw [h2]; exact AMap.get_insert_ne _ _ hne, h3⟩
        · intro e' b' he' hn'
          simp only [AMap.get_cons] at he'
          split at he'
          · rename_i heq; subst heq; rw [hsome] at hn'; simp at hn'
          · rename_i hne
            obtain ⟨h1, h2, h3, h4, h5⟩ :=
              hs.installed e' b' he' (by rw [AMap.get_insert_ne _ _ hne]; exact hn')
            exact ⟨h1, h2, h3, h4, by rw [h5]; exact AMap.get_insert_ne _ _ hne⟩
        · intro e' b' at_ he' hs'
          simp only [AMap.get_cons] at he'
          split at he'
          · rename_i heq; subst heq
            rw [hsome] at hs'
            simp only [Option.some.injEq] at he' hs'; subst he' hs'
            obtain ⟨h1, h2, -⟩ := hs.untouched _ her
            exact ⟨by rw [h1]; simp, by rw [h2]; simp, hv.1, hv.2⟩
          · rename_i hne
            exact hs.altered e' b' at_ he' (by rw [AMap.get_insert_ne _ _ hne]; exact hs')

theorem updateAttributeMap_ok {am as_ rs am' rep} (h : updateAttributeMap am as_ rs = .ok (am', rep)) :
    ∃ bs bs0, retractAll am rs [] = .ok bs0 ∧ assertAll as_ bs0 = .ok bs ∧ AMap.WF bs ∧
      BuildersSpec bs am am' {} rep := by
  unfold updateAttributeMap at h
  rw [Res.bind_eq_ok] at h
  obtain ⟨bs0, h0, h⟩ := h
  rw [Res.bind_eq_ok] at h
  obtain ⟨bs, h1, h⟩ := h
  have hw : AMap.WF bs := wf_assertAll (wf_retractAll AMap.wf_nil h0) h1
  exact ⟨bs, bs0, h0, h1, hw, applyBuilders_spec hw h⟩

theorem mutate_valueType (b : AttributeBuilder) (a : Attribute) :
    (b.mutate a).1.valueType = a.valueType := rfl

theorem mutate_index_iff (b : AttributeBuilder) (a : Attribute) :
    .index ∈ (b.mutate a).2 ↔ (b.mutate a).1.index ≠ a.index := by
  unfold AttributeBuilder.mutate
  simp only [List.mem_append]
  repeat' split
  all_goals simp_all

theorem mutate_unique_iff (b : AttributeBuilder) (a : Attribute) :
    .unique ∈ (b.mutate a).2 ↔ (b.mutate a).1.unique ≠ a.unique := by
  unfold AttributeBuilder.mutate
  simp only [List.mem_append]
  repeat' split
  all_goals simp_all

theorem mutate_card_iff (b : AttributeBuilder) (a : Attribute) :
    .cardinality ∈ (b.mutate a).2 ↔ (b.mutate a).1.multival ≠ a.multival := by
  unfold AttributeBuilder.mutate
  simp only [List.mem_append]
  repeat' split
  all_goals simp_all

/-! ### Alterations of rows -/

def setFlags (at_ : Attribute) (xs : List Alteration) (r : Row) : Row :=
  { r with avet := if .index ∈ xs then at_.index else r.avet,
           uniq := if .unique ∈ xs then at_.unique.isSome else r.uniq }

theorem uniqueOk_map_avet {rows : List Row} {f : Row → Bool} (h : uniqueOk rows = true) :
    uniqueOk (rows.map fun r => { r with avet := f r }) = true := by
  rw [uniqueOk_iff] at *
  rw [List.pairwise_map]
  exact h

theorem applyAlterations_ok {at_ e xs rows rows'} (h : applyAlterations at_ e xs rows = .ok rows') :
    rows' = rows.map (fun r => if r.a = e then setFlags at_ xs r else r) ∧
    (uniqueOk rows = true → uniqueOk rows' = true) ∧
    (.cardinality ∈ xs → at_.multival = true) := by
  induction xs generalizing rows with
  | nil =>
    simp only [applyAlterations, Res.ok.injEq] at h; subst h
    refine ⟨?_, id, by simp⟩
    symm
    calc rows.map (fun r => if r.a = e then setFlags at_ [] r else r) = rows.map id := by
            apply List.map_congr_left; intro r _; simp [setFlags]
      _ = rows := by simp
  | cons x r ih =>
    unfold applyAlterations at h
    split at h
    · rename_i rows1 h1
      obtain ⟨ih1, ih2, ih3⟩ := ih h
      cases x with
      | index =>
        simp only [applyAlteration, Res.ok.injEq] at h1; subst h1
        refine ⟨?_, ?_, ?_⟩
        · rw [ih1, List.map_map]
          apply List.map_congr_left; intro r' _
          by_cases ha : r'.a = e <;> simp [ha, setFlags]
        · intro hu; apply ih2
          rw [uniqueOk_iff] at *
          rw [List.pairwise_map]
          refine hu.imp ?_
          intro a b hab
          split <;> split <;> exact hab
        · intro hm; simp at hm; exact ih3 hm
      | unique =>
        simp only [applyAlteration] at h1
        split at h1
        · rename_i hu1
          simp only [Res.ok.injEq] at h1; subst h1
          refine ⟨?_, fun _ => ih2 hu1, ?_⟩
          · rw [ih1, List.map_map]
            apply List.map_congr_left; intro r' _
            by_cases ha : r'.a = e <;> simp [ha, setFlags]
          · intro hm; simp at hm; exact ih3 hm
        · split at h1 <;> simp at h1
      | cardinality =>
        simp only [applyAlteration] at h1
        split at h1
        · rename_i hm
          simp only [Res.ok.injEq] at h1; subst h1
          refine ⟨?_, ih2, fun _ => hm⟩
          rw [ih1]
          apply List.map_congr_left; intro r' _
          by_cases ha : r'.a = e <;> simp [ha, setFlags]
        · simp at h1
      | noHistory =>
        simp only [applyAlteration, Res.ok.injEq] at h1; subst h1
        refine ⟨?_, ih2, ?_⟩
        · rw [ih1]
          apply List.map_congr_left; intro r' _
          by_cases ha : r'.a = e <;> simp [ha, setFlags]
        · intro hm; simp at hm; exact ih3 hm
      | isComponent =>
        simp only [applyAlteration, Res.ok.injEq] at h1; subst h1
        refine ⟨?_, ih2, ?_⟩
        · rw [ih1]
          apply List.map_congr_left; intro r' _
          by_cases ha : r'.a = e <;> simp [ha, setFlags]
        · intro hm; simp at hm; exact ih3 hm
    · simp at h
    · simp at h

/-- How alterations `alt` rewrite a row, under the new schema. -/
def reflag (s : Schema) (alt : AMap Entid (List Alteration)) (r : Row) : Row :=
  match AMap.get alt r.a, s.attr r.a with
  | some xs, some at_ => setFlags at_ xs r
  | _, _ => r

theorem reflag_eav (s alt r) : (reflag s alt r).e = r.e ∧ (reflag s alt r).a = r.a ∧
    (reflag s alt r).v = r.v ∧ (reflag s alt r).tx = r.tx := by
  unfold reflag; split <;> simp [setFlags]

theorem applyAllAlterations_ok {s alt rows rows'} (hw : AMap.WF alt)
    (h : applyAllAlterations s alt rows = .ok rows') :
    rows' = rows.map (reflag s alt) ∧ (uniqueOk rows = true → uniqueOk rows' = true) ∧
    (∀ e xs, AMap.get alt e = some xs → ∃ at_, s.attr e = some at_ ∧
      (.cardinality ∈ xs → at_.multival = true)) := by
  induction alt generalizing rows with
  | nil =>
    simp only [applyAllAlterations, Res.ok.injEq] at h; subst h
    refine ⟨?_, id, by simp⟩
    symm
    calc rows.map (reflag s []) = rows.map id := by
            apply List.map_congr_left; intro r _; simp [reflag]
      _ = rows := by simp
  | cons p r ih =>
    obtain ⟨e, xs⟩ := p
    have hw' : AMap.WF r := by
      simp only [AMap.WF, AMap.keys, List.map_cons, List.nodup_cons] at hw; exact hw.2
    have her : AMap.get r e = none := by
      rw [AMap.get_eq_none_iff]
      simp only [AMap.WF, AMap.keys, List.map_cons, List.nodup_cons] at hw
      exact hw.1
    unfold applyAllAlterations at h
    split at h
    · simp at h
    · rename_i at_ hat
      split at h
      · rename_i rows1 h1
        obtain ⟨a1, a2, a3⟩ := applyAlterations_ok h1
        obtain ⟨b1, b2, b3⟩ := ih hw' h
        refine ⟨?_, fun hu => b2 (a2 hu), ?_⟩
        · rw [b1, a1, List.map_map]
          apply List.map_congr_left; intro r' _
          by_cases ha : r'.a = e
          · subst ha
            simp [reflag, setFlags, her, hat]
          · have ha' : ¬ e = r'.a := fun h => ha h.symm
            simp [ha, reflag, ha']
        · intro e' xs' he'
          simp only [AMap.get_cons] at he'
          split at he'
          · rename_i heq; subst heq
            simp only [Option.some.injEq] at he'; subst he'
            exact ⟨at_, hat, a3⟩
          · exact b3 e' xs' he'
      · simp at h
      · simp at h

/-! ### The whole metadata step -/

/-- How a metadata update relates the old and the new schema and rows.
`removed a`: the definition of attribute `a` was erased by this update. -/
structure MetaStep (removed : Entid → Prop) (s s' : Schema) (rows rows' : List Row) : Prop where
  keep : ∀ a at_, s.attr a = some at_ → ¬ removed a →
    ∃ at', s'.attr a = some at' ∧ at'.valueType = at_.valueType ∧
    (at'.multival = false → at_.multival = false)
  reflagged : ∃ f : Row → Row, rows' = rows.map f ∧
    (∀ r, (f r).e = r.e ∧ (f r).a = r.a ∧ (f r).v = r.v ∧ (f r).tx = r.tx) ∧
    (∀ r at_ at', ¬ removed r.a → s.attr r.a = some at_ → s'.attr r.a = some at' →
      r.uniq = at_.unique.isSome → r.avet = at_.index →
      (f r).uniq = at'.unique.isSome ∧ (f r).avet = at'.index)
  uniq : uniqueOk rows = true → uniqueOk rows' = true

theorem attributeMap_assertIdents (l s) : (assertIdents l s).attributeMap = s.attributeMap := by
  induction l generalizing s with
  | nil => rfl
  | cons p r ih => obtain ⟨e, k⟩ := p; simp [assertIdents, ih]

theorem attributeMap_alterIdents (l s) : (alterIdents l s).attributeMap = s.attributeMap := by
  induction l generalizing s with
  | nil => rfl
  | cons p r ih => obtain ⟨e, k, k'⟩ := p; simp [alterIdents, ih]

theorem attributeMap_retractIdents (l s) : (retractIdents l s).attributeMap = s.attributeMap := by
  induction l generalizing s with
  | nil => rfl
  | cons p r ih => obtain ⟨e, k⟩ := p; simp [retractIdents, ih]

/-- The parts of a successful `updateSchema`. -/
theorem updateSchema_ok {s quads s' rep} (h : updateSchema s quads = .ok (s', rep)) :
    ∃ as_ is am retr am' rep0,
      collectMeta quads {} {} = .ok (as_, is) ∧
      schemaRetractions s.attributeMap (triplesOf as_.retracted) is.retracted = .ok (am, retr) ∧
      updateAttributeMap am (triplesOf as_.asserted ++
        as_.altered.map fun (p : (Entid × Entid) × TypedValue × TypedValue) => (p.1.1, p.1.2, p.2.2)) retr
        = .ok (am', rep0) ∧
      s'.attributeMap = am' ∧
      s' = retractIdents (sortBy (·.1) is.retracted) (alterIdents (sortBy (·.1) is.altered)
        (assertIdents (sortBy (·.1) is.asserted) { s with attributeMap := am' })) ∧
      rep = { rep0 with identsAltered := AMap.keys is.asserted ++ AMap.keys is.altered ++ AMap.keys is.retracted } := by
  unfold updateSchema at h
  rw [Res.bind_eq_ok] at h
  obtain ⟨⟨as_, is⟩, h1, h⟩ := h
  simp only at h
  rw [Res.bind_eq_ok] at h
  obtain ⟨⟨am, retr⟩, h2, h⟩ := h
  simp only at h
  rw [Res.bind_eq_ok] at h
  obtain ⟨⟨am', rep0⟩, h3, h⟩ := h
  simp only [Res.pure_eq, Res.ok.injEq, Prod.mk.injEq] at h
  obtain ⟨rfl, rfl⟩ := h
  refine ⟨as_, is, am, retr, am', rep0, h1, h2, h3, ?_, rfl, rfl⟩
  rw [attributeMap_retractIdents, attributeMap_alterIdents, attributeMap_assertIdents]

theorem witness_retracted {K V : Type} [DecidableEq K] {s : ARASet K V} {k : K} {v : V} {b : Bool}
    {k' : K} {v' : V} (h : (k', v') ∈ (s.witness k v b).retracted) :
    (k', v') ∈ s.retracted ∨ (k' = k ∧ v' = v ∧ b = false) := by
  unfold ARASet.witness at h
  cases b
  · simp only [Bool.false_eq_true, if_false] at h
    split at h
    · exact Or.inl h
    · simp only at h
      rcases mem_insert_amap h with h | h
      · exact Or.inl h
      · exact Or.inr ⟨h.1, h.2, rfl⟩
  · simp only [if_true] at h
    split at h
    · simp only [AMap.erase, List.mem_filter] at h; exact Or.inl h.1
    · exact Or.inl h

theorem collectMeta_retracted {quads as_ is as0 is0} (h : collectMeta quads as0 is0 = .ok (as_, is))
    {e a : Entid} {v : TypedValue} (hm : ((e, a), v) ∈ as_.retracted) :
    ((e, a), v) ∈ as0.retracted ∨ (e, a, v, false) ∈ quads := by
  induction quads generalizing as0 is0 with
  | nil =>
    simp only [collectMeta, Res.ok.injEq, Prod.mk.injEq] at h
    obtain ⟨rfl, rfl⟩ := h; exact Or.inl hm
  | cons q r ih =>
    obtain ⟨e', a', v', b⟩ := q
    unfold collectMeta at h
    split at h
    · split at h
      · rcases ih h with h | h
        · exact Or.inl h
        · exact Or.inr (List.mem_cons_of_mem _ h)
      · simp at h
    · rcases ih h with h | h
      · rcases witness_retracted h with h | ⟨h1, h2, h3⟩
        · exact Or.inl h
        · right
          simp only [Prod.mk.injEq] at h1
          obtain ⟨rfl, rfl⟩ := h1; subst h2 h3; simp
      · exact Or.inr (List.mem_cons_of_mem _ h)

theorem schemaRetractions_go_ok {sus idr} {l : List EAV} {am filt am' filt'}
    (h : schemaRetractions.go idr sus l am filt = .ok (am', filt')) {a : Entid}
    (hn : ∀ v, (a, DB_VALUE_TYPE, v) ∉ sus) : AMap.get am' a = AMap.get am a := by
  induction l generalizing am filt with
  | nil =>
    simp only [schemaRetractions.go, Res.ok.injEq, Prod.mk.injEq] at h
    rw [h.1]
  | cons x r ih =>
    obtain ⟨e, b, v⟩ := x
    unfold schemaRetractions.go at h
    simp only at h
    split at h
    · rename_i hc
      split at h
      · rw [ih h, AMap.get_erase]
        split
        · rename_i heq; subst heq
          exfalso
          obtain ⟨-, hc⟩ := hc
          simp only [List.mem_map, List.mem_filter, decide_eq_true_eq] at hc
          obtain ⟨⟨e', b', v'⟩, ⟨hx, rfl⟩, hb⟩ := hc
          simp only at hb; subst hb
          exact hn v' hx
        · rfl
      · simp at h
    · exact ih h

theorem schemaRetractions_ok {am retr idr am' filt'}
    (h : schemaRetractions am retr idr = .ok (am', filt')) {a : Entid}
    (hn : ∀ v, (a, DB_VALUE_TYPE, v) ∉ retr) : AMap.get am' a = AMap.get am a := by
  unfold schemaRetractions at h
  refine schemaRetractions_go_ok h ?_
  intro v hv
  exact hn v (List.mem_filter.mp hv).1

/-- This transaction retracts a :db/valueType of `a`. -/
def RetractsValueType (lr : List LogRow) (a : Entid) : Prop :=
  ∃ l ∈ lr, l.e = a ∧ l.a = DB_VALUE_TYPE ∧ l.added = false

theorem applyMetadata_step {s rows views lr s' rows' views'}
    (h : applyMetadata s rows views lr = .ok (s', rows', views')) :
    MetaStep (RetractsValueType lr) s s' rows rows' := by
  unfold applyMetadata at h
  rw [Res.bind_eq_ok] at h
  obtain ⟨⟨s1, rep⟩, h1, h⟩ := h
  simp only at h
  split at h
  · rw [Res.bind_eq_ok] at h
    obtain ⟨⟨rows1, views1⟩, h2, h⟩ := h
    simp only [Res.pure_eq, Res.ok.injEq, Prod.mk.injEq] at h
    obtain ⟨rfl, rfl, rfl⟩ := h
    obtain ⟨as_, is, am, retr, am', rep0, hc, hr, hu, hs1, -, hrep⟩ := updateSchema_ok h1
    obtain ⟨bs, bs0, -, -, hw, hb⟩ := updateAttributeMap_ok hu
    have hkeep : ∀ a, ¬ RetractsValueType lr a → AMap.get am a = AMap.get s.attributeMap a := by
      intro a hna
      apply schemaRetractions_ok hr
      intro v hv
      unfold triplesOf at hv
      rw [List.mem_map] at hv
      obtain ⟨⟨⟨e1, a1⟩, v1⟩, hm, heq⟩ := hv
      simp only [Prod.mk.injEq] at heq
      obtain ⟨rfl, rfl, rfl⟩ := heq
      rcases collectMeta_retracted hc hm with h | h
      · simp at h
      · apply hna
        unfold metadataAssertions at h
        rw [mem_sortQuads, List.mem_map] at h
        obtain ⟨l, hl, heq⟩ := h
        simp only [Prod.mk.injEq] at heq
        exact ⟨l, (List.mem_filter.mp hl).1, heq.1, heq.2.1, heq.2.2.2⟩
    have hwalt : AMap.WF rep.altered := by
      rw [hrep]; exact hb.wfAltered AMap.wf_nil
    have hupd : ∃ rows2, applyAllAlterations s1 rep.altered rows = .ok rows2 ∧ rows2 = rows1 := by
      unfold updateMetadata at h2
      simp only at h2
      split at h2
      · rename_i rows2 heq
        simp only [Res.ok.injEq, Prod.mk.injEq] at h2
        exact ⟨rows2, heq, h2.1⟩
      · simp at h2
      · simp at h2
    obtain ⟨rows2, hall, rfl⟩ := hupd
    obtain ⟨c1, c2, c3⟩ := applyAllAlterations_ok hwalt hall
    have halt : ∀ e, AMap.get rep.altered e = AMap.get rep0.altered e := by intro e; rw [hrep]
    refine ⟨?_, ⟨reflag s1 rep.altered, c1, reflag_eav _ _, ?_⟩, c2⟩
    · intro a at_ hat hnr
      have hga : AMap.get am a = some at_ := by rw [hkeep a hnr]; exact hat
      cases hg : AMap.get bs a with
      | none =>
        refine ⟨at_, ?_, rfl, id⟩
        unfold Schema.attr; rw [hs1, (hb.untouched a hg).1, hga]
      | some b =>
        obtain ⟨d1, d2, -⟩ := hb.altered a b at_ hg hga
        refine ⟨(b.mutate at_).1, ?_, rfl, ?_⟩
        · unfold Schema.attr; rw [hs1]; exact d1
        · intro hmf
          obtain ⟨at2, hat2, hm2⟩ := c3 a _ (by rw [halt]; exact d2)
          have : at2 = (b.mutate at_).1 := by
            unfold Schema.attr at hat2; rw [hs1, d1] at hat2; exact (Option.some.inj hat2).symm
          subst this
          cases hmv : at_.multival
          · rfl
          · exfalso
            have hmc := hm2 ((mutate_card_iff b at_).mpr (by rw [hmf, hmv]; simp))
            rw [hmf] at hmc; simp at hmc
    · intro r at_ at' hnr hat hat' hru hra
      have hga : AMap.get am r.a = some at_ := by rw [hkeep _ hnr]; exact hat
      cases hg : AMap.get bs r.a with
      | none =>
        have h0 : AMap.get rep.altered r.a = none := by
          rw [halt, (hb.untouched _ hg).2.1]; rfl
        have : at' = at_ := by
          unfold Schema.attr at hat'; rw [hs1, (hb.untouched _ hg).1, hga] at hat'
          exact (Option.some.inj hat').symm
        subst this
        simp [reflag, h0, hru, hra]
      | some b =>
        obtain ⟨d1, d2, -⟩ := hb.altered _ b at_ hg hga
        have : at' = (b.mutate at_).1 := by
          unfold Schema.attr at hat'; rw [hs1, d1] at hat'; exact (Option.some.inj hat').symm
        have h0 : AMap.get rep.altered r.a = some (b.mutate at_).2 := by rw [halt]; exact d2
        unfold reflag
        rw [h0, hat']
        simp only [setFlags]
        subst this
        constructor
        · split
          · rfl
          · rename_i hni
            have := (not_congr (mutate_unique_iff b at_)).mp hni
            simp only [ne_eq, Decidable.not_not] at this
            rw [hru, this]
        · split
          · rfl
          · rename_i hni
            have := (not_congr (mutate_index_iff b at_)).mp hni
            simp only [ne_eq, Decidable.not_not] at this
            rw [hra, this]
  · simp only [Res.pure_eq, Res.ok.injEq, Prod.mk.injEq] at h
    obtain ⟨rfl, rfl, rfl⟩ := h
    refine ⟨fun a at_ h _ => ⟨at_, h, rfl, id⟩, ⟨id, by simp, by simp, ?_⟩, id⟩
    intro r at_ at' _ h1 h2 h3 h4
    rw [h1] at h2; cases h2; exact ⟨h3, h4⟩

/-- A metadata step that removes no attribute in use keeps the row invariant. -/
theorem rowsInv_metaStep {s s' rows rows' removed} (hi : RowsInv s rows)
    (hm : MetaStep removed s s' rows rows') (hr : ∀ r ∈ rows, ¬ removed r.a) :
    RowsInv s' rows' := by
  obtain ⟨f, rfl, hf, hflags⟩ := hm.reflagged
  refine ⟨hm.uniq hi.uniq, ?_, ?_⟩
  · intro r' hr'
    obtain ⟨r, hrm, rfl⟩ := List.mem_map.mp hr'
    obtain ⟨at_, hat, hty, hu, ha⟩ := hi.typed r hrm
    obtain ⟨at', hat', hty', -⟩ := hm.keep r.a at_ hat (hr r hrm)
    obtain ⟨h1, h2⟩ := hflags r at_ at' (hr r hrm) hat hat' hu ha
    exact ⟨at', by rw [(hf r).2.1]; exact hat', by rw [hty', hty, (hf r).2.2.1], h1, h2⟩
  · intro r1 hr1 r2 hr2 at' hat' hmv he ha
    obtain ⟨x, hx, rfl⟩ := List.mem_map.mp hr1
    obtain ⟨y, hy, rfl⟩ := List.mem_map.mp hr2
    rw [(hf x).1, (hf y).1] at he
    rw [(hf x).2.1, (hf y).2.1] at ha
    rw [(hf x).2.1] at hat'
    obtain ⟨at_, hat, -⟩ := hi.typed x hx
    obtain ⟨at2, hat2, -, hm2⟩ := hm.keep x.a at_ hat (hr x hx)
    rw [hat'] at hat2; cases hat2
    rw [hi.one x hx y hy at_ hat (hm2 hmv) he ha]

end Mentat
