import Verif.Proofs.QuerySem
/-
What the algebrizer keeps true of the clauses it builds: the aliases in use, the types recorded, and
the types of the values in the columns recorded.
-/
namespace Mentat
namespace CC

/-! ### What the steps leave alone -/

/-- `cc'` differs from `cc` only by further conditions, bindings of columns and types. -/
structure Grow (cc cc' : CC) : Prop where
  tables : cc'.tables = cc.tables
  computed : cc'.computed = cc.computed
  counter : cc'.counter = cc.counter
  panics : cc'.panics = cc.panics
  inputs : cc'.inputs = cc.inputs
  vals : cc'.vals = cc.vals
  required : cc'.required = cc.required
  wheres : ∃ ws, cc'.wheres = cc.wheres ++ ws
  empty : cc'.empty = false → cc.empty = false

theorem Grow.refl (cc : CC) : Grow cc cc := ⟨rfl, rfl, rfl, rfl, rfl, rfl, rfl, ⟨[], by simp⟩, id⟩

theorem Grow.trans {a b c : CC} (h : Grow a b) (h' : Grow b c) : Grow a c := by
  obtain ⟨w, hw⟩ := h.wheres
  obtain ⟨w', hw'⟩ := h'.wheres
  exact ⟨h'.tables.trans h.tables, h'.computed.trans h.computed, h'.counter.trans h.counter,
    h'.panics.trans h.panics, h'.inputs.trans h.inputs, h'.vals.trans h.vals,
    h'.required.trans h.required, ⟨w ++ w', by rw [hw', hw, List.append_assoc]⟩, fun e => h.empty (h'.empty e)⟩

theorem Grow.evalAll {db : Tables} {env : Env} {a b : CC} (h : Grow a b)
    (he : evalAll db env b.wheres = true) : evalAll db env a.wheres = true := by
  obtain ⟨w, hw⟩ := h.wheres
  rw [hw, evalAll_append, Bool.and_eq_true] at he
  exact he.1

theorem Grow.stables {a b : CC} (h : Grow a b) : b.stables = a.stables := by
  unfold CC.stables; rw [h.tables, h.computed]

theorem grow_markEmpty (cc : CC) : Grow cc cc.markEmpty :=
  ⟨rfl, rfl, rfl, rfl, rfl, rfl, rfl, ⟨[], by simp [markEmpty]⟩, fun h => by simp [markEmpty] at h⟩

theorem grow_addWhere (cc : CC) (c : Constraint) : Grow cc (cc.addWhere c) :=
  ⟨rfl, rfl, rfl, rfl, rfl, rfl, rfl, ⟨[c], rfl⟩, id⟩

theorem grow_constrainType (cc : CC) (x : Var) (t : ValueType) : Grow cc (cc.constrainType x t) := by
  have h : Grow cc { cc with known := AMap.insert cc.known x (TypeSet.one t) } :=
    ⟨rfl, rfl, rfl, rfl, rfl, rfl, rfl, ⟨[], by simp⟩, id⟩
  unfold constrainType
  cases AMap.get cc.known x with
  | none => exact h
  | some s =>
    simp only
    split
    · exact h
    · exact h.trans (grow_markEmpty _)

theorem grow_narrowTypes (cc : CC) (x : Var) (ts : TypeSet) : Grow cc (cc.narrowTypes x ts) := by
  unfold narrowTypes
  split
  · exact grow_markEmpty _
  · cases AMap.get cc.known x with
    | none => exact ⟨rfl, rfl, rfl, rfl, rfl, rfl, rfl, ⟨[], by simp⟩, id⟩
    | some s =>
      have h : Grow cc { cc with known := AMap.insert cc.known x (ts.inter s) } :=
        ⟨rfl, rfl, rfl, rfl, rfl, rfl, rfl, ⟨[], by simp⟩, id⟩
      simp only
      split
      · exact h.trans (grow_markEmpty _)
      · exact h

theorem grow_pushColumn (cc : CC) (q : QA) (x : Var) : Grow cc (cc.pushColumn q x) :=
  ⟨rfl, rfl, rfl, rfl, rfl, rfl, rfl, ⟨[], by simp [pushColumn]⟩, id⟩

theorem grow_constrainConst (cc : CC) (q : QA) (v : TypedValue) : Grow cc (cc.constrainConst q v) := by
  cases v <;> exact grow_addWhere _ _

theorem grow_bindColumn (cc : CC) (s : Schema) (q : QA) (x : Var) : Grow cc (cc.bindColumn s q x) := by
  unfold bindColumn
  cases AMap.get cc.vals x with
  | some v =>
    simp only
    split
    · cases v with
      | keyword k =>
        simp only
        cases AMap.get s.identMap k with
        | none => exact grow_markEmpty _
        | some e => exact grow_addWhere _ _
      | ref e => exact grow_addWhere _ _
      | _ => exact grow_markEmpty _
    · exact grow_constrainConst _ _ _
  | none =>
    simp only
    refine Grow.trans ?_ (grow_pushColumn _ _ _)
    split
    · exact ⟨rfl, rfl, rfl, rfl, rfl, rfl, rfl, ⟨[], by simp⟩, id⟩
    · exact Grow.refl _

theorem grow_constrainRef (cc : CC) (p : ENonValue) : Grow cc (cc.constrainRef p) := by
  cases p with
  | var x => exact grow_constrainType _ _ _
  | _ => exact Grow.refl _

theorem grow_applyRefPlace (cc : CC) (s : Schema) (al : Alias) (c : Col) (p : ENonValue) :
    Grow cc (cc.applyRefPlace s al c p) := by
  cases p with
  | placeholder => exact Grow.refl _
  | var x => exact grow_bindColumn _ _ _ _
  | entid e => exact grow_addWhere _ _

theorem grow_applyValuePlace (cc : CC) (s : Schema) (al : Alias) (t : Option ValueType) (p : EValue) :
    Grow cc (cc.applyValuePlace s al t p).1 := by
  cases p with
  | placeholder => exact Grow.refl _
  | var x =>
    simp only [applyValuePlace]
    cases t with
    | none =>
      simp only [Option.isSome_none, Bool.false_and, Bool.false_eq_true, if_false]
      exact grow_bindColumn _ _ _ _
    | some t =>
      simp only
      split
      · exact grow_constrainType _ _ _
      · exact (grow_constrainType _ _ _).trans (grow_bindColumn _ _ _ _)
  | entid i =>
    simp only [applyValuePlace]
    split <;> first | exact grow_addWhere _ _ | exact grow_markEmpty _
  | entidOrInteger i =>
    simp only [applyValuePlace]
    split <;> exact grow_addWhere _ _
  | identOrKeyword k =>
    simp only [applyValuePlace]
    split
    · cases AMap.get s.identMap k with
      | none => exact grow_markEmpty _
      | some e => exact grow_addWhere _ _
    · exact (grow_addWhere _ _).trans (grow_addWhere _ _)
  | value v =>
    simp only [applyValuePlace]
    split
    · simp only
      split
      · exact (grow_constrainConst _ _ _).trans (grow_addWhere _ _)
      · exact grow_constrainConst _ _ _
    · exact grow_markEmpty _

/-! The stages of `applyForAlias`. -/

/-- The types of the places that hold entities. -/
def stageRefs (cc : CC) (p : EPattern) : CC := ((cc.constrainRef p.tx).constrainRef p.e).constrainRef p.a
/-- ... and the entity and attribute places. -/
def stageA (cc : CC) (s : Schema) (p : EPattern) (al : Alias) : CC :=
  ((cc.stageRefs p).applyRefPlace s al .e p.e).applyRefPlace s al .a p.a
/-- ... and the value place. -/
def stageV (cc : CC) (s : Schema) (p : EPattern) (al : Alias) : CC × Bool :=
  (cc.stageA s p al).applyValuePlace s al ((cc.stageA s p al).valueTypeOf s p) p.v

/-- The attribute is given and unknown to the schema. -/
def badAttr (s : Schema) : ENonValue → Bool
  | .entid e => (s.attr e).isNone
  | _ => false

theorem applyForAlias_eq (cc : CC) (s : Schema) (p : EPattern) (al : Alias) :
    cc.applyForAlias s p al = if cc.empty then cc else
      if badAttr s p.a then ((cc.stageRefs p).applyRefPlace s al .e p.e).markEmpty else
      if (cc.stageV s p al).2 then (cc.stageV s p al).1.applyRefPlace s al .tx p.tx
      else (cc.stageV s p al).1 := by
  unfold applyForAlias stageV stageA stageRefs badAttr
  cases p.a <;> rfl

theorem grow_stageRefs (cc : CC) (p : EPattern) : Grow cc (cc.stageRefs p) :=
  ((grow_constrainRef cc p.tx).trans (grow_constrainRef _ p.e)).trans (grow_constrainRef _ p.a)

theorem grow_stageA (cc : CC) (s : Schema) (p : EPattern) (al : Alias) : Grow cc (cc.stageA s p al) :=
  ((grow_stageRefs cc p).trans (grow_applyRefPlace _ s al .e p.e)).trans (grow_applyRefPlace _ s al .a p.a)

theorem grow_stageV (cc : CC) (s : Schema) (p : EPattern) (al : Alias) : Grow cc (cc.stageV s p al).1 :=
  (grow_stageA cc s p al).trans (grow_applyValuePlace _ _ _ _ _)

theorem grow_applyForAlias (cc : CC) (s : Schema) (p : EPattern) (al : Alias) :
    Grow cc (cc.applyForAlias s p al) := by
  rw [applyForAlias_eq]
  split
  · exact Grow.refl _
  · split
    · exact ((grow_stageRefs cc p).trans (grow_applyRefPlace _ s al .e p.e)).trans (grow_markEmpty _)
    · split
      · exact (grow_stageV cc s p al).trans (grow_applyRefPlace _ _ _ _ _)
      · exact grow_stageV cc s p al

/-! ### The aliases in use -/

/-- The conditions and bindings of the clauses speak of aliases in `K` only. -/
structure Within (K : Alias → Prop) (cc : CC) : Prop where
  wh : ∀ c ∈ cc.wheres, ∀ al ∈ c.refs, K al
  cols : ∀ x qs, AMap.get cc.colb x = some qs → ∀ q ∈ qs, K q.1
  tags : ∀ x q, AMap.get cc.extracted x = some q → K q.1

theorem Within.mono {K K' : Alias → Prop} {cc : CC} (h : Within K cc) (hk : ∀ al, K al → K' al) :
    Within K' cc :=
  ⟨fun c hc al ha => hk al (h.wh c hc al ha), fun x qs hx q hq => hk _ (h.cols x qs hx q hq),
    fun x q hx => hk _ (h.tags x q hx)⟩

theorem cell_congr {env env' : Env} {q : QA} (h : Env.get env q.1 = Env.get env' q.1) :
    cell env q = cell env' q := by unfold cell; rw [h]

theorem Within.evalAll {K : Alias → Prop} {cc : CC} (h : Within K cc) {db : Tables} {env env' : Env}
    (he : ∀ al, K al → Env.get env al = Env.get env' al) :
    evalAll db env cc.wheres = evalAll db env' cc.wheres := by
  apply evalAll_congr
  intro al ha
  obtain ⟨c, hc, hcr⟩ := mem_refsAll.mp ha
  exact he al (h.wh c hc al hcr)

/-- The meaning depends on the aliases in use only. -/
theorem Within.at_congr {K : Alias → Prop} {cc : CC} (h : Within K cc) {db : Tables} {env env' : Env}
    {ρ : Assign} (he : ∀ al, K al → Env.get env al = Env.get env' al) :
    At db cc env ρ ↔ At db cc env' ρ := by
  constructor
  · intro a
    refine ⟨a.live, a.vals, a.known, a.req, ?_, ?_, ?_⟩
    · rw [← h.evalAll he]; exact a.wh
    · intro x qs hx q hq; rw [← cell_congr (he _ (h.cols x qs hx q hq))]; exact a.cols x qs hx q hq
    · intro x q hx; rw [← cell_congr (he _ (h.tags x q hx))]; exact a.tags x q hx
  · intro a
    refine ⟨a.live, a.vals, a.known, a.req, ?_, ?_, ?_⟩
    · rw [h.evalAll he]; exact a.wh
    · intro x qs hx q hq; rw [cell_congr (he _ (h.cols x qs hx q hq))]; exact a.cols x qs hx q hq
    · intro x q hx; rw [cell_congr (he _ (h.tags x q hx))]; exact a.tags x q hx

section
variable {K : Alias → Prop} {cc : CC}

theorem Within.markEmpty (h : Within K cc) : Within K cc.markEmpty := ⟨h.wh, h.cols, h.tags⟩

theorem Within.addWhere (h : Within K cc) {c : Constraint} (hc : ∀ al ∈ c.refs, K al) :
    Within K (cc.addWhere c) := by
  refine ⟨?_, h.cols, h.tags⟩
  intro d hd al ha
  simp only [CC.addWhere, List.mem_append, List.mem_singleton] at hd
  rcases hd with hd | rfl
  · exact h.wh d hd al ha
  · exact hc al ha

theorem Within.known (h : Within K cc) (m : AMap Var TypeSet) : Within K { cc with known := m } :=
  ⟨h.wh, h.cols, h.tags⟩

theorem Within.constrainType (h : Within K cc) (x : Var) (t : ValueType) :
    Within K (cc.constrainType x t) := by
  unfold CC.constrainType
  cases AMap.get cc.known x with
  | none => exact h.known _
  | some s =>
    simp only
    split
    · exact h.known _
    · exact (h.known _).markEmpty

theorem Within.narrowTypes (h : Within K cc) (x : Var) (ts : TypeSet) : Within K (cc.narrowTypes x ts) := by
  unfold CC.narrowTypes
  split
  · exact h.markEmpty
  · cases AMap.get cc.known x with
    | none => exact h.known _
    | some s =>
      simp only
      split
      · exact (h.known _).markEmpty
      · exact h.known _

theorem Within.pushColumn (h : Within K cc) {q : QA} (hq : K q.1) (x : Var) :
    Within K (cc.pushColumn q x) := by
  refine ⟨h.wh, ?_, h.tags⟩
  intro y qs hy r hr
  simp only [CC.pushColumn, AMap.get_insert] at hy
  split at hy
  · cases hy
    simp only [List.mem_append, List.mem_singleton] at hr
    rcases hr with hr | rfl
    · cases hg : AMap.get cc.colb x with
      | none => simp [hg] at hr
      | some l => exact h.cols x l hg r (by simpa [hg] using hr)
    · exact hq
  · exact h.cols y qs hy r hr

theorem refs_eqEntid (q : QA) (e : Int) : (eqEntid q e).refs = [q.1] := by
  simp [eqEntid, Constraint.refs, SExpr.refs]

theorem refs_eqValue (q : QA) (v : TypedValue) : (eqValue q v).refs = [q.1] := by
  simp [eqValue, Constraint.refs, SExpr.refs]

theorem refs_hasUnitType (al : Alias) (t : ValueType) : ∀ b ∈ (hasUnitType al t).refs, b = al := by
  intro b hb
  simp only [hasUnitType, hasTypes, Bool.false_eq_true, if_false, Constraint.refs, mem_refsAll,
    List.mem_map] at hb
  obtain ⟨c, ⟨u, -, rfl⟩, hc⟩ := hb
  simpa [typeConstraint, Constraint.refs, SExpr.refs] using hc

theorem Within.constrainConst (h : Within K cc) {q : QA} (hq : K q.1) (v : TypedValue) :
    Within K (cc.constrainConst q v) := by
  cases v <;> simp only [CC.constrainConst] <;> refine h.addWhere ?_ <;>
    simp only [refs_eqEntid, refs_eqValue, List.mem_singleton] <;> rintro _ rfl <;> exact hq

theorem Within.bindColumn (h : Within K cc) (s : Schema) {q : QA} (hq : K q.1) (x : Var) :
    Within K (cc.bindColumn s q x) := by
  have hw : ∀ e, Within K (cc.addWhere (eqEntid q e)) := fun e => h.addWhere (by
    simp only [refs_eqEntid, List.mem_singleton]; rintro _ rfl; exact hq)
  unfold CC.bindColumn
  cases AMap.get cc.vals x with
  | some v =>
    simp only
    split
    · cases v with
      | keyword k =>
        simp only
        cases AMap.get s.identMap k with
        | none => exact h.markEmpty
        | some e => exact hw e
      | ref e => exact hw e
      | _ => exact h.markEmpty
    · exact h.constrainConst hq v
  | none =>
    simp only
    refine Within.pushColumn ?_ hq x
    split
    · rename_i t ht
      refine ⟨h.wh, h.cols, ?_⟩
      intro y p hy
      simp only [AMap.get_insert] at hy
      split at hy
      · cases hy
        unfold typeTag at ht
        split at ht
        · cases ht; exact hq
        · simp at ht
      · exact h.tags y p hy
    · exact h

theorem Within.constrainRef (h : Within K cc) (p : ENonValue) : Within K (cc.constrainRef p) := by
  cases p with
  | var x => exact h.constrainType _ _
  | _ => exact h

theorem Within.applyRefPlace (h : Within K cc) (s : Schema) {al : Alias} (ha : K al) (c : Col)
    (p : ENonValue) : Within K (cc.applyRefPlace s al c p) := by
  cases p with
  | placeholder => exact h
  | var x => exact h.bindColumn s (q := (al, c)) ha x
  | entid e => exact h.addWhere (by simp only [refs_eqEntid, List.mem_singleton]; rintro _ rfl; exact ha)

theorem Within.applyValuePlace (h : Within K cc) (s : Schema) {al : Alias} (ha : K al)
    (t : Option ValueType) (p : EValue) : Within K (cc.applyValuePlace s al t p).1 := by
  have he : ∀ i, Within K (cc.addWhere (eqEntid (al, .v) i)) := fun e => h.addWhere (by
    simp only [refs_eqEntid, List.mem_singleton]; rintro _ rfl; exact ha)
  have hu : ∀ {cc' : CC} (_ : Within K cc') (t : ValueType), Within K (cc'.addWhere (hasUnitType al t)) :=
    fun h' t => h'.addWhere fun b hb => by rw [refs_hasUnitType al t b hb]; exact ha
  cases p with
  | placeholder => exact h
  | var x =>
    simp only [CC.applyValuePlace]
    cases t with
    | none =>
      simp only [Option.isSome_none, Bool.false_and, Bool.false_eq_true, if_false]
      exact h.bindColumn s (q := (al, .v)) ha x
    | some t =>
      simp only
      split
      · exact h.constrainType _ _
      · exact (h.constrainType _ _).bindColumn s (q := (al, .v)) ha x
  | entid i =>
    simp only [CC.applyValuePlace]
    split <;> first | exact he i | exact h.markEmpty
  | entidOrInteger i =>
    simp only [CC.applyValuePlace]
    split
    · exact he i
    · refine h.addWhere ?_
      intro b hb
      unfold eqNumeric at hb
      split at hb <;> simp [Constraint.refs, Constraint.refsAll, SExpr.refs] at hb <;> subst hb <;> exact ha
  | identOrKeyword k =>
    simp only [CC.applyValuePlace]
    split
    · cases AMap.get s.identMap k with
      | none => exact h.markEmpty
      | some e => exact he e
    · exact hu (h.addWhere (by simp only [refs_eqValue, List.mem_singleton]; rintro _ rfl; exact ha)) _
  | value v =>
    simp only [CC.applyValuePlace]
    split
    · simp only
      split
      · exact hu (h.constrainConst (q := (al, .v)) ha v) _
      · exact h.constrainConst (q := (al, .v)) ha v
    · exact h.markEmpty

theorem Within.applyForAlias (h : Within K cc) (s : Schema) (p : EPattern) {al : Alias} (ha : K al) :
    Within K (cc.applyForAlias s p al) := by
  have h1 : Within K (cc.stageRefs p) := ((h.constrainRef p.tx).constrainRef p.e).constrainRef p.a
  have h2 := h1.applyRefPlace s ha .e p.e
  have h3 : Within K (cc.stageA s p al) := h2.applyRefPlace s ha .a p.a
  have h4 : Within K (cc.stageV s p al).1 := h3.applyValuePlace s ha _ p.v
  rw [applyForAlias_eq]
  split
  · exact h
  · split
    · exact h2.markEmpty
    · split
      · exact h4.applyRefPlace s ha _ _
      · exact h4

end

end CC
end Mentat
