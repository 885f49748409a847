import Verif.Proofs.QueryPattern
/-
The invariant of the clauses, and that a pattern keeps it.
-/
namespace Mentat
namespace CC

theorem TypeSet.one_true {t u : ValueType} (h : TypeSet.one t u = true) : u = t := by
  simpa [TypeSet.one] using h

theorem list_one (t : ValueType) : TypeSet.list (TypeSet.one t) = [t] := by cases t <;> decide

theorem knownType_one {cc : CC} {x : Var} {t : ValueType} (h : AMap.get cc.known x = some (TypeSet.one t)) :
    cc.knownType x = some t := by
  simp [knownType, h, TypeSet.isUnit, TypeSet.exemplar, list_one]

/-! ### The invariant -/

/-- An alias handed out before the counter reached `n`, or one of a computed table. -/
def Old (n : Nat) (al : Alias) : Prop := al.table ≠ .computed → al.n < n

theorem Old.mono {n m : Nat} (h : n ≤ m) {al : Alias} (ho : Old n al) : Old m al := fun hc =>
  Nat.lt_of_lt_of_le (ho hc) h

/-- What is true of the clauses between two steps; `L` are the variables whose types are not known. -/
structure Inv (L : Var → Prop) (cc : CC) : Prop where
  unit : cc.empty = false → ∀ x ts, AMap.get cc.known x = some ts → ∃ t, ts = TypeSet.one t
  valsKnown : cc.empty = false → ∀ x v, AMap.get cc.vals x = some v →
    AMap.get cc.known x = some (TypeSet.one v.valueType)
  valsProper : ∀ x v, AMap.get cc.vals x = some v → v.Proper
  loose : ∀ x, L x → AMap.get cc.known x = none ∧ AMap.get cc.vals x = none ∧ x ∉ cc.inputs
  tags : ∀ x q, AMap.get cc.extracted x = some q → L x
  wfCols : AMap.WF cc.colb
  wfReq : AMap.WF cc.required
  colsNe : ∀ x qs, AMap.get cc.colb x = some qs → qs ≠ []
  fresh : Within (Old cc.counter) cc
  tables : ∀ al ∈ cc.tables, Old cc.counter al
  computed : ∀ (i : Nat) t, cc.computed[i]? = some t → t.alias = ⟨.computed, i⟩
  wfKnown : AMap.WF cc.known

section
variable {L : Var → Prop} {cc : CC}

theorem Inv.markEmpty (h : Inv L cc) : Inv L cc.markEmpty :=
  ⟨fun e => by simp [CC.markEmpty] at e, fun e => by simp [CC.markEmpty] at e, h.valsProper, h.loose, h.tags,
    h.wfCols, h.wfReq, h.colsNe, h.fresh.markEmpty, h.tables, h.computed, h.wfKnown⟩

theorem Inv.addWhere (h : Inv L cc) {c : Constraint} (hc : ∀ al ∈ c.refs, Old cc.counter al) :
    Inv L (cc.addWhere c) :=
  ⟨h.unit, h.valsKnown, h.valsProper, h.loose, h.tags, h.wfCols, h.wfReq, h.colsNe, h.fresh.addWhere hc, h.tables, h.computed, h.wfKnown⟩

theorem known_constrainType (cc : CC) (x : Var) (t : ValueType) :
    (cc.constrainType x t).known = AMap.insert cc.known x (TypeSet.one t) := by
  unfold constrainType
  cases AMap.get cc.known x with
  | none => rfl
  | some s => simp only; split <;> rfl

theorem known_constrainType_self (cc : CC) (x : Var) (t : ValueType) :
    AMap.get (cc.constrainType x t).known x = some (TypeSet.one t) := by
  rw [known_constrainType]; simp

theorem empty_constrainType {x : Var} {t : ValueType} (h : (cc.constrainType x t).empty = false) :
    cc.empty = false ∧ ∀ s, AMap.get cc.known x = some s → s t = true := by
  refine ⟨(grow_constrainType cc x t).empty h, ?_⟩
  intro s hs
  unfold constrainType at h
  rw [hs] at h
  simp only at h
  split at h
  · assumption
  · simp [CC.markEmpty] at h

/-- A type once known is kept. -/
theorem known_constrainType_keep {x y : Var} {t u : ValueType}
    (h : (cc.constrainType x t).empty = false) (hy : AMap.get cc.known y = some (TypeSet.one u)) :
    AMap.get (cc.constrainType x t).known y = some (TypeSet.one u) := by
  rw [known_constrainType]
  by_cases e : x = y
  · subst e
    rw [TypeSet.one_true ((empty_constrainType h).2 _ hy)]; simp
  · simp [AMap.get_insert, e, hy]

theorem colb_constrainType (cc : CC) (x : Var) (t : ValueType) : (cc.constrainType x t).colb = cc.colb := by
  unfold constrainType
  cases AMap.get cc.known x with
  | none => rfl
  | some s => simp only; split <;> rfl

theorem extracted_constrainType (cc : CC) (x : Var) (t : ValueType) :
    (cc.constrainType x t).extracted = cc.extracted := by
  unfold constrainType
  cases AMap.get cc.known x with
  | none => rfl
  | some s => simp only; split <;> rfl

theorem wheres_constrainType (cc : CC) (x : Var) (t : ValueType) :
    (cc.constrainType x t).wheres = cc.wheres := by
  unfold constrainType
  cases AMap.get cc.known x with
  | none => rfl
  | some s => simp only; split <;> rfl

theorem Inv.constrainType (h : Inv L cc) {x : Var} (hx : ¬ L x) (t : ValueType) :
    Inv L (cc.constrainType x t) := by
  have g := grow_constrainType cc x t
  refine ⟨?_, ?_, ?_, ?_, ?_, ?_, ?_, ?_, ?_, ?_, ?_, ?_⟩
  · intro he y ts hy
    rw [known_constrainType, AMap.get_insert] at hy
    split at hy
    · cases hy; exact ⟨t, rfl⟩
    · exact h.unit (g.empty he) y ts hy
  · intro he y v hv
    rw [g.vals] at hv
    exact known_constrainType_keep he (h.valsKnown (g.empty he) y v hv)
  · rw [g.vals]; exact h.valsProper
  · intro y hy
    have h3 := h.loose y hy
    rw [g.vals, g.inputs, known_constrainType, AMap.get_insert, if_neg (fun e : x = y => hx (e ▸ hy))]
    exact h3
  · rw [extracted_constrainType]; exact h.tags
  · rw [colb_constrainType]; exact h.wfCols
  · rw [g.required]; exact h.wfReq
  · rw [colb_constrainType]; exact h.colsNe
  · rw [g.counter]; exact h.fresh.constrainType x t
  · rw [g.counter, g.tables]; exact h.tables
  · rw [g.computed]; exact h.computed
  · rw [known_constrainType]; exact AMap.wf_insert h.wfKnown _ _

theorem wf_pushColumn (h : AMap.WF cc.colb) (q : QA) (x : Var) : AMap.WF (cc.pushColumn q x).colb :=
  AMap.wf_insert h _ _

theorem colsNe_pushColumn (h : ∀ x qs, AMap.get cc.colb x = some qs → qs ≠ []) (q : QA) (x : Var) :
    ∀ y qs, AMap.get (cc.pushColumn q x).colb y = some qs → qs ≠ [] := by
  intro y qs hy
  simp only [pushColumn, AMap.get_insert] at hy
  split at hy
  · cases hy; simp
  · exact h y qs hy

/-- Record where the type tag of the variable is found, if it is needed. -/
def tagged (cc : CC) (q : QA) (x : Var) : CC :=
  if cc.needsTag x then
    match typeTag q with
    | some t => { cc with extracted := AMap.insert cc.extracted x t }
    | none => cc
  else cc

theorem bindColumn_none {s : Schema} {q : QA} {x : Var} (hv : AMap.get cc.vals x = none) :
    cc.bindColumn s q x = (cc.tagged q x).pushColumn q x := by
  unfold CC.bindColumn tagged needsTag
  simp only [hv]
  generalize (!decide (x ∈ cc.inputs) && (cc.knownType x).isNone && (AMap.get cc.extracted x).isNone) = b
  cases b <;> cases typeTag q <;> rfl

theorem bindColumn_some {s : Schema} {q : QA} {x : Var} {v : TypedValue} (hv : AMap.get cc.vals x = some v) :
    cc.bindColumn s q x = cc.markEmpty ∨ ∃ c, c.refs = [q.1] ∧ cc.bindColumn s q x = cc.addWhere c := by
  have hw : ∀ e, ∃ c : Constraint, c.refs = [q.1] ∧ cc.addWhere (eqEntid q e) = cc.addWhere c :=
    fun e => ⟨_, refs_eqEntid q e, rfl⟩
  unfold CC.bindColumn
  simp only [hv]
  split
  · cases v with
    | keyword k =>
      simp only
      cases AMap.get s.identMap k with
      | none => exact .inl rfl
      | some e => exact .inr (hw e)
    | ref e => exact .inr (hw e)
    | _ => exact .inl rfl
  · cases v <;> first | exact .inr (hw _) | exact .inr ⟨_, refs_eqValue q _, rfl⟩

theorem tagged_fields (cc : CC) (q : QA) (x : Var) :
    (cc.tagged q x).colb = cc.colb ∧ (cc.tagged q x).known = cc.known ∧
    (cc.tagged q x).empty = cc.empty ∧ (cc.tagged q x).vals = cc.vals ∧
    (cc.tagged q x).required = cc.required ∧ (cc.tagged q x).wheres = cc.wheres := by
  unfold tagged
  split
  · cases typeTag q <;> exact ⟨rfl, rfl, rfl, rfl, rfl, rfl⟩
  · exact ⟨rfl, rfl, rfl, rfl, rfl, rfl⟩

theorem tagged_extracted (cc : CC) (q : QA) {x y : Var} (h : x ≠ y) :
    AMap.get (cc.tagged q x).extracted y = AMap.get cc.extracted y := by
  unfold tagged
  split
  · cases typeTag q with
    | none => rfl
    | some t => simp [AMap.get_insert, h]
  · rfl

theorem known_bindColumn (cc : CC) (s : Schema) (q : QA) (x : Var) :
    (cc.bindColumn s q x).known = cc.known := by
  cases hv : AMap.get cc.vals x with
  | none => rw [bindColumn_none hv]; exact (tagged_fields cc q x).2.1
  | some v => rcases bindColumn_some (s := s) (q := q) hv with h | ⟨c, -, h⟩ <;> rw [h] <;> rfl

/-- Binding a column to a variable whose type is known, or a column without a type tag. -/
theorem Inv.bindColumn (h : Inv L cc) (s : Schema) {q : QA} (hq : Old cc.counter q.1) {x : Var}
    (ht : L x ∨ typeTag q = none ∨ ∃ t, AMap.get cc.known x = some (TypeSet.one t)) :
    Inv L (cc.bindColumn s q x) := by
  cases hv : AMap.get cc.vals x with
  | some v =>
    rcases bindColumn_some (s := s) (q := q) hv with e | ⟨c, hc, e⟩ <;> rw [e]
    · exact h.markEmpty
    · refine h.addWhere ?_
      rw [hc]; simp only [List.mem_singleton]; rintro _ rfl; exact hq
  | none =>
    have g := grow_bindColumn cc s q x
    have hf := h.fresh.bindColumn s hq x
    rw [bindColumn_none hv] at g hf ⊢
    obtain ⟨f1, f2, f3, f4, f5, f6⟩ := tagged_fields cc q x
    refine ⟨?_, ?_, ?_, ?_, ?_, ?_, ?_, ?_, ?_, ?_, ?_, ?_⟩
    · intro e y ts hy
      simp only [pushColumn, f2] at hy
      exact h.unit (g.empty e) y ts hy
    · intro e y v hv
      rw [g.vals] at hv
      simp only [pushColumn, f2]
      exact h.valsKnown (g.empty e) y v hv
    · rw [g.vals]; exact h.valsProper
    · intro y hy
      rw [g.vals, g.inputs]
      simp only [pushColumn, f2]
      exact h.loose y hy
    · intro y r hy
      simp only [pushColumn] at hy
      by_cases e : x = y
      · subst e
        rcases ht with ht | ht | ⟨u, ht⟩
        · exact ht
        · simp only [tagged, ht, ite_self] at hy; exact h.tags _ _ hy
        · simp only [tagged, needsTag, knownType_one ht, Option.isNone_some, Bool.and_false, Bool.false_and,
            Bool.false_eq_true, if_false] at hy
          exact h.tags _ _ hy
      · rw [tagged_extracted cc q e] at hy; exact h.tags y r hy
    · exact wf_pushColumn (by rw [f1]; exact h.wfCols) _ _
    · rw [g.required]; exact h.wfReq
    · exact colsNe_pushColumn (by rw [f1]; exact h.colsNe) _ _
    · rw [g.counter]; exact hf
    · rw [g.counter, g.tables]; exact h.tables
    · rw [g.computed]; exact h.computed
    · simp only [pushColumn, f2]; exact h.wfKnown

theorem Inv.constrainRef (h : Inv L cc) {p : ENonValue} (hp : ∀ x, p = .var x → ¬ L x) :
    Inv L (cc.constrainRef p) := by
  cases p with
  | var x => exact h.constrainType (hp x rfl) _
  | _ => exact h

theorem Inv.applyRefPlace (h : Inv L cc) (s : Schema) {al : Alias} (ha : Old cc.counter al) {c : Col}
    (hc : c = .e ∨ c = .a ∨ c = .tx) (p : ENonValue) : Inv L (cc.applyRefPlace s al c p) := by
  cases p with
  | placeholder => exact h
  | var x => exact h.bindColumn s (q := (al, c)) ha (.inr (.inl (by rcases hc with rfl | rfl | rfl <;> rfl)))
  | entid e => exact h.addWhere (by simp only [refs_eqEntid, List.mem_singleton]; rintro _ rfl; exact ha)

theorem Inv.constrainConst (h : Inv L cc) {q : QA} (hq : Old cc.counter q.1) (v : TypedValue) :
    Inv L (cc.constrainConst q v) := by
  cases v <;> simp only [CC.constrainConst] <;> refine h.addWhere ?_ <;>
    simp only [refs_eqEntid, refs_eqValue, List.mem_singleton] <;> rintro _ rfl <;> exact hq

theorem Inv.applyValuePlace (h : Inv L cc) (s : Schema) {al : Alias} (ha : Old cc.counter al)
    {t : Option ValueType} {p : EValue} (ht : ∀ x, p = .var x → (t = none ↔ L x))
    (h1 : ∀ i, p ≠ .entidOrInteger i) (h2 : ∀ k, p ≠ .identOrKeyword k) :
    Inv L (cc.applyValuePlace s al t p).1 := by
  have he : ∀ i, Inv L (cc.addWhere (eqEntid (al, .v) i)) := fun e => h.addWhere (by
    simp only [refs_eqEntid, List.mem_singleton]; rintro _ rfl; exact ha)
  cases p with
  | placeholder => exact h
  | var x =>
    simp only [CC.applyValuePlace]
    have hx := ht x rfl
    cases t with
    | none =>
      simp only [Option.isSome_none, Bool.false_and, Bool.false_eq_true, if_false]
      exact h.bindColumn s (q := (al, .v)) ha (.inl (hx.mp rfl))
    | some t =>
      simp only
      have hL : ¬ L x := fun hl => by have := hx.mpr hl; simp at this
      split
      · exact h.constrainType hL _
      · exact (h.constrainType hL _).bindColumn s (q := (al, .v))
          (by rw [(grow_constrainType cc x t).counter]; exact ha)
          (.inr (.inr ⟨t, known_constrainType_self cc x t⟩))
  | entid i =>
    simp only [CC.applyValuePlace]
    split <;> first | exact he i | exact h.markEmpty
  | entidOrInteger i => exact absurd rfl (h1 i)
  | identOrKeyword k => exact absurd rfl (h2 k)
  | value v =>
    simp only [CC.applyValuePlace]
    split
    · simp only
      split
      · refine (h.constrainConst (q := (al, .v)) ha v).addWhere ?_
        rw [(grow_constrainConst cc (al, .v) v).counter]
        intro b hb; rw [refs_hasUnitType al _ b hb]; exact ha
      · exact h.constrainConst (q := (al, .v)) ha v
    · exact h.markEmpty

theorem Inv.stageRefs (h : Inv L cc) {s : Schema} {p : EPattern} (hp : Plain L s cc p) :
    Inv L (cc.stageRefs p) :=
  ((h.constrainRef hp.tx).constrainRef hp.e).constrainRef (fun x e => (hp.a x e).1)

theorem Inv.stageA (h : Inv L cc) {s : Schema} {p : EPattern} (hp : Plain L s cc p) {al : Alias}
    (ha : Old cc.counter al) : Inv L (cc.stageA s p al) := by
  have g1 := grow_stageRefs cc p
  have h1 := (h.stageRefs hp).applyRefPlace s (al := al) (by rw [g1.counter]; exact ha) (.inl rfl) p.e
  refine h1.applyRefPlace s ?_ (.inr (.inl rfl)) p.a
  rw [(grow_applyRefPlace _ s al .e p.e).counter, g1.counter]; exact ha

theorem valueTypeOf_plain {s : Schema} {p : EPattern} (hp : Plain L s cc p) {cc' : CC}
    (hv : cc'.vals = cc.vals) : ∀ x, p.v = .var x → (cc'.valueTypeOf s p = none ↔ L x) := by
  intro x hx
  by_cases hk : ∃ a, p.a = .entid a
  · obtain ⟨a, ha⟩ := hk
    obtain ⟨⟨at_, hat⟩, hn, -⟩ := hp.known a ha
    rw [valueTypeOf_known ha hat]
    simp [hn x hx]
  · have hk : ∀ a, p.a ≠ .entid a := fun a ha => hk ⟨a, ha⟩
    rw [valueTypeOf_unknown hp hk hv]
    rcases hp.unknown hk with h | ⟨y, h, hl⟩ | ⟨w, h, -⟩
    · rw [h] at hx; simp at hx
    · rw [h] at hx; cases hx; simp [hl]
    · rw [h] at hx; simp at hx

theorem plain_value {s : Schema} {p : EPattern} (hp : Plain L s cc p) :
    (∀ i, p.v ≠ .entidOrInteger i) ∧ ∀ k, p.v ≠ .identOrKeyword k := by
  by_cases hk : ∃ a, p.a = .entid a
  · obtain ⟨a, ha⟩ := hk
    exact (hp.known a ha).2.2
  · rcases hp.unknown (fun a ha => hk ⟨a, ha⟩) with h | ⟨y, h, hl⟩ | ⟨w, h, -⟩ <;> rw [h] <;> simp

theorem Inv.stageV (h : Inv L cc) {s : Schema} {p : EPattern} (hp : Plain L s cc p) {al : Alias}
    (ha : Old cc.counter al) : Inv L (cc.stageV s p al).1 := by
  have g := grow_stageA cc s p al
  exact (h.stageA hp ha).applyValuePlace s (by rw [g.counter]; exact ha) (valueTypeOf_plain hp g.vals)
    (plain_value hp).1 (plain_value hp).2

theorem Inv.applyForAlias (h : Inv L cc) {s : Schema} {p : EPattern} (hp : Plain L s cc p) {al : Alias}
    (ha : Old cc.counter al) : Inv L (cc.applyForAlias s p al) := by
  rw [applyForAlias_eq]
  split
  · exact h
  · split
    · exact ((h.stageRefs hp).applyRefPlace s (by rw [(grow_stageRefs cc p).counter]; exact ha)
        (.inl rfl) p.e).markEmpty
    · split
      · exact (h.stageV hp ha).applyRefPlace s (by rw [(grow_stageV cc s p al).counter]; exact ha)
          (.inr (.inr rfl)) p.tx
      · exact h.stageV hp ha

end
end CC
end Mentat
