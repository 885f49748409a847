import Verif.Props.QueryFacts
/-
Queries of patterns do not fail: the algebrizer accepts them, the statement speaks of columns that are
there, and its rows can be read.
-/
namespace Mentat
namespace CC

/-! ### Columns in scope -/

theorem _root_.Mentat.AMap.mem_insert {K V : Type} [DecidableEq K] {m : AMap K V} {k k' : K} {v v' : V}
    (h : (k', v') ∈ AMap.insert m k v) : (k' = k ∧ v' = v) ∨ (k', v') ∈ m := by
  induction m with
  | nil => simpa [AMap.insert] using h
  | cons p r ih =>
    obtain ⟨a, b⟩ := p
    simp only [AMap.insert] at h
    split at h
    · rename_i e
      rw [List.mem_cons] at h
      rcases h with h | h
      · rw [Prod.mk.injEq] at h; exact .inl h
      · exact .inr (List.mem_cons_of_mem _ h)
    · rw [List.mem_cons] at h
      rcases h with h | h
      · exact .inr (by rw [h]; simp)
      · exact (ih h).imp_right (List.mem_cons_of_mem _)

def InScope (sc : AMap Alias (List Col)) (q : QA) : Prop := (SExpr.col q.1 q.2).scoped sc = true

/-- The conditions and bindings of the clauses speak of columns in scope. -/
structure Scoped (sc : AMap Alias (List Col)) (cc : CC) : Prop where
  wh : ∀ c ∈ cc.wheres, scopedC sc c = true
  cols : ∀ x qs, (x, qs) ∈ cc.colb → ∀ q ∈ qs, InScope sc q
  tags : ∀ x q, AMap.get cc.extracted x = some q → InScope sc q

theorem scopedAll_iff {sc : AMap Alias (List Col)} : ∀ {cs : List Constraint},
    scopedAll sc cs = true ↔ ∀ c ∈ cs, scopedC sc c = true
  | [] => by simp [scopedAll]
  | c :: cs => by simp [scopedAll, scopedAll_iff (cs := cs)]

/-- The five columns of the tables of datoms. -/
def AliasIn (sc : AMap Alias (List Col)) (al : Alias) : Prop :=
  ∀ c, c = .e ∨ c = .a ∨ c = .v ∨ c = .tx ∨ c = .tag → InScope sc (al, c)

section
variable {sc : AMap Alias (List Col)} {cc : CC}

theorem Scoped.markEmpty (h : Scoped sc cc) : Scoped sc cc.markEmpty := ⟨h.wh, h.cols, h.tags⟩

theorem Scoped.addWhere (h : Scoped sc cc) {c : Constraint} (hc : scopedC sc c = true) : Scoped sc (cc.addWhere c) := by
  refine ⟨?_, h.cols, h.tags⟩
  intro d hd
  simp only [CC.addWhere, List.mem_append, List.mem_singleton] at hd
  rcases hd with hd | rfl
  · exact h.wh d hd
  · exact hc

theorem Scoped.known (h : Scoped sc cc) (m : AMap Var TypeSet) : Scoped sc { cc with known := m } := ⟨h.wh, h.cols, h.tags⟩

theorem Scoped.constrainType (h : Scoped sc cc) (x : Var) (t : ValueType) : Scoped sc (cc.constrainType x t) := by
  unfold CC.constrainType
  cases AMap.get cc.known x with
  | none => exact h.known _
  | some s =>
    simp only
    split
    · exact h.known _
    · exact (h.known _).markEmpty

theorem Scoped.pushColumn (h : Scoped sc cc) {q : QA} (hq : InScope sc q) (x : Var) : Scoped sc (cc.pushColumn q x) := by
  refine ⟨h.wh, ?_, h.tags⟩
  intro y qs hy r hr
  have hy : (y, qs) ∈ AMap.insert cc.colb x _ := hy
  rcases AMap.mem_insert hy with ⟨rfl, e⟩ | hy
  · rw [e] at hr
    simp only [List.mem_append, List.mem_singleton] at hr
    rcases hr with hr | rfl
    · cases hg : AMap.get cc.colb y with
      | none => simp [hg] at hr
      | some l => exact h.cols y l (AMap.get_some_mem hg) r (by simpa [hg] using hr)
    · exact hq
  · exact h.cols y qs hy r hr

theorem scoped_const (v : SqlValue) : (SExpr.const v).scoped sc = true := rfl

theorem scoped_eqEntid {q : QA} (hq : InScope sc q) (e : Int) : scopedC sc (eqEntid q e) = true := by
  simp only [eqEntid, scopedC, Bool.and_eq_true]
  exact ⟨hq, rfl⟩

theorem scoped_eqValue {q : QA} (hq : InScope sc q) (v : TypedValue) : scopedC sc (eqValue q v) = true := by
  simp only [eqValue, scopedC, Bool.and_eq_true]
  exact ⟨hq, rfl⟩

theorem scoped_eqCol {q r : QA} (hq : InScope sc q) (hr : InScope sc r) : scopedC sc (eqCol q r) = true := by
  simp only [eqCol, scopedC, Bool.and_eq_true]
  exact ⟨hq, hr⟩

theorem scoped_hasUnitType {al : Alias} (h : InScope sc (al, .tag)) (t : ValueType) : scopedC sc (hasUnitType al t) = true := by
  simp only [hasUnitType, hasTypes, Bool.false_eq_true, if_false, scopedC, scopedAll_iff, List.mem_map]
  rintro c ⟨u, -, rfl⟩
  simp only [typeConstraint, scopedC, Bool.and_eq_true]
  exact ⟨h, rfl⟩

theorem scoped_eqNumeric {al : Alias} (h : AliasIn sc al) (n : Int) : scopedC sc (eqNumeric al n) = true := by
  have hv : (SExpr.col al .v).scoped sc = true := h .v (by simp)
  have ht : (SExpr.col al .tag).scoped sc = true := h .tag (by simp)
  unfold eqNumeric
  simp only
  split
  · simp only [scopedC, scopedAll, hv, ht, scoped_const, Bool.and_self]
  · simp only [scopedC, hv, scoped_const, Bool.and_self]

theorem Scoped.constrainConst (h : Scoped sc cc) {q : QA} (hq : InScope sc q) (v : TypedValue) :
    Scoped sc (cc.constrainConst q v) := by
  cases v <;> simp only [CC.constrainConst] <;> first
    | exact h.addWhere (scoped_eqEntid hq _)
    | exact h.addWhere (scoped_eqValue hq _)

theorem Scoped.bindColumn (h : Scoped sc cc) (s : Schema) {q : QA} (hq : InScope sc q)
    (ht : ∀ t, typeTag q = some t → InScope sc t) (x : Var) : Scoped sc (cc.bindColumn s q x) := by
  have hw : ∀ e, Scoped sc (cc.addWhere (eqEntid q e)) := fun e => h.addWhere (scoped_eqEntid hq e)
  cases hv : AMap.get cc.vals x with
  | some v =>
    unfold CC.bindColumn
    simp only [hv]
    split
    · cases v with
      | keyword k =>
        simp only
        cases AMap.get s.identMap k with
        | none => exact h.markEmpty
        | some e => exact hw e
      | ref e => exact hw e
      | _ => exact h.markEmpty
    · exact h.constrainConst hq v
  | none =>
    rw [bindColumn_none hv]
    refine Scoped.pushColumn ?_ hq x
    unfold tagged
    split
    · cases htt : typeTag q with
      | none => exact h
      | some t =>
        refine ⟨h.wh, h.cols, ?_⟩
        intro y p hy
        simp only [AMap.get_insert] at hy
        split at hy
        · cases hy; exact ht _ htt
        · exact h.tags y p hy
    · exact h

theorem typeTag_in {al : Alias} (ha : AliasIn sc al) {c : Col} : ∀ t, typeTag (al, c) = some t → InScope sc t := by
  intro t ht
  unfold typeTag at ht
  split at ht
  · cases ht; exact ha .tag (by simp)
  · cases ht

theorem Scoped.constrainRef (h : Scoped sc cc) (p : ENonValue) : Scoped sc (cc.constrainRef p) := by
  cases p with
  | var x => exact h.constrainType _ _
  | _ => exact h

theorem Scoped.applyRefPlace (h : Scoped sc cc) (s : Schema) {al : Alias} (ha : AliasIn sc al) {c : Col}
    (hc : c = .e ∨ c = .a ∨ c = .v ∨ c = .tx ∨ c = .tag) (p : ENonValue) : Scoped sc (cc.applyRefPlace s al c p) := by
  cases p with
  | placeholder => exact h
  | var x => exact h.bindColumn s (q := (al, c)) (ha c hc) (typeTag_in ha) x
  | entid e => exact h.addWhere (scoped_eqEntid (ha c hc) e)

theorem Scoped.applyValuePlace (h : Scoped sc cc) (s : Schema) {al : Alias} (ha : AliasIn sc al)
    (t : Option ValueType) (p : EValue) : Scoped sc (cc.applyValuePlace s al t p).1 := by
  have hv : InScope sc (al, .v) := ha .v (by simp)
  have he : ∀ i, Scoped sc (cc.addWhere (eqEntid (al, .v) i)) := fun e => h.addWhere (scoped_eqEntid hv e)
  have hu : ∀ {cc' : CC} (_ : Scoped sc cc') (t : ValueType), Scoped sc (cc'.addWhere (hasUnitType al t)) :=
    fun h' t => h'.addWhere (scoped_hasUnitType (ha .tag (by simp)) t)
  cases p with
  | placeholder => exact h
  | var x =>
    simp only [CC.applyValuePlace]
    cases t with
    | none =>
      simp only [Option.isSome_none, Bool.false_and, Bool.false_eq_true, if_false]
      exact h.bindColumn s hv (typeTag_in ha) x
    | some t =>
      simp only
      split
      · exact h.constrainType _ _
      · exact (h.constrainType _ _).bindColumn s hv (typeTag_in ha) x
  | entid i =>
    simp only [CC.applyValuePlace]
    split <;> first | exact he i | exact h.markEmpty
  | entidOrInteger i =>
    simp only [CC.applyValuePlace]
    split
    · exact he i
    · exact h.addWhere (scoped_eqNumeric ha i)
  | identOrKeyword k =>
    simp only [CC.applyValuePlace]
    split
    · cases AMap.get s.identMap k with
      | none => exact h.markEmpty
      | some e => exact he e
    · exact hu (h.addWhere (scoped_eqValue hv _)) _
  | value v =>
    simp only [CC.applyValuePlace]
    split
    · simp only
      split
      · exact hu (h.constrainConst hv v) _
      · exact h.constrainConst hv v
    · exact h.markEmpty

theorem Scoped.applyForAlias (h : Scoped sc cc) (s : Schema) (p : EPattern) {al : Alias} (ha : AliasIn sc al) :
    Scoped sc (cc.applyForAlias s p al) := by
  have h1 : Scoped sc (cc.stageRefs p) := ((h.constrainRef p.tx).constrainRef p.e).constrainRef p.a
  have h2 := h1.applyRefPlace s ha (c := .e) (by simp) p.e
  have h3 : Scoped sc (cc.stageA s p al) := h2.applyRefPlace s ha (c := .a) (by simp) p.a
  have h4 : Scoped sc (cc.stageV s p al).1 := h3.applyValuePlace s ha _ p.v
  rw [applyForAlias_eq]
  split
  · exact h
  · split
    · exact h2.markEmpty
    · split
      · exact h4.applyRefPlace s ha (by simp) _
      · exact h4

end

/-! ### Types and tags -/

/-- Every variable with a column has a known type or a column of type tags. -/
structure Tidy (cc : CC) : Prop where
  panics : cc.panics = false
  required : cc.required = []
  unit : ∀ x ts, AMap.get cc.known x = some ts → ∃ t, ts = TypeSet.one t
  given : ∀ x ∈ cc.inputs, (AMap.get cc.vals x).isSome
  tagged : ∀ x qs, AMap.get cc.colb x = some qs → qs ≠ [] ∧
    ((AMap.get cc.known x).isSome ∨ (AMap.get cc.extracted x).isSome)

section
variable {cc : CC}

theorem Tidy.markEmpty (h : Tidy cc) : Tidy cc.markEmpty := ⟨h.panics, h.required, h.unit, h.given, h.tagged⟩

theorem Tidy.addWhere (h : Tidy cc) (c : Constraint) : Tidy (cc.addWhere c) :=
  ⟨h.panics, h.required, h.unit, h.given, h.tagged⟩

theorem Tidy.constrainConst (h : Tidy cc) (q : QA) (v : TypedValue) : Tidy (cc.constrainConst q v) := by
  cases v <;> exact h.addWhere _

theorem Tidy.constrainType (h : Tidy cc) (x : Var) (t : ValueType) : Tidy (cc.constrainType x t) := by
  have hi : Tidy { cc with known := AMap.insert cc.known x (TypeSet.one t) } := by
    refine ⟨h.panics, h.required, ?_, h.given, ?_⟩
    · intro y ts hy
      simp only [AMap.get_insert] at hy
      split at hy
      · cases hy; exact ⟨t, rfl⟩
      · exact h.unit y ts hy
    · intro y qs hy
      obtain ⟨h1, h2⟩ := h.tagged y qs hy
      refine ⟨h1, ?_⟩
      simp only [AMap.get_insert]
      split
      · exact .inl rfl
      · exact h2
  unfold CC.constrainType
  cases AMap.get cc.known x with
  | none => exact hi
  | some s =>
    simp only
    split
    · exact hi
    · exact hi.markEmpty

theorem Tidy.bindColumn (h : Tidy cc) (s : Schema) (q : QA) {x : Var}
    (hx : (typeTag q).isSome ∨ (AMap.get cc.known x).isSome) : Tidy (cc.bindColumn s q x) := by
  cases hv : AMap.get cc.vals x with
  | some v => rcases bindColumn_some (s := s) (q := q) hv with e | ⟨c, -, e⟩ <;> rw [e]; exacts [h.markEmpty, h.addWhere _]
  | none =>
    rw [bindColumn_none hv]
    have hg := grow_bindColumn cc s q x
    rw [bindColumn_none hv] at hg
    refine ⟨hg.panics.trans h.panics, hg.required.trans h.required, ?_, by rw [hg.inputs, hg.vals]; exact h.given, ?_⟩
    · intro y ts hy
      have : ((cc.tagged q x).pushColumn q x).known = cc.known := (tagged_fields cc q x).2.1
      rw [this] at hy
      exact h.unit y ts hy
    · intro y qs hy
      have hk : ((cc.tagged q x).pushColumn q x).known = cc.known := (tagged_fields cc q x).2.1
      have he : ((cc.tagged q x).pushColumn q x).extracted = (cc.tagged q x).extracted := rfl
      rw [hk, he]
      simp only [pushColumn, AMap.get_insert, (tagged_fields cc q x).1] at hy
      split at hy
      · rename_i hxy
        subst hxy
        cases hy
        refine ⟨by simp, ?_⟩
        rcases hx with hx | hx
        · unfold CC.tagged
          split
          · obtain ⟨t, ht⟩ := Option.isSome_iff_exists.mp hx
            rw [ht]
            right
            simp
          · rename_i hn
            unfold needsTag at hn
            have hin : x ∉ cc.inputs := by
              intro hm
              have := h.given x hm
              rw [hv] at this; cases this
            cases hkn : AMap.get cc.known x with
            | some ts => exact .inl rfl
            | none =>
              right
              have hkt : cc.knownType x = none := by simp [knownType, hkn]
              simp only [hin, hkt, decide_false, Bool.not_false, Option.isNone_none, Bool.true_and] at hn
              cases hex : AMap.get cc.extracted x with
              | none => rw [hex] at hn; simp at hn
              | some r => rfl
        · exact .inl hx
      · rename_i hxy
        obtain ⟨h1, h2⟩ := h.tagged y qs hy
        refine ⟨h1, ?_⟩
        rw [tagged_extracted cc q hxy]
        exact h2

theorem Tidy.constrainRef (h : Tidy cc) (p : ENonValue) : Tidy (cc.constrainRef p) := by
  cases p with
  | var x => exact h.constrainType _ _
  | _ => exact h

theorem known_isSome_constrainType {x y : Var} {t : ValueType} (h : y = x ∨ (AMap.get cc.known y).isSome) :
    (AMap.get (cc.constrainType x t).known y).isSome := by
  rw [known_constrainType, AMap.get_insert]
  split
  · rfl
  · rename_i hn
    rcases h with rfl | h
    · exact absurd rfl hn
    · exact h

theorem known_isSome_constrainRef {p : ENonValue} {x : Var} (h : p = .var x ∨ (AMap.get cc.known x).isSome) :
    (AMap.get (cc.constrainRef p).known x).isSome := by
  cases p with
  | var y =>
    refine known_isSome_constrainType ?_
    rcases h with h | h
    · cases h; exact .inl rfl
    · exact .inr h
  | placeholder => rcases h with h | h; cases h; exact h
  | entid e => rcases h with h | h; cases h; exact h

theorem Tidy.applyRefPlace (h : Tidy cc) (s : Schema) (al : Alias) (c : Col) {p : ENonValue}
    (hp : ∀ x, p = .var x → (AMap.get cc.known x).isSome) : Tidy (cc.applyRefPlace s al c p) := by
  cases p with
  | placeholder => exact h
  | var x => exact h.bindColumn s _ (.inr (hp x rfl))
  | entid e => exact h.addWhere _

theorem known_isSome_applyValuePlace {s : Schema} {al : Alias} {t : Option ValueType} {p : EValue} {x : Var}
    (h : (AMap.get cc.known x).isSome) : (AMap.get (cc.applyValuePlace s al t p).1.known x).isSome := by
  cases p with
  | placeholder => exact h
  | var y =>
    simp only [CC.applyValuePlace]
    cases t with
    | none =>
      simp only [Option.isSome_none, Bool.false_and, Bool.false_eq_true, if_false]
      rw [known_bindColumn]; exact h
    | some t =>
      simp only
      split
      · exact known_isSome_constrainType (.inr h)
      · rw [known_bindColumn]; exact known_isSome_constrainType (.inr h)
  | entid i =>
    simp only [CC.applyValuePlace]
    split <;> exact h
  | entidOrInteger i =>
    simp only [CC.applyValuePlace]
    split <;> exact h
  | identOrKeyword k =>
    simp only [CC.applyValuePlace]
    split
    · cases AMap.get s.identMap k <;> exact h
    · exact h
  | value v =>
    simp only [CC.applyValuePlace]
    split
    · simp only
      split
      · cases v <;> exact h
      · cases v <;> exact h
    · exact h

theorem Tidy.applyValuePlace (h : Tidy cc) (s : Schema) (al : Alias) (t : Option ValueType) (p : EValue) :
    Tidy (cc.applyValuePlace s al t p).1 := by
  cases p with
  | placeholder => exact h
  | var y =>
    simp only [CC.applyValuePlace]
    cases t with
    | none =>
      simp only [Option.isSome_none, Bool.false_and, Bool.false_eq_true, if_false]
      exact h.bindColumn s _ (.inl rfl)
    | some t =>
      simp only
      split
      · exact h.constrainType _ _
      · exact (h.constrainType _ _).bindColumn s _ (.inl rfl)
  | entid i =>
    simp only [CC.applyValuePlace]
    split <;> first | exact h.addWhere _ | exact h.markEmpty
  | entidOrInteger i =>
    simp only [CC.applyValuePlace]
    split <;> exact h.addWhere _
  | identOrKeyword k =>
    simp only [CC.applyValuePlace]
    split
    · cases AMap.get s.identMap k with
      | none => exact h.markEmpty
      | some e => exact h.addWhere _
    · exact (h.addWhere _).addWhere _
  | value v =>
    simp only [CC.applyValuePlace]
    split
    · simp only
      split
      · exact (h.constrainConst _ v).addWhere _
      · exact h.constrainConst _ v
    · exact h.markEmpty

theorem Tidy.applyForAlias (h : Tidy cc) (s : Schema) (p : EPattern) (al : Alias) : Tidy (cc.applyForAlias s p al) := by
  have h1 : Tidy (cc.stageRefs p) := ((h.constrainRef p.tx).constrainRef p.e).constrainRef p.a
  have ktx : ∀ x, p.tx = .var x → (AMap.get (cc.stageRefs p).known x).isSome := fun x hx =>
    known_isSome_constrainRef (.inr (known_isSome_constrainRef (.inr (known_isSome_constrainRef (.inl hx)))))
  have ke : ∀ x, p.e = .var x → (AMap.get (cc.stageRefs p).known x).isSome := fun x hx =>
    known_isSome_constrainRef (.inr (known_isSome_constrainRef (.inl hx)))
  have ka : ∀ x, p.a = .var x → (AMap.get (cc.stageRefs p).known x).isSome := fun x hx =>
    known_isSome_constrainRef (.inl hx)
  have h2 := h1.applyRefPlace s al .e ke
  have h3 : Tidy (cc.stageA s p al) := h2.applyRefPlace s al .a (fun x hx => by rw [known_applyRefPlace]; exact ka x hx)
  have h4 : Tidy (cc.stageV s p al).1 := h3.applyValuePlace s al _ p.v
  rw [applyForAlias_eq]
  split
  · exact h
  · split
    · exact h2.markEmpty
    · split
      · refine h4.applyRefPlace s al .tx fun x hx => ?_
        refine known_isSome_applyValuePlace ?_
        unfold stageA
        rw [known_applyRefPlace, known_applyRefPlace]
        exact ktx x hx
      · exact h4

end

/-! ### Patterns -/

theorem amap_get_append {K V : Type} [DecidableEq K] (a b : AMap K V) (k : K) {v : V} (h : AMap.get a k = some v) :
    AMap.get (a ++ b : AMap K V) k = some v := by
  induction a with
  | nil => simp at h
  | cons p r ih =>
    obtain ⟨k', v'⟩ := p
    simp only [List.cons_append, AMap.get_cons] at h ⊢
    split
    · rename_i e; rw [if_pos e] at h; exact h
    · rename_i e; rw [if_neg e] at h; exact ih h

/-- What the tables in `FROM` bring into scope. -/
def scopeOf (cc : CC) : AMap Alias (List Col) := cc.stables.map fun t => (t.alias, t.columns)

theorem InScope.append {sc sc' : AMap Alias (List Col)} {q : QA} (h : InScope sc q) :
    InScope (sc ++ sc' : AMap Alias (List Col)) q := by
  unfold InScope SExpr.scoped at h ⊢
  simp only at h ⊢
  cases hg : AMap.get sc q.1 with
  | none => rw [hg] at h; cases h
  | some cs => rw [amap_get_append sc sc' q.1 hg]; rw [hg] at h; exact h

theorem scoped_append {sc sc' : AMap Alias (List Col)} {e : SExpr} (h : e.scoped sc = true) :
    e.scoped (sc ++ sc' : AMap Alias (List Col)) = true := by
  cases e with
  | const v => rfl
  | col al c => exact InScope.append (q := (al, c)) h

/-- Conditions made of comparisons only (no subqueries). -/
inductive Flat : Constraint → Prop
  | infix {op l r} : Flat (.infix op l r)
  | or {cs} : (∀ c ∈ cs, Flat c) → Flat (.or cs)
  | and {cs} : (∀ c ∈ cs, Flat c) → Flat (.and cs)
  | typeCheck {e b} : Flat (.typeCheck e b)

theorem Flat.append {sc sc' : AMap Alias (List Col)} {c : Constraint} (hf : Flat c) (h : scopedC sc c = true) :
    scopedC (sc ++ sc' : AMap Alias (List Col)) c = true := by
  induction hf with
  | «infix» =>
    simp only [scopedC, Bool.and_eq_true] at h ⊢
    exact ⟨scoped_append h.1, scoped_append h.2⟩
  | or _ ih =>
    simp only [scopedC, scopedAll_iff] at h ⊢
    exact fun c hc => ih c hc (h c hc)
  | and _ ih =>
    simp only [scopedC, scopedAll_iff] at h ⊢
    exact fun c hc => ih c hc (h c hc)
  | typeCheck =>
    simp only [scopedC] at h ⊢
    exact scoped_append h

theorem flat_hasUnitType (al : Alias) (t : ValueType) : Flat (hasUnitType al t) := by
  simp only [hasUnitType, hasTypes, Bool.false_eq_true, if_false]
  refine .or fun c hc => ?_
  rw [List.mem_map] at hc
  obtain ⟨u, -, rfl⟩ := hc
  exact .infix

def FlatAll (cc : CC) : Prop := ∀ c ∈ cc.wheres, Flat c

section
variable {cc : CC}

theorem FlatAll.addWhere (h : FlatAll cc) {c : Constraint} (hc : Flat c) : FlatAll (cc.addWhere c) := by
  intro d hd
  simp only [CC.addWhere, List.mem_append, List.mem_singleton] at hd
  rcases hd with hd | rfl
  · exact h d hd
  · exact hc

theorem FlatAll.of_eq {cc' : CC} (h : FlatAll cc) (e : cc'.wheres = cc.wheres) : FlatAll cc' := by
  unfold FlatAll; rw [e]; exact h

theorem FlatAll.constrainType (h : FlatAll cc) (x : Var) (t : ValueType) : FlatAll (cc.constrainType x t) :=
  h.of_eq (wheres_constrainType cc x t)

theorem FlatAll.constrainConst (h : FlatAll cc) (q : QA) (v : TypedValue) : FlatAll (cc.constrainConst q v) := by
  cases v <;> exact h.addWhere .infix

theorem FlatAll.bindColumn (h : FlatAll cc) (s : Schema) (q : QA) (x : Var) : FlatAll (cc.bindColumn s q x) := by
  cases hv : AMap.get cc.vals x with
  | some v =>
    unfold CC.bindColumn
    simp only [hv]
    split
    · cases v with
      | keyword k =>
        simp only
        cases AMap.get s.identMap k with
        | none => exact h
        | some e => exact h.addWhere .infix
      | ref e => exact h.addWhere .infix
      | _ => exact h
    · exact h.constrainConst q v
  | none =>
    rw [bindColumn_none hv]
    exact h.of_eq (tagged_fields cc q x).2.2.2.2.2

theorem FlatAll.constrainRef (h : FlatAll cc) (p : ENonValue) : FlatAll (cc.constrainRef p) := by
  cases p with
  | var x => exact h.constrainType _ _
  | _ => exact h

theorem FlatAll.applyRefPlace (h : FlatAll cc) (s : Schema) (al : Alias) (c : Col) (p : ENonValue) :
    FlatAll (cc.applyRefPlace s al c p) := by
  cases p with
  | placeholder => exact h
  | var x => exact h.bindColumn s _ x
  | entid e => exact h.addWhere .infix

theorem FlatAll.applyValuePlace (h : FlatAll cc) (s : Schema) (al : Alias) (t : Option ValueType) (p : EValue) :
    FlatAll (cc.applyValuePlace s al t p).1 := by
  cases p with
  | placeholder => exact h
  | var y =>
    simp only [CC.applyValuePlace]
    cases t with
    | none =>
      simp only [Option.isSome_none, Bool.false_and, Bool.false_eq_true, if_false]
      exact h.bindColumn s _ y
    | some t =>
      simp only
      split
      · exact h.constrainType _ _
      · exact (h.constrainType _ _).bindColumn s _ y
  | entid i =>
    simp only [CC.applyValuePlace]
    split <;> first | exact h.addWhere .infix | exact h
  | entidOrInteger i =>
    simp only [CC.applyValuePlace]
    split
    · exact h.addWhere .infix
    · refine h.addWhere ?_
      unfold eqNumeric
      simp only
      split
      · refine .and fun c hc => ?_
        simp only [List.mem_cons, List.not_mem_nil, or_false] at hc
        rcases hc with rfl | rfl <;> exact .infix
      · exact .infix
  | identOrKeyword k =>
    simp only [CC.applyValuePlace]
    split
    · cases AMap.get s.identMap k with
      | none => exact h
      | some e => exact h.addWhere .infix
    · exact FlatAll.addWhere (h.addWhere .infix) (flat_hasUnitType _ _)
  | value v =>
    simp only [CC.applyValuePlace]
    split
    · simp only
      split
      · exact (h.constrainConst _ v).addWhere (flat_hasUnitType _ _)
      · exact h.constrainConst _ v
    · exact h

theorem FlatAll.applyForAlias (h : FlatAll cc) (s : Schema) (p : EPattern) (al : Alias) :
    FlatAll (cc.applyForAlias s p al) := by
  have h1 : FlatAll (cc.stageRefs p) := ((h.constrainRef p.tx).constrainRef p.e).constrainRef p.a
  have h2 := h1.applyRefPlace s al .e p.e
  have h3 : FlatAll (cc.stageA s p al) := h2.applyRefPlace s al .a p.a
  have h4 : FlatAll (cc.stageV s p al).1 := h3.applyValuePlace s al _ p.v
  rw [applyForAlias_eq]
  split
  · exact h
  · split
    · exact h2
    · split
      · exact h4.applyRefPlace s al _ _
      · exact h4

end

theorem Scoped.append {sc sc' : AMap Alias (List Col)} {cc : CC} (hf : FlatAll cc) (h : Scoped sc cc) :
    Scoped (sc ++ sc' : AMap Alias (List Col)) cc :=
  ⟨fun c hc => (hf c hc).append (h.wh c hc), fun x qs hx q hq => (h.cols x qs hx q hq).append, fun x q hx => (h.tags x q hx).append⟩

/-- What is true of the clauses of a query of patterns between two steps. -/
structure Total (cc : CC) : Prop where
  tidy : Tidy cc
  colsIn : Scoped cc.scopeOf cc
  flat : FlatAll cc
  tables : ∀ al ∈ cc.tables, al.table ≠ .computed

theorem Total.of_eq {a b : CC} (h : Total a) (ht : Tidy b) (hs : Scoped a.scopeOf b) (hf : FlatAll b) (e : b.tables = a.tables)
    (e' : b.computed = a.computed) : Total b := by
  refine ⟨ht, ?_, hf, by rw [e]; exact h.tables⟩
  have : b.scopeOf = a.scopeOf := by unfold scopeOf stables; rw [e, e']
  rw [this]; exact hs

theorem Total.markEmpty {cc : CC} (h : Total cc) : Total cc.markEmpty :=
  h.of_eq h.tidy.markEmpty h.colsIn.markEmpty h.flat rfl rfl

theorem Total.constrainType {cc : CC} (h : Total cc) (x : Var) (t : ValueType) : Total (cc.constrainType x t) :=
  h.of_eq (h.tidy.constrainType x t) (h.colsIn.constrainType x t) (h.flat.constrainType x t)
    (grow_constrainType cc x t).tables (grow_constrainType cc x t).computed

theorem tableFor_datoms {cc : CC} {s : Schema} {a : ENonValue} {v : EValue} {t : DTable} (h : cc.tableFor s a v = some t) :
    t = .datoms ∨ t = .fulltextDatoms ∨ t = .allDatoms := by
  have h1 : ∀ {at_ : Attribute} {t}, tableForAttribute at_ v = some t → t = .datoms ∨ t = .fulltextDatoms ∨ t = .allDatoms := by
    intro at_ t h
    unfold tableForAttribute at h
    split at h
    · split at h <;> first | (cases h; simp) | cases h
    · cases h; simp
  have h2 : cc.tableForUnknown v = .datoms ∨ cc.tableForUnknown v = .fulltextDatoms ∨ cc.tableForUnknown v = .allDatoms := by
    unfold tableForUnknown
    split
    · split <;> simp
    · simp
    · simp
  unfold tableFor at h
  split at h
  · obtain ⟨at_, -, h⟩ := Option.bind_eq_some_iff.mp h
    exact h1 h
  · cases h; exact h2
  · split at h
    · cases h; exact h2
    · obtain ⟨at_, -, h⟩ := Option.bind_eq_some_iff.mp h
      exact h1 h

theorem cacheLookup_nocache {cc : CC} {k : Known} {p : EPattern} (hk : k.cache = none) :
    cc.cacheLookup k p = none ∨ cc.cacheLookup k p = some cc.markEmpty := by
  unfold cacheLookup
  split
  · exact .inl rfl
  · split
    · split
      · exact .inr rfl
      · simp [Known.cachedForward, Known.cachedReverse, hk]
    · exact .inl rfl

/-- A pattern that is applied, and not given up, binds its variables. -/
theorem bnd_applyForAlias {cc : CC} {s : Schema} {p : EPattern} {al : Alias} (h : (cc.applyForAlias s p al).empty = false)
    {x : Var} (hx : p.Has x) : Bnd (cc.applyForAlias s p al) x := by
  obtain ⟨h0, hb, e⟩ := applyForAlias_live h
  rw [e] at h ⊢
  have hV := (grow_applyRefPlace _ s al .tx p.tx).empty h
  have hlast := fun y (hy : Bnd (cc.stageV s p al).1 y) =>
    hy.up (grow_applyRefPlace _ s al .tx p.tx) (colsUp_applyRefPlace _ s al .tx p.tx)
  have hval := fun y (hy : Bnd (cc.stageA s p al) y) =>
    hlast y (hy.up (grow_applyValuePlace _ s al ((cc.stageA s p al).valueTypeOf s p) p.v) (colsUp_applyValuePlace _ s al _ p.v))
  rcases hx with hr | hr | hr | hr
  · refine hval x (Bnd.up ?_ (grow_applyRefPlace _ s al .a p.a) (colsUp_applyRefPlace _ s al .a p.a))
    exact bnd_applyRefPlace hr
  · exact hval x (bnd_applyRefPlace hr)
  · refine hlast x ?_
    unfold stageV at hV ⊢
    rw [hr] at hV ⊢
    simp only [CC.applyValuePlace] at hV ⊢
    cases ht : (cc.stageA s p al).valueTypeOf s p with
    | none =>
      simp only [Option.isSome_none, Bool.false_and, Bool.false_eq_true, if_false]
      exact bnd_bindColumn _ s _ x
    | some t =>
      rw [ht] at hV
      simp only [Option.isSome_some, Bool.true_and] at hV ⊢
      split at hV
      · rename_i hc
        rw [hc] at hV; cases hV
      · rename_i hc
        rw [if_neg hc]
        exact bnd_bindColumn _ s _ x
  · exact bnd_applyRefPlace hr

/-- Applying a pattern does not fail. -/
theorem total_applyPattern {cc : CC} {k : Known} {p : EPattern} (hk : k.cache = none) (hn : p.named = false) (h : Total cc) :
    ∃ cc', cc.applyPattern k p = .ok cc' ∧ Total cc' ∧ (∀ x, Bnd cc x → Bnd cc' x) ∧ cc'.vals = cc.vals ∧
      cc'.inputs = cc.inputs ∧ (cc'.empty = false → cc.empty = false ∧ ∀ x, p.Has x → Bnd cc' x) := by
  unfold applyPattern
  rw [hn]
  simp only [Bool.false_eq_true, if_false]
  rcases cacheLookup_nocache (cc := cc) (p := p) hk with hc | hc
  · rw [hc]
    simp only
    cases htf : cc.tableFor k.schema p.a p.v with
    | none => exact ⟨_, rfl, h.markEmpty, fun _ h => h, rfl, rfl, fun e => by simp [CC.markEmpty] at e⟩
    | some t =>
      have ht := tableFor_datoms htf
      refine ⟨_, rfl, ?_⟩
      simp only
      generalize hal : (⟨t, cc.counter⟩ : Alias) = al
      have hat : al.table = t := by rw [← hal]
      have hnc : al.table ≠ .computed := by rw [hat]; rcases ht with rfl | rfl | rfl <;> simp
      have hT : Tidy { cc with counter := cc.counter + 1 } := ⟨h.tidy.panics, h.tidy.required, h.tidy.unit, h.tidy.given, h.tidy.tagged⟩
      have hF : FlatAll { cc with counter := cc.counter + 1 } := h.flat
      have hS : ∀ sc, Scoped sc cc → Scoped sc { cc with counter := cc.counter + 1 } := fun sc h => ⟨h.wh, h.cols, h.tags⟩
      have hB : ∀ x, Bnd cc x → Bnd { cc with counter := cc.counter + 1 } x := fun x h => h
      have hst : ({ cc with counter := cc.counter + 1 } : CC).stables = cc.stables := rfl
      have hvv : ({ cc with counter := cc.counter + 1 } : CC).vals = cc.vals := rfl
      have hii : ({ cc with counter := cc.counter + 1 } : CC).inputs = cc.inputs := rfl
      have hee : ({ cc with counter := cc.counter + 1 } : CC).empty = cc.empty := rfl
      have htt : ({ cc with counter := cc.counter + 1 } : CC).tables = cc.tables := rfl
      generalize ({ cc with counter := cc.counter + 1 } : CC) = cc1 at *
      have g := grow_applyForAlias cc1 k.schema p al
      have hup := colsUp_applyForAlias cc1 k.schema p al
      have hT2 := hT.applyForAlias k.schema p al
      have hF2 := hF.applyForAlias k.schema p al
      have hb2 := fun he x hx => bnd_applyForAlias (cc := cc1) (s := k.schema) (p := p) (al := al) he (x := x) hx
      have hsc : AliasIn (cc.scopeOf ++ [(al, al.table.columns)] : AMap Alias (List Col)) al := by
        intro c hcol
        unfold InScope SExpr.scoped
        simp only
        have hget : AMap.get (cc.scopeOf ++ [(al, al.table.columns)] : AMap Alias (List Col)) al = some al.table.columns := by
          unfold scopeOf
          rw [show cc.stables = cc.tables.map STable.table from ?_]
          · induction cc.tables with
            | nil => simp
            | cons a r ih =>
              simp only [List.map_cons, List.cons_append, AMap.get_cons, STable.alias, STable.columns]
              split
              · rename_i e; rw [e]
              · exact ih
          · unfold stables
            refine List.map_congr_left fun a ha => ?_
            rw [if_neg (h.tables a ha)]
        rw [hget]
        rw [hat]
        rcases ht with rfl | rfl | rfl <;> rcases hcol with rfl | rfl | rfl | rfl | rfl <;> simp [DTable.columns]
      have hS2 : Scoped (cc.scopeOf ++ [(al, al.table.columns)] : AMap Alias (List Col)) (cc1.applyForAlias k.schema p al) :=
        (hS _ (Scoped.append h.flat h.colsIn)).applyForAlias k.schema p hsc
      generalize cc1.applyForAlias k.schema p al = cc2 at *
      have hsc2 : ({ cc2 with tables := cc2.tables ++ [al] } : CC).scopeOf = cc.scopeOf ++ [(al, al.table.columns)] := by
        unfold scopeOf
        rw [stables_push hnc, g.stables, hst]
        simp [STable.alias, STable.columns]
      refine ⟨⟨⟨hT2.panics, hT2.required, hT2.unit, hT2.given, hT2.tagged⟩, ?_, hF2, ?_⟩, ?_, g.vals.trans hvv, g.inputs.trans hii, ?_⟩
      · rw [hsc2]; exact ⟨hS2.wh, hS2.cols, hS2.tags⟩
      · intro b hb
        have hb : b ∈ cc2.tables ++ [al] := hb
        rw [List.mem_append, List.mem_singleton, g.tables, htt] at hb
        rcases hb with hb | rfl
        · exact h.tables b hb
        · exact hnc
      · intro x hx
        have : Bnd cc2 x := (hB x hx).up g hup
        exact this
      · intro he
        exact ⟨hee ▸ g.empty he, fun x hx => hb2 he x hx⟩
  · rw [hc]
    exact ⟨_, rfl, h.markEmpty, fun _ h => h, rfl, rfl, fun e => by simp [CC.markEmpty] at e⟩


/-! ### Runs of patterns -/

theorem evolveValue_total {cc : CC} {s : Schema} {t : Option ValueType} {p : PatValue} (hb : ∀ i, p ≠ .constant (.bigInteger i)) :
    ∃ o, cc.evolveValue s t p = .ok o ∧ ∀ q, o = some q → ∀ x, p = .var x → (AMap.get cc.vals x).isSome ∨ q = .var x := by
  cases p with
  | placeholder => exact ⟨_, rfl, fun q _ x h => by cases h⟩
  | entidOrInteger i =>
    simp only [evolveValue]
    split <;> exact ⟨_, rfl, fun q _ x h => by cases h⟩
  | identOrKeyword k =>
    simp only [evolveValue]
    split <;> exact ⟨_, rfl, fun q _ x h => by cases h⟩
  | var x =>
    simp only [evolveValue]
    cases hv : AMap.get cc.vals x with
    | none =>
      refine ⟨_, rfl, ?_⟩
      rintro q hq y hy
      cases hq; cases hy
      exact .inr rfl
    | some v =>
      cases v <;> (refine ⟨_, rfl, ?_⟩; intro q hq y hy; cases hy; left; rw [hv]; rfl)
  | constant c =>
    cases c with
    | bigInteger i => exact absurd rfl (hb i)
    | _ => exact ⟨_, rfl, fun q _ x h => by cases h⟩

/-- A pattern evolves, unless it has a big integer in it. -/
theorem evolve_total {cc : CC} {s : Schema} {p : Pattern} (hb : ∀ i, p.v ≠ .constant (.bigInteger i)) :
    ∃ o, cc.evolvePattern s p = .ok o ∧ ∀ q, o = some q → q.named = p.named ∧
      ∀ x ∈ p.vars, (AMap.get cc.vals x).isSome ∨ q.Has x := by
  have hopen : ∀ {n : NonValue} {q : ENonValue} {x : Var}, cc.evolveNonValue s n = some q → x ∈ n.vars →
      (AMap.get cc.vals x).isSome ∨ q = .var x := by
    intro n q x h hx
    cases n with
    | var y =>
      simp only [NonValue.vars, List.mem_singleton] at hx
      subst hx
      cases hv : AMap.get cc.vals x with
      | some v => left; rfl
      | none => exact .inr (evolveNonValue_open h hv rfl)
    | _ => simp [NonValue.vars] at hx
  unfold evolvePattern
  cases he : cc.evolveNonValue s p.e with
  | none => exact ⟨_, rfl, fun q h => by cases h⟩
  | some e =>
    simp only
    cases ha : cc.evolveAttribute s p.a with
    | none => exact ⟨_, rfl, fun q h => by cases h⟩
    | some at_ =>
      obtain ⟨a, t⟩ := at_
      simp only
      obtain ⟨o, ho, hv⟩ := evolveValue_total (cc := cc) (s := s) (t := t) hb
      rw [ho]
      simp only [Res.bind]
      cases o with
      | none => exact ⟨_, rfl, fun q h => by cases h⟩
      | some v =>
        simp only
        cases ht : cc.evolveNonValue s p.tx with
        | none => exact ⟨_, rfl, fun q h => by cases h⟩
        | some tx =>
          refine ⟨_, rfl, ?_⟩
          intro q hq
          cases hq
          refine ⟨rfl, fun x hx => ?_⟩
          simp only [Pattern.vars, List.mem_append] at hx
          rcases hx with ((hx | hx) | hx) | hx
          · exact (hopen he hx).imp_right fun h => .inl h
          · exact (hopen (evolveAttribute_some ha).1 hx).imp_right fun h => .inr (.inl h)
          · have : p.v = .var x := by
              cases hpv : p.v <;> rw [hpv] at hx <;> simp [PatValue.vars] at hx
              rw [hx]
            exact (hv v rfl x this).imp_right fun h => .inr (.inr (.inl h))
          · exact (hopen ht hx).imp_right fun h => .inr (.inr (.inr h))

theorem reEvolve_has {cc : CC} {p q : EPattern} (h : cc.reEvolve p = some q) : q.named = p.named ∧
    ∀ x, p.Has x → (AMap.get cc.vals x).isSome ∨ q.Has x := by
  have hform : q.named = p.named ∧ q.a = p.a ∧ q.tx = p.tx ∧ (∀ x, p.e = .var x → (AMap.get cc.vals x).isSome ∨ q.e = .var x) := by
    unfold reEvolve at h
    simp only at h
    split at h
    · rename_i y hy
      split at h
      · cases h; exact ⟨rfl, rfl, rfl, fun x hx => .inr hx⟩
      · rename_i e hv
        cases h
        refine ⟨rfl, rfl, rfl, fun x hx => .inl ?_⟩
        rw [hx] at hy; cases hy; rw [hv]; rfl
      · cases h
    · cases h; exact ⟨rfl, rfl, rfl, fun x hx => .inr hx⟩
  have hval : ∀ x, p.v = .var x → (AMap.get cc.vals x).isSome ∨ q.v = .var x := by
    intro x hx
    cases hv : AMap.get cc.vals x with
    | some v => left; rfl
    | none =>
      right
      unfold reEvolve at h
      simp only [hx, hv] at h
      split at h
      · split at h <;> first | (cases h; rfl) | cases h
      · cases h; rfl
  obtain ⟨h1, h2, h3, h4⟩ := hform
  refine ⟨h1, fun x hx => ?_⟩
  rcases hx with hx | hx | hx | hx
  · exact (h4 x hx).imp_right .inl
  · exact .inr (.inr (.inl (h2.trans hx)))
  · exact (hval x hx).imp_right fun h => .inr (.inr (.inl h))
  · exact .inr (.inr (.inr (.inr (h3.trans hx))))

theorem total_applyEvolved {k : Known} (hk : k.cache = none) : ∀ (es : List EPattern) {cc : CC}, Total cc →
    (∀ e ∈ es, e.named = false) → ∃ cc', cc.applyEvolved k es = .ok cc' ∧ Total cc' ∧ (∀ x, Bnd cc x → Bnd cc' x) ∧
      cc'.vals = cc.vals ∧ cc'.inputs = cc.inputs ∧ (cc'.empty = false → cc.empty = false ∧ ∀ e ∈ es, ∀ x, e.Has x → Bnd cc' x)
  | [], cc, h, _ => ⟨cc, rfl, h, fun _ h => h, rfl, rfl, fun he => ⟨he, by simp⟩⟩
  | e :: es, cc, h, hn => by
    simp only [applyEvolved]
    cases hr : cc.reEvolve e with
    | none => exact ⟨_, rfl, h.markEmpty, fun _ h => h, rfl, rfl, fun e => by simp [CC.markEmpty] at e⟩
    | some e' =>
      obtain ⟨hne, hhas⟩ := reEvolve_has hr
      obtain ⟨cc1, h1, t1, b1, v1, i1, f1⟩ := total_applyPattern hk (hne.trans (hn e (by simp))) h
      obtain ⟨cc2, h2, t2, b2, v2, i2, f2⟩ := total_applyEvolved hk es t1 fun e he => hn e (by simp [he])
      refine ⟨cc2, by simp only [h1, Res.bind]; exact h2, t2, fun x hx => b2 x (b1 x hx), v2.trans v1, i2.trans i1, fun he => ?_⟩
      obtain ⟨he1, g2⟩ := f2 he
      obtain ⟨he0, g1⟩ := f1 he1
      refine ⟨he0, fun p hp x hx => ?_⟩
      rw [List.mem_cons] at hp
      rcases hp with rfl | hp
      · rcases hhas x hx with hv | hv
        · left
          rw [v2, v1]
          exact Option.isSome_iff_exists.mp hv
        · exact b2 x (g1 x hv)
      · exact g2 p hp x hx

theorem total_applyRun {k : Known} (hk : k.cache = none) : ∀ (ps : List Pattern) (es : List EPattern) {cc : CC}, Total cc →
    (∀ e ∈ es, e.named = false) → (∀ p ∈ ps, p.named = false ∧ ∀ i, p.v ≠ .constant (.bigInteger i)) →
    ∃ cc', applyRun k cc es (ps.map .pattern) = .ok cc' ∧ Total cc' ∧ cc'.vals = cc.vals ∧ cc'.inputs = cc.inputs ∧
      (cc'.empty = false → (∀ e ∈ es, ∀ x, e.Has x → Bnd cc' x) ∧ ∀ p ∈ ps, ∀ x ∈ p.vars, Bnd cc' x)
  | [], es, cc, h, hn, _ => by
    obtain ⟨cc', h1, t1, -, v1, i1, f1⟩ := total_applyEvolved hk es h hn
    exact ⟨cc', by simpa [applyRun] using h1, t1, v1, i1, fun he => ⟨(f1 he).2, by simp⟩⟩
  | p :: ps, es, cc, h, hn, hp => by
    obtain ⟨hnp, hbp⟩ := hp p (by simp)
    obtain ⟨o, ho, hq⟩ := evolve_total (cc := cc) (s := k.schema) hbp
    simp only [List.map_cons, applyRun, ho, Res.bind]
    cases o with
    | none => exact ⟨_, rfl, h.markEmpty, rfl, rfl, fun e => by simp [CC.markEmpty] at e⟩
    | some q =>
      obtain ⟨hqn, hqx⟩ := hq q rfl
      obtain ⟨cc', h1, t1, v1, i1, f1⟩ := total_applyRun hk ps (es ++ [q]) h (by
        intro e he
        rw [List.mem_append, List.mem_singleton] at he
        rcases he with he | rfl
        · exact hn e he
        · exact hqn.trans hnp) fun p hp' => hp p (by simp [hp'])
      refine ⟨cc', h1, t1, v1, i1, fun he => ?_⟩
      obtain ⟨g1, g2⟩ := f1 he
      refine ⟨fun e he' => g1 e (by simp [he']), fun p' hp' x hx => ?_⟩
      rw [List.mem_cons] at hp'
      rcases hp' with rfl | hp'
      · rcases hqx x hx with hv | hv
        · left
          rw [v1]
          exact Option.isSome_iff_exists.mp hv
        · exact g1 q (by simp) x hv
      · exact g2 p' hp' x hx

theorem total_markRef {cc : CC} (h : Total cc) (p : NonValue) : Total (cc.markRef p) ∧ (cc.markRef p).vals = cc.vals ∧
    (cc.markRef p).inputs = cc.inputs := by
  cases p with
  | var x => exact ⟨h.constrainType x .ref, (grow_constrainType cc x .ref).vals, (grow_constrainType cc x .ref).inputs⟩
  | _ => exact ⟨h, rfl, rfl⟩

theorem total_firstPass : ∀ (ps : List Pattern) {cc : CC}, Total cc → ∃ cc', cc.firstPass (ps.map .pattern) = .ok cc' ∧
    Total cc' ∧ cc'.vals = cc.vals ∧ cc'.inputs = cc.inputs
  | [], cc, h => ⟨cc, rfl, h, rfl, rfl⟩
  | p :: ps, cc, h => by
    obtain ⟨h1, v1, i1⟩ := total_markRef h p.e
    obtain ⟨h2, v2, i2⟩ := total_markRef h1 p.a
    obtain ⟨h3, v3, i3⟩ := total_markRef h2 p.tx
    obtain ⟨cc', h4, t4, v4, i4⟩ := total_firstPass ps h3
    exact ⟨cc', by simpa [firstPass] using h4, t4, by rw [v4, v3, v2, v1], by rw [i4, i3, i2, i1]⟩

/-! ### Finishing -/

theorem get_filter_key {V : Type} (f : Var → Bool) (x : Var) : ∀ m : AMap Var V,
    AMap.get (m.filter fun p => f p.1 : AMap Var V) x = if f x then AMap.get m x else none
  | [] => by simp
  | (y, v) :: m => by
    have ih := get_filter_key f x m
    by_cases hy : f y
    · simp only [List.filter_cons, hy, if_true, AMap.get_cons]
      by_cases hxy : x = y
      · subst hxy; simp [hy]
      · simp only [ih]
        by_cases hyx : y = x
        · exact absurd hyx.symm hxy
        · simp [hyx]
    · simp only [List.filter_cons, hy, AMap.get_cons]
      by_cases hxy : x = y
      · subst hxy; simp [hy, ih]
      · by_cases hyx : y = x
        · exact absurd hyx.symm hxy
        · simp [hyx, ih]

/-- What is left to project. -/
structure Finished (cc : CC) : Prop where
  panics : cc.panics = false
  wh : ∀ c ∈ cc.wheres, scopedC cc.scopeOf c = true
  tables : ∀ al ∈ cc.tables, al.table ≠ .computed
  col : ∀ x qs, AMap.get cc.colb x = some qs → (∃ q r, qs = q :: r ∧ InScope cc.scopeOf q) ∧
    ((∃ t, AMap.get cc.known x = some (TypeSet.one t)) ∨
      AMap.get cc.known x = none ∧ ∃ q, AMap.get cc.extracted x = some q ∧ InScope cc.scopeOf q)

theorem total_finish {cc : CC} (h : Total cc) : ∃ cc', cc.finish = .ok cc' ∧ Finished cc' ∧ cc'.vals = cc.vals ∧
    cc'.inputs = cc.inputs ∧ cc'.colb = cc.colb ∧ cc'.empty = cc.empty := by
  have hreq : cc.expand.prune.required = [] := h.tidy.required
  refine ⟨cc.expand.prune, ?_, ?_, rfl, rfl, rfl, rfl⟩
  · unfold finish processRequired
    split
    · rfl
    · rw [hreq]; rfl
  · have hsc : cc.expand.prune.scopeOf = cc.scopeOf := rfl
    refine ⟨h.tidy.panics, ?_, h.tables, ?_⟩
    · rw [hsc]
      intro c hc
      have hc : c ∈ cc.wheres ++ _ := hc
      rw [List.mem_append, List.mem_flatMap] at hc
      rcases hc with hc | ⟨⟨x, qs⟩, hp, hc⟩
      · exact h.colsIn.wh c hc
      · cases qs with
        | nil => cases hc
        | cons q r =>
          rw [List.mem_map] at hc
          obtain ⟨q', hq', rfl⟩ := hc
          exact scoped_eqCol (h.colsIn.cols x _ hp q (by simp)) (h.colsIn.cols x _ hp q' (by simp [hq']))
    · rw [hsc]
      intro x qs hx
      obtain ⟨h1, h2⟩ := h.tidy.tagged x qs hx
      have hin := h.colsIn.cols x qs (AMap.get_some_mem hx)
      refine ⟨?_, ?_⟩
      · cases qs with
        | nil => exact absurd rfl h1
        | cons q r => exact ⟨q, r, rfl, hin q (by simp)⟩
      · cases hkn : AMap.get cc.known x with
        | some ts =>
          left
          obtain ⟨t, ht⟩ := h.tidy.unit x ts hkn
          exact ⟨t, by rw [← ht]; exact hkn⟩
        | none =>
          right
          refine ⟨hkn, ?_⟩
          rw [hkn] at h2
          have h2 : (AMap.get cc.extracted x).isSome := by simpa using h2
          obtain ⟨q, hq⟩ := Option.isSome_iff_exists.mp h2
          refine ⟨q, ?_, h.colsIn.tags x q hq⟩
          refine (get_filter_key (fun y => !(match AMap.get cc.known y with | some s => s.isUnit | none => false)) x
            cc.extracted).trans ?_
          rw [hkn]
          exact hq


/-! ### Queries -/

theorem keepKeys_total {α : Type} {m : AMap Var α} {ks : List Var} (h : ∀ x ∈ ks, (AMap.get m x).isSome) :
    ∃ m', keepKeys m ks = .ok m' := by
  unfold keepKeys
  split
  · exact ⟨_, rfl⟩
  · split
    · exact ⟨_, rfl⟩
    · rw [if_neg]
      · exact ⟨_, rfl⟩
      · have h1 : (dedup ks).Subperm (AMap.keys m) := List.subperm_of_subset (nodup_dedup ks) fun x hx => by
          rw [mem_dedup] at hx
          exact AMap.get_isSome_iff.mp (h x hx)
        have := h1.length_le
        simp only [AMap.keys, List.length_map] at this
        omega

theorem withInputs_total {inVars : List Var} {inputs : Inputs} (hin : inputs.Ok) (n : Nat)
    (hg : ∀ x ∈ inVars, (AMap.get inputs.values x).isSome) :
    ∃ cc, withInputs inVars inputs n = .ok cc ∧ Total cc ∧ cc.inputs = inVars ∧ ∀ x ∈ inVars, (AMap.get cc.vals x).isSome := by
  obtain ⟨types, h1⟩ := keepKeys_total (m := inputs.types) (ks := inVars) (by
    intro x hx
    obtain ⟨v, hv⟩ := Option.isSome_iff_exists.mp (hg x hx)
    rw [hin.types x v hv]; rfl)
  obtain ⟨values, h2⟩ := keepKeys_total hg
  have hv : ∀ x ∈ inVars, (AMap.get values x).isSome := by
    intro x hx
    rw [get_keepKeys h2 x, if_pos hx]; exact hg x hx
  refine ⟨_, by unfold withInputs; rw [h1]; simp only [Res.bind]; rw [h2], ⟨⟨rfl, rfl, ?_, hv, ?_⟩, ⟨?_, ?_, ?_⟩, ?_, ?_⟩, rfl, hv⟩
  · intro x ts hx
    have hx : AMap.get (types.map fun p => (p.1, TypeSet.one p.2) : AMap Var TypeSet) x = some ts := hx
    rw [get_mapOne] at hx
    cases hg : AMap.get types x with
    | none => rw [hg] at hx; cases hx
    | some t => rw [hg] at hx; cases hx; exact ⟨t, rfl⟩
  · intro x qs hx; simp at hx
  · intro c hc; cases hc
  · intro x qs hx; cases hx
  · intro x q hx; simp at hx
  · intro c hc; cases hc
  · intro c hc; cases hc

theorem uniqueTag_one (t : ValueType) : (TypeSet.one t).uniqueTag = some t.tag := by
  cases t <;> rfl

theorem projectVar_total {cc : CC} (h : Finished cc) {x : Var} (hx : Bnd cc x) (p : Proj) :
    ∃ p', cc.projectVar p x = .ok p' ∧ p'.aggregates = p.aggregates ∧ p'.corrVars = p.corrVars ∧ p'.outerVars = p.outerVars ∧
      ∀ c ∈ p'.inner, c ∈ p.inner ∨ c.1.scoped cc.scopeOf = true := by
  unfold projectVar projectedColumn
  cases hv : AMap.get cc.vals x with
  | some v =>
    simp only [Res.bind, uniqueTag_one]
    refine ⟨_, rfl, rfl, rfl, rfl, ?_⟩
    intro c hc
    simp only [List.mem_append, List.mem_singleton] at hc
    rcases hc with hc | rfl
    · exact .inl hc
    · exact .inr rfl
  | none =>
    obtain ⟨qs, hqs⟩ : ∃ qs, AMap.get cc.colb x = some qs := by
      rcases hx with ⟨v, hv'⟩ | h
      · rw [hv] at hv'; cases hv'
      · exact h
    obtain ⟨⟨q, r, rfl, hq⟩, hty⟩ := h.col x qs hqs
    simp only [hqs, Res.bind]
    rcases hty with ⟨t, ht⟩ | ⟨hn, tq, ht, htq⟩
    · simp only [knownTypeSet, ht, Option.getD_some, uniqueTag_one]
      refine ⟨_, rfl, rfl, rfl, rfl, ?_⟩
      intro c hc
      simp only [List.mem_append, List.mem_singleton] at hc
      rcases hc with hc | rfl
      · exact .inl hc
      · exact .inr hq
    · have hany : (cc.knownTypeSet x).uniqueTag = none := by
        simp only [knownTypeSet, hn, Option.getD_none]; rfl
      simp only [hany, typeColumn, ht]
      refine ⟨_, rfl, rfl, rfl, rfl, ?_⟩
      intro c hc
      simp only [List.mem_append, List.mem_singleton] at hc
      rcases hc with (hc | rfl) | rfl
      · exact .inl hc
      · exact .inr hq
      · exact .inr htq

theorem projectLoop_total {cc : CC} (h : Finished cc) : ∀ (xs : List Var) {p : Proj}, xs.Nodup → (∀ x ∈ xs, Bnd cc x) →
    (∀ x ∈ xs, x ∉ p.outerVars) → p.corrVars = [] → p.aggregates = false → (∀ c ∈ p.inner, c.1.scoped cc.scopeOf = true) →
    ∃ p', cc.projectElementsLoop p (xs.map .var) = .ok p' ∧ p'.aggregates = false ∧ p'.corrVars = [] ∧
      ∀ c ∈ p'.inner, c.1.scoped cc.scopeOf = true
  | [], p, _, _, _, hc, ha, hi => ⟨p, rfl, ha, hc, hi⟩
  | x :: xs, p, hn, hb, ho, hc, ha, hi => by
    rw [List.nodup_cons] at hn
    obtain ⟨p1, h1, a1, c1, o1, i1⟩ := projectVar_total h (hb x (by simp)) { p with outerVars := p.outerVars ++ [x] }
    obtain ⟨p2, h2⟩ := projectLoop_total h xs (p := p1) hn.2 (fun y hy => hb y (by simp [hy])) (by
      intro y hy
      rw [o1]
      simp only [List.mem_append, List.mem_singleton, not_or]
      refine ⟨ho y (by simp [hy]), ?_⟩
      rintro rfl
      exact hn.1 hy) (c1.trans hc) (a1.trans ha) (by
      intro c hc
      rcases i1 c hc with hc | hc
      · exact hi c hc
      · exact hc)
    refine ⟨p2, ?_, h2.2⟩
    simp only [List.map_cons, projectElementsLoop, projectElement]
    rw [if_neg (by simp [ho x (by simp), hc]), h1]
    exact h2.1

theorem scopedTables_plain {sc : AMap Alias (List Col)} : ∀ {ts : List STable}, (∀ t ∈ ts, ∃ al, t = .table al) →
    scopedTables sc ts = true
  | [], _ => by simp [scopedTables]
  | t :: ts, h => by
    obtain ⟨al, rfl⟩ := h t (by simp)
    simp [scopedTables, scopedTable, scopedTables_plain (ts := ts) fun t ht => h t (by simp [ht])]

theorem runSql_total {cc : CC} (h : Finished cc) (db : Tables) {cols : List (SExpr × Col)}
    (hc : ∀ c ∈ cols, c.1.scoped cc.scopeOf = true) (d : Bool) (lim : Option Nat) :
    ∃ rows, runSql db (.mk d cols cc.stables cc.wheres [] lim) = .ok rows := by
  unfold runSql
  rw [if_pos]
  · exact ⟨_, rfl⟩
  · have hsc : ((cc.stables.map fun t => (t.alias, t.columns)) ++ [] : AMap Alias (List Col)) = cc.scopeOf := by
      simp [scopeOf]
    simp only [scopedSelect, Bool.and_eq_true, List.all_nil, and_true]
    refine ⟨⟨scopedTables_plain ?_, ?_⟩, ?_⟩
    · intro t ht
      unfold stables at ht
      rw [List.mem_map] at ht
      obtain ⟨al, hal, rfl⟩ := ht
      rw [if_neg (h.tables al hal)]
      exact ⟨_, rfl⟩
    · rw [hsc, scopedAll_iff]; exact h.wh
    · rw [hsc, List.all_eq_true]; exact hc

theorem lookupRows_total {ts : List TIndex} : ∀ {rows : List (List SqlValue)},
    (∀ r ∈ rows, ∃ v, lookupAll r ts = .ok v) → ∃ vs, lookupRows ts rows = .ok vs
  | [], _ => ⟨_, rfl⟩
  | r :: rs, h => by
    obtain ⟨v, hv⟩ := h r (by simp)
    obtain ⟨vs, hvs⟩ := lookupRows_total (rows := rs) fun r hr => h r (by simp [hr])
    simp only [lookupRows, hv, hvs, Res.bind]
    exact ⟨_, rfl⟩

theorem lookup_of_all {row : List SqlValue} {t : TIndex} (h : ∃ v, lookupAll row [t] = .ok v) : ∃ v, t.lookup row = .ok v := by
  obtain ⟨v, h⟩ := h
  simp only [lookupAll] at h
  obtain ⟨w, h1, -⟩ := bind_iff.mp h
  exact ⟨w, h1⟩

theorem project_total {spec : FindSpec} {ts : List TIndex} {rows : List (List SqlValue)} {xs : List Var}
    (he : spec.elements = xs.map .var) (hl : ts.length = xs.length) (h : ∀ r ∈ rows, ∃ v, lookupAll r ts = .ok v) :
    ∃ r, project spec ts rows = .ok r := by
  have hone : ∀ x : Element, [x] = xs.map .var → ∃ t, ts = [t] := by
    intro x hx
    have := congrArg List.length hx
    simp only [List.length_cons, List.length_nil, List.length_map] at this
    exact List.length_eq_one_iff.mp (by omega)
  cases spec with
  | rel l =>
    obtain ⟨vs, hvs⟩ := lookupRows_total h
    simp only [project, hvs, Res.bind]
    exact ⟨_, rfl⟩
  | tuple l =>
    cases rows with
    | nil => exact ⟨_, rfl⟩
    | cons r rs =>
      obtain ⟨v, hv⟩ := h r (by simp)
      simp only [project, hv, Res.bind]
      exact ⟨_, rfl⟩
  | coll x =>
    obtain ⟨t, rfl⟩ := hone x he
    obtain ⟨vs, hvs⟩ := lookupRows_total h
    simp only [project, List.getLast?_singleton, hvs, Res.bind]
    exact ⟨_, rfl⟩
  | scalar x =>
    obtain ⟨t, rfl⟩ := hone x he
    cases rows with
    | nil => exact ⟨_, rfl⟩
    | cons r rs =>
      obtain ⟨v, hv⟩ := lookup_of_all (h r (by simp))
      simp only [project, List.getLast?_singleton, hv, Res.bind]
      exact ⟨_, rfl⟩

/-- The algebrizer accepts a query of patterns. -/
theorem algebrize_total {k : Known} {q : FindQuery} {inputs : Inputs} {xs : List Var} {ps : List Pattern}
    (hk : k.cache = none) (hin : inputs.Ok) (hf : q.find.elements = xs.map .var) (hc : q.clauses = ps.map .pattern)
    (hp : ∀ p ∈ ps, p.named = false ∧ ∀ i, p.v ≠ .constant (.bigInteger i))
    (hx : ∀ x ∈ xs, x ∈ q.inVars ∨ ∃ p ∈ ps, x ∈ p.vars) (hi : q.inVars.Nodup) (hw : q.withVars.Nodup)
    (hg : ∀ x ∈ q.inVars, (AMap.get inputs.values x).isSome) (ho : q.order = none) (hlim : ∀ x, q.limit ≠ .var x) :
    ∃ a, algebrizeQuery k q inputs = .ok a ∧ Finished a.cc ∧ a.order = [] ∧ a.named = [] ∧ a.find = q.find ∧
      (a.cc.empty = false → ∀ x ∈ xs, Bnd a.cc x) ∧ ∃ lim, a.limit.number = .ok lim := by
  obtain ⟨cc0, h0, t0, i0, v0⟩ := withInputs_total (inVars := q.inVars) hin 0 hg
  obtain ⟨cc1, h1, t1, v1, i1⟩ := total_firstPass ps t0
  obtain ⟨cc2, h2, t2, v2, i2, f2⟩ := total_applyRun hk ps [] t1 (by simp) hp
  obtain ⟨cc, h3, t3, v3, i3, b3, e3⟩ := total_finish t2
  have hpq : fromParsed q = .ok q := by
    unfold fromParsed
    simp only [hi, hw, decide_true, Bool.not_true, Bool.false_eq_true, if_false]
  obtain ⟨limit, hl, hl'⟩ : ∃ limit, cc.simplifyLimit (if q.find.isUnitLimited then .fixed 1 else q.limit) = .ok limit ∧
      ∃ lim, limit.number = .ok lim := by
    cases q.find.isUnitLimited with
    | true => exact ⟨_, rfl, _, rfl⟩
    | false =>
      cases hl : q.limit with
      | var x => exact absurd hl (hlim x)
      | none => exact ⟨_, rfl, _, rfl⟩
      | fixed n => exact ⟨_, rfl, _, rfl⟩
  have hvals : cc.vals = cc0.vals := by rw [v3, v2, v1]
  have hinp : cc.inputs = q.inVars := by rw [i3, i2, i1, i0]
  have halg : algebrize k q 0 inputs = .ok { find := q.find, withVars := q.withVars, named := [], order := [], limit := limit, cc := cc } := by
    unfold algebrize
    simp only [h0, Res.bind]
    rw [hf, deriveTypes_vars]
    have hcl : applyClauses k cc0 q.clauses = .ok cc2 := by
      unfold applyClauses
      rw [hc, h1]
      exact h2
    simp only [hcl, h3, ho, hl]
  have hub : (Algebraic.unbound { find := q.find, withVars := q.withVars, named := [], order := [], limit := limit, cc := cc }).isEmpty = true := by
    simp only [Algebraic.unbound, List.isEmpty_iff, List.filter_eq_nil_iff]
    intro x hx
    rw [hinp] at hx
    have := v0 x hx
    rw [hvals]
    cases hgx : AMap.get cc0.vals x with
    | none => rw [hgx] at this; cases this
    | some v => simp
  refine ⟨⟨q.find, q.withVars, [], [], limit, cc⟩, ?_, t3, rfl, rfl, rfl, ?_, hl'⟩
  · unfold algebrizeQuery
    simp only [hpq, Res.bind, halg, hub, if_true]
  · intro he x hxs
    have he : cc.empty = false := he
    rw [e3] at he
    show Bnd cc x
    rcases hx x hxs with hx | ⟨p, hpp, hx⟩
    · left
      rw [hvals]
      exact Option.isSome_iff_exists.mp (v0 x hx)
    · rcases (f2 he).2 p hpp x hx with hb | hb
      · left; rw [v3]; exact hb
      · right; rw [b3]; exact hb

theorem length_tmplsFrom : ∀ (ks : List (Option Nat)) (i : Nat), (tmplsFrom i ks).length = ks.length
  | [], _ => rfl
  | some _ :: ks, i => by simp [tmplsFrom, length_tmplsFrom ks]
  | none :: ks, i => by simp [tmplsFrom, length_tmplsFrom ks]

/-- A query of patterns does not fail. -/
theorem query_total {fl : Floats} {k : Known} {db : Tables} {L : Var → Prop} {q : FindQuery} {inputs : Inputs} {xs : List Var}
    {ps : List Pattern} (ht : Treated k db L q inputs xs) (hf : q.find.elements = xs.map .var) (hc : q.clauses = ps.map .pattern)
    (hp : ∀ p ∈ ps, p.named = false ∧ ∀ i, p.v ≠ .constant (.bigInteger i)) (hn : xs.Nodup)
    (hx : ∀ x ∈ xs, x ∈ q.inVars ∨ ∃ p ∈ ps, x ∈ p.vars) (hi : q.inVars.Nodup) (hw : q.withVars.Nodup)
    (hg : ∀ x ∈ q.inVars, (AMap.get inputs.values x).isSome) (ho : q.order = none) :
    ∃ r, runQuery fl k db q inputs = .ok r := by
  obtain ⟨a, ha, fin, ord, nam, fnd, bnd, lim, hlim⟩ := algebrize_total ht.cache ht.ins hf hc hp hx hi hw hg ho ht.limit
  have hno : ∀ x, ¬ q.Local x := by
    rintro x ⟨c, hc', hx⟩
    rw [hc] at hc'
    obtain ⟨p, -, rfl⟩ := List.mem_map.mp hc'
    cases hx
  have al := algebrized_plain ht.cache ht.store ht.ins (fun cc => by rw [hf]; exact deriveTypes_vars cc xs) ht.limit ht.clauses
    ht.once ht.given ht.sources hno ha
  unfold runQuery
  simp only [ha, Res.bind]
  unfold runAlgebrized
  cases he : a.cc.empty with
  | true => exact ⟨_, rfl⟩
  | false =>
    rw [not_fullyUnitBound al hf ht.find]
    simp only [Bool.false_eq_true, if_false]
    obtain ⟨p, hp1, hagg, hcorr, hinn⟩ := projectLoop_total fin xs (p := {}) hn (bnd he) (by simp) rfl rfl (by simp)
    have hpe : projectElements a = .ok { cols := p.inner, outer := none, templates := p.templates } := by
      unfold projectElements
      rw [fnd, hf]
      simp only [hp1, Res.bind, checkCorresponding, hcorr, List.isEmpty_nil, Bool.true_or, Bool.not_true, Bool.false_eq_true, if_false, nam,
        projectNamed, hagg, Bool.not_false, if_true]
    obtain ⟨rows, hrows⟩ := runSql_total fin db hinn (isDistinct a false) lim
    have hsel : selectRows fl db a { cols := p.inner, outer := none, templates := p.templates } = .ok rows := by
      unfold selectRows toSelect
      simp only [hlim, Res.bind, fin.panics, he, Bool.false_eq_true, if_false, ord]
      exact hrows
    obtain ⟨ks, h1, h2, h3, -⟩ := rows_answers al.toAnswering hf he hpe hsel hlim
    simp only [hpe, hsel, Res.bind]
    refine project_total (xs := xs) (by rw [fnd]; exact hf) ?_ ?_
    · have h1 : p.templates = tmplsFrom 0 ks := h1
      rw [h1, length_tmplsFrom]; exact h2
    · intro r hr
      obtain ⟨ρ, hρ, g1, suf, g2, -⟩ := h3 r hr
      have h1 : p.templates = tmplsFrom 0 ks := h1
      exact ⟨_, by rw [h1, g2]; exact lookupAll_answer hρ.proper (ht.read ρ hρ) g1 suf⟩

end CC
end Mentat
