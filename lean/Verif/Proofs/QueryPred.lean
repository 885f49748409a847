import Verif.Proofs.QueryEvolve
/-
Predicates: applying one adds the condition that its arguments compare as it says.
-/
namespace Mentat
namespace CC

/-- A step that leaves the tables alone. -/
theorem StepOk.ofGrow {F : Env → Prop} {L X : Var → Prop} {db : Tables} {cc cc' : CC} {P : Assign → Prop}
    (g : Grow cc cc') (hi : Inv L cc') (ht : TypedIn F L db cc)
    (hj : ∀ env, JAt L db cc env → JAt L db cc' env)
    (hat : ∀ env (ρ : Assign), ρ.Proper → JAt L db cc env → (At db cc' env ρ ↔ At db cc env ρ ∧ P ρ))
    (hk : cc'.empty = false → ∀ x t, AMap.get cc.known x = some (TypeSet.one t) →
      AMap.get cc'.known x = some (TypeSet.one t))
    (hu : ∀ x, ¬ X x → Unmet cc x → Unmet cc' x) (hc : ColsKnown L cc → ColsKnown L cc') (hx : Ext cc cc') :
    StepOk F L db X cc cc' P := by
  refine ⟨hi, ?_, ?_, hk, g.vals, g.inputs, g.empty, g.panics, Nat.le_of_eq g.counter.symm, hu, g.wheres, hc, hx⟩
  · intro E hE loc hl
    rw [g.stables] at hl
    exact hj _ (ht E hE loc hl)
  · intro E hE ρ hρ
    unfold Sem
    rw [g.stables]
    constructor
    · rintro ⟨loc, hl, h⟩
      have := (hat _ ρ hρ (ht E hE loc hl)).mp h
      exact ⟨⟨loc, hl, this.1⟩, this.2⟩
    · rintro ⟨⟨loc, hl, h⟩, hp⟩
      exact ⟨loc, hl, (hat _ ρ hρ (ht E hE loc hl)).mpr ⟨h, hp⟩⟩

section
variable {L : Var → Prop} {db : Tables} {cc : CC} {env : Env}

/-! ### Narrowing -/

theorem inter_one {ts : TypeSet} {t : ValueType} (h : ts t = true) : ts.inter (TypeSet.one t) = TypeSet.one t := by
  funext u
  simp only [TypeSet.inter, TypeSet.one]
  by_cases e : u = t
  · subst e; simp [h]
  · simp [e]

theorem inter_one_empty {ts : TypeSet} {t : ValueType} (h : ts t = false) :
    (ts.inter (TypeSet.one t)).isEmpty = true := by
  rw [TypeSet.isEmpty_iff]
  intro u
  simp only [TypeSet.inter, TypeSet.one]
  by_cases e : u = t
  · subst e; simp [h]
  · simp [e]

/-- Narrowing a known type: it stays, or the clauses are empty. -/
theorem narrowTypes_known {x : Var} {t : ValueType} (ts : TypeSet) (hx : AMap.get cc.known x = some (TypeSet.one t)) :
    (ts t = true ∧ cc.narrowTypes x ts = { cc with known := AMap.insert cc.known x (TypeSet.one t) }) ∨
      (ts t = false ∧ (cc.narrowTypes x ts).empty = true) := by
  unfold CC.narrowTypes
  cases ht : ts t with
  | true =>
    left
    have h1 : ts.isEmpty = false := by
      cases h : ts.isEmpty with
      | false => rfl
      | true => rw [TypeSet.isEmpty_iff] at h; rw [h] at ht; cases ht
    have h2 : (TypeSet.one t).isEmpty = false := by cases t <;> decide
    simp [h1, hx, inter_one ht, h2]
  | false =>
    right
    refine ⟨rfl, ?_⟩
    split
    · rfl
    · simp [hx, inter_one_empty ht, CC.markEmpty]

theorem narrowTypes_same (cc : CC) (x : Var) (ts : TypeSet) :
    (cc.narrowTypes x ts).colb = cc.colb ∧ (cc.narrowTypes x ts).extracted = cc.extracted ∧
      (cc.narrowTypes x ts).wheres = cc.wheres ∧ ∀ y, x ≠ y → AMap.get (cc.narrowTypes x ts).known y = AMap.get cc.known y := by
  unfold CC.narrowTypes
  split
  · exact ⟨rfl, rfl, rfl, fun _ _ => rfl⟩
  · cases AMap.get cc.known x with
    | none => exact ⟨rfl, rfl, rfl, fun y hy => by simp [AMap.get_insert, hy]⟩
    | some s =>
      simp only
      split <;> exact ⟨rfl, rfl, rfl, fun y hy => by simp [CC.markEmpty, AMap.get_insert, hy]⟩

theorem known_narrowTypes_keep {x y : Var} {u : ValueType} {ts : TypeSet}
    (h : (cc.narrowTypes x ts).empty = false) (hy : AMap.get cc.known y = some (TypeSet.one u)) :
    AMap.get (cc.narrowTypes x ts).known y = some (TypeSet.one u) := by
  by_cases e : x = y
  · subst e
    rcases narrowTypes_known ts hy with ⟨-, h1⟩ | ⟨-, h1⟩
    · rw [h1]; simp
    · rw [h1] at h; cases h
  · rw [(narrowTypes_same cc x ts).2.2.2 y e]; exact hy

theorem Inv.narrowTypes (h : Inv L cc) {x : Var} (hx : ¬ L x)
    (hk : cc.empty = false → ∃ t, AMap.get cc.known x = some (TypeSet.one t)) (ts : TypeSet) :
    Inv L (cc.narrowTypes x ts) := by
  have g := grow_narrowTypes cc x ts
  obtain ⟨e1, e2, e3, e4⟩ := narrowTypes_same cc x ts
  have hkn : (cc.narrowTypes x ts).empty = false → ∃ t, AMap.get cc.known x = some (TypeSet.one t) ∧
      AMap.get (cc.narrowTypes x ts).known x = some (TypeSet.one t) := by
    intro he
    obtain ⟨t, ht⟩ := hk (g.empty he)
    exact ⟨t, ht, known_narrowTypes_keep he ht⟩
  refine ⟨?_, ?_, ?_, ?_, ?_, ?_, ?_, ?_, ?_, ?_, ?_, ?_⟩
  · intro he y us hy
    by_cases e : x = y
    · subst e
      obtain ⟨t, -, ht⟩ := hkn he
      rw [ht] at hy; exact ⟨t, (Option.some.inj hy).symm⟩
    · rw [e4 y e] at hy
      exact h.unit (g.empty he) y us hy
  · intro he y v hy
    rw [g.vals] at hy
    exact known_narrowTypes_keep he (h.valsKnown (g.empty he) y v hy)
  · rw [g.vals]; exact h.valsProper
  · intro y hy
    rw [e4 y (fun e => hx (e ▸ hy)), g.vals, g.inputs]
    exact h.loose y hy
  · rw [e2]; exact h.tags
  · rw [e1]; exact h.wfCols
  · rw [g.required]; exact h.wfReq
  · rw [e1]; exact h.colsNe
  · rw [g.counter]; exact h.fresh.narrowTypes x ts
  · rw [g.tables, g.counter]; exact h.tables
  · rw [g.computed]; exact h.computed
  · unfold CC.narrowTypes
    split
    · exact h.wfKnown
    · cases AMap.get cc.known x with
      | none => exact AMap.wf_insert h.wfKnown _ _
      | some s => simp only; split <;> exact AMap.wf_insert h.wfKnown _ _

theorem JAt.narrowTypes (h : JAt L db cc env) (x : Var) (ts : TypeSet) : JAt L db (cc.narrowTypes x ts) env := by
  intro he hw y qs hy
  have g := grow_narrowTypes cc x ts
  obtain ⟨e1, e2, e3, e4⟩ := narrowTypes_same cc x ts
  rw [e1] at hy
  have hc := h (g.empty he) (g.evalAll hw) y qs hy
  refine ⟨?_, ?_⟩
  · intro hl
    obtain ⟨u, hu, h1, h2⟩ := hc.typed hl
    refine ⟨u, known_narrowTypes_keep he hu, h1, ?_⟩
    rw [g.vals]; exact h2
  · intro hl
    rw [e2, g.required]
    exact hc.loose hl

theorem ColsKnown.narrowTypes (h : ColsKnown L cc) (x : Var) (ts : TypeSet) : ColsKnown L (cc.narrowTypes x ts) := by
  refine ⟨?_, ?_⟩
  · intro he y qs hy hL
    rw [(narrowTypes_same cc x ts).1] at hy
    obtain ⟨u, hu, hf⟩ := h.known ((grow_narrowTypes cc x ts).empty he) y qs hy hL
    exact ⟨u, known_narrowTypes_keep he hu, hf⟩
  · intro he y q hy
    rw [(narrowTypes_same cc x ts).2.1] at hy
    rw [(narrowTypes_same cc x ts).1]
    exact h.tagged ((grow_narrowTypes cc x ts).empty he) y q hy

theorem Unmet.narrowTypes {x y : Var} (h : Unmet cc x) (hy : y ≠ x) (ts : TypeSet) : Unmet (cc.narrowTypes y ts) x := by
  have g := grow_narrowTypes cc y ts
  obtain ⟨e1, e2, e3, e4⟩ := narrowTypes_same cc y ts
  exact ⟨by rw [g.vals]; exact h.vals, by rw [e4 x hy]; exact h.known, by rw [e1]; exact h.cols,
    by rw [e2]; exact h.tags, by rw [g.inputs]; exact h.inputs⟩

/-! ### Single steps -/

variable {F : Env → Prop}

theorem step_constrainType (hi : Inv L cc) (ht : TypedIn F L db cc) {x : Var} (hx : ¬ L x) (t : ValueType) :
    StepOk F L db (fun y => y = x) cc (cc.constrainType x t) (fun ρ => (ρ x).valueType = t) :=
  .ofGrow (grow_constrainType cc x t) (hi.constrainType hx t) ht (fun _ h => h.constrainType t)
    (fun _ _ _ _ => at_constrainType) (fun he _ _ h => known_constrainType_keep he h)
    (fun _ hy h => h.constrainType (fun e => hy e.symm) t) (fun h => h.constrainType x t) (ext_constrainType cc x t)

theorem step_narrowTypes (hi : Inv L cc) (ht : TypedIn F L db cc) {x : Var} (hx : ¬ L x)
    (hk : cc.empty = false → ∃ t, AMap.get cc.known x = some (TypeSet.one t)) (ts : TypeSet) :
    StepOk F L db (fun y => y = x) cc (cc.narrowTypes x ts) (fun ρ => ts (ρ x).valueType = true) :=
  .ofGrow (grow_narrowTypes cc x ts) (hi.narrowTypes hx hk ts) ht (fun _ h => h.narrowTypes x ts)
    (fun _ _ _ _ => at_narrowTypes) (fun he _ _ h => known_narrowTypes_keep he h)
    (fun _ hy h => h.narrowTypes (fun e => hy e.symm) ts) (fun h => h.narrowTypes x ts)
    (.ofGrow (grow_narrowTypes cc x ts) (.of_eq (narrowTypes_same cc x ts).1) fun _ _ h => h.narrowTypes x ts)

theorem step_addWhere {X : Var → Prop} (hi : Inv L cc) (ht : TypedIn F L db cc) {c : Constraint}
    (hc : ∀ al ∈ c.refs, FromCols cc al) {P : Assign → Prop}
    (hp : ∀ env (ρ : Assign), ρ.Proper → At db cc env ρ → (evalC db env c = true ↔ P ρ)) :
    StepOk F L db X cc (cc.addWhere c) P :=
  .ofGrow (grow_addWhere cc c) (hi.addWhere fun al ha => (hc al ha).within hi.fresh) ht (fun _ h => h.addWhere c)
    (fun env ρ hρ _ => by rw [at_addWhere]; exact and_congr_right (hp env ρ hρ)) (fun _ _ _ h => h)
    (fun _ _ h => ⟨h.vals, h.known, h.cols, h.tags, h.inputs⟩) (fun h => h.addWhere c)
    (ext_addWhere fun _ _ hw al ha => (hc al ha).within hw)

end
/-! ### Comparing -/

theorem pow_pos' : (0 : Int) < 2 ^ 1074 := Int.pow_pos (by decide)

theorem evalInfix_plain {env : Env} {op : SqlOp} {l r : SExpr} (hl : (l.eval env).numeric = l.eval env)
    (hr : (r.eval env).numeric = r.eval env) : evalInfix env op l r = op.eval (l.eval env) (r.eval env) := by
  unfold evalInfix
  simp only [hl, hr, ite_self]

theorem evalInfix_int {env : Env} {op : Ineq} {l r : SExpr} {n m : Int} (hl : l.eval env = .integer n)
    (hr : r.eval env = .integer m) : evalInfix env op.sql l r = true ↔ op.compares n m := by
  rw [evalInfix_plain (by rw [hl]; rfl) (by rw [hr]; rfl), hl, hr]
  cases op <;> simp [Ineq.sql, SqlOp.eval, Ineq.compares, SqlValue.lt, eq_integer] <;> omega

theorem evalInfix_num {env : Env} {op : Ineq} {l r : SExpr} {v w : TypedValue} {a b : Int}
    (hl : l.eval env = v.toSql.1) (hr : r.eval env = w.toSql.1) (hv : v.number? = some a) (hw : w.number? = some b) :
    evalInfix env op.sql l r = true ↔ op.compares a b := by
  have hk := pow_pos'
  have hlt : ∀ x y : Int, x * 2 ^ 1074 < y * 2 ^ 1074 ↔ x < y := fun x y => Int.mul_lt_mul_right hk
  have heq : ∀ x y : Int, x * 2 ^ 1074 = y * 2 ^ 1074 ↔ x = y :=
    fun x y => Int.mul_eq_mul_right_iff (Int.ne_of_gt hk)
  have hle : ∀ x y : Int, x * 2 ^ 1074 ≤ y * 2 ^ 1074 ↔ x ≤ y := fun x y => Int.mul_le_mul_right hk
  generalize hK : (2 : Int) ^ 1074 = K at *
  cases v <;> simp [TypedValue.number?] at hv <;> cases w <;> simp [TypedValue.number?] at hw
  all_goals
    rw [evalInfix_plain (by rw [hl]; rfl) (by rw [hr]; rfl), hl, hr]
    try simp only [hK] at hv
    try simp only [hK] at hw
    subst hv hw
    cases op <;> simp [Ineq.sql, SqlOp.eval, Ineq.compares, SqlValue.lt, SqlValue.eq, TypedValue.toSql, hK, hlt, heq, hle] <;> omega

/-! ### Arguments -/

section
variable {L : Var → Prop} {db : Tables} {cc : CC} {F : Env → Prop}

theorem firstColumn_ok {x : Var} {e : SExpr} (h : cc.firstColumn x = .ok e) :
    ∃ q qs, AMap.get cc.colb x = some (q :: qs) ∧ e = .col q.1 q.2 := by
  unfold firstColumn at h
  cases hc : AMap.get cc.colb x with
  | none => rw [hc] at h; simp at h
  | some l =>
    cases l with
    | nil => rw [hc] at h; simp at h
    | cons q qs =>
      rw [hc] at h
      exact ⟨q, qs, rfl, (Res.ok.inj h).symm⟩

/-- The expression an argument resolves to. -/
structure Resolved (s : Schema) (db : Tables) (cc cc1 : CC) (a : FnArg) (e : SExpr) (ok : TypedValue → Prop) : Prop where
  back : ∀ env ρ, At db cc1 env ρ → At db cc env ρ
  refs : ∀ al ∈ e.refs, FromCols cc1 al
  colb : cc1.colb = cc.colb
  eval : ∀ env ρ, At db cc1 env ρ → ∃ v, a.Denotes s ρ v ∧ ok v ∧ e.eval env = v.toSql.1 ∧
    ∀ v', a.Denotes s ρ v' → v'.valueType = .ref ∨ v' = v

def IsNumber (v : TypedValue) : Prop := ∃ n, v.number? = some n
def IsInstant (v : TypedValue) : Prop := ∃ n, v = .instant n

theorem numeric_iff {v : TypedValue} : TypeSet.numeric v.valueType = true ↔ IsNumber v := by
  cases v <;> simp [TypeSet.numeric, TypedValue.valueType, IsNumber, TypedValue.number?]

theorem instant_iff {v : TypedValue} : v.valueType = .instant ↔ IsInstant v := by
  cases v <;> simp [TypedValue.valueType, IsInstant]

theorem step_resolveNumeric (hi : Inv L cc) (ht : TypedIn F L db cc) (hc : ColsKnown L cc) {s : Schema} {a : FnArg}
    (ha : ∀ x, a = .var x → ¬ L x) {cc1 : CC} {e : SExpr} (h : cc.resolveNumeric a = .ok (cc1, e)) :
    StepOk F L db (fun y => a = .var y) cc cc1 (fun ρ => ∀ x, a = .var x → IsNumber (ρ x)) ∧
      Resolved s db cc cc1 a e IsNumber := by
  cases a with
  | var x =>
    have hx := ha x rfl
    simp only [resolveNumeric] at h
    cases hv : AMap.get cc.vals x with
    | some v =>
      rw [hv] at h
      simp only at h
      split at h
      · rename_i hn
        simp only [Res.ok.injEq, Prod.mk.injEq] at h
        obtain ⟨rfl, rfl⟩ := h
        rw [numeric_iff] at hn
        refine ⟨(StepOk.refl hi ht).congr ?_, fun _ _ h => h, by simp [SExpr.refs], rfl, ?_⟩
        · rintro E _ ρ _ ⟨loc, _, h⟩
          simp only [true_iff]
          intro y hy; cases hy; rw [h.vals x v hv]; exact hn
        · intro env ρ h
          exact ⟨v, h.vals x v hv, hn, rfl, fun v' h' => .inr (by rw [← h.vals x v hv]; exact h'.symm)⟩
      · simp at h
    | none =>
      rw [hv] at h
      simp only at h
      cases hf : (cc.narrowTypes x TypeSet.numeric).firstColumn x with
      | err e => rw [hf] at h; simp [Res.bind] at h
      | panic => rw [hf] at h; simp [Res.bind] at h
      | ok e' =>
        rw [hf] at h
        simp only [Res.bind, Res.ok.injEq, Prod.mk.injEq] at h
        obtain ⟨rfl, rfl⟩ := h
        obtain ⟨q, qs, hq, rfl⟩ := firstColumn_ok hf
        have hq0 := hq
        rw [(narrowTypes_same cc x _).1] at hq0
        have st := step_narrowTypes (F := F) (db := db) hi ht hx (fun he => (hc.known he x _ hq0 hx).imp fun _ h => h.1) TypeSet.numeric
        refine ⟨(st.mono ?_).congr ?_, fun _ _ h => (at_narrowTypes.mp h).1, ?_, (narrowTypes_same cc x _).1, ?_⟩
        · rintro y rfl; rfl
        · intro _ _ ρ _ _
          rw [numeric_iff]
          exact ⟨fun h y hy => by cases hy; exact h, fun h => h x rfl⟩
        · intro al hal
          simp only [SExpr.refs, List.mem_singleton] at hal
          subst hal
          exact ⟨x, _, hq, q, by simp, rfl⟩
        · intro env ρ h
          refine ⟨ρ x, rfl, numeric_iff.mp (at_narrowTypes.mp h).2, h.cols x _ hq q (by simp), fun v' h' => .inr h'.symm⟩
  | int i =>
    simp only [resolveNumeric, Res.ok.injEq, Prod.mk.injEq] at h
    obtain ⟨rfl, rfl⟩ := h
    refine ⟨(StepOk.refl hi ht).congr (by simp), fun _ _ h => h, by simp [SExpr.refs], rfl, ?_⟩
    intro env ρ _
    refine ⟨.long i, .inl rfl, ⟨_, rfl⟩, rfl, ?_⟩
    rintro v' (rfl | rfl)
    · exact .inr rfl
    · exact .inl rfl
  | const c =>
    cases c with
    | float d =>
      simp only [resolveNumeric, Res.ok.injEq, Prod.mk.injEq] at h
      obtain ⟨rfl, rfl⟩ := h
      refine ⟨(StepOk.refl hi ht).congr (by simp), fun _ _ h => h, by simp [SExpr.refs], rfl, ?_⟩
      intro env ρ _
      exact ⟨.double d, rfl, ⟨_, rfl⟩, rfl, fun v' h' => .inr (Option.some.inj h').symm⟩
    | _ => simp [resolveNumeric] at h
  | kw k => simp [resolveNumeric] at h
  | src b => simp [resolveNumeric] at h
  | vec l => simp [resolveNumeric] at h

theorem step_resolveInstant (hi : Inv L cc) (ht : TypedIn F L db cc) {s : Schema} {a : FnArg}
    (ha : ∀ x, a = .var x → ¬ L x) {cc1 : CC} {e : SExpr} (h : cc.resolveInstant a = .ok (cc1, e)) :
    StepOk F L db (fun y => a = .var y) cc cc1 (fun ρ => ∀ x, a = .var x → IsInstant (ρ x)) ∧
      Resolved s db cc cc1 a e IsInstant := by
  cases a with
  | var x =>
    have hx := ha x rfl
    simp only [resolveInstant] at h
    cases hv : AMap.get cc.vals x with
    | some v =>
      rw [hv] at h
      cases v with
      | instant us =>
        simp only [Res.ok.injEq, Prod.mk.injEq] at h
        obtain ⟨rfl, rfl⟩ := h
        refine ⟨(StepOk.refl hi ht).congr ?_, fun _ _ h => h, by simp [SExpr.refs], rfl, ?_⟩
        · rintro E _ ρ _ ⟨loc, _, h⟩
          simp only [true_iff]
          intro y hy; cases hy; rw [h.vals x _ hv]; exact ⟨_, rfl⟩
        · intro env ρ h
          exact ⟨_, h.vals x _ hv, ⟨_, rfl⟩, rfl, fun v' h' => .inr (by rw [← h.vals x _ hv]; exact h'.symm)⟩
      | _ => simp at h
    | none =>
      rw [hv] at h
      simp only at h
      cases hf : (cc.constrainType x .instant).firstColumn x with
      | err e => rw [hf] at h; simp [Res.bind] at h
      | panic => rw [hf] at h; simp [Res.bind] at h
      | ok e' =>
        rw [hf] at h
        simp only [Res.bind, Res.ok.injEq, Prod.mk.injEq] at h
        obtain ⟨rfl, rfl⟩ := h
        obtain ⟨q, qs, hq, rfl⟩ := firstColumn_ok hf
        have st := step_constrainType (F := F) (db := db) hi ht hx .instant
        refine ⟨(st.mono ?_).congr ?_, fun _ _ h => (at_constrainType.mp h).1, ?_, colb_constrainType cc x _, ?_⟩
        · rintro y rfl; rfl
        · intro _ _ ρ _ _
          rw [instant_iff]
          exact ⟨fun h y hy => by cases hy; exact h, fun h => h x rfl⟩
        · intro al hal
          simp only [SExpr.refs, List.mem_singleton] at hal
          subst hal
          exact ⟨x, _, hq, q, by simp, rfl⟩
        · intro env ρ h
          refine ⟨ρ x, rfl, instant_iff.mp (at_constrainType.mp h).2, h.cols x _ hq q (by simp), fun v' h' => .inr h'.symm⟩
  | const c =>
    cases c with
    | instant d =>
      simp only [resolveInstant, Res.ok.injEq, Prod.mk.injEq] at h
      obtain ⟨rfl, rfl⟩ := h
      refine ⟨(StepOk.refl hi ht).congr (by simp), fun _ _ h => h, by simp [SExpr.refs], rfl, ?_⟩
      intro env ρ _
      exact ⟨.instant d, rfl, ⟨_, rfl⟩, rfl, fun v' h' => .inr (Option.some.inj h').symm⟩
    | _ => simp [resolveInstant] at h
  | int i => simp [resolveInstant] at h
  | kw k => simp [resolveInstant] at h
  | src b => simp [resolveInstant] at h
  | vec l => simp [resolveInstant] at h

/-- For references: the entity is determined. -/
theorem step_resolveRef (hi : Inv L cc) (ht : TypedIn F L db cc) {s : Schema} {a : FnArg}
    (ha : ∀ x, a = .var x → ¬ L x) {cc1 : CC} {e : SExpr} (h : cc.resolveRef s a = .ok (cc1, e)) :
    StepOk F L db (fun y => a = .var y) cc cc1 (fun ρ => ∀ x, a = .var x → (ρ x).valueType = .ref) ∧
      (∀ env ρ, At db cc1 env ρ → At db cc env ρ) ∧ (∀ al ∈ e.refs, FromCols cc1 al) ∧
      cc1.colb = cc.colb ∧
      ∀ env ρ, At db cc1 env ρ → ∃ n, e.eval env = .integer n ∧ ∀ m, a.Denotes s ρ (.ref m) ↔ m = n := by
  cases a with
  | var x =>
    have hx := ha x rfl
    have st := step_constrainType (F := F) (db := db) hi ht hx .ref
    have hP : StepOk F L db (fun y => FnArg.var x = .var y) cc (cc.constrainType x .ref)
        (fun ρ => ∀ y, FnArg.var x = .var y → (ρ y).valueType = .ref) := by
      refine (st.mono ?_).congr ?_
      · rintro y rfl; rfl
      · intro _ _ ρ _ _
        exact ⟨fun h y hy => by cases hy; exact h, fun h => h x rfl⟩
    have hcol : ∀ {e'}, (cc.constrainType x .ref).firstColumn x = .ok e' →
        (∀ al ∈ e'.refs, FromCols (cc.constrainType x .ref) al) ∧
        ∀ env ρ, At db (cc.constrainType x .ref) env ρ → ∃ n, e'.eval env = .integer n ∧
          ∀ m, (FnArg.var x).Denotes s ρ (.ref m) ↔ m = n := by
      intro e' hf
      obtain ⟨q, qs, hq, rfl⟩ := firstColumn_ok hf
      refine ⟨?_, ?_⟩
      · intro al hal
        simp only [SExpr.refs, List.mem_singleton] at hal
        subst hal
        exact ⟨x, _, hq, q, by simp, rfl⟩
      · intro env ρ h
        have h1 := h.cols x _ hq q (by simp)
        have h2 := (at_constrainType.mp h).2
        cases hr : ρ x <;> rw [hr] at h2 <;> simp [TypedValue.valueType] at h2
        rename_i n
        rw [hr] at h1
        refine ⟨n, h1, fun m => ?_⟩
        simp [FnArg.Denotes, hr, eq_comm]
    have gc := colb_constrainType cc x .ref
    simp only [resolveRef] at h
    generalize ho : AMap.get (cc.constrainType x .ref).vals x = o at h
    have general : ∀ {e' : SExpr}, (((cc.constrainType x .ref).firstColumn x).bind fun e => Res.ok ((cc.constrainType x .ref), e)) =
        .ok (cc1, e') → cc1 = cc.constrainType x .ref ∧ (cc.constrainType x .ref).firstColumn x = .ok e' := by
      intro e' h
      cases hf : (cc.constrainType x .ref).firstColumn x with
      | err e => rw [hf] at h; simp [Res.bind] at h
      | panic => rw [hf] at h; simp [Res.bind] at h
      | ok e'' =>
        rw [hf] at h
        simp only [Res.bind, Res.ok.injEq, Prod.mk.injEq] at h
        exact ⟨h.1.symm, by rw [h.2]⟩
    cases o with
    | none =>
      obtain ⟨rfl, hf⟩ := general h
      exact ⟨hP, fun _ _ h => (at_constrainType.mp h).1, (hcol hf).1, gc, (hcol hf).2⟩
    | some v =>
      cases v with
      | ref n =>
        simp only [Res.ok.injEq, Prod.mk.injEq] at h
        obtain ⟨rfl, rfl⟩ := h
        refine ⟨hP, fun _ _ h => (at_constrainType.mp h).1, by simp [SExpr.refs], gc, ?_⟩
        intro env ρ h
        refine ⟨n, rfl, fun m => ?_⟩
        simp [FnArg.Denotes, h.vals x _ ho, eq_comm]
      | _ =>
        obtain ⟨rfl, hf⟩ := general h
        exact ⟨hP, fun _ _ h => (at_constrainType.mp h).1, (hcol hf).1, gc, (hcol hf).2⟩
  | int i =>
    simp only [resolveRef, Res.ok.injEq, Prod.mk.injEq] at h
    obtain ⟨rfl, rfl⟩ := h
    refine ⟨(StepOk.refl hi ht).congr (by simp), fun _ _ h => h, by simp [SExpr.refs], rfl, ?_⟩
    intro env ρ _
    exact ⟨i, rfl, fun m => by simp [FnArg.Denotes]⟩
  | kw k =>
    simp only [resolveRef] at h
    cases hk : AMap.get s.identMap k with
    | none => rw [hk] at h; simp at h
    | some n =>
      rw [hk] at h
      simp only [Res.ok.injEq, Prod.mk.injEq] at h
      obtain ⟨rfl, rfl⟩ := h
      refine ⟨(StepOk.refl hi ht).congr (by simp), fun _ _ h => h, by simp [SExpr.refs], rfl, ?_⟩
      intro env ρ _
      exact ⟨n, rfl, fun m => by simp [FnArg.Denotes, hk, eq_comm]⟩
  | const c => cases c <;> simp [resolveRef] at h
  | src b => simp [resolveRef] at h
  | vec l => simp [resolveRef] at h

/-- The type of what an argument denotes is among its possible types. -/
theorem mem_potential {s : Schema} {a : FnArg} {ts : TypeSet} (h : cc.potentialTypes s a = .ok ts) {env : Env}
    {ρ : Assign} (hat : At db cc env ρ) {v : TypedValue} (hv : a.Denotes s ρ v) (hr : v.valueType ≠ .ref) :
    ts v.valueType = true := by
  cases a with
  | var x =>
    simp only [potentialTypes, Res.ok.injEq] at h
    subst h
    have : ρ x = v := hv
    subst this
    unfold knownTypeSet
    cases hk : AMap.get cc.known x with
    | none => rfl
    | some us => exact hat.known x us hk
  | int i =>
    simp only [potentialTypes, Res.ok.injEq] at h
    subst h
    rcases hv with rfl | rfl
    · split <;> simp [TypedValue.valueType, TypeSet.one]
    · simp [TypedValue.valueType] at hr
  | kw k =>
    simp only [potentialTypes, Res.ok.injEq] at h
    subst h
    rcases hv with rfl | ⟨e, -, rfl⟩
    · split <;> simp [TypedValue.valueType, TypeSet.one]
    · simp [TypedValue.valueType] at hr
  | const c =>
    have hv : c.denotes = some v := hv
    cases c <;> simp [NIC.denotes] at hv <;> subst hv <;>
      simp only [potentialTypes, Res.ok.injEq] at h <;> subst h <;> simp [TypedValue.valueType, TypeSet.one]
  | src b => exact absurd hv (by simp [FnArg.Denotes])
  | vec l => exact absurd hv (by simp [FnArg.Denotes])

end

/-! ### A predicate -/

theorem shared_types {l r : TypeSet} {v w : TypedValue} (hl : l v.valueType = true) (hr : r w.valueType = true)
    (hv : IsNumber v) (hw : IsNumber w) (lt rt : TypeSet)
    (elt : lt = if l .long then l.union (TypeSet.one .double) else l)
    (ert : rt = if r .long then r.union (TypeSet.one .double) else r) :
    lt.inter rt .long = true ∨ lt.inter rt .double = true := by
  subst elt ert
  obtain ⟨a, ha⟩ := hv
  obtain ⟨b, hb⟩ := hw
  cases v <;> simp [TypedValue.number?] at ha <;> cases w <;> simp [TypedValue.number?] at hb <;>
    simp only [TypedValue.valueType] at hl hr <;>
    simp only [TypeSet.inter] <;>
    (cases h1 : l .long <;> cases h2 : r .long <;> simp_all [TypeSet.union, TypeSet.one])

theorem shared_instant {l r : TypeSet} (hl : l .instant = true) (hr : r .instant = true) (lt rt : TypeSet)
    (elt : lt = if l .long then l.union (TypeSet.one .double) else l)
    (ert : rt = if r .long then r.union (TypeSet.one .double) else r) :
    lt.inter rt .instant = true := by
  subst elt ert
  simp only [TypeSet.inter]
  split <;> split <;> simp [TypeSet.union, hl, hr]

theorem _root_.Mentat.CC.TypeSet.eq_apply {s t : TypeSet} (h : s.eq t = true) (u : ValueType) : s u = t u := by
  unfold Mentat.TypeSet.eq at h
  rw [List.all_eq_true] at h
  simpa using h u (ValueType.mem_all u)

theorem _root_.Mentat.CC.TypeSet.subset_apply {s t : TypeSet} (h : s.subset t = true) (u : ValueType) (hu : s u = true) :
    t u = true := by
  unfold Mentat.TypeSet.subset at h
  rw [List.all_eq_true] at h
  have := h u (ValueType.mem_all u)
  simpa [hu] using this

section
variable {L : Var → Prop} {db : Tables} {cc : CC} {F : Env → Prop} {s : Schema}

/-- Two resolutions and a comparison. -/
theorem step_compare {op : Ineq} {l r : FnArg} {cc1 cc2 : CC}
    {e1 e2 : SExpr} {ok : TypedValue → Prop} {P1 P2 : Assign → Prop}
    (s1 : StepOk F L db (fun y => l = .var y) cc cc1 P1) (r1 : Resolved s db cc cc1 l e1 ok)
    (s2 : StepOk F L db (fun y => r = .var y) cc1 cc2 P2) (r2 : Resolved s db cc1 cc2 r e2 ok)
    (hev : ∀ env v w, ok v → ok w → e1.eval env = v.toSql.1 → e2.eval env = w.toSql.1 →
      (evalInfix env op.sql e1 e2 = true ↔ op.Relates v w))
    (hord : op.ordinary = true)
    (hp : ∀ env ρ, At db cc env ρ → (∃ v w, l.Denotes s ρ v ∧ r.Denotes s ρ w ∧ op.Relates v w) → P1 ρ ∧ P2 ρ) :
    StepOk F L db (fun y => y ∈ argVars [l, r]) cc (cc2.addWhere (.infix op.sql e1 e2))
      (fun ρ => ∃ v w, l.Denotes s ρ v ∧ r.Denotes s ρ w ∧ op.Relates v w) := by
  have st3 : StepOk F L db (fun _ => False) cc2 (cc2.addWhere (.infix op.sql e1 e2))
      (fun ρ => ∃ v w, l.Denotes s ρ v ∧ r.Denotes s ρ w ∧ op.Relates v w) := by
    refine step_addWhere s2.inv s2.typed ?_ ?_
    · intro al hal
      simp only [Constraint.refs, List.mem_append] at hal
      rcases hal with h | h
      · exact (r1.refs al h).of_eq r2.colb
      · exact r2.refs al h
    · intro env ρ hρ hat
      have hat1 := r2.back env ρ hat
      obtain ⟨v, hv, hvo, hve, hvu⟩ := r1.eval env ρ hat1
      obtain ⟨w, hw, hwo, hwe, hwu⟩ := r2.eval env ρ hat
      have := hev env v w hvo hwo hve hwe
      rw [evalC, this]
      constructor
      · intro h; exact ⟨v, w, hv, hw, h⟩
      · rintro ⟨v', w', hv', hw', h⟩
        have hnr : v'.valueType ≠ .ref ∧ w'.valueType ≠ .ref := by
          unfold Ineq.Relates at h
          rw [if_pos hord] at h
          rcases h with ⟨a, b, h1, h2, -⟩ | ⟨a, b, rfl, rfl, -⟩
          · cases v' <;> simp [TypedValue.number?] at h1 <;> cases w' <;> simp [TypedValue.number?] at h2 <;>
              simp [TypedValue.valueType]
          · simp [TypedValue.valueType]
        rcases hvu v' hv' with h1 | rfl
        · exact absurd h1 hnr.1
        · rcases hwu w' hw' with h2 | rfl
          · exact absurd h2 hnr.2
          · exact h
  refine (((s1.trans s2).trans st3).mono ?_).congr ?_
  · rintro x ((rfl | rfl) | h)
    · simp [argVars]
    · cases l <;> simp [argVars]
    · exact absurd h id
  · rintro E hE ρ hρ ⟨loc, hl, hat⟩
    exact ⟨fun h => h.2, fun h => ⟨hp _ ρ hat h, h⟩⟩

theorem relates_number {op : Ineq} (hop : op.ordinary = true) {v w : TypedValue} {a b : Int} (hv : v.number? = some a)
    (hw : w.number? = some b) : op.Relates v w ↔ op.compares a b := by
  unfold Ineq.Relates
  rw [if_pos hop]
  constructor
  · rintro (⟨a', b', h1, h2, h3⟩ | ⟨a', b', rfl, rfl, h3⟩)
    · rw [hv] at h1; rw [hw] at h2; cases h1; cases h2; exact h3
    · simp [TypedValue.number?] at hv
  · intro h; exact .inl ⟨a, b, hv, hw, h⟩

theorem relates_instant {op : Ineq} (hop : op.ordinary = true) {a b : Int} :
    op.Relates (.instant a) (.instant b) ↔ op.compares a b := by
  unfold Ineq.Relates
  rw [if_pos hop]
  constructor
  · rintro (⟨a', b', h1, h2, h3⟩ | ⟨a', b', h1, h2, h3⟩)
    · simp [TypedValue.number?] at h1
    · cases h1; cases h2; exact h3
  · intro h; exact .inr ⟨a, b, rfl, rfl, h⟩

/-- Applying a comparison adds the condition that its arguments compare. -/
theorem step_applyInequality (hi : Inv L cc) (ht : TypedIn F L db cc) (hc : ColsKnown L cc) {op : Ineq}
    {args : List FnArg} (ha : ∀ x ∈ argVars args, ¬ L x) {cc' : CC} {facts : Facts}
    (h : cc.applyInequality s op args = .ok cc') :
    StepOk F L db (fun y => y ∈ argVars args) cc cc' (fun ρ => Sat s facts ρ (.pred (some op) args)) := by
  unfold applyInequality at h
  split at h
  · rename_i l r
    have hal : ∀ x, l = .var x → ¬ L x := by rintro x rfl; exact ha x (by simp [argVars])
    have har : ∀ x, r = .var x → ¬ L x := by rintro x rfl; exact ha x (by cases l <;> simp [argVars])
    simp only [Sat]
    cases hpl : cc.potentialTypes s l with
    | err e => rw [hpl] at h; simp [Res.bind] at h
    | panic => rw [hpl] at h; simp [Res.bind] at h
    | ok pl =>
    rw [hpl] at h
    simp only [Res.bind] at h
    split at h
    · simp at h
    rename_i hlne
    cases hpr : cc.potentialTypes s r with
    | err e => rw [hpr] at h; simp at h
    | panic => rw [hpr] at h; simp at h
    | ok pr =>
    rw [hpr] at h
    simp only at h
    split at h
    · simp at h
    rename_i hrne
    generalize hlt : (if pl.inter op.supported .long = true then (pl.inter op.supported).union (TypeSet.one .double)
      else pl.inter op.supported) = lt at h
    generalize hrt : (if pr.inter op.supported .long = true then (pr.inter op.supported).union (TypeSet.one .double)
      else pr.inter op.supported) = rt at h
    -- what related values say about the types
    have hnum : op.ordinary = true → ∀ env ρ v w, At db cc env ρ → l.Denotes s ρ v → r.Denotes s ρ w → IsNumber v → IsNumber w →
        lt.inter rt .long = true ∨ lt.inter rt .double = true := by
      intro hop env ρ v w hat hv hw nv nw
      have nr : ∀ {u : TypedValue}, IsNumber u → u.valueType ≠ .ref ∧ op.supported u.valueType = true := by
        rintro u ⟨n, hn⟩
        cases op <;> simp [Ineq.ordinary] at hop <;> cases u <;> simp [TypedValue.number?] at hn <;>
          simp [TypedValue.valueType, Ineq.supported]
      refine shared_types (l := pl.inter op.supported) (r := pr.inter op.supported) ?_ ?_ nv nw lt rt hlt.symm hrt.symm
      · simp [TypeSet.inter, mem_potential hpl hat hv (nr nv).1, (nr nv).2]
      · simp [TypeSet.inter, mem_potential hpr hat hw (nr nw).1, (nr nw).2]
    have hins : op.ordinary = true → ∀ env ρ v w, At db cc env ρ → l.Denotes s ρ v → r.Denotes s ρ w → IsInstant v → IsInstant w →
        lt.inter rt .instant = true := by
      rintro hop env ρ _ _ hat hv hw ⟨n, rfl⟩ ⟨m, rfl⟩
      have hs : op.supported .instant = true := by
        cases op <;> simp [Ineq.ordinary] at hop <;> simp [Ineq.supported]
      refine shared_instant (l := pl.inter op.supported) (r := pr.inter op.supported) ?_ ?_ lt rt hlt.symm hrt.symm
      · simp [TypeSet.inter, hs]
        exact mem_potential hpl hat hv (by simp [TypedValue.valueType])
      · simp [TypeSet.inter, hs]
        exact mem_potential hpr hat hw (by simp [TypedValue.valueType])
    have hrel : op.ordinary = true → ∀ v w, op.Relates v w → (IsNumber v ∧ IsNumber w) ∨ (IsInstant v ∧ IsInstant w) := by
      intro hop v w h
      unfold Ineq.Relates at h
      rw [if_pos hop] at h
      rcases h with ⟨a, b, h1, h2, -⟩ | ⟨a, b, h1, h2, -⟩
      · exact .inl ⟨⟨a, h1⟩, b, h2⟩
      · exact .inr ⟨⟨a, h1⟩, b, h2⟩
    have hsup : op.ordinary = false → lt = TypeSet.one .ref ∧ rt = TypeSet.one .ref := by
      intro hop
      have hs : op.supported = TypeSet.one .ref := by
        cases op <;> simp [Ineq.ordinary] at hop <;> rfl
      have one : ∀ p : TypeSet, ¬ (p.inter op.supported).isEmpty = true → p.inter op.supported = TypeSet.one .ref := by
        intro p hp
        cases hr : p .ref with
        | true => rw [hs]; exact inter_one hr
        | false => rw [hs] at hp; exact absurd (inter_one_empty hr) hp
      rw [← hlt, ← hrt, one pl hlne, one pr hrne]
      exact ⟨rfl, rfl⟩
    split at h
    · rename_i hse
      rw [TypeSet.isEmpty_iff] at hse
      obtain rfl := Res.ok.inj h
      refine StepOk.giveUp hi ?_
      rintro E hE ρ hρ ⟨loc, hloc, hat⟩ ⟨v, w, hv, hw, hr⟩
      cases hop : op.ordinary with
      | true =>
        rcases hrel hop v w hr with ⟨n1, n2⟩ | ⟨n1, n2⟩
        · rcases hnum hop _ ρ v w hat hv hw n1 n2 with h | h <;> rw [hse] at h <;> cases h
        · have := hins hop _ ρ v w hat hv hw n1 n2
          rw [hse] at this; cases this
      | false =>
        obtain ⟨h1, h2⟩ := hsup hop
        have := hse .ref
        rw [h1, h2] at this
        simp [TypeSet.inter, TypeSet.one] at this
    · rename_i hsne
      cases hop : op.ordinary with
      | false =>
        obtain ⟨h1, h2⟩ := hsup hop
        have hsh : lt.inter rt = TypeSet.one .ref := by
          rw [h1, h2]; exact inter_one (by simp [TypeSet.one])
        rw [hsh] at h
        have e1 : (TypeSet.one .ref).eq (TypeSet.one .instant) = false := by decide
        have e2 : (TypeSet.one .ref).onlyNumeric = false := by decide
        have e3 : (TypeSet.one .ref).eq (TypeSet.one .ref) = true := by decide
        simp only [e1, e2, e3, Bool.false_eq_true, if_false, if_true] at h
        cases hl : cc.resolveRef s l with
        | err e => rw [hl] at h; simp at h
        | panic => rw [hl] at h; simp at h
        | ok p =>
        obtain ⟨cc1, x1⟩ := p
        rw [hl] at h
        simp only at h
        obtain ⟨st1, b1, f1, c1, v1⟩ := step_resolveRef hi ht hal hl
        cases hr : cc1.resolveRef s r with
        | err e => rw [hr] at h; simp at h
        | panic => rw [hr] at h; simp at h
        | ok p =>
        obtain ⟨cc2, x2⟩ := p
        rw [hr] at h
        obtain rfl := Res.ok.inj h
        obtain ⟨st2, b2, f2, c2, v2⟩ := step_resolveRef st1.inv st1.typed har hr
        have st3 : StepOk F L db (fun _ => False) cc2 (cc2.addWhere (.infix op.sql x1 x2))
            (fun ρ => ∃ v w, l.Denotes s ρ v ∧ r.Denotes s ρ w ∧ op.Relates v w) := by
          refine step_addWhere st2.inv st2.typed ?_ ?_
          · intro al hal
            simp only [Constraint.refs, List.mem_append] at hal
            rcases hal with h | h
            · exact (f1 al h).of_eq c2
            · exact f2 al h
          · intro env ρ hρ hat
            obtain ⟨n, hn, hn'⟩ := v1 env ρ (b2 env ρ hat)
            obtain ⟨m, hm, hm'⟩ := v2 env ρ hat
            rw [evalC, evalInfix_int hn hm]
            constructor
            · intro h
              refine ⟨.ref n, .ref m, (hn' n).mpr rfl, (hm' m).mpr rfl, ?_⟩
              unfold Ineq.Relates
              rw [if_neg (by rw [hop]; simp)]
              exact ⟨n, m, rfl, rfl, h⟩
            · rintro ⟨v, w, hv, hw, h⟩
              unfold Ineq.Relates at h
              rw [if_neg (by rw [hop]; simp)] at h
              obtain ⟨a, b, rfl, rfl, h⟩ := h
              rw [(hn' a).mp hv, (hm' b).mp hw] at h
              exact h
        refine (((st1.trans st2).trans st3).mono ?_).congr ?_
        · rintro x ((rfl | rfl) | h)
          · simp [argVars]
          · cases l <;> simp [argVars]
          · exact absurd h id
        · rintro E hE ρ hρ _
          refine ⟨fun h => h.2, fun h => ⟨⟨?_, ?_⟩, h⟩⟩
          · rintro x rfl
            obtain ⟨v, w, hv, hw, h⟩ := h
            unfold Ineq.Relates at h
            rw [if_neg (by rw [hop]; simp)] at h
            obtain ⟨a, b, rfl, rfl, h⟩ := h
            have : ρ x = .ref a := hv
            rw [this]; rfl
          · rintro x rfl
            obtain ⟨v, w, hv, hw, h⟩ := h
            unfold Ineq.Relates at h
            rw [if_neg (by rw [hop]; simp)] at h
            obtain ⟨a, b, rfl, rfl, h⟩ := h
            have : ρ x = .ref b := hw
            rw [this]; rfl
      | true =>
        by_cases hsi : (lt.inter rt).eq (TypeSet.one .instant) = true
        · simp only [hsi, if_true] at h
          have hni : ∀ env ρ, At db cc env ρ → (∃ v w, l.Denotes s ρ v ∧ r.Denotes s ρ w ∧ op.Relates v w) →
              (∀ x, l = .var x → IsInstant (ρ x)) ∧ ∀ x, r = .var x → IsInstant (ρ x) := by
            rintro env ρ hat ⟨v, w, hv, hw, h⟩
            rcases hrel hop v w h with ⟨n1, n2⟩ | ⟨n1, n2⟩
            · rcases hnum hop _ ρ v w hat hv hw n1 n2 with h | h <;> rw [TypeSet.eq_apply hsi] at h <;> simp [TypeSet.one] at h
            · refine ⟨?_, ?_⟩
              · rintro x rfl; have : ρ x = v := hv; rw [this]; exact n1
              · rintro x rfl; have : ρ x = w := hw; rw [this]; exact n2
          cases hl : cc.resolveInstant l with
          | err e => rw [hl] at h; simp at h
          | panic => rw [hl] at h; simp at h
          | ok p =>
          obtain ⟨cc1, x1⟩ := p
          rw [hl] at h
          simp only at h
          obtain ⟨st1, r1⟩ := step_resolveInstant (s := s) hi ht hal hl
          cases hr : cc1.resolveInstant r with
          | err e => rw [hr] at h; simp at h
          | panic => rw [hr] at h; simp at h
          | ok p =>
          obtain ⟨cc2, x2⟩ := p
          rw [hr] at h
          obtain rfl := Res.ok.inj h
          obtain ⟨st2, r2⟩ := step_resolveInstant (s := s) st1.inv st1.typed har hr
          refine step_compare st1 r1 st2 r2 ?_ hop hni
          rintro env _ _ ⟨a, rfl⟩ ⟨b, rfl⟩ h1 h2
          rw [evalInfix_int h1 h2, relates_instant hop]
        · by_cases hsn : (lt.inter rt).onlyNumeric = true
          · simp only [hsi, hsn, if_true, if_false, Bool.false_eq_true] at h
            have hni : ∀ env ρ, At db cc env ρ → (∃ v w, l.Denotes s ρ v ∧ r.Denotes s ρ w ∧ op.Relates v w) →
                (∀ x, l = .var x → IsNumber (ρ x)) ∧ ∀ x, r = .var x → IsNumber (ρ x) := by
              rintro env ρ hat ⟨v, w, hv, hw, h⟩
              rcases hrel hop v w h with ⟨n1, n2⟩ | ⟨n1, n2⟩
              · refine ⟨?_, ?_⟩
                · rintro x rfl; have : ρ x = v := hv; rw [this]; exact n1
                · rintro x rfl; have : ρ x = w := hw; rw [this]; exact n2
              · have := hins hop _ ρ v w hat hv hw n1 n2
                have := TypeSet.subset_apply hsn _ this
                simp [TypeSet.numeric] at this
            cases hl : cc.resolveNumeric l with
            | err e => rw [hl] at h; simp at h
            | panic => rw [hl] at h; simp at h
            | ok p =>
            obtain ⟨cc1, x1⟩ := p
            rw [hl] at h
            simp only at h
            obtain ⟨st1, r1⟩ := step_resolveNumeric (s := s) hi ht hc hal hl
            cases hr : cc1.resolveNumeric r with
            | err e => rw [hr] at h; simp at h
            | panic => rw [hr] at h; simp at h
            | ok p =>
            obtain ⟨cc2, x2⟩ := p
            rw [hr] at h
            obtain rfl := Res.ok.inj h
            obtain ⟨st2, r2⟩ := step_resolveNumeric (s := s) st1.inv st1.typed (st1.cols hc) har hr
            refine step_compare st1 r1 st2 r2 ?_ hop hni
            rintro env v w ⟨a, hv⟩ ⟨b, hw⟩ h1 h2
            rw [evalInfix_num h1 h2 hv hw, relates_number hop hv hw]
          · by_cases hsr : (lt.inter rt).eq (TypeSet.one .ref) = true
            · -- not reached: references are not comparable by order
              exfalso
              have := TypeSet.eq_apply hsr .ref
              have hs : op.supported .ref = false := by
                cases op <;> simp [Ineq.ordinary] at hop <;> simp [Ineq.supported]
              have hl0 : lt .ref = false := by
                rw [← hlt]
                cases (pl.inter op.supported) .long <;> simp [TypeSet.union, TypeSet.inter, hs, TypeSet.one]
              simp [TypeSet.inter, TypeSet.one, hl0] at this
            · simp [hsi, hsn, hsr] at h
  · simp at h

end

end CC
end Mentat
