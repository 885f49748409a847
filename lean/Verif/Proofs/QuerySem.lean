import Verif.Proofs.QueryEnv
import Verif.Spec.Query
/-
The meaning of a `CC` in an environment of rows, and how the basic operations of the algebrizer change
it.
-/
namespace Mentat

/-! ### Stored values -/

theorem toSql_ne_null (v : TypedValue) : v.toSql.1 ≠ .null := by cases v <;> simp [TypedValue.toSql]

/-- Within a type SQL equality of stored values is equality. -/
theorem sqlEq_same {v w : TypedValue} (ht : v.valueType = w.valueType) :
    v.toSql.1.eq w.toSql.1 = true ↔ v.toSql.1 = w.toSql.1 := by
  cases v <;> cases w <;> simp only [TypedValue.valueType, reduceCtorEq] at ht <;>
    simp [TypedValue.toSql, SqlValue.eq]

theorem toSql_tag (v : TypedValue) : v.toSql.2 = v.valueType.tag := C01_tag v

/-- Within a type the stored value determines the value. -/
theorem toSql_inj {v w : TypedValue} (hv : v.Proper) (hw : w.Proper) (ht : v.valueType = w.valueType)
    (h : v.toSql.1 = w.toSql.1) : v = w := by
  refine (C02_same_type_partial hv hw ht).mp ?_
  unfold sqlPairEq
  rw [toSql_tag, toSql_tag, ht, (sqlEq_same ht).mpr h]
  simp

/-- The stored value and its tag determine the value. -/
theorem toSql_pair_inj {v w : TypedValue} (hv : v.Proper) (hw : w.Proper)
    (h : v.toSql = w.toSql) : v = w := by
  refine toSql_inj hv hw ?_ (by rw [h])
  cases v <;> cases w <;> simp_all [TypedValue.toSql, TypedValue.valueType]

theorem toSql_ref {v : TypedValue} {e : Entid} (ht : v.valueType = .ref) :
    v.toSql.1 = .integer e ↔ v = .ref e := by
  cases v <;> simp [TypedValue.valueType] at ht
  simp [TypedValue.toSql]

theorem eq_integer (a b : Int) : (SqlValue.integer a).eq (.integer b) = decide (a = b) := rfl

namespace CC

/-- The value of a column. -/
def cell (env : Env) (q : QA) : SqlValue := Env.get env q.1 q.2

theorem eval_col (env : Env) (q : QA) : (SExpr.col q.1 q.2).eval env = cell env q := rfl

theorem evalC_eqEntid {db : Tables} {env : Env} {q : QA} {n e : Int} (h : cell env q = .integer n) :
    evalC db env (eqEntid q e) = true ↔ n = e := by
  have h' : env.get q.1 q.2 = .integer n := h
  unfold eqEntid
  simp only [evalC, evalInfix, SExpr.eval, SExpr.integerAffinity, SqlValue.numeric, h', Bool.false_and,
    Bool.false_eq_true, ite_self]
  simp [SqlOp.eval, eq_integer]

theorem evalC_eqConst {db : Tables} {env : Env} {al : Alias} {w : SqlValue} (hw : w ≠ .null)
    (hc : cell env (al, .v) ≠ .null) :
    evalC db env (.infix .eq (.col al .v) (.const w)) = (cell env (al, .v)).eq w := by
  simp only [evalC, evalInfix, SExpr.eval, SExpr.integerAffinity, Col.integerAffinity, Bool.false_and,
    Bool.false_eq_true, if_false]
  show SqlOp.eval .eq (cell env (al, .v)) w = _
  simp [SqlOp.eval, hw, hc]

/-! ### Meaning -/

/-- The assignment agrees with the bindings of the clauses in the environment, and the conditions hold
there. -/
structure At (db : Tables) (cc : CC) (env : Env) (ρ : Assign) : Prop where
  live : cc.empty = false
  vals : ∀ x v, AMap.get cc.vals x = some v → ρ x = v
  known : ∀ x ts, AMap.get cc.known x = some ts → ts (ρ x).valueType = true
  req : ∀ x ts, AMap.get cc.required x = some ts → ts (ρ x).valueType = true
  wh : evalAll db env cc.wheres = true
  cols : ∀ x qs, AMap.get cc.colb x = some qs → ∀ q ∈ qs, cell env q = (ρ x).toSql.1
  tags : ∀ x q, AMap.get cc.extracted x = some q → cell env q = .integer (ρ x).toSql.2

/-- The assignment satisfies the clauses, for some choice of rows. -/
def Sem (db : Tables) (E : Env) (cc : CC) (ρ : Assign) : Prop :=
  ∃ loc ∈ evalFrom db E cc.stables, At db cc (loc ++ E) ρ

variable {db : Tables} {env : Env} {ρ : Assign}

theorem at_markEmpty (cc : CC) : ¬ At db cc.markEmpty env ρ := fun h => by
  have := h.live; simp [markEmpty] at this

theorem at_addWhere {cc : CC} {c : Constraint} :
    At db (cc.addWhere c) env ρ ↔ At db cc env ρ ∧ evalC db env c = true := by
  constructor
  · intro h
    have := h.wh
    simp only [addWhere, evalAll_append, evalAll, Bool.and_true, Bool.and_eq_true] at this
    exact ⟨⟨h.live, h.vals, h.known, h.req, this.1, h.cols, h.tags⟩, this.2⟩
  · rintro ⟨h, hc⟩
    refine ⟨h.live, h.vals, h.known, h.req, ?_, h.cols, h.tags⟩
    simp [addWhere, evalAll_append, evalAll, h.wh, hc]

theorem at_constrainType {cc : CC} {x : Var} {t : ValueType} :
    At db (cc.constrainType x t) env ρ ↔ At db cc env ρ ∧ (ρ x).valueType = t := by
  have base : ∀ h : At db { cc with known := AMap.insert cc.known x (TypeSet.one t) } env ρ,
      (ρ x).valueType = t := by
    intro h
    have := h.known x (TypeSet.one t) (by simp)
    simpa [TypeSet.one] using this
  have back : ∀ h : At db cc env ρ, (ρ x).valueType = t →
      At db { cc with known := AMap.insert cc.known x (TypeSet.one t) } env ρ := by
    intro h ht
    refine ⟨h.live, h.vals, ?_, h.req, h.wh, h.cols, h.tags⟩
    intro y ts hy
    simp only [AMap.get_insert] at hy
    split at hy
    · rename_i e; cases hy; subst e; simp [TypeSet.one, ht]
    · exact h.known y ts hy
  unfold constrainType
  cases hk : AMap.get cc.known x with
  | none =>
    simp only
    constructor
    · intro h
      refine ⟨⟨h.live, h.vals, ?_, h.req, h.wh, h.cols, h.tags⟩, base h⟩
      intro y ts hy
      refine h.known y ts ?_
      simp only [AMap.get_insert]
      split
      · rename_i e; subst e; rw [hk] at hy; simp at hy
      · exact hy
    · rintro ⟨h, ht⟩; exact back h ht
  | some s =>
    simp only
    split
    · rename_i hs
      constructor
      · intro h
        refine ⟨⟨h.live, h.vals, ?_, h.req, h.wh, h.cols, h.tags⟩, base h⟩
        intro y ts hy
        by_cases e : x = y
        · subst e
          rw [hk] at hy; cases hy
          rw [base h]; exact hs
        · exact h.known y ts (by simp only [AMap.get_insert, if_neg e]; exact hy)
      · rintro ⟨h, ht⟩; exact back h ht
    · rename_i hs
      refine ⟨fun h => absurd h (at_markEmpty _), ?_⟩
      rintro ⟨h, ht⟩
      have := h.known x s hk
      rw [ht] at this
      exact absurd this hs

theorem TypeSet.isEmpty_iff {s : TypeSet} : TypeSet.isEmpty s = true ↔ ∀ t, s t = false := by
  unfold TypeSet.isEmpty TypeSet.list
  rw [List.isEmpty_iff, List.filter_eq_nil_iff]
  constructor
  · intro h t; simpa using h t (ValueType.mem_all t)
  · intro h t _; simp [h t]

theorem at_narrowTypes {cc : CC} {x : Var} {ts : TypeSet} :
    At db (cc.narrowTypes x ts) env ρ ↔ At db cc env ρ ∧ ts (ρ x).valueType = true := by
  unfold narrowTypes
  split
  · rename_i he
    rw [TypeSet.isEmpty_iff] at he
    exact ⟨fun h => absurd h (at_markEmpty _), fun h => by have := h.2; rw [he] at this; simp at this⟩
  · cases hk : AMap.get cc.known x with
    | none =>
      simp only
      constructor
      · intro h
        refine ⟨⟨h.live, h.vals, ?_, h.req, h.wh, h.cols, h.tags⟩, h.known x ts (by simp)⟩
        intro y us hy
        refine h.known y us ?_
        simp only [AMap.get_insert]
        split
        · rename_i e; subst e; rw [hk] at hy; simp at hy
        · exact hy
      · rintro ⟨h, ht⟩
        refine ⟨h.live, h.vals, ?_, h.req, h.wh, h.cols, h.tags⟩
        intro y us hy
        simp only [AMap.get_insert] at hy
        split at hy
        · rename_i e; cases hy; subst e; exact ht
        · exact h.known y us hy
    | some s =>
      have base : ∀ h : At db { cc with known := AMap.insert cc.known x (ts.inter s) } env ρ,
          At db cc env ρ ∧ ts (ρ x).valueType = true := by
        intro h
        have h0 := h.known x (ts.inter s) (by simp)
        simp only [TypeSet.inter, Bool.and_eq_true] at h0
        refine ⟨⟨h.live, h.vals, ?_, h.req, h.wh, h.cols, h.tags⟩, h0.1⟩
        intro y us hy
        by_cases e : x = y
        · subst e; rw [hk] at hy; cases hy; exact h0.2
        · exact h.known y us (by simp only [AMap.get_insert, if_neg e]; exact hy)
      simp only
      split
      · rename_i he
        rw [TypeSet.isEmpty_iff] at he
        refine ⟨fun h => absurd h (at_markEmpty _), ?_⟩
        rintro ⟨h, ht⟩
        have := he (ρ x).valueType
        simp [TypeSet.inter, ht, h.known x s hk] at this
      · refine ⟨base, ?_⟩
        rintro ⟨h, ht⟩
        refine ⟨h.live, h.vals, ?_, h.req, h.wh, h.cols, h.tags⟩
        intro y us hy
        simp only [AMap.get_insert] at hy
        split at hy
        · rename_i e; cases hy; subst e; simp [TypeSet.inter, ht, h.known _ s hk]
        · exact h.known y us hy

theorem at_addRequirement {cc : CC} {x : Var} {ts : TypeSet} :
    At db (cc.addRequirement x ts) env ρ ↔ At db cc env ρ ∧ ts (ρ x).valueType = true := by
  unfold addRequirement
  split
  · rename_i he
    rw [TypeSet.isEmpty_iff] at he
    exact ⟨fun h => absurd h (at_markEmpty _), fun h => by have := h.2; rw [he] at this; simp at this⟩
  · cases hk : AMap.get cc.required x with
    | none =>
      simp only
      constructor
      · intro h
        refine ⟨⟨h.live, h.vals, h.known, ?_, h.wh, h.cols, h.tags⟩, h.req x ts (by simp)⟩
        intro y us hy
        refine h.req y us ?_
        simp only [AMap.get_insert]
        split
        · rename_i e; subst e; rw [hk] at hy; simp at hy
        · exact hy
      · rintro ⟨h, ht⟩
        refine ⟨h.live, h.vals, h.known, ?_, h.wh, h.cols, h.tags⟩
        intro y us hy
        simp only [AMap.get_insert] at hy
        split at hy
        · rename_i e; cases hy; subst e; exact ht
        · exact h.req y us hy
    | some s =>
      simp only
      split
      · rename_i he
        rw [TypeSet.isEmpty_iff] at he
        refine ⟨fun h => absurd h (at_markEmpty _), ?_⟩
        rintro ⟨h, ht⟩
        have := he (ρ x).valueType
        simp [TypeSet.inter, ht, h.req x s hk] at this
      · constructor
        · intro h
          have h0 := h.req x (ts.inter s) (by simp)
          simp only [TypeSet.inter, Bool.and_eq_true] at h0
          refine ⟨⟨h.live, h.vals, h.known, ?_, h.wh, h.cols, h.tags⟩, h0.1⟩
          intro y us hy
          by_cases e : x = y
          · subst e; rw [hk] at hy; cases hy; exact h0.2
          · exact h.req y us (by simp only [AMap.get_insert, if_neg e]; exact hy)
        · rintro ⟨h, ht⟩
          refine ⟨h.live, h.vals, h.known, ?_, h.wh, h.cols, h.tags⟩
          intro y us hy
          simp only [AMap.get_insert] at hy
          split at hy
          · rename_i e; cases hy; subst e; simp [TypeSet.inter, ht, h.req _ s hk]
          · exact h.req y us hy

theorem at_pushColumn {cc : CC} {q : QA} {x : Var} :
    At db (cc.pushColumn q x) env ρ ↔ At db cc env ρ ∧ cell env q = (ρ x).toSql.1 := by
  unfold pushColumn
  constructor
  · intro h
    refine ⟨⟨h.live, h.vals, h.known, h.req, h.wh, ?_, h.tags⟩, ?_⟩
    · intro y qs hy p hp
      by_cases e : x = y
      · subst e
        exact h.cols x _ (AMap.get_insert_self _ _ _) p (by simp [hy, hp])
      · exact h.cols y qs (by simp only [AMap.get_insert, if_neg e]; exact hy) p hp
    · exact h.cols x _ (AMap.get_insert_self _ _ _) q (by simp)
  · rintro ⟨h, hq⟩
    refine ⟨h.live, h.vals, h.known, h.req, h.wh, ?_, h.tags⟩
    intro y qs hy p hp
    simp only [AMap.get_insert] at hy
    split at hy
    · rename_i e; cases hy; subst e
      simp only [List.mem_append, List.mem_singleton] at hp
      rcases hp with hp | rfl
      · cases hg : AMap.get cc.colb x with
        | none => simp [hg] at hp
        | some qs => exact h.cols x qs hg p (by simpa [hg] using hp)
      · exact hq
    · exact h.cols y qs hy p hp

theorem at_extract {cc : CC} {q : QA} {x : Var} (hn : AMap.get cc.extracted x = none) :
    At db { cc with extracted := AMap.insert cc.extracted x q } env ρ ↔
      At db cc env ρ ∧ cell env q = .integer (ρ x).toSql.2 := by
  constructor
  · intro h
    refine ⟨⟨h.live, h.vals, h.known, h.req, h.wh, h.cols, ?_⟩, h.tags x q (by simp)⟩
    intro y p hy
    refine h.tags y p ?_
    simp only [AMap.get_insert]
    split
    · rename_i e; subst e; rw [hn] at hy; simp at hy
    · exact hy
  · rintro ⟨h, hq⟩
    refine ⟨h.live, h.vals, h.known, h.req, h.wh, h.cols, ?_⟩
    intro y p hy
    simp only [AMap.get_insert] at hy
    split at hy
    · rename_i e; cases hy; subst e; exact hq
    · exact h.tags y p hy

/-! ### Binding a column -/

/-- Will `bind_column_to_var` record where the type of the variable is to be found? -/
def needsTag (cc : CC) (x : Var) : Bool :=
  !decide (x ∈ cc.inputs) && (cc.knownType x).isNone && (AMap.get cc.extracted x).isNone

/-- A column of entities. -/
theorem at_bindColumn_ref {cc : CC} {s : Schema} {q : QA} {x : Var} {n : Int}
    (hq : entityColumn q = true) (ht : typeTag q = none) (hc : cell env q = .integer n)
    (hr : At db cc env ρ → (ρ x).valueType = .ref) :
    At db (cc.bindColumn s q x) env ρ ↔ At db cc env ρ ∧ ρ x = .ref n := by
  unfold bindColumn
  cases hv : AMap.get cc.vals x with
  | some v =>
    simp only [hq, if_true]
    cases v with
    | ref e =>
      simp only [at_addWhere, evalC_eqEntid hc]
      constructor
      · rintro ⟨h, rfl⟩; exact ⟨h, h.vals x _ hv⟩
      · rintro ⟨h, h2⟩
        rw [h.vals x _ hv] at h2
        exact ⟨h, by cases h2; rfl⟩
    | keyword k =>
      have no : ¬ At db cc env ρ := fun h => by
        have := hr h; rw [h.vals x _ hv] at this; simp [TypedValue.valueType] at this
      simp only
      cases AMap.get s.identMap k with
      | some e => simp only [at_addWhere]; exact ⟨fun h => absurd h.1 no, fun h => absurd h.1 no⟩
      | none => exact ⟨fun h => absurd h (at_markEmpty _), fun h => absurd h.1 no⟩
    | boolean _ | long _ | double _ | instant _ | string _ | uuid _ =>
      have no : ¬ At db cc env ρ := fun h => by
        have := hr h; rw [h.vals x _ hv] at this; simp [TypedValue.valueType] at this
      exact ⟨fun h => absurd h (at_markEmpty _), fun h => absurd h.1 no⟩
  | none =>
    have : cc.bindColumn s q x = cc.pushColumn q x := by
      unfold bindColumn
      simp only [hv, ht]
      generalize (!decide (x ∈ cc.inputs) && (cc.knownType x).isNone &&
        (AMap.get cc.extracted x).isNone) = b
      cases b <;> rfl
    simp only [bindColumn, hv] at this
    rw [this, at_pushColumn, hc]
    constructor
    · rintro ⟨h, h2⟩; exact ⟨h, (toSql_ref (hr h)).mp h2.symm⟩
    · rintro ⟨h, h2⟩; exact ⟨h, by rw [h2]; rfl⟩

/-- A column of values, when it is unconstrained otherwise. -/
theorem at_bindColumn_push {cc : CC} {s : Schema} {q : QA} {x : Var}
    (hv : AMap.get cc.vals x = none) :
    At db (cc.bindColumn s q x) env ρ ↔ At db cc env ρ ∧ cell env q = (ρ x).toSql.1 ∧
      (cc.needsTag x = true → ∀ t, typeTag q = some t → cell env t = .integer (ρ x).toSql.2) := by
  unfold bindColumn
  simp only [hv]
  have e0 : (!decide (x ∈ cc.inputs) && (cc.knownType x).isNone && (AMap.get cc.extracted x).isNone) =
      cc.needsTag x := rfl
  rw [e0, at_pushColumn]
  cases hn : cc.needsTag x with
  | false => simp
  | true =>
    have hx : AMap.get cc.extracted x = none := by
      simp only [needsTag, Bool.and_eq_true, Option.isNone_iff_eq_none] at hn
      exact hn.2
    cases ht : typeTag q with
    | none => simp
    | some t =>
      simp only
      rw [at_extract hx]
      constructor
      · rintro ⟨⟨h, h2⟩, h3⟩
        exact ⟨h, h3, fun _ t' ht' => by cases ht'; exact h2⟩
      · rintro ⟨h, h2, h3⟩; exact ⟨⟨h, h3 trivial t rfl⟩, h2⟩

/-- The value column of an alias whose row holds the value `w`. -/
structure HoldsValue (env : Env) (al : Alias) (w : TypedValue) : Prop where
  v : cell env (al, .v) = w.toSql.1
  tag : cell env (al, .tag) = .integer w.toSql.2

theorem evalC_eqValue {al : Alias} {v w : TypedValue} (h : cell env (al, .v) = w.toSql.1)
    (hw : w.Proper) (hv : v.Proper) (ht : v.valueType = w.valueType) :
    evalC db env (eqValue (al, .v) v) = true ↔ v = w := by
  unfold eqValue
  rw [evalC_eqConst (toSql_ne_null v) (by rw [h]; exact toSql_ne_null w), h, sqlEq_same ht.symm]
  exact ⟨fun e => toSql_inj hv hw ht e.symm, fun e => by rw [e]⟩

theorem at_constrainConst {cc : CC} {al : Alias} {v w : TypedValue} (h : cell env (al, .v) = w.toSql.1)
    (hw : w.Proper) (hv : v.Proper) (ht : v.valueType = w.valueType) :
    At db (cc.constrainConst (al, .v) v) env ρ ↔ At db cc env ρ ∧ v = w := by
  cases v with
  | ref e =>
    have hc : ∃ n, w = .ref n := by cases w <;> simp [TypedValue.valueType] at ht; exact ⟨_, rfl⟩
    obtain ⟨n, rfl⟩ := hc
    simp only [constrainConst, at_addWhere, evalC_eqEntid (q := (al, Col.v)) (n := n) h, TypedValue.ref.injEq]
    exact ⟨fun h => ⟨h.1, h.2.symm⟩, fun h => ⟨h.1, h.2.symm⟩⟩
  | boolean _ | long _ | double _ | instant _ | string _ | uuid _ | keyword _ =>
    simp only [constrainConst, at_addWhere, evalC_eqValue h hw hv ht]

/-- A column of values of the variable's type. -/
theorem at_bindColumn_val {cc : CC} {s : Schema} {al : Alias} {x : Var} {w : TypedValue}
    (hw : w.Proper) (hρ : ρ.Proper) (hc : HoldsValue env al w)
    (ht : At db cc env ρ → (ρ x).valueType = w.valueType) :
    At db (cc.bindColumn s (al, .v) x) env ρ ↔ At db cc env ρ ∧ ρ x = w := by
  cases hv : AMap.get cc.vals x with
  | some v =>
    have e : cc.bindColumn s (al, .v) x = cc.constrainConst (al, .v) v := by
      unfold bindColumn
      have : entityColumn (al, Col.v) = false := by unfold entityColumn; cases al.table <;> rfl
      simp [hv, this]
    rw [e]
    by_cases h : At db cc env ρ
    · have hx := h.vals x v hv
      have hp : v.Proper := hx ▸ hρ x
      rw [at_constrainConst hc.v hw hp (by rw [← hx]; exact ht h), hx]
    · constructor
      · intro h'
        exfalso; apply h
        cases v <;> simp only [constrainConst, at_addWhere] at h' <;> exact h'.1
      · intro h'; exact absurd h'.1 h
  | none =>
    rw [at_bindColumn_push hv, hc.v]
    constructor
    · rintro ⟨h, h2, -⟩; exact ⟨h, (toSql_inj hw (hρ x) (ht h).symm h2).symm⟩
    · rintro ⟨h, h2⟩
      refine ⟨h, by rw [h2], fun _ t hq => ?_⟩
      simp only [typeTag, Option.some.injEq] at hq
      subst hq; rw [hc.tag, h2]

/-- A column of values for a variable met for the first time. -/
theorem at_bindColumn_new {cc : CC} {s : Schema} {al : Alias} {x : Var} {w : TypedValue}
    (hw : w.Proper) (hρ : ρ.Proper) (hc : HoldsValue env al w) (hn : cc.needsTag x = true)
    (hv : AMap.get cc.vals x = none) :
    At db (cc.bindColumn s (al, .v) x) env ρ ↔ At db cc env ρ ∧ ρ x = w := by
  rw [at_bindColumn_push hv, hc.v]
  constructor
  · rintro ⟨h, h2, h3⟩
    refine ⟨h, (toSql_pair_inj hw (hρ x) (Prod.ext h2 ?_)).symm⟩
    have := h3 hn (al, .tag) rfl
    rw [hc.tag] at this
    injection this with this
    exact Int.ofNat.inj this
  · rintro ⟨h, h2⟩
    refine ⟨h, by rw [h2], fun _ t hq => ?_⟩
    simp only [typeTag, Option.some.injEq] at hq
    subst hq; rw [hc.tag, h2]

end CC
end Mentat
