import Verif.Proofs.QueryInv
/-
The meaning of a pattern: applying it to the clauses adds the condition that a datom matches it.
-/
namespace Mentat

/-- An evolved place is matched by an entity. -/
def CC.ENonValue.Matches (ρ : Assign) (e : Entid) : CC.ENonValue → Prop
  | .placeholder => True
  | .var x => ρ x = .ref e
  | .entid i => e = i

/-- An evolved place is matched by a value. -/
def CC.EValue.Matches (s : Schema) (ρ : Assign) (v : TypedValue) : CC.EValue → Prop
  | .placeholder => True
  | .var x => ρ x = v
  | .entid i => v = .ref i
  | .value w => w = v
  | .entidOrInteger i => v = .ref i ∨ v = .long i ∨ v = .double (i * 2 ^ 1074)
  | .identOrKeyword k => v = .keyword k ∨ ∃ e, AMap.get s.identMap k = some e ∧ v = .ref e

def CC.EPattern.Matches (s : Schema) (ρ : Assign) (p : CC.EPattern) (r : Row) : Prop :=
  p.e.Matches ρ r.e ∧ p.a.Matches ρ r.a ∧ p.v.Matches s ρ r.v ∧ p.tx.Matches ρ r.tx

/-- The datoms are those of attributes of the schema, of the right type and such as the store can hold;
which attributes are fulltext is as the schema says, and those hold strings. -/
structure DbOk (s : Schema) (db : Tables) : Prop where
  typed : ∀ r ∈ db.rows, ∃ at_, s.attr r.a = some at_ ∧ r.v.valueType = at_.valueType
  proper : ∀ r ∈ db.rows, r.v.Proper
  ft : ∀ a at_, s.attr a = some at_ → db.ft a = at_.fulltext
  ftString : ∀ a at_, s.attr a = some at_ → at_.fulltext = true → at_.valueType = .string

theorem DbOk.attr {s : Schema} {db : Tables} (h : DbOk s db) {r : Row} (hr : r ∈ db.rows) {a : Entid}
    {at_ : Attribute} (ha : s.attr a = some at_) (e : r.a = a) : r.v.valueType = at_.valueType := by
  obtain ⟨b, hb, ht⟩ := h.typed r hr
  rw [e, ha] at hb
  cases hb; exact ht

theorem DbOk.ft_string {s : Schema} {db : Tables} (h : DbOk s db) {r : Row} (hr : r ∈ db.rows)
    (hf : db.ft r.a = true) : ∃ t, r.v = .string t := by
  obtain ⟨at_, ha, ht⟩ := h.typed r hr
  have := h.ftString _ _ ha (by rw [← h.ft _ _ ha]; exact hf)
  rw [this] at ht
  cases hv : r.v <;> simp [hv, TypedValue.valueType] at ht
  exact ⟨_, rfl⟩

namespace CC

/-- The alias stands for the datom, as the table it is an alias of shows it. -/
structure HoldsRow (db : Tables) (env : Env) (al : Alias) (r : Row) : Prop where
  e : cell env (al, .e) = .integer r.e
  a : cell env (al, .a) = .integer r.a
  tx : cell env (al, .tx) = .integer r.tx
  tag : cell env (al, .tag) = .integer r.v.toSql.2
  v : (al.table = .datoms → db.ft r.a = false) → cell env (al, .v) = r.v.toSql.1
  id : al.table = .datoms → db.ft r.a = true → ∀ t, r.v = .string t →
    cell env (al, .v) = .integer (db.ftId t)

theorem HoldsRow.value {db : Tables} {env : Env} {al : Alias} {r : Row} (h : HoldsRow db env al r)
    (hf : al.table = .datoms → db.ft r.a = false) : HoldsValue env al r.v := ⟨h.v hf, h.tag⟩

variable {db : Tables} {env : Env} {ρ : Assign}

/-! ### Places -/

theorem at_constrainRef {cc : CC} {p : ENonValue} :
    At db (cc.constrainRef p) env ρ ↔ At db cc env ρ ∧ ∀ x, p = .var x → (ρ x).valueType = .ref := by
  cases p with
  | placeholder => simp [constrainRef]
  | var x => simp only [constrainRef, at_constrainType, ENonValue.var.injEq, forall_eq']
  | entid e => simp [constrainRef]

theorem at_stageRefs {cc : CC} {p : EPattern} :
    At db (cc.stageRefs p) env ρ ↔ At db cc env ρ ∧ (∀ x, p.tx = .var x → (ρ x).valueType = .ref) ∧
      (∀ x, p.e = .var x → (ρ x).valueType = .ref) ∧ ∀ x, p.a = .var x → (ρ x).valueType = .ref := by
  simp only [stageRefs, at_constrainRef, and_assoc]

theorem at_applyRefPlace {cc : CC} {s : Schema} {al : Alias} {c : Col} {p : ENonValue} {n : Int}
    (ha : al.table ≠ .transactions) (hc : c = .e ∨ c = .a ∨ c = .tx) (hn : cell env (al, c) = .integer n)
    (hr : At db cc env ρ → ∀ x, p = .var x → (ρ x).valueType = .ref) :
    At db (cc.applyRefPlace s al c p) env ρ ↔ At db cc env ρ ∧ p.Matches ρ n := by
  cases p with
  | placeholder => simp [applyRefPlace, ENonValue.Matches]
  | var x =>
    simp only [applyRefPlace, ENonValue.Matches]
    refine at_bindColumn_ref ?_ ?_ hn (fun h => hr h x rfl)
    · rcases hc with rfl | rfl | rfl <;> unfold entityColumn <;> cases hA : al.table <;> simp_all
    · rcases hc with rfl | rfl | rfl <;> rfl
  | entid e => simp only [applyRefPlace, at_addWhere, ENonValue.Matches, evalC_eqEntid hn]

theorem Matches.ref {p : ENonValue} {n : Int} (h : p.Matches ρ n) :
    ∀ x, p = .var x → (ρ x).valueType = .ref := by
  rintro x rfl
  have : ρ x = .ref n := h
  rw [this]; rfl

theorem at_stageA {cc : CC} {s : Schema} {p : EPattern} {al : Alias} {r : Row}
    (ha : al.table ≠ .transactions) (hr : HoldsRow db env al r) :
    At db (cc.stageA s p al) env ρ ↔ At db cc env ρ ∧ (∀ x, p.tx = .var x → (ρ x).valueType = .ref) ∧
      p.e.Matches ρ r.e ∧ p.a.Matches ρ r.a := by
  unfold stageA
  have h1 := at_applyRefPlace (ρ := ρ) (db := db) (cc := cc.stageRefs p) (s := s) (p := p.e) ha (.inl rfl) hr.e
    (fun h => (at_stageRefs.mp h).2.2.1)
  rw [at_applyRefPlace ha (.inr (.inl rfl)) hr.a
    (fun h => (at_stageRefs.mp (h1.mp h).1).2.2.2), h1, at_stageRefs]
  constructor
  · rintro ⟨⟨⟨h, ht, -, -⟩, he⟩, hA⟩; exact ⟨h, ht, he, hA⟩
  · rintro ⟨h, ht, he, hA⟩; exact ⟨⟨⟨h, ht, Matches.ref he, Matches.ref hA⟩, he⟩, hA⟩

/-! Nothing is ever taken back. -/

theorem at_constrainConst_mono {cc : CC} {q : QA} {v : TypedValue}
    (h : At db (cc.constrainConst q v) env ρ) : At db cc env ρ := by
  cases v <;> simp only [constrainConst, at_addWhere] at h <;> exact h.1

theorem at_bindColumn_mono {cc : CC} {s : Schema} {q : QA} {x : Var}
    (h : At db (cc.bindColumn s q x) env ρ) : At db cc env ρ := by
  cases hv : AMap.get cc.vals x with
  | none => exact ((at_bindColumn_push hv).mp h).1
  | some v =>
    unfold bindColumn at h
    simp only [hv] at h
    split at h
    · cases v with
      | keyword k =>
        simp only at h
        cases hk : AMap.get s.identMap k with
        | none => rw [hk] at h; exact absurd h (at_markEmpty _)
        | some e => rw [hk] at h; exact (at_addWhere.mp h).1
      | ref e => exact (at_addWhere.mp h).1
      | _ => exact absurd h (at_markEmpty _)
    · exact at_constrainConst_mono h

theorem at_applyValuePlace_mono {cc : CC} {s : Schema} {al : Alias} {t : Option ValueType} {p : EValue}
    (h : At db (cc.applyValuePlace s al t p).1 env ρ) : At db cc env ρ := by
  cases p with
  | placeholder => exact h
  | var x =>
    simp only [applyValuePlace] at h
    cases t with
    | none =>
      simp only [Option.isSome_none, Bool.false_and, Bool.false_eq_true, if_false] at h
      exact at_bindColumn_mono h
    | some t =>
      simp only at h
      split at h
      · exact (at_constrainType.mp h).1
      · exact (at_constrainType.mp (at_bindColumn_mono h)).1
  | entid i =>
    simp only [applyValuePlace] at h
    split at h <;> first | exact (at_addWhere.mp h).1 | exact absurd h (at_markEmpty _)
  | entidOrInteger i =>
    simp only [applyValuePlace] at h
    split at h <;> exact (at_addWhere.mp h).1
  | identOrKeyword k =>
    simp only [applyValuePlace] at h
    split at h
    · cases hk : AMap.get s.identMap k with
      | none => rw [hk] at h; exact absurd h (at_markEmpty _)
      | some e => rw [hk] at h; exact (at_addWhere.mp h).1
    · exact (at_addWhere.mp (at_addWhere.mp h).1).1
  | value v =>
    simp only [applyValuePlace] at h
    split at h
    · simp only at h
      split at h
      · exact at_constrainConst_mono (at_addWhere.mp h).1
      · exact at_constrainConst_mono h
    · exact absurd h (at_markEmpty _)

/-! ### The value place -/

/-- Going on to the transaction place is given up only when the clauses are known to be empty. -/
theorem applyValuePlace_stop {cc : CC} {s : Schema} {al : Alias} {t : Option ValueType} {p : EValue}
    (h : (cc.applyValuePlace s al t p).2 = false) : ¬ At db (cc.applyValuePlace s al t p).1 env ρ := by
  cases p with
  | placeholder => simp [applyValuePlace] at h
  | var x =>
    simp only [applyValuePlace] at h ⊢
    cases t with
    | none => simp at h
    | some t =>
      simp only at h ⊢
      split at h
      · rename_i hc
        rw [if_pos hc]
        simp only [Option.isSome_some, Bool.true_and] at hc
        exact fun h => by have := h.live; rw [hc] at this; simp at this
      · simp at h
  | entid i =>
    simp only [applyValuePlace] at h
    split at h <;> simp at h
  | entidOrInteger i =>
    simp only [applyValuePlace] at h
    split at h <;> simp at h
  | identOrKeyword k =>
    simp only [applyValuePlace] at h ⊢
    split at h
    · cases hk : AMap.get s.identMap k with
      | none => simp only; exact at_markEmpty _
      | some e => rw [hk] at h; simp at h
    · simp at h
  | value v =>
    simp only [applyValuePlace] at h ⊢
    split at h
    · simp at h
    · rename_i hc
      rw [if_neg hc]
      exact at_markEmpty _

/-- The value place of a pattern with a known attribute, the datom being of that attribute. -/
theorem at_value_known {cc : CC} {s : Schema} {al : Alias} {t : ValueType} {p : EValue} {v : TypedValue}
    (hv : v.Proper) (ht : v.valueType = t) (hρ : ρ.Proper)
    (hp : ∀ w, p = .value w → w.Proper)
    (hc : p ≠ .placeholder → (∀ i, p = .entid i → v.valueType = .ref) →
      (∀ w, p = .value w → w.valueType = v.valueType) → HoldsValue env al v)
    (h1 : ∀ i, p ≠ .entidOrInteger i) (h2 : ∀ k, p ≠ .identOrKeyword k) :
    At db (cc.applyValuePlace s al (some t) p).1 env ρ ↔ At db cc env ρ ∧ p.Matches s ρ v := by
  cases p with
  | placeholder => simp [applyValuePlace, EValue.Matches]
  | var x =>
    have hc := hc (by simp) (by simp) (by simp)
    simp only [applyValuePlace, EValue.Matches, Option.isSome_some, Bool.true_and]
    have key : At db ((cc.constrainType x t).bindColumn s (al, .v) x) env ρ ↔ At db cc env ρ ∧ ρ x = v := by
      rw [at_bindColumn_val hv hρ hc (fun h => by rw [(at_constrainType.mp h).2, ht]), at_constrainType]
      constructor
      · rintro ⟨⟨h, -⟩, e⟩; exact ⟨h, e⟩
      · rintro ⟨h, e⟩; exact ⟨⟨h, by rw [e, ht]⟩, e⟩
    split
    · rename_i he
      rw [← key]
      constructor
      · intro h; have := h.live; rw [he] at this; simp at this
      · intro h; have := (at_bindColumn_mono h).live; rw [he] at this; simp at this
    · exact key
  | entid i =>
    simp only [applyValuePlace, EValue.Matches]
    by_cases hr : t = .ref
    · subst hr
      have hc := hc (by simp) (fun _ _ => ht) (by simp)
      have : ∃ n, v = .ref n := by cases v <;> simp [TypedValue.valueType] at ht; exact ⟨_, rfl⟩
      obtain ⟨n, rfl⟩ := this
      simp only [at_addWhere, evalC_eqEntid (q := (al, Col.v)) (n := n) hc.v, TypedValue.ref.injEq]
    · have : ¬ v = .ref i := fun e => hr (by rw [← ht, e]; rfl)
      cases t <;> simp_all [at_markEmpty]
  | entidOrInteger i => exact absurd rfl (h1 i)
  | identOrKeyword k => exact absurd rfl (h2 k)
  | value w =>
    simp only [applyValuePlace, EValue.Matches, Option.all_some, decide_eq_true_eq, Option.isNone_some,
      Bool.false_eq_true, if_false]
    split
    · rename_i hw
      have hc := hc (by simp) (by simp) (by rintro _ ⟨⟩; rw [hw, ht])
      rw [at_constrainConst hc.v hv (hp w rfl) (by rw [hw, ht])]
    · rename_i hw
      refine ⟨fun h => absurd h (at_markEmpty _), ?_⟩
      rintro ⟨-, e⟩
      exact absurd (by rw [e, ht]) hw

theorem evalC_hasUnitType {al : Alias} {n : Nat} {t : ValueType} (h : cell env (al, .tag) = .integer n) :
    evalC db env (hasUnitType al t) = true ↔ n = t.tag := by
  have hl : TypeSet.list (TypeSet.one t) = [t] := by cases t <;> decide
  have h' : Env.get env al .tag = .integer n := h
  simp only [hasUnitType, hasTypes, Bool.false_eq_true, if_false, hl, List.map_cons, List.map_nil, evalC,
    evalAny, Bool.or_false, typeConstraint, evalInfix, SExpr.eval, h', SExpr.integerAffinity,
    SqlValue.numeric, ite_self]
  simp [SqlOp.eval, eq_integer]
  exact Int.ofNat_inj

/-- The value place of a pattern with an unknown attribute: a constant of a type that shares its tag with
no other, as the row shows it. -/
theorem at_value_unknown {cc : CC} {s : Schema} {al : Alias} {w : TypedValue} {r : Row}
    (hr : HoldsRow db env al r) (hv : r.v.Proper) (hw : w.Proper)
    (hf : db.ft r.a = true → r.v.valueType = .string)
    (ht : w.valueType ≠ .ref ∧ w.valueType ≠ .long ∧ w.valueType ≠ .double)
    (hs : w.valueType = .string → al.table ≠ .datoms) :
    At db (cc.applyValuePlace s al none (.value w)).1 env ρ ↔ At db cc env ρ ∧ w = r.v := by
  simp only [applyValuePlace, Option.all_none, if_true, Option.isNone_none, at_addWhere,
    evalC_hasUnitType hr.tag, toSql_tag]
  have key : r.v.valueType.tag = w.valueType.tag → r.v.valueType = w.valueType := by
    have h1 := ht.1; have h2 := ht.2.1; have h3 := ht.2.2
    revert h1 h2 h3
    generalize r.v.valueType = a; generalize w.valueType = b
    cases a <;> cases b <;> simp [ValueType.tag]
  have hvOf : r.v.valueType = w.valueType → cell env (al, .v) = r.v.toSql.1 := by
    intro e
    refine hr.v fun hd => ?_
    cases hfa : db.ft r.a with
    | false => rfl
    | true => exact absurd hd (hs (by rw [← e]; exact hf hfa))
  constructor
  · rintro ⟨h, e⟩
    have e := key e
    exact (at_constrainConst (hvOf e) hv hw e.symm).mp h
  · rintro ⟨h, rfl⟩
    exact ⟨(at_constrainConst (hvOf rfl) hv hw rfl).mpr ⟨h, rfl⟩, rfl⟩

/-! ### A whole pattern -/

/-- The patterns the theorems speak of.  With a known attribute, every value place; with an unknown one
a placeholder, a constant other than a number or a reference, or a variable in `L`, the variables whose
types are not known. -/
structure Plain (L : Var → Prop) (s : Schema) (cc : CC) (p : EPattern) : Prop where
  e : ∀ x, p.e = .var x → ¬ L x
  tx : ∀ x, p.tx = .var x → ¬ L x
  a : ∀ x, p.a = .var x → ¬ L x ∧ AMap.get cc.vals x = none
  known : ∀ a, p.a = .entid a → (∃ at_, s.attr a = some at_) ∧ (∀ x, p.v = .var x → ¬ L x) ∧
    (∀ i, p.v ≠ .entidOrInteger i) ∧ ∀ k, p.v ≠ .identOrKeyword k
  unknown : (∀ a, p.a ≠ .entid a) → p.v = .placeholder ∨ (∃ x, p.v = .var x ∧ L x) ∨
    ∃ w, p.v = .value w ∧ w.valueType ≠ .ref ∧ w.valueType ≠ .long ∧ w.valueType ≠ .double
  proper : ∀ w, p.v = .value w → w.Proper

/-- A variable not met yet. -/
structure Unmet (cc : CC) (x : Var) : Prop where
  vals : AMap.get cc.vals x = none
  known : AMap.get cc.known x = none
  cols : AMap.get cc.colb x = none
  tags : AMap.get cc.extracted x = none
  inputs : x ∉ cc.inputs

theorem Unmet.needsTag {cc : CC} {x : Var} (h : Unmet cc x) : cc.needsTag x = true := by
  simp [CC.needsTag, knownType, h.known, h.tags, h.inputs]

theorem Unmet.constrainType {cc : CC} {x y : Var} (h : Unmet cc x) (hy : y ≠ x) (t : ValueType) :
    Unmet (cc.constrainType y t) x := by
  have : ∀ m : CC, m = { cc with known := AMap.insert cc.known y (TypeSet.one t) } → Unmet m x := by
    rintro _ rfl
    exact ⟨h.vals, by simp [AMap.get_insert, hy, h.known], h.cols, h.tags, h.inputs⟩
  have h0 := this _ rfl
  unfold CC.constrainType
  cases AMap.get cc.known y with
  | none => exact h0
  | some s =>
    simp only
    split
    · exact h0
    · exact ⟨h0.vals, h0.known, h0.cols, h0.tags, h0.inputs⟩

theorem Unmet.bindColumn {cc : CC} {x y : Var} (h : Unmet cc x) (hy : y ≠ x) (s : Schema) (q : QA) :
    Unmet (cc.bindColumn s q y) x := by
  unfold CC.bindColumn
  cases AMap.get cc.vals y with
  | some v =>
    simp only
    split
    · cases v with
      | keyword k =>
        simp only
        cases AMap.get s.identMap k <;> exact ⟨h.vals, h.known, h.cols, h.tags, h.inputs⟩
      | _ => exact ⟨h.vals, h.known, h.cols, h.tags, h.inputs⟩
    · cases v <;> exact ⟨h.vals, h.known, h.cols, h.tags, h.inputs⟩
  | none =>
    simp only
    split
    · exact ⟨h.vals, h.known, by simp [pushColumn, AMap.get_insert, hy, h.cols],
        by simp [pushColumn, AMap.get_insert, hy, h.tags], h.inputs⟩
    · exact ⟨h.vals, h.known, by simp [pushColumn, AMap.get_insert, hy, h.cols], h.tags, h.inputs⟩

theorem Unmet.constrainRef {cc : CC} {x : Var} (h : Unmet cc x) {p : ENonValue} (hp : p ≠ .var x) :
    Unmet (cc.constrainRef p) x := by
  cases p with
  | var y => exact h.constrainType (fun e => hp (by rw [e])) _
  | _ => exact h

theorem Unmet.applyRefPlace {cc : CC} {x : Var} (h : Unmet cc x) {p : ENonValue} (hp : p ≠ .var x)
    (s : Schema) (al : Alias) (c : Col) : Unmet (cc.applyRefPlace s al c p) x := by
  cases p with
  | placeholder => exact h
  | var y => exact h.bindColumn (fun e => hp (by rw [e])) _ _
  | entid e => exact ⟨h.vals, h.known, h.cols, h.tags, h.inputs⟩

theorem Unmet.stageA {cc : CC} {x : Var} (h : Unmet cc x) {p : EPattern} (h1 : p.e ≠ .var x)
    (h2 : p.a ≠ .var x) (h3 : p.tx ≠ .var x) (s : Schema) (al : Alias) : Unmet (cc.stageA s p al) x :=
  ((((h.constrainRef h3).constrainRef h1).constrainRef h2).applyRefPlace h1 s al .e).applyRefPlace h2 s al .a

section
variable {s : Schema} {L : Var → Prop} {cc : CC} {p : EPattern} {al : Alias} {r : Row}

theorem valueTypeOf_known {a : Entid} {at_ : Attribute} (h : p.a = .entid a) (ha : s.attr a = some at_) :
    cc.valueTypeOf s p = some at_.valueType := by simp [valueTypeOf, h, ha]

theorem valueTypeOf_unknown (hp : Plain L s cc p) (h : ∀ a, p.a ≠ .entid a) {cc' : CC}
    (hv : cc'.vals = cc.vals) : cc'.valueTypeOf s p = none := by
  unfold valueTypeOf
  cases ha : p.a with
  | placeholder => simp
  | entid e => exact absurd ha (h e)
  | var x => simp [hv, (hp.a x ha).2]

/-- The table chosen for a known attribute. -/
theorem tableFor_known {a : Entid} {at_ : Attribute} (h : p.a = .entid a) (ha : s.attr a = some at_) :
    cc.tableFor s p.a p.v = tableForAttribute at_ p.v := by simp [tableFor, h, ha]

theorem tableFor_unknown (hp : Plain L s cc p) (h : ∀ a, p.a ≠ .entid a) :
    cc.tableFor s p.a p.v = some (cc.tableForUnknown p.v) := by
  unfold tableFor
  cases ha : p.a with
  | placeholder => simp
  | entid e => exact absurd ha (h e)
  | var x => simp [(hp.a x ha).2]

/-- The value is shown as such by the table for a known attribute, if it is looked at. -/
theorem shown_known (hd : DbOk s db) {a : Entid} {at_ : Attribute} (ha : s.attr a = some at_)
    {t : DTable} {v : EValue} (ht : tableForAttribute at_ v = some t) (hv : v ≠ .placeholder) :
    t = .datoms → db.ft a = false := by
  rintro rfl
  rw [hd.ft a at_ ha]
  unfold tableForAttribute at ht
  cases hf : at_.fulltext with
  | false => rfl
  | true =>
    rw [hf] at ht
    simp only [if_true] at ht
    split at ht <;> simp_all

theorem tableForUnknown_ne (v : EValue) : cc.tableForUnknown v ≠ .transactions := by
  unfold tableForUnknown
  split
  · split <;> simp
  · simp
  · simp

theorem tableFor_plain (hp : Plain L s cc p) {t : DTable} (ht : cc.tableFor s p.a p.v = some t) :
    t = .datoms ∨ t = .fulltextDatoms ∨ t = .allDatoms := by
  by_cases h : ∃ a, p.a = .entid a
  · obtain ⟨a, ha⟩ := h
    obtain ⟨⟨at_, hat⟩, -⟩ := hp.known a ha
    rw [tableFor_known ha hat] at ht
    unfold tableForAttribute at ht
    split at ht
    · split at ht <;> simp_all
      all_goals (rcases ht with rfl; simp)
    · cases ht; simp
  · rw [tableFor_unknown hp (fun a ha => h ⟨a, ha⟩)] at ht
    cases ht
    unfold tableForUnknown
    split
    · split <;> simp
    · simp
    · simp

/-- Applying a pattern to an alias that stands for a datom: the datom matches. -/
theorem at_applyForAlias (hd : DbOk s db) (hp : Plain L s cc p) (hl : ∀ x, p.v = .var x → L x → Unmet cc x)
    (ht : cc.tableFor s p.a p.v = some al.table) (hr : r ∈ db.rows) (hrow : HoldsRow db env al r)
    (hρ : ρ.Proper) :
    At db (cc.applyForAlias s p al) env ρ ↔ At db cc env ρ ∧ p.Matches s ρ r := by
  have hal : al.table ≠ .transactions := by
    rcases tableFor_plain hp ht with h | h | h <;> rw [h] <;> simp
  have hbad : badAttr s p.a = false := by
    cases ha : p.a with
    | entid a =>
      obtain ⟨⟨at_, hat⟩, -⟩ := hp.known a ha
      simp [badAttr, hat]
    | _ => rfl
  rw [applyForAlias_eq, hbad]
  cases he : cc.empty with
  | true =>
    simp only [if_true]
    constructor
    · intro h; have := h.live; rw [he] at this; simp at this
    · rintro ⟨h, -⟩; exact h
  | false =>
  simp only [Bool.false_eq_true, if_false]
  -- the value place
  have hV : At db (cc.stageV s p al).1 env ρ ↔ At db (cc.stageA s p al) env ρ ∧ p.v.Matches s ρ r.v := by
    unfold stageV
    by_cases hk : ∃ a, p.a = .entid a
    · obtain ⟨a, ha⟩ := hk
      obtain ⟨⟨at_, hat⟩, hx, h1, h2⟩ := hp.known a ha
      rw [valueTypeOf_known ha hat]
      by_cases hra : r.a = a
      · refine at_value_known (hd.proper r hr) (hd.attr hr hat hra) hρ hp.proper ?_ h1 h2
        intro hne _ _
        rw [tableFor_known ha hat] at ht
        exact hrow.value (by rw [hra]; exact shown_known hd hat ht hne)
      · have no : ¬ At db (cc.stageA s p al) env ρ := by
          intro h
          have := ((at_stageA hal hrow).mp h).2.2.2
          rw [ha] at this
          exact hra this
        exact ⟨fun h => absurd (at_applyValuePlace_mono h) no, fun h => absurd h.1 no⟩
    · have hk : ∀ a, p.a ≠ .entid a := fun a ha => hk ⟨a, ha⟩
      rw [valueTypeOf_unknown hp hk (grow_stageA cc s p al).vals]
      rw [tableFor_unknown hp hk] at ht
      rcases hp.unknown hk with hv | ⟨x, hv, hx⟩ | ⟨w, hv, hw⟩
      · rw [hv]; simp [applyValuePlace, EValue.Matches]
      · have hu := hl x hv hx
        have hu' := hu.stageA (p := p) (fun e => hp.e x e hx) (fun e => (hp.a x e).1 hx)
          (fun e => hp.tx x e hx) s al
        rw [hv]
        simp only [applyValuePlace, Option.isSome_none, Bool.false_and, Bool.false_eq_true, if_false,
          EValue.Matches]
        by_cases hdt : al.table = .datoms → db.ft r.a = false
        · exact at_bindColumn_new (hd.proper r hr) hρ (hrow.value hdt) hu'.needsTag hu'.vals
        · have hdt : al.table = .datoms ∧ db.ft r.a = true := by
            refine ⟨Classical.byContradiction fun h => hdt fun e => absurd e h, ?_⟩
            cases hf : db.ft r.a with
            | true => rfl
            | false => exact absurd (fun _ => rfl) (hf ▸ hdt)
          obtain ⟨t, hst⟩ := hd.ft_string hr hdt.2
          -- the variable is required not to be a string
          have hreq : ∃ ts, AMap.get cc.required x = some ts ∧ ts .string = false := by
            rw [hdt.1, hv] at ht
            simp only [tableForUnknown, hu.known, Option.all_none, Bool.and_true, Option.some.injEq] at ht
            cases hg : AMap.get cc.required x with
            | none => simp [hg] at ht
            | some ts =>
              refine ⟨ts, rfl, ?_⟩
              cases hs : ts .string with
              | false => rfl
              | true => simp [hg, hs] at ht
          obtain ⟨ts, hg, hs⟩ := hreq
          rw [at_bindColumn_push hu'.vals]
          constructor
          · rintro ⟨h, h2, h3⟩
            exfalso
            have h3 := h3 hu'.needsTag (al, .tag) rfl
            rw [hrow.tag, hst] at h3
            rw [hrow.id hdt.1 hdt.2 t hst] at h2
            cases hx : ρ x <;> simp [hx, TypedValue.toSql] at h2 h3
          · rintro ⟨h, h2⟩
            exfalso
            have := h.req x ts (by rw [(grow_stageA cc s p al).required]; exact hg)
            rw [h2, hst, TypedValue.valueType, hs] at this
            simp at this
      · rw [hv]
        refine at_value_unknown hrow (hd.proper r hr) (hp.proper w hv) ?_ hw ?_
        · intro hf
          obtain ⟨t, hst⟩ := hd.ft_string hr hf
          rw [hst]; rfl
        · intro hs
          rw [hv] at ht
          cases w <;> simp [TypedValue.valueType] at hs
          simp only [tableForUnknown, Option.some.injEq] at ht
          rw [← ht]; simp
  have hfin : At db (cc.stageV s p al).1 env ρ ↔ At db cc env ρ ∧
      (∀ x, p.tx = .var x → (ρ x).valueType = .ref) ∧ p.e.Matches ρ r.e ∧ p.a.Matches ρ r.a ∧
      p.v.Matches s ρ r.v := by
    rw [hV, at_stageA hal hrow]
    constructor
    · rintro ⟨⟨a, b, c, d⟩, e⟩; exact ⟨a, b, c, d, e⟩
    · rintro ⟨a, b, c, d, e⟩; exact ⟨⟨a, b, c, d⟩, e⟩
  split
  · rw [at_applyRefPlace hal (.inr (.inr rfl)) hrow.tx (fun h => (hfin.mp h).2.1), hfin]
    constructor
    · rintro ⟨⟨a, b, c, d, e⟩, f⟩; exact ⟨a, c, d, e, f⟩
    · rintro ⟨a, c, d, e, f⟩; exact ⟨⟨a, Matches.ref f, c, d, e⟩, f⟩
  · rename_i hstop
    have no : ¬ At db (cc.stageV s p al).1 env ρ := applyValuePlace_stop (by simpa [stageV] using hstop)
    refine ⟨fun h => absurd h no, ?_⟩
    rintro ⟨a, c, d, e, f⟩
    exact absurd (hfin.mpr ⟨a, Matches.ref f, c, d, e⟩) no

end

/-! ### Rows of tables -/

/-- A datom as a table shows it. -/
def _root_.Mentat.Tables.showRow (db : Tables) (t : DTable) (r : Row) : SRow :=
  if t = .datoms then db.rawRow r else Tables.fullRow r

theorem mem_tableRows {t : DTable} (ht : t = .datoms ∨ t = .fulltextDatoms ∨ t = .allDatoms) {row : SRow} :
    row ∈ db.tableRows t ↔
      ∃ r ∈ db.rows, (t = .fulltextDatoms → db.ft r.a = true) ∧ row = db.showRow t r := by
  rcases ht with rfl | rfl | rfl
  · simp only [Tables.tableRows, List.mem_map, Tables.showRow, if_true]
    constructor
    · rintro ⟨r, hr, rfl⟩; exact ⟨r, hr, by simp, rfl⟩
    · rintro ⟨r, hr, -, rfl⟩; exact ⟨r, hr, rfl⟩
  · simp only [Tables.tableRows, List.mem_map, List.mem_filter, Tables.showRow]
    constructor
    · rintro ⟨r, ⟨hr, hf⟩, rfl⟩; exact ⟨r, hr, fun _ => hf, rfl⟩
    · rintro ⟨r, hr, hf, rfl⟩; exact ⟨r, ⟨hr, hf trivial⟩, rfl⟩
  · simp only [Tables.tableRows, List.mem_append, List.mem_map, List.mem_filter, Tables.showRow]
    constructor
    · rintro (⟨r, ⟨hr, -⟩, rfl⟩ | ⟨r, ⟨hr, -⟩, rfl⟩) <;> exact ⟨r, hr, by simp, rfl⟩
    · rintro ⟨r, hr, -, rfl⟩
      cases hf : db.ft r.a with
      | false => exact .inl ⟨r, ⟨hr, by simp [hf]⟩, rfl⟩
      | true => exact .inr ⟨r, ⟨hr, hf⟩, rfl⟩

theorem holdsRow_show {al : Alias} {r : Row} (h : Env.get env al = db.showRow al.table r) :
    HoldsRow db env al r := by
  unfold Tables.showRow at h
  by_cases hd : al.table = .datoms
  · rw [if_pos hd] at h
    refine ⟨?_, ?_, ?_, ?_, ?_, ?_⟩ <;> simp only [cell, h, Tables.rawRow, sqlRow]
    · intro hf
      unfold Tables.rawValue
      rw [hf hd]
    · intro _ hf t ht
      unfold Tables.rawValue
      rw [hf, ht]
  · rw [if_neg hd] at h
    refine ⟨?_, ?_, ?_, ?_, ?_, ?_⟩ <;> simp only [cell, h, Tables.fullRow, sqlRow]
    · simp
    · intro e; exact absurd e hd

end CC
end Mentat
