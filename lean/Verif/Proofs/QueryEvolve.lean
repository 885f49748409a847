import Verif.Proofs.QueryRun
/-
Evolving a pattern (resolving names, the values of inputs, and literals by the type of the attribute) does
not change which datoms match it; runs of patterns.
-/
namespace Mentat

/-- The attribute place is given: by an entid, a name, or a variable with a value. -/
def NonValue.Given (vals : Var → Option TypedValue) : NonValue → Prop
  | .placeholder => False
  | .var x => (vals x).isSome
  | .entid _ => True
  | .ident _ => True

/-- No variable in the place of an entity, an attribute or a transaction has a keyword for a value. -/
def Pattern.NoKeyword (vals : Var → Option TypedValue) (p : Pattern) : Prop :=
  (∀ x k, p.e = .var x → vals x ≠ some (.keyword k)) ∧
  (∀ x k, p.a = .var x → vals x ≠ some (.keyword k)) ∧
  ∀ x k, p.tx = .var x → vals x ≠ some (.keyword k)

/-- The patterns the theorems speak of, given the values of the inputs.  `L` are the variables whose
types are not known. -/
structure PatOk (L : Var → Prop) (vals : Var → Option TypedValue) (p : Pattern) : Prop where
  e : ∀ x, p.e = .var x → ¬ L x
  a : ∀ x, p.a = .var x → ¬ L x
  tx : ∀ x, p.tx = .var x → ¬ L x
  given : p.a.Given vals → ∀ x, p.v = .var x → ¬ L x
  open' : ¬ p.a.Given vals → p.v = .placeholder ∨
    (∃ x, p.v = .var x ∧ (vals x = none → L x) ∧
      ∀ v, vals x = some v → v.valueType ≠ .ref ∧ v.valueType ≠ .long ∧ v.valueType ≠ .double) ∨
    ∃ c, p.v = .constant c ∧ ∀ d, c ≠ .float d
  noKw : p.NoKeyword vals
  kw : ∀ k, p.v = .identOrKeyword k → (TypedValue.keyword k).Proper
  const : ∀ c v, p.v = .constant c → c.denotes = some v → v.Proper

namespace CC

/-- Evolved places hold no variable that has a value. -/
structure Settled (vals : AMap Var TypedValue) (q : EPattern) : Prop where
  e : ∀ x, q.e = .var x → AMap.get vals x = none
  a : ∀ x, q.a = .var x → AMap.get vals x = none
  v : ∀ x, q.v = .var x → AMap.get vals x = none
  tx : ∀ x, q.tx = .var x → AMap.get vals x = none

theorem toTyped_ok {c : NIC} {v : TypedValue} : NIC.toTyped c = .ok v ↔ c.denotes = some v := by
  cases c <;> simp [NIC.toTyped, NIC.denotes]

/-! ### Places -/

section
variable {cc : CC} {s : Schema} {ρ : Assign}

theorem evolveNonValue_some (hv : ∀ x v, AMap.get cc.vals x = some v → ρ x = v) {p : NonValue}
    (hr : ∀ x k, p = .var x → AMap.get cc.vals x ≠ some (.keyword k)) {q : ENonValue} (h : cc.evolveNonValue s p = some q)
    (e : Entid) : p.Matches s ρ e ↔ q.Matches ρ e := by
  cases p with
  | placeholder => simp only [evolveNonValue, Option.some.injEq] at h; subst h; exact Iff.rfl
  | entid i => simp only [evolveNonValue, Option.some.injEq] at h; subst h; exact Iff.rfl
  | ident k =>
    simp only [evolveNonValue, Option.map_eq_some_iff] at h
    obtain ⟨i, hi, rfl⟩ := h
    simp only [NonValue.Matches, hi, ENonValue.Matches, Option.some.injEq]
    exact eq_comm
  | var x =>
    simp only [evolveNonValue] at h
    cases hg : AMap.get cc.vals x with
    | none => rw [hg] at h; simp only [Option.some.injEq] at h; subst h; exact Iff.rfl
    | some v =>
      have hx := hv x v hg
      rw [hg] at h
      cases v with
      | keyword k => exact absurd hg (hr x k rfl)
      | ref i =>
        simp only [Option.some.injEq] at h
        subst h
        simp only [NonValue.Matches, ENonValue.Matches, hx, TypedValue.ref.injEq]
        exact eq_comm
      | _ => simp at h

theorem evolveNonValue_none (hv : ∀ x v, AMap.get cc.vals x = some v → ρ x = v) {p : NonValue}
    (hr : ∀ x k, p = .var x → AMap.get cc.vals x ≠ some (.keyword k)) (h : cc.evolveNonValue s p = none) (e : Entid) :
    ¬ p.Matches s ρ e := by
  cases p with
  | placeholder => simp [evolveNonValue] at h
  | entid i => simp [evolveNonValue] at h
  | ident k =>
    simp only [evolveNonValue, Option.map_eq_none_iff] at h
    simp [NonValue.Matches, h]
  | var x =>
    simp only [evolveNonValue] at h
    cases hg : AMap.get cc.vals x with
    | none => rw [hg] at h; simp at h
    | some v =>
      rw [hg] at h
      simp only [NonValue.Matches, hv x v hg]
      cases v with
      | keyword k => exact absurd hg (hr x k rfl)
      | ref i => simp at h
      | _ => simp

theorem evolveNonValue_var {p : NonValue} {x : Var} (h : cc.evolveNonValue s p = some (.var x)) :
    p = .var x ∧ AMap.get cc.vals x = none := by
  cases p with
  | placeholder => simp [evolveNonValue] at h
  | entid i => simp [evolveNonValue] at h
  | ident k => simp [evolveNonValue] at h
  | var y =>
    simp only [evolveNonValue] at h
    cases hg : AMap.get cc.vals y with
    | none => rw [hg] at h; simp at h; subst h; exact ⟨rfl, hg⟩
    | some v => rw [hg] at h; cases v <;> simp at h

theorem evolveAttribute_some {p : NonValue} {q : ENonValue} {t : Option ValueType}
    (h : cc.evolveAttribute s p = some (q, t)) : cc.evolveNonValue s p = some q ∧
      ((∃ e at_, q = .entid e ∧ s.attr e = some at_ ∧ t = some at_.valueType) ∨
        (∀ e, q ≠ .entid e) ∧ t = none) := by
  unfold evolveAttribute at h
  cases he : cc.evolveNonValue s p with
  | none => rw [he] at h; simp at h
  | some q' =>
    rw [he] at h
    cases q' with
    | entid e =>
      simp only at h
      cases ha : s.attr e with
      | none => rw [ha] at h; simp at h
      | some at_ =>
        rw [ha] at h
        simp only [Option.some.injEq, Prod.mk.injEq] at h
        obtain ⟨rfl, rfl⟩ := h
        exact ⟨rfl, .inl ⟨e, at_, rfl, ha, rfl⟩⟩
    | placeholder =>
      simp only [Option.some.injEq, Prod.mk.injEq] at h
      obtain ⟨rfl, rfl⟩ := h
      exact ⟨rfl, .inr ⟨by simp, rfl⟩⟩
    | var x =>
      simp only [Option.some.injEq, Prod.mk.injEq] at h
      obtain ⟨rfl, rfl⟩ := h
      exact ⟨rfl, .inr ⟨by simp, rfl⟩⟩

theorem evolveAttribute_none {p : NonValue} (h : cc.evolveAttribute s p = none) :
    cc.evolveNonValue s p = none ∨ ∃ e, cc.evolveNonValue s p = some (.entid e) ∧ s.attr e = none := by
  unfold evolveAttribute at h
  cases he : cc.evolveNonValue s p with
  | none => exact .inl rfl
  | some q' =>
    rw [he] at h
    cases q' with
    | entid e =>
      simp only at h
      cases ha : s.attr e with
      | none => exact .inr ⟨e, rfl, ha⟩
      | some at_ => rw [ha] at h; simp at h
    | placeholder => simp at h
    | var x => simp at h

/-- The given attributes are those that evolve to an entid. -/
theorem evolve_given {p : NonValue} {q : ENonValue} (h : cc.evolveNonValue s p = some q) :
    p.Given (AMap.get cc.vals) ↔ ∃ e, q = .entid e := by
  cases p with
  | placeholder => simp only [evolveNonValue, Option.some.injEq] at h; subst h; simp [NonValue.Given]
  | entid i => simp only [evolveNonValue, Option.some.injEq] at h; subst h; simp [NonValue.Given]
  | ident k =>
    simp only [evolveNonValue, Option.map_eq_some_iff] at h
    obtain ⟨i, -, rfl⟩ := h; simp [NonValue.Given]
  | var x =>
    simp only [evolveNonValue] at h
    simp only [NonValue.Given]
    cases hg : AMap.get cc.vals x with
    | none => rw [hg] at h; simp at h; subst h; simp
    | some v =>
      rw [hg] at h
      cases v with
      | ref e => simp at h; subst h; simp
      | keyword k =>
        simp only [Option.map_eq_some_iff] at h
        obtain ⟨i, -, rfl⟩ := h; simp
      | _ => simp at h

theorem evolveValue_matches (hv : ∀ x v, AMap.get cc.vals x = some v → ρ x = v)
    (hk : ∀ x ts, AMap.get cc.known x = some ts → ts (ρ x).valueType = true)
    {t : Option ValueType} {p : PatValue} {o : Option EValue} (h : cc.evolveValue s t p = .ok o)
    {v : TypedValue} (ht : ∀ u, t = some u → v.valueType = u) :
    p.Matches s ρ v ↔ ∃ q, o = some q ∧ q.Matches s ρ v := by
  cases p with
  | placeholder =>
    simp only [evolveValue, Res.ok.injEq] at h; subst h
    simp [PatValue.Matches, EValue.Matches]
  | var x =>
    simp only [evolveValue] at h
    cases hg : AMap.get cc.vals x with
    | none =>
      rw [hg] at h; simp only [Res.ok.injEq] at h; subst h
      simp [PatValue.Matches, EValue.Matches]
    | some w =>
      rw [hg] at h
      have hx := hv x w hg
      have hc : cc.canConstrain x w.valueType = true := by
        unfold canConstrain
        cases hg' : AMap.get cc.known x with
        | none => rfl
        | some ts => rw [← hx]; exact hk x ts hg'
      simp only [PatValue.Matches, hx]
      cases w <;> simp only [TypedValue.valueType] at hc <;> simp only [hc, TypedValue.valueType, if_true,
        Res.ok.injEq] at h <;> subst h <;> simp [EValue.Matches, eq_comm]
  | entidOrInteger i =>
    simp only [evolveValue] at h
    cases t with
    | none =>
      simp only [Res.ok.injEq] at h; subst h
      simp [PatValue.Matches, EValue.Matches]
    | some u =>
      have := ht u rfl
      cases u <;> simp only [Res.ok.injEq] at h <;> subst h <;>
        cases v <;> simp [TypedValue.valueType] at this <;>
        simp [PatValue.Matches, EValue.Matches, intToDouble, eq_comm]
  | identOrKeyword k =>
    simp only [evolveValue] at h
    cases t with
    | none =>
      simp only [Res.ok.injEq] at h; subst h
      simp [PatValue.Matches, EValue.Matches]
    | some u =>
      have := ht u rfl
      cases u <;> simp only [Res.ok.injEq] at h <;> subst h <;>
        cases v <;> simp [TypedValue.valueType] at this <;>
        simp only [PatValue.Matches, reduceCtorEq, false_or, false_and, or_false, exists_false, and_false, TypedValue.keyword.injEq, TypedValue.ref.injEq, Option.some.injEq, exists_eq_left', EValue.Matches, Option.map_eq_some_iff]
      · cases AMap.get s.identMap k <;> simp [eq_comm]
      · exact eq_comm
  | constant c =>
    simp only [evolveValue] at h
    cases hc : NIC.toTyped c with
    | err e => rw [hc] at h; simp [Res.bind] at h
    | panic => rw [hc] at h; simp [Res.bind] at h
    | ok w =>
      rw [hc] at h
      simp only [Res.bind, Res.ok.injEq] at h
      subst h
      simp [PatValue.Matches, EValue.Matches, toTyped_ok.mp hc]

/-- What a value place evolves to. -/
theorem evolveValue_shape {t : Option ValueType} {p : PatValue} {q : EValue}
    (h : cc.evolveValue s t p = .ok (some q)) :
    (∀ x, q = .var x → p = .var x ∧ AMap.get cc.vals x = none) ∧
    (t ≠ none → (∀ i, q ≠ .entidOrInteger i) ∧ ∀ k, q ≠ .identOrKeyword k) ∧
    (∀ w, q = .value w → (∃ x, p = .var x ∧ AMap.get cc.vals x = some w) ∨
      (∃ c, p = .constant c ∧ c.denotes = some w) ∨
      (∃ k, p = .identOrKeyword k ∧ w = .keyword k) ∨ (∃ i, w = .long i) ∨ ∃ d, w = .double d) ∧
    (p = .placeholder → q = .placeholder) ∧
    (∀ x v, p = .var x → AMap.get cc.vals x = some v → v.valueType ≠ .ref → q = .value v) ∧
    (∀ x, p = .var x → AMap.get cc.vals x = none → q = .var x) ∧
    (∀ c, p = .constant c → ∃ w, q = .value w ∧ c.denotes = some w) := by
  cases p with
  | placeholder =>
    simp only [evolveValue, Res.ok.injEq, Option.some.injEq] at h; subst h; simp
  | var x =>
    simp only [evolveValue] at h
    cases hg : AMap.get cc.vals x with
    | none =>
      rw [hg] at h; simp only [Res.ok.injEq, Option.some.injEq] at h; subst h; simp [hg]
      rintro y v rfl hv; rw [hg] at hv; cases hv
    | some w =>
      rw [hg] at h
      have hlast : ∀ y v, PatValue.var x = .var y → AMap.get cc.vals y = some v → v = w := by
        intro y v hy hv; cases hy; rw [hg] at hv; exact (Option.some.inj hv).symm
      cases w <;> simp only [Res.ok.injEq] at h <;> split at h <;> simp only [Option.some.injEq, reduceCtorEq] at h <;>
        subst h <;> refine ⟨by simp, by simp, by simp [hg], by simp, ?_, ?_, by simp⟩ <;> intro y <;>
        first
          | (intro v hy hv hn; cases hlast y v hy hv; first | rfl | exact absurd rfl hn)
          | (intro hy hv; cases hy; rw [hg] at hv; cases hv)
  | entidOrInteger i =>
    simp only [evolveValue] at h
    cases t with
    | none => simp only [Res.ok.injEq, Option.some.injEq] at h; subst h; simp
    | some u =>
      cases u <;> simp only [Res.ok.injEq, Option.some.injEq, reduceCtorEq] at h <;> subst h <;> simp
  | identOrKeyword k =>
    simp only [evolveValue] at h
    cases t with
    | none => simp only [Res.ok.injEq, Option.some.injEq] at h; subst h; simp
    | some u =>
      cases u with
      | ref =>
        simp only [Res.ok.injEq, Option.map_eq_some_iff] at h
        obtain ⟨e, -, rfl⟩ := h; simp
      | keyword => simp only [Res.ok.injEq, Option.some.injEq] at h; subst h; simp
      | _ => simp at h
  | constant c =>
    simp only [evolveValue] at h
    cases hc : NIC.toTyped c with
    | err e => rw [hc] at h; simp [Res.bind] at h
    | panic => rw [hc] at h; simp [Res.bind] at h
    | ok w =>
      rw [hc] at h
      simp only [Res.bind, Res.ok.injEq, Option.some.injEq] at h
      subst h
      simp [toTyped_ok.mp hc]

end

/-! ### Patterns -/

/-- The assignment gives the variables in the places of entities references. -/
def _root_.Mentat.Pattern.Refs (ρ : Assign) (p : Pattern) : Prop :=
  (∀ x, p.e = .var x → (ρ x).valueType = .ref) ∧ (∀ x, p.a = .var x → (ρ x).valueType = .ref) ∧
    ∀ x, p.tx = .var x → (ρ x).valueType = .ref

theorem _root_.Mentat.Pattern.Matches.refs {s : Schema} {ρ : Assign} {p : Pattern} {r : Row}
    (h : p.Matches s ρ r) : p.Refs ρ := by
  refine ⟨?_, ?_, ?_⟩ <;> intro x hx
  · have := h.1; rw [hx] at this; have : ρ x = .ref r.e := this; rw [this]; rfl
  · have := h.2.1; rw [hx] at this; have : ρ x = .ref r.a := this; rw [this]; rfl
  · have := h.2.2.2; rw [hx] at this; have : ρ x = .ref r.tx := this; rw [this]; rfl

section
variable {cc : CC} {s : Schema} {ρ : Assign} {db : Tables}

/-- Which datoms match does not change; a pattern that evolves to nothing is matched by none. -/
theorem evolvePattern_matches (hd : DbOk s db) (hv : ∀ x v, AMap.get cc.vals x = some v → ρ x = v)
    (hk : ∀ x ts, AMap.get cc.known x = some ts → ts (ρ x).valueType = true) {p : Pattern} (hr : p.NoKeyword (AMap.get cc.vals))
    {o : Option EPattern} (h : cc.evolvePattern s p = .ok o) {r : Row} (hrow : r ∈ db.rows) :
    p.Matches s ρ r ↔ ∃ q, o = some q ∧ q.Matches s ρ r := by
  unfold evolvePattern at h
  cases he : cc.evolveNonValue s p.e with
  | none =>
    rw [he] at h; obtain rfl := Res.ok.inj h
    simp only [reduceCtorEq, false_and, exists_false, iff_false]
    exact fun hm => evolveNonValue_none hv hr.1 he _ hm.1
  | some qe =>
    rw [he] at h
    simp only at h
    cases ha : cc.evolveAttribute s p.a with
    | none =>
      rw [ha] at h; obtain rfl := Res.ok.inj h
      simp only [reduceCtorEq, false_and, exists_false, iff_false]
      intro hm
      rcases evolveAttribute_none ha with h1 | ⟨e, h1, h2⟩
      · exact evolveNonValue_none hv hr.2.1 h1 _ hm.2.1
      · have := (evolveNonValue_some hv hr.2.1 h1 r.a).mp hm.2.1
        have : r.a = e := this
        obtain ⟨at_, hat, -⟩ := hd.typed r hrow
        rw [this, h2] at hat; simp at hat
    | some qt =>
      obtain ⟨qa, t⟩ := qt
      rw [ha] at h
      simp only at h
      obtain ⟨hqa, hcase⟩ := evolveAttribute_some ha
      cases hvv : cc.evolveValue s t p.v with
      | err e => rw [hvv] at h; simp [Res.bind] at h
      | panic => rw [hvv] at h; simp [Res.bind] at h
      | ok ov =>
        rw [hvv] at h
        simp only [Res.bind] at h
        have hA := evolveNonValue_some hv hr.2.1 hqa r.a
        have hE := evolveNonValue_some hv hr.1 he r.e
        -- the type of the value, once the attribute matches
        have hV : p.a.Matches s ρ r.a → (p.v.Matches s ρ r.v ↔ ∃ q, ov = some q ∧ q.Matches s ρ r.v) := by
          intro hma
          refine evolveValue_matches hv hk hvv ?_
          intro u hu
          rcases hcase with ⟨e, at_, h1, h2, h3⟩ | ⟨-, h3⟩
          · rw [h3] at hu; cases hu
            have : qa.Matches ρ r.a := hA.mp hma
            rw [h1] at this
            exact hd.attr hrow h2 this
          · rw [h3] at hu; simp at hu
        cases ov with
        | none =>
          simp only at h; obtain rfl := Res.ok.inj h
          simp only [reduceCtorEq, false_and, exists_false, iff_false] at hV ⊢
          exact fun hm => hV hm.2.1 hm.2.2.1
        | some qv =>
          simp only at h
          cases htx : cc.evolveNonValue s p.tx with
          | none =>
            rw [htx] at h; obtain rfl := Res.ok.inj h
            simp only [reduceCtorEq, false_and, exists_false, iff_false]
            exact fun hm => evolveNonValue_none hv hr.2.2 htx _ hm.2.2.2
          | some qx =>
            rw [htx] at h; obtain rfl := Res.ok.inj h
            have hT := evolveNonValue_some hv hr.2.2 htx r.tx
            simp only [Option.some.injEq, exists_eq_left'] at hV ⊢
            unfold Pattern.Matches EPattern.Matches
            simp only
            constructor
            · rintro ⟨h1, h2, h3, h4⟩
              exact ⟨hE.mp h1, hA.mp h2, (hV h2).mp h3, hT.mp h4⟩
            · rintro ⟨h1, h2, h3, h4⟩
              exact ⟨hE.mpr h1, hA.mpr h2, (hV (hA.mpr h2)).mpr h3, hT.mpr h4⟩

/-- An evolved pattern is one the theorems speak of. -/
theorem evolvePattern_form {L : Var → Prop} (hi : Inv L cc) {p : Pattern} (he0 : ∀ x, p.e = .var x → ¬ L x)
    (ha0 : ∀ x, p.a = .var x → ¬ L x) (htx0 : ∀ x, p.tx = .var x → ¬ L x)
    (hgiven : p.a.Given (AMap.get cc.vals) → ∀ x, p.v = .var x → ¬ L x)
    (hopen : ¬ p.a.Given (AMap.get cc.vals) → p.v = .placeholder ∨
      (∃ x, p.v = .var x ∧ (AMap.get cc.vals x = none → L x) ∧
        ∀ v, AMap.get cc.vals x = some v → v.valueType ≠ .ref ∧ v.valueType ≠ .long ∧ v.valueType ≠ .double) ∨
      ∃ c, p.v = .constant c ∧ ∀ d, c ≠ .float d)
    (hkw : ∀ k, p.v = .identOrKeyword k → (TypedValue.keyword k).Proper)
    (hconst : ∀ c v, p.v = .constant c → c.denotes = some v → v.Proper)
    {q : EPattern} (h : cc.evolvePattern s p = .ok (some q)) :
    Plain L s cc q ∧ Settled cc.vals q ∧ q.named = p.named ∧
      (∀ x, q.e = .var x → p.e = .var x) ∧ (∀ x, q.a = .var x → p.a = .var x) ∧
      (∀ x, q.v = .var x → p.v = .var x) ∧ ∀ x, q.tx = .var x → p.tx = .var x := by
  unfold evolvePattern at h
  cases he : cc.evolveNonValue s p.e with
  | none => rw [he] at h; simp at h
  | some qe =>
    rw [he] at h
    simp only at h
    cases ha : cc.evolveAttribute s p.a with
    | none => rw [ha] at h; simp at h
    | some qt =>
      obtain ⟨qa, t⟩ := qt
      rw [ha] at h
      simp only at h
      obtain ⟨hqa, hcase⟩ := evolveAttribute_some ha
      cases hvv : cc.evolveValue s t p.v with
      | err e => rw [hvv] at h; simp [Res.bind] at h
      | panic => rw [hvv] at h; simp [Res.bind] at h
      | ok ov =>
        rw [hvv] at h
        simp only [Res.bind] at h
        cases ov with
        | none => simp at h
        | some qv =>
          simp only at h
          cases htx : cc.evolveNonValue s p.tx with
          | none => rw [htx] at h; simp at h
          | some qx =>
            rw [htx] at h
            simp only [Res.ok.injEq, Option.some.injEq] at h
            subst h
            obtain ⟨s1, s2, s3, s4, s5, s6, s7⟩ := evolveValue_shape hvv
            have hg := evolve_given hqa
            refine ⟨⟨?_, ?_, ?_, ?_, ?_, ?_⟩, ⟨?_, ?_, ?_, ?_⟩, rfl, ?_, ?_, ?_, ?_⟩
            · rintro x rfl; exact he0 x (evolveNonValue_var he).1
            · rintro x rfl; exact htx0 x (evolveNonValue_var htx).1
            · rintro x rfl; exact ⟨ha0 x (evolveNonValue_var hqa).1, (evolveNonValue_var hqa).2⟩
            · rintro a rfl
              rcases hcase with ⟨e, at_, h1, h2, h3⟩ | ⟨h1, -⟩
              · cases h1
                have := s2 (by rw [h3]; simp)
                exact ⟨⟨at_, h2⟩, fun x hx => hgiven (hg.mpr ⟨_, rfl⟩) x (s1 x hx).1, this.1, this.2⟩
              · exact absurd rfl (h1 a)
            · intro hno
              have hng : ¬ p.a.Given (AMap.get cc.vals) := fun h => by
                obtain ⟨e, he⟩ := hg.mp h; exact hno e he
              rcases hopen hng with h1 | ⟨x, h1, h2, h3⟩ | ⟨c, h1, h2⟩
              · exact .inl (s4 h1)
              · cases hgx : AMap.get cc.vals x with
                | none => exact .inr (.inl ⟨x, s6 x h1 hgx, h2 hgx⟩)
                | some w => exact .inr (.inr ⟨w, s5 x w h1 hgx (h3 w hgx).1, h3 w hgx⟩)
              · obtain ⟨w, hw, hcw⟩ := s7 c h1
                refine .inr (.inr ⟨w, hw, ?_⟩)
                cases c <;> simp [NIC.denotes] at hcw <;> subst hcw <;> simp [TypedValue.valueType] at h2 ⊢
            · intro w hw
              rcases s3 w hw with ⟨x, -, h2⟩ | ⟨c, h1, h2⟩ | ⟨k, h1, rfl⟩ | ⟨i, rfl⟩ | ⟨d, rfl⟩
              · exact hi.valsProper x w h2
              · exact hconst c w h1 h2
              · exact hkw k h1
              · simp [TypedValue.Proper]
              · simp [TypedValue.Proper]
            · rintro x rfl; exact (evolveNonValue_var he).2
            · rintro x rfl; exact (evolveNonValue_var hqa).2
            · rintro x rfl; exact (s1 x rfl).2
            · rintro x rfl; exact (evolveNonValue_var htx).2
            · rintro x rfl; exact (evolveNonValue_var he).1
            · rintro x rfl; exact (evolveNonValue_var hqa).1
            · rintro x rfl; exact (s1 x rfl).1
            · rintro x rfl; exact (evolveNonValue_var htx).1

theorem evolvePattern_plain {L : Var → Prop} (hi : Inv L cc) {p : Pattern} (hp : PatOk L (AMap.get cc.vals) p)
    {q : EPattern} (h : cc.evolvePattern s p = .ok (some q)) :
    Plain L s cc q ∧ Settled cc.vals q ∧ q.named = p.named ∧
      (∀ x, q.e = .var x → p.e = .var x) ∧ (∀ x, q.a = .var x → p.a = .var x) ∧
      (∀ x, q.v = .var x → p.v = .var x) ∧ ∀ x, q.tx = .var x → p.tx = .var x :=
  evolvePattern_form hi hp.e hp.a hp.tx hp.given hp.open' hp.kw hp.const h

theorem reEvolve_settled {q : EPattern} (h : Settled cc.vals q) : cc.reEvolve q = some q := by
  obtain ⟨named, e, a, v, tx⟩ := q
  have h1 := h.e
  have h2 := h.v
  unfold reEvolve
  simp only at h1 h2 ⊢
  cases v with
  | var y =>
    simp only [h2 y rfl]
    cases e with
    | var x => simp only [h1 x rfl]
    | _ => rfl
  | _ =>
    cases e with
    | var x => simp only [h1 x rfl]
    | _ => rfl

end

theorem Plain.of_vals {L : Var → Prop} {s : Schema} {a b : CC} {p : EPattern} (h : Plain L s a p)
    (hv : b.vals = a.vals) : Plain L s b p :=
  ⟨h.e, h.tx, fun x e => by rw [hv]; exact h.a x e, h.known, h.unknown, h.proper⟩

/-- The variables of a list of evolved patterns. -/
def HasAny (qs : List EPattern) (x : Var) : Prop := ∃ q ∈ qs, q.Has x

/-- A run of evolved patterns. -/
theorem step_applyEvolved {F : Env → Prop} {L : Var → Prop} {db : Tables} {k : Known} (hk : k.cache = none)
    (hd : DbOk k.schema db) : ∀ (qs : List EPattern) {cc cc' : CC}, Inv L cc → TypedIn F L db cc →
    (∀ q ∈ qs, Plain L k.schema cc q ∧ Settled cc.vals q) →
    (∀ q ∈ qs, ∀ x, q.v = .var x → L x → Unmet cc x) →
    qs.Pairwise (fun p q => ∀ x, q.v = .var x → L x → p.v ≠ .var x) →
    cc.applyEvolved k qs = .ok cc' →
    StepOk F L db (HasAny qs) cc cc' (fun ρ => ∀ q ∈ qs, ∃ r ∈ db.rows, q.Matches k.schema ρ r)
  | [], cc, cc', hi, ht, _, _, _, h => by
    obtain rfl := Res.ok.inj h
    exact (StepOk.refl hi ht).congr (by simp)
  | q :: qs, cc, cc', hi, ht, hp, hl, hd', h => by
    obtain ⟨hq, hset⟩ := hp q (by simp)
    rw [List.pairwise_cons] at hd'
    simp only [applyEvolved, reEvolve_settled hset] at h
    cases h1 : cc.applyPattern k q with
    | err e => rw [h1] at h; simp [Res.bind] at h
    | panic => rw [h1] at h; simp [Res.bind] at h
    | ok cc1 =>
      rw [h1] at h
      have st := step_applyPattern hk hd hi ht hq (hl q (by simp)) h1
      have hnot : ∀ q' ∈ qs, ∀ x, q'.v = .var x → L x → ¬ q.Has x := by
        rintro q' hq' x hx hL (he | ha | hv | htx)
        · exact hq.e x he hL
        · exact (hq.a x ha).1 hL
        · exact hd'.1 q' hq' x hx hL hv
        · exact hq.tx x htx hL
      have st2 := step_applyEvolved hk hd qs st.inv st.typed
        (fun q' hq' => ⟨(hp q' (by simp [hq'])).1.of_vals st.vals, by rw [st.vals]; exact (hp q' (by simp [hq'])).2⟩)
        (fun q' hq' x hx hL => st.unmet x (hnot q' hq' x hx hL) (hl q' (by simp [hq']) x hx hL)) hd'.2 h
      refine ((st.trans st2).mono ?_).congr ?_
      · rintro x (hx | ⟨q', hq', hx⟩)
        · exact ⟨q, by simp, hx⟩
        · exact ⟨q', by simp [hq'], hx⟩
      · intro _ _ ρ _ _; simp

/-! ### The variables that are bound -/

/-- A variable bound, and of known type, stays so. -/
theorem Pinned.step {F : Env → Prop} {L X : Var → Prop} {db : Tables} {cc cc' : CC} {P : Assign → Prop} {x : Var}
    {t : ValueType} (h : Pinned cc x t) (st : StepOk F L db X cc cc' P) (he : cc'.empty = false) : Pinned cc' x t :=
  ⟨st.ext.bound x h.1, st.keep he x t h.2⟩

theorem pins_applyEvolved {F : Env → Prop} {L : Var → Prop} {db : Tables} {k : Known} (hk : k.cache = none)
    (hd : DbOk k.schema db) : ∀ (qs : List EPattern) {cc cc' : CC}, Inv L cc → TypedIn F L db cc →
    (∀ q ∈ qs, Plain L k.schema cc q ∧ Settled cc.vals q) →
    (∀ q ∈ qs, ∀ x, q.v = .var x → L x → Unmet cc x) →
    qs.Pairwise (fun p q => ∀ x, q.v = .var x → L x → p.v ≠ .var x) →
    cc.applyEvolved k qs = .ok cc' → cc'.empty = false →
    ∀ q ∈ qs, ∀ x t, q.Types k.schema x t → Pinned cc' x t
  | [], cc, cc', _, _, _, _, _, _, _ => by simp
  | q :: qs, cc, cc', hi, ht, hp, hl, hd', h, hem => by
    obtain ⟨hq, hset⟩ := hp q (by simp)
    rw [List.pairwise_cons] at hd'
    simp only [applyEvolved, reEvolve_settled hset] at h
    cases h1 : cc.applyPattern k q with
    | err e => rw [h1] at h; simp [Res.bind] at h
    | panic => rw [h1] at h; simp [Res.bind] at h
    | ok cc1 =>
      rw [h1] at h
      have st := step_applyPattern hk hd hi ht hq (hl q (by simp)) h1
      have hnot : ∀ q' ∈ qs, ∀ x, q'.v = .var x → L x → ¬ q.Has x := by
        rintro q' hq' x hx hL (he | ha | hv | htx)
        · exact hq.e x he hL
        · exact (hq.a x ha).1 hL
        · exact hd'.1 q' hq' x hx hL hv
        · exact hq.tx x htx hL
      have a1 := fun q' hq' => (⟨(hp q' (List.mem_cons_of_mem _ hq')).1.of_vals st.vals, by
        rw [st.vals]; exact (hp q' (List.mem_cons_of_mem _ hq')).2⟩ : Plain L k.schema cc1 q' ∧ Settled cc1.vals q')
      have a2 := fun q' hq' x hx hL => st.unmet x (hnot q' hq' x hx hL) (hl q' (List.mem_cons_of_mem _ hq') x hx hL)
      have st2 := step_applyEvolved hk hd qs st.inv st.typed a1 a2 hd'.2 h
      intro q' hq' x t htt
      rw [List.mem_cons] at hq'
      rcases hq' with rfl | hq'
      · exact (pins_applyPattern hk hq h1 (st2.empty hem) htt).step st2 hem
      · exact pins_applyEvolved hk hd qs st.inv st.typed a1 a2 hd'.2 h hem q' hq' x t htt

end CC

/-- The attribute place names the attribute. -/
def NonValue.Resolves (s : Schema) (vals : Var → Option TypedValue) (p : NonValue) (a : Entid) : Prop :=
  p = .entid a ∨ (∃ k, p = .ident k ∧ AMap.get s.identMap k = some a) ∨ ∃ x, p = .var x ∧ vals x = some (.ref a)

/-- The variables in the places of entities. -/
def Pattern.RefVar (p : Pattern) (x : Var) : Prop := p.e = .var x ∨ p.a = .var x ∨ p.tx = .var x

/-- The pattern gives the variable the type: it is in a place of entities, or in that of the value of a
given attribute. -/
def Pattern.Types (s : Schema) (vals : Var → Option TypedValue) (p : Pattern) (x : Var) (t : ValueType) : Prop :=
  (p.RefVar x ∧ t = .ref) ∨
    (p.v = .var x ∧ ∃ a at_, p.a.Resolves s vals a ∧ s.attr a = some at_ ∧ t = at_.valueType)

namespace CC

theorem evolveNonValue_open {cc : CC} {s : Schema} {p : NonValue} {q : ENonValue} {x : Var}
    (h : cc.evolveNonValue s p = some q) (hx : AMap.get cc.vals x = none) (hp : p = .var x) : q = .var x := by
  subst hp
  simp only [evolveNonValue, hx, Option.some.injEq] at h
  exact h.symm

theorem evolveNonValue_resolves {cc : CC} {s : Schema} {p : NonValue} {q : ENonValue} {a : Entid}
    (h : cc.evolveNonValue s p = some q) (hp : p.Resolves s (AMap.get cc.vals) a) : q = .entid a := by
  rcases hp with rfl | ⟨k, rfl, hk⟩ | ⟨x, rfl, hx⟩
  · simp only [evolveNonValue, Option.some.injEq] at h; exact h.symm
  · simp only [evolveNonValue, hk, Option.map_some, Option.some.injEq] at h; exact h.symm
  · simp only [evolveNonValue, hx, Option.some.injEq] at h; exact h.symm

/-- What gives a variable its type still does once evolved. -/
theorem evolve_types {cc : CC} {s : Schema} {p : Pattern} {q : EPattern} (h : cc.evolvePattern s p = .ok (some q))
    {x : Var} {t : ValueType} (hx : AMap.get cc.vals x = none) (ht : p.Types s (AMap.get cc.vals) x t) :
    q.Types s x t := by
  unfold evolvePattern at h
  cases he : cc.evolveNonValue s p.e with
  | none => rw [he] at h; simp at h
  | some qe =>
  rw [he] at h
  simp only at h
  cases ha : cc.evolveAttribute s p.a with
  | none => rw [ha] at h; simp at h
  | some qt =>
  obtain ⟨qa, u⟩ := qt
  rw [ha] at h
  simp only at h
  obtain ⟨hqa, -⟩ := evolveAttribute_some ha
  cases hvv : cc.evolveValue s u p.v with
  | err e => rw [hvv] at h; simp [Res.bind] at h
  | panic => rw [hvv] at h; simp [Res.bind] at h
  | ok ov =>
  rw [hvv] at h
  simp only [Res.bind] at h
  cases ov with
  | none => simp at h
  | some qv =>
  simp only at h
  cases htx : cc.evolveNonValue s p.tx with
  | none => rw [htx] at h; simp at h
  | some qtx =>
  rw [htx] at h
  simp only [Res.ok.injEq, Option.some.injEq] at h
  subst h
  rcases ht with ⟨hr | hr | hr, rfl⟩ | ⟨hv, a, at_, hres, hat, rfl⟩
  · exact .inl ⟨.inl (evolveNonValue_open he hx hr), rfl⟩
  · exact .inl ⟨.inr (.inl (evolveNonValue_open hqa hx hr)), rfl⟩
  · exact .inl ⟨.inr (.inr (evolveNonValue_open htx hx hr)), rfl⟩
  · refine .inr ⟨?_, a, at_, evolveNonValue_resolves hqa hres, hat, rfl⟩
    rw [hv] at hvv
    simp only [evolveValue, hx, Res.ok.injEq, Option.some.injEq] at hvv
    exact hvv.symm

end CC
end Mentat
