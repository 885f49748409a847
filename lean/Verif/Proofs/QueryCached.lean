import Verif.Props.Query
/-
Queries of patterns answered with the help of the attribute caches: what a lookup adds to the clauses.
-/
namespace Mentat

/-- What the caches answer about the attributes cached is what is held; no attribute of cardinality many
is cached forward. -/
structure Known.Faithful (k : Known) (rows : List Row) : Prop where
  one : ∀ a at_, k.cachedForward a = true → k.schema.attr a = some at_ → at_.multival = false
  forward : ∀ a at_, k.cachedForward a = true → k.schema.attr a = some at_ → ∀ e v,
    (k.cache.bind fun c => c.getValue k.schema a e) = some v ↔ Has rows e a v
  unique : ∀ a at_, k.cachedReverse a = true → k.schema.attr a = some at_ → at_.unique.isSome = true →
    ∀ e v, (k.cache.bind fun c => c.getEntid a v) = some e ↔ Has rows e a v
  shared : ∀ a at_, k.cachedReverse a = true → k.schema.attr a = some at_ → at_.unique.isSome = false →
    ∀ e v, e ∈ (k.cache.bind fun c => c.getEntids a v).getD [] ↔ Has rows e a v

namespace CC

/-- No variable is of unknown type. -/
abbrev NoVar : Var → Prop := fun _ => False

/-- The clauses are in order. -/
structure CReady (F : Env → Prop) (db : Tables) (cc : CC) : Prop where
  inv : Inv NoVar cc
  typed : TypedIn F NoVar db cc
  cols : ColsKnown NoVar cc
  dry : cc.empty = false → cc.wheres = [] → cc.tables = []

/-- A step that adds the condition `P`; variables may get values. -/
structure CStep (F : Env → Prop) (db : Tables) (cc cc' : CC) (P : Assign → Prop) : Prop where
  ready : CReady F db cc'
  sem : ∀ E, F E → ∀ ρ : Assign, ρ.Proper → (Sem db E cc' ρ ↔ Sem db E cc ρ ∧ P ρ)
  keep : cc'.empty = false → ∀ x t, AMap.get cc.known x = some (TypeSet.one t) →
    AMap.get cc'.known x = some (TypeSet.one t)
  vals : ∀ x v, AMap.get cc.vals x = some v → AMap.get cc'.vals x = some v
  inputs : cc'.inputs = cc.inputs
  empty : cc'.empty = false → cc.empty = false
  panics : cc'.panics = cc.panics
  counter : cc.counter ≤ cc'.counter
  computed : cc'.computed = cc.computed
  wheres : ∃ ws, cc'.wheres = cc.wheres ++ ws
  bound : ∀ x, Bnd cc x → Bnd cc' x

section
variable {F : Env → Prop} {db : Tables} {k : Known} {cc cc' : CC} {P : Assign → Prop}

theorem CStep.refl (h : CReady F db cc) : CStep F db cc cc (fun _ => True) :=
  ⟨h, fun _ _ _ _ => by simp, fun _ _ _ h => h, fun _ _ h => h, rfl, id, rfl, Nat.le_refl _, rfl, ⟨[], by simp⟩, fun _ h => h⟩

theorem CStep.congr {Q : Assign → Prop} (h : CStep F db cc cc' P)
    (hpq : ∀ E, F E → ∀ ρ : Assign, ρ.Proper → Sem db E cc ρ → (P ρ ↔ Q ρ)) : CStep F db cc cc' Q :=
  ⟨h.ready, fun E hE ρ hρ => by
    rw [h.sem E hE ρ hρ]
    exact and_congr_right (hpq E hE ρ hρ), h.keep, h.vals, h.inputs, h.empty, h.panics, h.counter, h.computed, h.wheres, h.bound⟩

theorem CStep.trans {a b c : CC} {P Q : Assign → Prop} (h : CStep F db a b P) (h' : CStep F db b c Q) :
    CStep F db a c (fun ρ => P ρ ∧ Q ρ) :=
  ⟨h'.ready, fun E hE ρ hρ => by rw [h'.sem E hE ρ hρ, h.sem E hE ρ hρ, and_assoc],
    fun he x t hx => h'.keep he x t (h.keep (h'.empty he) x t hx), fun x v hx => h'.vals x v (h.vals x v hx),
    h'.inputs.trans h.inputs, fun e => h.empty (h'.empty e), h'.panics.trans h.panics, Nat.le_trans h.counter h'.counter,
    h'.computed.trans h.computed, by
      obtain ⟨w, hw⟩ := h.wheres
      obtain ⟨w', hw'⟩ := h'.wheres
      exact ⟨w ++ w', by rw [hw', hw, List.append_assoc]⟩, fun x hx => h'.bound x (h.bound x hx)⟩

theorem CStep.con (h : CStep F db cc cc' P) (hc : Con cc) : Con cc' := by
  rcases hc with hc | hc
  · left
    cases he : cc'.empty with
    | true => rfl
    | false => rw [h.empty he] at hc; cases hc
  · right
    obtain ⟨w, hw⟩ := h.wheres
    rw [hw]
    simp [hc]

theorem StepOk.cached {X : Var → Prop} (st : StepOk F NoVar db X cc cc' P) (h : CReady F db cc)
    (hc : cc'.computed = cc.computed) (hd : cc'.empty = false → cc'.wheres = [] → cc'.tables = []) : CStep F db cc cc' P :=
  ⟨⟨st.inv, st.typed, st.cols h.cols, hd⟩, st.sem, st.keep, fun x v hx => by rw [st.vals]; exact hx, st.inputs, st.empty, st.panics,
    st.counter, hc, st.wheres, st.ext.bound⟩

theorem CStep.giveUp (h : CReady F db cc) (hp : ∀ E, F E → ∀ ρ : Assign, ρ.Proper → Sem db E cc ρ → ¬ P ρ) :
    CStep F db cc cc.markEmpty P :=
  (StepOk.giveUp (X := NoVar) h.inv hp).cached h rfl fun e => by simp [CC.markEmpty] at e

/-! ### Giving a variable a value -/

theorem evalC_eqFits {env : Env} {q : QA} {v w : TypedValue} (hq : cell env q = w.toSql.1)
    (ht : w.valueType = v.valueType) (fq : Fits v.valueType q) :
    evalC db env (eqValue q v) = true ↔ w.toSql.1 = v.toSql.1 := by
  have hn : v.valueType = .ref ∨ v.valueType = .boolean → v.toSql.1.numeric = v.toSql.1 := by
    intro ht
    rcases ht with ht | ht <;> cases v <;> simp [TypedValue.valueType] at ht <;> rfl
  have e1 : (SExpr.col q.1 q.2).eval env = w.toSql.1 := hq
  have key : evalC db env (eqValue q v) = SqlOp.eval .eq w.toSql.1 v.toSql.1 := by
    simp only [eqValue, evalC, evalInfix, SExpr.integerAffinity, SExpr.eval]
    rw [show Env.get env q.1 q.2 = w.toSql.1 from hq]
    congr 1
    simpa using fun h => hn (fq h)
  rw [key]
  simp only [SqlOp.eval, toSql_ne_null, or_self, if_false]
  exact sqlEq_same ht

theorem bindValue_frame (cc : CC) (x : Var) (v : TypedValue) :
    (cc.bindValue x v).counter = cc.counter ∧ (cc.bindValue x v).computed = cc.computed ∧
    (∃ ws, (cc.bindValue x v).wheres = cc.wheres ++ ws) ∧ (cc.bindValue x v).colb = cc.colb ∧
    ((∃ q qs, AMap.get cc.colb x = some (q :: qs)) → (cc.bindValue x v).wheres ≠ []) ∧
    (cc.bindValue x v).vals = AMap.insert cc.vals x v := by
  have hg := grow_constrainType cc x v.valueType
  have hcb : (cc.constrainType x v.valueType).colb = cc.colb := by
    unfold CC.constrainType
    repeat' split
    all_goals rfl
  obtain ⟨ws, hws⟩ := hg.wheres
  have h1 := hg.counter
  have h2 := hg.computed
  have h3 := hg.vals
  unfold bindValue
  simp only [hcb]
  generalize cc.constrainType x v.valueType = c1 at *
  cases AMap.get cc.colb x with
  | none =>
    simp only
    cases AMap.get c1.extracted x <;>
      simp [CC.addWhere, h1, h2, h3, hcb, hws]
  | some l =>
    cases l with
    | nil =>
      simp only
      cases AMap.get c1.extracted x <;>
        simp [CC.addWhere, h1, h2, h3, hcb, hws]
    | cons q qs =>
      simp only [CC.addWhere]
      cases AMap.get c1.extracted x <;>
        simp [h1, h2, h3, hcb, hws]

theorem bindValue_bound (cc : CC) (x : Var) (v : TypedValue) {y : Var} (h : Bnd cc y) : Bnd (cc.bindValue x v) y := by
  obtain ⟨-, -, -, h4, -, h6⟩ := bindValue_frame cc x v
  rcases h with ⟨w, h⟩ | ⟨qs, h⟩
  · left
    rw [h6, AMap.get_insert]
    split
    · exact ⟨v, rfl⟩
    · exact ⟨w, h⟩
  · right; rw [h4]; exact ⟨qs, h⟩

theorem step_bindValue (h : CReady F db cc) {x : Var} {v : TypedValue} (hx : AMap.get cc.vals x = none) (hv : v.Proper) :
    CStep F db cc (cc.bindValue x v) (fun ρ => ρ x = v) := by
  have hg := grow_constrainType cc x v.valueType
  have h1 := h.inv.constrainType (x := x) id v.valueType
  have hcol1 := h.cols.constrainType x v.valueType
  have ht1 : TypedIn F NoVar db (cc.constrainType x v.valueType) := fun E hE loc hl =>
    JAt.constrainType (h.typed E hE loc (by rw [← hg.stables]; exact hl)) _
  have hkx : AMap.get (cc.constrainType x v.valueType).known x = some (TypeSet.one v.valueType) := by
    rw [known_constrainType]; simp
  have hat1 := fun env (ρ : Assign) => at_constrainType (db := db) (env := env) (ρ := ρ) (cc := cc) (x := x) (t := v.valueType)
  have hkeep1 := fun (he : (cc.constrainType x v.valueType).empty = false) y u hy =>
    known_constrainType_keep (y := y) (u := u) he hy
  have hdry1 : (cc.constrainType x v.valueType).empty = false → (cc.constrainType x v.valueType).wheres = [] →
      (cc.constrainType x v.valueType).tables = [] := by
    intro he hw
    rw [hg.tables]
    refine h.dry (hg.empty he) ?_
    obtain ⟨ws, hws⟩ := hg.wheres
    rw [hws] at hw
    exact (List.append_eq_nil_iff.mp hw).1
  generalize hc1 : cc.constrainType x v.valueType = c1 at *
  have hvx1 : AMap.get c1.vals x = none := by rw [hg.vals]; exact hx
  have hext : AMap.get c1.extracted x = none := by
    cases he : AMap.get c1.extracted x with
    | none => rfl
    | some q => exact (h1.tags x q he).elim
  -- the clauses with the value compared with the first column
  obtain ⟨c2, hc2, i2, col2, e2, k2, v2, in2, p2, st2, cb2, tb2, dry2, sem2, jat2⟩ : ∃ c2, cc.bindValue x v = { c2 with vals := AMap.insert c2.vals x v } ∧ Inv NoVar c2 ∧ ColsKnown NoVar c2 ∧ c2.empty = c1.empty ∧ c2.known = c1.known ∧ c2.vals = c1.vals ∧
      c2.inputs = c1.inputs ∧ c2.panics = c1.panics ∧ c2.stables = c1.stables ∧ c2.colb = c1.colb ∧ c2.extracted = c1.extracted ∧
      (c2.empty = false → c2.wheres = [] → c2.tables = []) ∧
      (∀ env (ρ : Assign), ρ x = v → (At db c2 env ρ ↔ At db c1 env ρ)) ∧
      (∀ env, JAt NoVar db c1 env → c1.empty = false → evalAll db env c2.wheres = true → evalAll db env c1.wheres = true ∧
        ∀ qs, AMap.get c1.colb x = some qs → ∀ q, qs.head? = some q → cell env q = v.toSql.1) := by
    cases hcb : AMap.get c1.colb x with
    | none =>
      refine ⟨c1, by unfold bindValue; rw [hc1]; simp [hcb, hext], h1, hcol1, rfl, rfl, rfl, rfl, rfl, rfl, rfl, rfl, hdry1, fun _ _ _ => Iff.rfl, fun _ _ _ hw => ⟨hw, by simp⟩⟩
    | some qs =>
      cases qs with
      | nil => exact absurd rfl (h1.colsNe x [] hcb)
      | cons q qs =>
        refine ⟨c1.addWhere (eqValue q v), by unfold bindValue; rw [hc1]; simp [hcb, hext, CC.addWhere], h1.addWhere ?_, hcol1.addWhere _, rfl, rfl, rfl, rfl, rfl, rfl, rfl, rfl, ?_, ?_, ?_⟩
        · rw [refs_eqValue]
          intro al hal
          rw [List.mem_singleton] at hal
          subst hal
          exact h1.fresh.cols x _ hcb q (by simp)
        · intro _ hw; simp [CC.addWhere] at hw
        · intro env ρ hρ
          rw [at_addWhere]
          refine ⟨And.left, fun hat => ⟨hat, ?_⟩⟩
          obtain ⟨t, ht, hfit⟩ := hcol1.known hat.live x _ hcb id
          rw [hkx] at ht
          have ht := one_inj (Option.some.inj ht)
          have hcell := hat.cols x _ hcb q (by simp)
          rw [hρ] at hcell
          exact (evalC_eqFits hcell rfl (ht ▸ hfit q (by simp))).mpr rfl
        · intro env hj he hw
          simp only [CC.addWhere, evalAll_append, evalAll, Bool.and_true, Bool.and_eq_true] at hw
          refine ⟨hw.1, ?_⟩
          intro qs' hqs' q' hq'
          cases hqs'
          simp only [List.head?_cons, Option.some.injEq] at hq'
          subst hq'
          obtain ⟨t, ht, hfit⟩ := hcol1.known he x _ hcb id
          rw [hkx] at ht
          have ht := one_inj (Option.some.inj ht)
          obtain ⟨u, hu, hcells, -⟩ := (hj he hw.1 x _ hcb).typed id
          rw [hkx] at hu
          have hu := one_inj (Option.some.inj hu)
          obtain ⟨w, -, hwt, hcell⟩ := hcells q (by simp)
          rw [hcell]
          exact (evalC_eqFits hcell (by rw [hwt, hu]) (ht ▸ hfit q (by simp))).mp hw.2
  rw [hc2]
  have hmono : ∀ (y : Var) w, AMap.get c2.vals y = some w → AMap.get (AMap.insert c2.vals x v) y = some w := by
    intro y w hy
    rw [AMap.get_insert]
    split
    · rename_i e; subst e; rw [v2, hvx1] at hy; cases hy
    · exact hy
  have hst : ({ c2 with vals := AMap.insert c2.vals x v } : CC).stables = c2.stables := rfl
  have hat : ∀ env (ρ : Assign), At db { c2 with vals := AMap.insert c2.vals x v } env ρ ↔ At db cc env ρ ∧ ρ x = v := by
    intro env ρ
    constructor
    · intro h0
      have hρ : ρ x = v := h0.vals x v (by simp)
      have ha2 : At db c2 env ρ := ⟨h0.live, fun y w hy => h0.vals y w (hmono y w hy), h0.known, h0.req, h0.wh, h0.cols, h0.tags⟩
      exact ⟨((hat1 env ρ).mp ((sem2 env ρ hρ).mp ha2)).1, hρ⟩
    · rintro ⟨h0, hρ⟩
      have ha2 : At db c2 env ρ := (sem2 env ρ hρ).mpr ((hat1 env ρ).mpr ⟨h0, by rw [hρ]⟩)
      refine ⟨ha2.live, fun y w hy => ?_, ha2.known, ha2.req, ha2.wh, ha2.cols, ha2.tags⟩
      replace hy : AMap.get (AMap.insert c2.vals x v) y = some w := hy
      rw [AMap.get_insert] at hy
      split at hy
      · rename_i e; subst e; rw [hρ]; exact Option.some.inj hy
      · exact ha2.vals y w hy
  refine ⟨⟨⟨i2.unit, ?_, ?_, fun y hy => hy.elim, i2.tags, i2.wfCols, i2.wfReq, i2.colsNe,
      ⟨i2.fresh.wh, i2.fresh.cols, i2.fresh.tags⟩, i2.tables, i2.computed, i2.wfKnown⟩, ?_, ⟨col2.known, col2.tagged⟩, dry2⟩,
    ?_, ?_, ?_, by rw [← hg.inputs]; exact in2, fun he => hg.empty (by rw [← e2]; exact he), by rw [← hg.panics]; exact p2,
    by rw [← hc2, (bindValue_frame cc x v).1]; exact Nat.le_refl _, by rw [← hc2]; exact (bindValue_frame cc x v).2.1,
    by rw [← hc2]; exact (bindValue_frame cc x v).2.2.1, fun y hy => by rw [← hc2]; exact bindValue_bound cc x v hy⟩
  · intro he y w hy
    replace hy : AMap.get (AMap.insert c2.vals x v) y = some w := hy
    show AMap.get c2.known y = _
    rw [AMap.get_insert] at hy
    split at hy
    · rename_i e; subst e; cases hy; rw [k2]; exact hkx
    · exact i2.valsKnown he y w hy
  · intro y w hy
    replace hy : AMap.get (AMap.insert c2.vals x v) y = some w := hy
    rw [AMap.get_insert] at hy
    split at hy
    · cases hy; exact hv
    · exact i2.valsProper y w hy
  · intro E hE loc hl he hw y qs hy
    rw [hst, st2] at hl
    have he1 : c1.empty = false := by rw [← e2]; exact he
    have hj := ht1 E hE loc hl
    obtain ⟨hw1, hfirst⟩ := jat2 _ hj he1 hw
    have hy1 : AMap.get c1.colb y = some qs := by rw [← cb2]; exact hy
    obtain ⟨t, ht, hcells, hval⟩ := (hj he1 hw1 y qs hy1).typed id
    refine ⟨fun _ => ⟨t, by show AMap.get c2.known y = _; rw [k2]; exact ht, hcells, ?_⟩, fun hL => hL.elim⟩
    intro w hw' q hq
    replace hw' : AMap.get (AMap.insert c2.vals x v) y = some w := hw'
    rw [AMap.get_insert] at hw'
    split at hw'
    · rename_i e; subst e; cases hw'; exact hfirst qs hy1 q hq
    · exact hval w (by rw [← v2]; exact hw') q hq
  · intro E hE ρ hρ
    unfold Sem
    rw [hst, st2, hg.stables]
    simp only [hat]
    constructor
    · rintro ⟨loc, hl, h, h'⟩; exact ⟨⟨loc, hl, h⟩, h'⟩
    · rintro ⟨⟨loc, hl, h⟩, h'⟩; exact ⟨loc, hl, h, h'⟩
  · intro he y t hy
    show AMap.get c2.known y = _
    rw [k2]
    exact hkeep1 (by rw [← e2]; exact he) y t hy
  · intro y w hy
    exact hmono y w (by rw [v2, hg.vals]; exact hy)

/-! ### A pattern -/

/-- An evolved pattern with an attribute known. -/
structure CPlain (s : Schema) (q : EPattern) : Prop where
  attr : ∃ a at_, q.a = .entid a ∧ s.attr a = some at_
  int : ∀ i, q.v ≠ .entidOrInteger i
  kw : ∀ kw, q.v ≠ .identOrKeyword kw
  proper : ∀ w, q.v = .value w → w.Proper

theorem CPlain.plain {s : Schema} {q : EPattern} (h : CPlain s q) (cc : CC) : Plain NoVar s cc q := by
  obtain ⟨a, at_, ha, hs⟩ := h.attr
  refine ⟨fun _ _ => id, fun _ _ => id, ?_, ?_, ?_, h.proper⟩
  · intro x hx; rw [ha] at hx; cases hx
  · intro b hb
    rw [ha] at hb; cases hb
    exact ⟨⟨at_, hs⟩, fun _ _ => id, h.int, h.kw⟩
  · intro hno; exact absurd ha (hno a)

theorem reEvolve_cplain {s : Schema} {q q' : EPattern} (hi : Inv NoVar cc) (hq : CPlain s q) (h : cc.reEvolve q = some q') :
    CPlain s q' ∧ (∀ x, q'.e = .var x → AMap.get cc.vals x = none) ∧ ∀ x, q'.v = .var x → AMap.get cc.vals x = none := by
  obtain ⟨named, e, a, v, tx⟩ := q
  obtain ⟨h1, h2, h3, h4⟩ := hq
  -- the value place
  obtain ⟨v', hv', g2, g3, g4, g5⟩ : ∃ v', (match v with
      | .var x => match AMap.get cc.vals x with
        | none => v
        | some w => .value w
      | w => w) = v' ∧ (∀ i, v' ≠ .entidOrInteger i) ∧ (∀ kw, v' ≠ .identOrKeyword kw) ∧ (∀ w, v' = .value w → w.Proper) ∧
      ∀ x, v' = .var x → AMap.get cc.vals x = none := by
    cases v with
    | var x =>
      simp only
      cases hg : AMap.get cc.vals x with
      | none => exact ⟨_, rfl, by simp, by simp, by simp, fun y hy => by cases hy; exact hg⟩
      | some w => exact ⟨_, rfl, by simp, by simp, fun y hy => by cases hy; exact hi.valsProper x w hg, by simp⟩
    | _ => exact ⟨_, rfl, h2, h3, h4, by simp⟩
  unfold reEvolve at h
  simp only at h
  have hq' : q'.a = a ∧ q'.v = v' ∧ ∀ x, q'.e = .var x → AMap.get cc.vals x = none := by
    subst hv'
    cases e with
    | var x =>
      simp only at h
      split at h
      · rename_i hg
        obtain rfl := Option.some.inj h
        exact ⟨rfl, rfl, fun y hy => by cases hy; exact hg⟩
      · obtain rfl := Option.some.inj h
        exact ⟨rfl, rfl, by simp⟩
      · cases h
    | _ =>
      obtain rfl := Option.some.inj h
      exact ⟨rfl, rfl, by simp⟩
  obtain ⟨e1, e2, e3⟩ := hq'
  exact ⟨⟨by rw [e1]; exact h1, by rw [e2]; exact g2, by rw [e2]; exact g3, by rw [e2]; exact g4⟩, e3, by rw [e2]; exact g5⟩

/-- The value place with the values known. -/
def reValue (cc : CC) : EValue → EValue
  | .var x => match AMap.get cc.vals x with
    | none => .var x
    | some w => .value w
  | w => w

theorem reEvolve_eq (cc : CC) (q : EPattern) : cc.reEvolve q = match q.e with
    | .var x => match AMap.get cc.vals x with
      | none => some { q with v := cc.reValue q.v }
      | some (.ref e) => some { q with e := .entid e, v := cc.reValue q.v }
      | some _ => none
    | _ => some { q with v := cc.reValue q.v } := by
  obtain ⟨named, e, a, v, tx⟩ := q
  unfold reEvolve
  cases v with
  | var y =>
    simp only [reValue]
    cases AMap.get cc.vals y <;> rfl
  | _ => rfl

theorem reEvolve_matches {s : Schema} {q : EPattern} {ρ : Assign} (hv : ∀ x v, AMap.get cc.vals x = some v → ρ x = v) (r : Row) :
    q.Matches s ρ r ↔ ∃ q', cc.reEvolve q = some q' ∧ q'.Matches s ρ r := by
  have hm : q.v.Matches s ρ r.v ↔ (cc.reValue q.v).Matches s ρ r.v := by
    unfold reValue
    split
    · rename_i x hx
      split
      · rw [hx]
      · rename_i w hg
        simp only [hx, EValue.Matches, hv x w hg]
    · exact Iff.rfl
  rw [reEvolve_eq]
  split
  · rename_i x hx
    split
    · simp only [Option.some.injEq, exists_eq_left', EPattern.Matches, hm]
    · rename_i e hg
      simp only [Option.some.injEq, exists_eq_left', EPattern.Matches, hm, ENonValue.Matches, hx, hv x _ hg, TypedValue.ref.injEq]
      rw [@eq_comm _ e]
    · rename_i w hg hw
      simp only [reduceCtorEq, false_and, exists_false, iff_false, EPattern.Matches, ENonValue.Matches, hx]
      rintro ⟨hx, -⟩
      rw [hv x _ hw] at hx
      exact hg _ hx
  · simp only [Option.some.injEq, exists_eq_left', EPattern.Matches, hm]

theorem wheres_applyForAlias {s : Schema} {q : EPattern} (hq : CPlain s q) (al : Alias)
    (he : (cc.applyForAlias s q al).empty = false) : (cc.applyForAlias s q al).wheres ≠ [] := by
  obtain ⟨a, at_, ha, hs⟩ := hq.attr
  have hA : (cc.stageA s q al).wheres ≠ [] := by
    unfold stageA
    rw [ha]
    simp [applyRefPlace, CC.addWhere]
  have hmono : ∀ {b c : CC}, Grow b c → b.wheres ≠ [] → c.wheres ≠ [] := by
    intro b c hg hb
    obtain ⟨ws, hws⟩ := hg.wheres
    rw [hws]
    simp [hb]
  rw [applyForAlias_eq] at he ⊢
  split
  · rename_i h; rw [if_pos h] at he; rw [he] at h; cases h
  · split
    · rename_i h1 h; rw [if_neg h1, if_pos h] at he; simp [CC.markEmpty] at he
    · split
      · exact hmono (grow_applyRefPlace _ _ _ _ _) (hmono (grow_applyValuePlace _ _ _ _ _) hA)
      · exact hmono (grow_applyValuePlace _ _ _ _ _) hA

/-- Applying a pattern, with the help of the caches or without, adds the condition that a datom matches it. -/
theorem step_cachedPattern (hk : k.Faithful db.rows) (hd : DbOk k.schema db) (h : CReady F db cc) {q : EPattern}
    (hq : CPlain k.schema q) (hqe : ∀ x, q.e = .var x → AMap.get cc.vals x = none)
    (hqv : ∀ x, q.v = .var x → AMap.get cc.vals x = none) (ha : cc.applyPattern k q = .ok cc') :
    CStep F db cc cc' (fun ρ => ∃ r ∈ db.rows, q.Matches k.schema ρ r) := by
  cases hl : cc.cacheLookup k q with
  | none =>
    refine (step_applyPattern_read hl hd h.inv h.typed (hq.plain cc) (fun _ _ hL => hL.elim) ha).cached h ?_ ?_
    · unfold applyPattern at ha
      split at ha
      · cases ha
      rw [hl] at ha
      simp only at ha
      split at ha
      · obtain rfl := Res.ok.inj ha; rfl
      · rename_i t _
        obtain rfl := Res.ok.inj ha
        exact (grow_applyForAlias { cc with counter := cc.counter + 1 } k.schema q ⟨t, cc.counter⟩).computed
    intro he hw
    unfold applyPattern at ha
    split at ha
    · cases ha
    rw [hl] at ha
    simp only at ha
    split at ha
    · obtain rfl := Res.ok.inj ha; simp [CC.markEmpty] at he
    · obtain rfl := Res.ok.inj ha
      exact absurd hw (wheres_applyForAlias hq _ he)
  | some c =>
    unfold applyPattern at ha
    split at ha
    · cases ha
    rw [hl] at ha
    obtain rfl := Res.ok.inj ha
    obtain ⟨a, at_, hqa, hat⟩ := hq.attr
    unfold cacheLookup at hl
    split at hl
    · cases hl
    rename_i htx
    have htx : q.tx = .placeholder := by simpa using htx
    rw [hqa] at hl
    simp only [hat] at hl
    split at hl
    · split at hl
      · rename_i kw _ hv; exact absurd hv (hq.kw _)
      · -- an entity by its value
        rename_i x v hqx hqw
        have hP : ∀ ρ : Assign, (∃ r ∈ db.rows, q.Matches k.schema ρ r) ↔ ∃ e, ρ x = .ref e ∧ Has db.rows e a v := by
          intro ρ
          simp only [EPattern.Matches, hqx, hqa, hqw, htx, ENonValue.Matches, EValue.Matches, Has, and_true]
          constructor
          · rintro ⟨r, hr, h1, h2, h3⟩; exact ⟨r.e, h1, r, hr, rfl, h2, h3.symm⟩
          · rintro ⟨e, h1, r, hr, rfl, h2, h3⟩; exact ⟨r, hr, h1, h2, h3.symm⟩
        split at hl
        · rename_i hrev
          unfold reverseLookup at hl
          simp only [hat] at hl
          split at hl
          · rename_i hu
            have hF := hk.unique a at_ hrev hat hu
            split at hl
            · rename_i hn
              obtain rfl := Option.some.inj hl
              refine CStep.giveUp h ?_
              rintro _ _ ρ _ _ hc
              obtain ⟨e, -, he⟩ := (hP ρ).mp hc
              rw [(hF e v).mpr he] at hn; cases hn
            · rename_i e hn
              obtain rfl := Option.some.inj hl
              refine (step_bindValue h (hqe x hqx) (by simp [TypedValue.Proper])).congr ?_
              intro _ _ ρ _ _
              rw [hP]
              constructor
              · intro hρ; exact ⟨e, hρ, (hF e v).mp hn⟩
              · rintro ⟨e', hρ, he⟩
                have := (hF e' v).mpr he
                rw [hn] at this; cases this; exact hρ
          · rename_i hu
            have hF := hk.shared a at_ hrev hat (by simpa using hu)
            split at hl
            · rename_i hn
              obtain rfl := Option.some.inj hl
              refine CStep.giveUp h ?_
              rintro _ _ ρ _ _ hc
              obtain ⟨e, -, he⟩ := (hP ρ).mp hc
              have := (hF e v).mpr he
              rw [hn] at this; simp at this
            · rename_i e hn
              obtain rfl := Option.some.inj hl
              refine (step_bindValue h (hqe x hqx) (by simp [TypedValue.Proper])).congr ?_
              intro _ _ ρ _ _
              rw [hP]
              constructor
              · intro hρ; exact ⟨e, hρ, (hF e v).mp (by rw [hn]; simp)⟩
              · rintro ⟨e', hρ, he⟩
                have := (hF e' v).mpr he
                rw [hn] at this
                obtain rfl : e' = e := by simpa using this
                exact hρ
            · cases hl
        · cases hl
      · -- a value by its entity
        rename_i e x hqx hqw
        split at hl
        · rename_i hfwd
          have hF := hk.forward a at_ hfwd hat
          have hP : ∀ ρ : Assign, (∃ r ∈ db.rows, q.Matches k.schema ρ r) ↔ Has db.rows e a (ρ x) := by
            intro ρ
            simp only [EPattern.Matches, hqx, hqa, hqw, htx, ENonValue.Matches, EValue.Matches, Has, and_true]
            constructor
            · rintro ⟨r, hr, h1, h2, h3⟩; exact ⟨r, hr, h1, h2, h3.symm⟩
            · rintro ⟨r, hr, h1, h2, h3⟩; exact ⟨r, hr, h1, h2, h3.symm⟩
          split at hl
          · rename_i hn
            obtain rfl := Option.some.inj hl
            refine CStep.giveUp h ?_
            rintro _ _ ρ _ _ hc
            rw [(hF e _).mpr ((hP ρ).mp hc)] at hn; cases hn
          · rename_i v hn
            obtain rfl := Option.some.inj hl
            have hp : v.Proper := by
              obtain ⟨r, hr, -, -, rfl⟩ := (hF e v).mp hn
              exact hd.proper r hr
            refine (step_bindValue h (hqv x hqw) hp).congr ?_
            intro _ _ ρ _ _
            rw [hP]
            constructor
            · rintro hρ; rw [hρ]; exact (hF e v).mp hn
            · intro he
              have := (hF e _).mpr he
              rw [hn] at this; cases this; rfl
        · cases hl
      · cases hl
    · cases hl

/-- A run of evolved patterns. -/
theorem step_cachedEvolved (hk : k.Faithful db.rows) (hd : DbOk k.schema db) : ∀ (qs : List EPattern) {cc cc' : CC},
    CReady F db cc → (∀ q ∈ qs, CPlain k.schema q) → cc.applyEvolved k qs = .ok cc' →
    CStep F db cc cc' (fun ρ => ∀ q ∈ qs, ∃ r ∈ db.rows, q.Matches k.schema ρ r)
  | [], cc, cc', h, _, ha => by
    obtain rfl := Res.ok.inj ha
    exact (CStep.refl h).congr (by simp)
  | q :: qs, cc, cc', h, hq, ha => by
    rw [applyEvolved] at ha
    split at ha
    · rename_i q' hq'
      obtain ⟨c1, h1, ha⟩ := bind_iff.mp ha
      obtain ⟨g1, g2, g3⟩ := reEvolve_cplain h.inv (hq q (by simp)) hq'
      have st := step_cachedPattern hk hd h g1 g2 g3 h1
      refine (st.trans (step_cachedEvolved hk hd qs st.ready (fun q hm => hq q (by simp [hm])) ha)).congr ?_
      rintro E hE ρ hρ ⟨loc, -, hat⟩
      simp only [List.mem_cons, forall_eq_or_imp, reEvolve_matches hat.vals (q := q), hq', Option.some.injEq, exists_eq_left']
    · rename_i hn
      obtain rfl := Res.ok.inj ha
      refine CStep.giveUp h ?_
      rintro E hE ρ hρ ⟨loc, -, hat⟩ hc
      obtain ⟨r, -, hm⟩ := hc q (by simp)
      obtain ⟨q', hq', -⟩ := (reEvolve_matches hat.vals r).mp hm
      rw [hn] at hq'; cases hq'

/-! ### Patterns that leave a condition -/

/-- The attribute is not cached. -/
def _root_.Mentat.Known.Uncached (k : Known) (a : Entid) : Prop := k.cachedForward a = false ∧ k.cachedReverse a = false

/-- A pattern that is read from the store, or whose variables all have columns or values. -/
def ELeaves (k : Known) (cc : CC) (q : EPattern) : Prop :=
  (∀ x, q.e = .var x ∨ q.v = .var x → Bnd cc x) ∨ ∃ a, q.a = .entid a ∧ k.Uncached a

theorem bindValue_con (h : Inv NoVar cc) {x : Var} {v : TypedValue} (hx : AMap.get cc.vals x = none) (hb : Bnd cc x) :
    Con (cc.bindValue x v) := by
  rcases hb with ⟨w, hw⟩ | ⟨qs, hqs⟩
  · rw [hx] at hw; cases hw
  · right
    refine (bindValue_frame cc x v).2.2.2.2.1 ?_
    cases qs with
    | nil => exact absurd rfl (h.colsNe x [] hqs)
    | cons q qs => exact ⟨q, qs, hqs⟩

theorem con_cachedPattern (h : CReady F db cc) {q : EPattern} (hq : CPlain k.schema q)
    (hqe : ∀ x, q.e = .var x → AMap.get cc.vals x = none) (hqv : ∀ x, q.v = .var x → AMap.get cc.vals x = none)
    (hl : ELeaves k cc q) (ha : cc.applyPattern k q = .ok cc') : Con cc' := by
  unfold applyPattern at ha
  split at ha
  · cases ha
  split at ha
  · rename_i c hc
    obtain rfl := Res.ok.inj ha
    obtain ⟨a, at_, hqa, hat⟩ := hq.attr
    unfold cacheLookup at hc
    split at hc
    · cases hc
    rw [hqa] at hc
    simp only [hat] at hc
    split at hc
    · rename_i hcached
      have hbnd : ∀ x, q.e = .var x ∨ q.v = .var x → Bnd cc x := by
        rcases hl with hl | ⟨b, hb, h1, h2⟩
        · exact hl
        · rw [hqa] at hb; cases hb
          rw [h1, h2] at hcached; cases hcached
      split at hc
      · rename_i kw _ hv; exact absurd hv (hq.kw _)
      · rename_i x v hqx hqw
        split at hc
        · unfold reverseLookup at hc
          simp only [hat] at hc
          split at hc
          · split at hc
            · obtain rfl := Option.some.inj hc; exact Con.markEmpty _
            · obtain rfl := Option.some.inj hc; exact bindValue_con h.inv (hqe x hqx) (hbnd x (.inl hqx))
          · split at hc
            · obtain rfl := Option.some.inj hc; exact Con.markEmpty _
            · obtain rfl := Option.some.inj hc; exact bindValue_con h.inv (hqe x hqx) (hbnd x (.inl hqx))
            · cases hc
        · cases hc
      · rename_i e x hqx hqw
        split at hc
        · split at hc
          · obtain rfl := Option.some.inj hc; exact Con.markEmpty _
          · obtain rfl := Option.some.inj hc; exact bindValue_con h.inv (hqv x hqw) (hbnd x (.inr hqw))
        · cases hc
      · cases hc
    · cases hc
  · split at ha
    · obtain rfl := Res.ok.inj ha; exact Con.markEmpty _
    · rename_i t _
      obtain rfl := Res.ok.inj ha
      by_cases he : (({ cc with counter := cc.counter + 1 } : CC).applyForAlias k.schema q ⟨t, cc.counter⟩).empty = true
      · exact .inl he
      · exact .inr (wheres_applyForAlias hq _ (by simpa using he))

theorem reEvolve_leaves {q q' : EPattern} (h : cc.reEvolve q = some q') (hl : ELeaves k cc q) : ELeaves k cc q' := by
  have hv : ∀ x, cc.reValue q.v = .var x → q.v = .var x := by
    intro x hx
    unfold reValue at hx
    split at hx
    · rename_i y hy
      split at hx
      · rw [hy]; exact hx
      · cases hx
    · exact hx
  have key : q'.a = q.a ∧ (∀ x, q'.e = .var x → q.e = .var x) ∧ ∀ x, q'.v = .var x → q.v = .var x := by
    rw [reEvolve_eq] at h
    split at h
    · split at h
      · obtain rfl := Option.some.inj h; exact ⟨rfl, fun _ h => h, hv⟩
      · obtain rfl := Option.some.inj h; exact ⟨rfl, by simp, hv⟩
      · cases h
    · obtain rfl := Option.some.inj h; exact ⟨rfl, fun _ h => h, hv⟩
  obtain ⟨h1, h2, h3⟩ := key
  rcases hl with hl | ⟨a, ha, hu⟩
  · exact .inl fun x hx => hl x (hx.imp (h2 x) (h3 x))
  · exact .inr ⟨a, by rw [h1]; exact ha, hu⟩

theorem ELeaves.mono {q : EPattern} (hl : ELeaves k cc q) (h : ∀ x, Bnd cc x → Bnd cc' x) : ELeaves k cc' q :=
  hl.imp (fun hl x hx => h x (hl x hx)) id

/-- A run of evolved patterns one of which leaves a condition. -/
theorem con_cachedEvolved (hk : k.Faithful db.rows) (hd : DbOk k.schema db) : ∀ (qs : List EPattern) {cc cc' : CC},
    CReady F db cc → (∀ q ∈ qs, CPlain k.schema q) → cc.applyEvolved k qs = .ok cc' → (∃ q ∈ qs, ELeaves k cc q) → Con cc'
  | [], cc, cc', h, _, ha, hc => by simp at hc
  | q :: qs, cc, cc', h, hq, ha, hc => by
    rw [applyEvolved] at ha
    split at ha
    · rename_i q' hq'
      obtain ⟨c1, h1, ha⟩ := bind_iff.mp ha
      obtain ⟨g1, g2, g3⟩ := reEvolve_cplain h.inv (hq q (by simp)) hq'
      have st := step_cachedPattern hk hd h g1 g2 g3 h1
      have st' := step_cachedEvolved hk hd qs st.ready (fun q hm => hq q (by simp [hm])) ha
      obtain ⟨p, hp, hpl⟩ := hc
      rcases List.mem_cons.mp hp with rfl | hp
      · exact st'.con (con_cachedPattern h g1 g2 g3 (reEvolve_leaves hq' hpl) h1)
      · exact con_cachedEvolved hk hd qs st.ready (fun q hm => hq q (by simp [hm])) ha ⟨p, hp, hpl.mono st.bound⟩
    · obtain rfl := Res.ok.inj ha
      exact Con.markEmpty _

/-- The attribute of a pattern is named and not cached. -/
def _root_.Mentat.NonValue.Uncached (k : Known) : NonValue → Prop
  | .entid a => k.Uncached a
  | .ident i => ∀ a, AMap.get k.schema.identMap i = some a → k.Uncached a
  | _ => False

theorem evolvePattern_uncached {p : Pattern} {q : EPattern} (h : cc.evolvePattern k.schema p = .ok (some q))
    (hp : p.a.Uncached k) : ∃ a, q.a = .entid a ∧ k.Uncached a := by
  unfold evolvePattern at h
  split at h
  · cases h
  split at h
  · cases h
  rename_i a t ha
  obtain ⟨ov, -, h⟩ := bind_iff.mp h
  split at h
  · cases h
  split at h
  · cases h
  obtain rfl := Option.some.inj (Res.ok.inj h)
  unfold evolveAttribute at ha
  cases hpa : p.a with
  | entid e =>
    rw [hpa] at ha hp
    simp only [evolveNonValue] at ha
    split at ha
    · cases ha; exact ⟨e, rfl, hp⟩
    · cases ha
  | ident i =>
    rw [hpa] at ha hp
    simp only [evolveNonValue] at ha
    cases hi : AMap.get k.schema.identMap i with
    | none => rw [hi] at ha; cases ha
    | some e =>
      rw [hi] at ha
      simp only [Option.map_some] at ha
      split at ha
      · cases ha; exact ⟨e, rfl, hp e hi⟩
      · cases ha
  | _ => rw [hpa] at hp; exact hp.elim

/-- The variables are among those that are unified, or the attribute is not cached. -/
def _root_.Mentat.Pattern.Leaves (k : Known) (U : List Var) (p : Pattern) : Prop :=
  (∀ x ∈ p.vars, x ∈ U) ∨ p.a.Uncached k

/-- The patterns spoken of: the attribute is given, by a name, an entid or an input. -/
structure CPatOk (vals : Var → Option TypedValue) (p : Pattern) : Prop where
  given : p.a.Given vals
  kw : ∀ k, p.v = .identOrKeyword k → (TypedValue.keyword k).Proper
  const : ∀ c v, p.v = .constant c → c.denotes = some v → v.Proper

mutual
/-- The clauses spoken of.  A `not` has a pattern that is read, or whose variables are bound outside. -/
def CClause (k : Known) (vals : Var → Option TypedValue) : WhereClause → Prop
  | .pattern p => CPatOk vals p
  | .typeAnno _ _ => True
  | .pred _ _ => True
  | .not unify cs => CClauses k (only (unified unify cs) vals) cs ∧ ∃ p, .pattern p ∈ cs ∧ p.Leaves k (unified unify cs)
  | _ => False
def CClauses (k : Known) (vals : Var → Option TypedValue) : List WhereClause → Prop
  | [] => True
  | c :: cs => CClause k vals c ∧ CClauses k vals cs
end

theorem cclauses_iff {vals : Var → Option TypedValue} {cs : List WhereClause} : CClauses k vals cs ↔ ∀ c ∈ cs, CClause k vals c := by
  induction cs with
  | nil => simp [CClauses]
  | cons c cs ih => simp [CClauses, ih]

theorem given_mono {vals vals' : Var → Option TypedValue} (h : ∀ x v, vals x = some v → vals' x = some v) {p : NonValue}
    (hp : p.Given vals) : p.Given vals' := by
  cases p with
  | var x =>
    obtain ⟨v, hv⟩ := Option.isSome_iff_exists.mp hp
    exact Option.isSome_iff_exists.mpr ⟨v, h x v hv⟩
  | placeholder => exact hp
  | _ => trivial

theorem refs_noKeyword {p : Pattern} {ρ : Assign} (hr : p.Refs ρ) {vals : Var → Option TypedValue}
    (hv : ∀ x v, vals x = some v → ρ x = v) : p.NoKeyword vals := by
  have key : ∀ x kw, vals x = some (.keyword kw) → (ρ x).valueType ≠ .ref := by
    intro x kw hx e
    rw [hv x _ hx] at e; cases e
  obtain ⟨h1, h2, h3⟩ := hr
  exact ⟨fun x kw hx hk => key x kw hk (h1 x hx), fun x kw hx hk => key x kw hk (h2 x hx), fun x kw hx hk => key x kw hk (h3 x hx)⟩

/-- A comparison. -/
theorem step_cachedPred {s : Schema} {facts : Facts} (h : CReady F db cc) {op : Ineq} {args : List FnArg}
    (ha : cc.applyInequality s op args = .ok cc') :
    CStep F db cc cc' (fun ρ => Sat s facts ρ (.pred (some op) args)) := by
  refine (step_applyInequality h.inv h.typed h.cols (fun _ _ => id) ha).cached h (applyInequality_mono ha).computed ?_
  intro he hw
  unfold applyInequality at ha
  split at ha
  · obtain ⟨pl, -, ha⟩ := bind_iff.mp ha
    simp only at ha
    split at ha
    · cases ha
    obtain ⟨pr, -, ha⟩ := bind_iff.mp ha
    split at ha
    · cases ha
    generalize (if (pl.inter op.supported) .long then (pl.inter op.supported).union (TypeSet.one .double)
      else pl.inter op.supported) = lt at ha
    generalize (if (pr.inter op.supported) .long then (pr.inter op.supported).union (TypeSet.one .double)
      else pr.inter op.supported) = rt at ha
    split at ha
    · obtain rfl := Res.ok.inj ha; simp [CC.markEmpty] at he
    obtain ⟨p, -, ha⟩ := bind_iff.mp ha
    obtain ⟨q, -, ha⟩ := bind_iff.mp ha
    obtain rfl := Res.ok.inj ha
    simp [CC.addWhere] at hw
  · cases ha

/-- The first pass. -/
theorem step_cachedFirst {cs : List WhereClause} (h : CReady F db cc) (ha : cc.firstPass cs = .ok cc') :
    CStep F db cc cc' (Marks cs) := by
  refine (step_firstPass cs h.inv h.typed (fun _ _ _ _ => id) ha).cached h (firstPass_mono cs ha).computed ?_
  have key : ∀ (cs : List WhereClause) {a b : CC}, a.firstPass cs = .ok b → b.tables = a.tables ∧ b.wheres = a.wheres ∧
      (b.empty = false → a.empty = false) := by
    intro cs
    induction cs with
    | nil => intro a b hab; obtain rfl := Res.ok.inj hab; exact ⟨rfl, rfl, id⟩
    | cons c cs ih =>
      intro a b hab
      have hm : ∀ (a : CC) (p : NonValue), (a.markRef p).tables = a.tables ∧ (a.markRef p).wheres = a.wheres ∧
          ((a.markRef p).empty = false → a.empty = false) := by
        intro a p
        cases p with
        | var x =>
          have := grow_constrainType a x .ref
          refine ⟨this.tables, ?_, this.empty⟩
          simp only [markRef, CC.constrainType]
          repeat' split
          all_goals rfl
        | _ => exact ⟨rfl, rfl, id⟩
      cases c with
      | typeAnno x t =>
        simp only [firstPass] at hab
        cases t with
        | none => simp [applyTypeAnno, Res.bind] at hab
        | some t =>
          obtain ⟨e, r, he, hb, -, -⟩ := addRequirement_same a x (TypeSet.one t)
          obtain ⟨i1, i2, i3⟩ := ih (a := a.addRequirement x (TypeSet.one t)) hab
          rw [he] at i1 i2 i3
          exact ⟨i1, i2, fun hh => hb (i3 hh)⟩
      | pattern p =>
        simp only [firstPass] at hab
        obtain ⟨i1, i2, i3⟩ := ih hab
        obtain ⟨j1, j2, j3⟩ := hm a p.e
        obtain ⟨k1, k2, k3⟩ := hm (a.markRef p.e) p.a
        obtain ⟨l1, l2, l3⟩ := hm ((a.markRef p.e).markRef p.a) p.tx
        exact ⟨i1.trans (l1.trans (k1.trans j1)), i2.trans (l2.trans (k2.trans j2)), fun hh => j3 (k3 (l3 (i3 hh)))⟩
      | _ => exact ih (by simpa only [firstPass] using hab)
  obtain ⟨h1, h2, h3⟩ := key cs ha
  intro he hw
  rw [h1]
  exact h.dry (h3 he) (by rw [← h2]; exact hw)

/-- Conditions added, and the counter of aliases moved on. -/
theorem cstep_conditions (h : CReady F db cc) {n : Nat} (hn : cc.counter ≤ n) {ws : List Constraint}
    (hw : ∀ c ∈ ws, ∀ al ∈ c.refs, Old n al)
    (hp : ∀ E, F E → ∀ loc ∈ evalFrom db E cc.stables, ∀ ρ : Assign, ρ.Proper → At db cc (loc ++ E) ρ →
      (evalAll db (loc ++ E) ws = true ↔ P ρ)) :
    CStep F db cc { cc with counter := n, wheres := cc.wheres ++ ws } P := by
  have hst : ({ cc with counter := n, wheres := cc.wheres ++ ws } : CC).stables = cc.stables := rfl
  have hat : ∀ env (ρ : Assign), At db { cc with counter := n, wheres := cc.wheres ++ ws } env ρ ↔
      At db cc env ρ ∧ evalAll db env ws = true := by
    intro env ρ
    constructor
    · intro h
      have := h.wh
      simp only [evalAll_append, Bool.and_eq_true] at this
      exact ⟨⟨h.live, h.vals, h.known, h.req, this.1, h.cols, h.tags⟩, this.2⟩
    · rintro ⟨h, hc⟩
      exact ⟨h.live, h.vals, h.known, h.req, by simp [evalAll_append, h.wh, hc], h.cols, h.tags⟩
  have hi := h.inv
  have ht := h.typed
  refine ⟨⟨⟨hi.unit, hi.valsKnown, hi.valsProper, hi.loose, hi.tags, hi.wfCols, hi.wfReq, hi.colsNe, ?_, ?_, hi.computed, hi.wfKnown⟩,
    ?_, ⟨h.cols.known, h.cols.tagged⟩, ?_⟩, ?_, fun _ _ _ h => h, fun _ _ h => h, rfl, id, rfl, hn, rfl, ⟨ws, rfl⟩, fun _ h => h⟩
  · refine ⟨?_, fun x qs hx q hq => (hi.fresh.cols x qs hx q hq).mono hn, fun x q hx => (hi.fresh.tags x q hx).mono hn⟩
    intro c hc al ha
    simp only [List.mem_append] at hc
    rcases hc with hc | hc
    · exact (hi.fresh.wh c hc al ha).mono hn
    · exact hw c hc al ha
  · exact fun al ha => (hi.tables al ha).mono hn
  · intro E hE loc hl he hwh
    simp only [evalAll_append, Bool.and_eq_true] at hwh
    exact fun x qs hx => ⟨(ht E hE loc hl he hwh.1 x qs hx).typed, (ht E hE loc hl he hwh.1 x qs hx).loose⟩
  · intro he hwh
    exact h.dry he (List.append_eq_nil_iff.mp hwh).1
  · intro E hE ρ hρ
    unfold Sem
    rw [hst]
    simp only [hat]
    constructor
    · rintro ⟨loc, hl, h, h'⟩; exact ⟨⟨loc, hl, h⟩, (hp E hE loc hl ρ hρ h).mp h'⟩
    · rintro ⟨⟨loc, hl, h⟩, h'⟩; exact ⟨loc, hl, h, (hp E hE loc hl ρ hρ h).mpr h'⟩

theorem CReady.ready (h : CReady F db cc) : Ready False F NoVar db (AMap.get cc.vals) cc := ⟨rfl, h.inv, h.typed, h.cols, False.elim⟩

theorem tmpl_cready {t : CC} {U : List Var} (h : CReady F db cc) (ht : Tmpl U cc t) : CReady (Outer F db cc) db t := by
  have := tmpl_ready h.ready (U := U) (fun _ _ => id) ht
  exact ⟨this.inv, this.typed, this.cols, fun _ _ => ht.tables⟩

/-- A `not`, given what its clauses do to the template. -/
theorem step_cachedNot (h : CReady F db cc) {unify : UnifyVars} {cs : List WhereClause}
    (hin : ∀ tm t0 t, Tmpl (dedup (unified unify cs)) cc tm → tm.firstPass cs = .ok t0 → applyRun k t0 [] cs = .ok t →
      CStep (Outer F db cc) db tm t (fun ρ => SatAll k.schema db.facts ρ cs) ∧ Con t)
    (ha : applyClause k cc (.not unify cs) = .ok cc') :
    CStep F db cc cc' (fun ρ => Sat k.schema db.facts ρ (.not unify cs)) := by
  rw [applyClause_not] at ha
  split at ha
  · cases ha
  obtain ⟨tm, h1, ha⟩ := bind_iff.mp ha
  obtain ⟨t0, h2, ha⟩ := bind_iff.mp ha
  obtain ⟨t, h3, ha⟩ := bind_iff.mp ha
  have hT := tmpl_of h1
  have hmem : ∀ x, x ∈ dedup (unified unify cs) ↔ x ∈ unified unify cs := fun x => mem_dedup'
  obtain ⟨st, hcon⟩ := hin tm t0 t hT h2 h3
  have hpt : t.panics = false := by rw [st.panics]; exact hT.panics
  have hcnt : cc.counter ≤ t.counter := by rw [← hT.counter]; exact st.counter
  -- what the clauses mean in the environment of a row
  have key : ∀ E, F E → ∀ loc ∈ evalFrom db E cc.stables, ∀ ρ : Assign, ρ.Proper → At db cc (loc ++ E) ρ →
      (Sat k.schema db.facts ρ (.not unify cs) ↔ ¬ ∃ ρ' : Assign, ρ'.Proper ∧ Sem db (loc ++ E) t ρ') := by
    intro E hE loc hl ρ hρ hat
    rw [sat_not hρ]
    refine not_congr (exists_congr fun ρ' => and_congr_right fun hρ' => ?_)
    rw [st.sem (loc ++ E) ⟨E, loc, hE, hl, rfl, hat.live, hat.wh⟩ ρ' hρ', tmpl_sem h.ready (fun _ _ => id) hT hρ hρ' hat]
    simp only [hmem]
  have skip : (∀ E, F E → ∀ loc ∈ evalFrom db E cc.stables, ∀ ρ : Assign, ρ.Proper → At db cc (loc ++ E) ρ →
      ¬ ∃ ρ' : Assign, ρ'.Proper ∧ Sem db (loc ++ E) t ρ') →
      CStep F db cc { cc with counter := t.counter } (fun ρ => Sat k.schema db.facts ρ (.not unify cs)) := by
    intro hno
    have := cstep_conditions (P := fun ρ => Sat k.schema db.facts ρ (.not unify cs)) h hcnt (ws := []) (by simp)
      (fun E hE loc hl ρ hρ hat => by
        rw [key E hE loc hl ρ hρ hat]
        simp only [evalAll, true_iff]
        exact hno E hE loc hl ρ hρ hat)
    simpa using this
  unfold joinNot at ha
  simp only at ha
  split at ha
  · rename_i hte
    obtain rfl := Res.ok.inj ha
    refine skip ?_
    rintro E hE loc hl ρ hρ hat ⟨ρ', -, hs⟩
    rw [sem_live hs] at hte; cases hte
  rename_i hte
  have hte : t.empty = false := by simpa using hte
  obtain ⟨t', h4, ha⟩ := bind_iff.mp ha
  have hrt := st.ready
  obtain ⟨hkept, -⟩ := kept_finish (db := db) hrt.inv h4
  have hfin : ∀ E, F E → ∀ loc ∈ evalFrom db E cc.stables, cc.empty = false → evalAll db (loc ++ E) cc.wheres = true →
      ((∃ ρ' : Assign, ρ'.Proper ∧ Sem db (loc ++ E) t ρ') ↔
        ∃ loc' ∈ evalFrom db (loc ++ E) t'.stables, t'.empty = false ∧ evalAll db (loc' ++ (loc ++ E)) t'.wheres = true) := by
    intro E hE loc hl he hw
    have hF : Outer F db cc (loc ++ E) := ⟨E, loc, hE, hl, rfl, he, hw⟩
    rw [hkept.stables]
    constructor
    · rintro ⟨ρ', hρ', loc', hl', hat'⟩
      exact ⟨loc', hl', (finish_iff hrt.inv hrt.cols h4 (hrt.typed _ hF loc' hl')).mpr ⟨ρ', hρ', hat'⟩⟩
    · rintro ⟨loc', hl', hx⟩
      obtain ⟨ρ', hρ', hat'⟩ := (finish_iff hrt.inv hrt.cols h4 (hrt.typed _ hF loc' hl')).mp hx
      exact ⟨ρ', hρ', loc', hl', hat'⟩
  split at ha
  · rename_i hte'
    obtain rfl := Res.ok.inj ha
    refine skip ?_
    intro E hE loc hl ρ hρ hat
    rw [hfin E hE loc hl hat.live hat.wh]
    rintro ⟨loc', -, he', -⟩
    rw [he'] at hte'; cases hte'
  rename_i hte'
  have hte' : t'.empty = false := by simpa using hte'
  split at ha
  · rename_i hwe
    exfalso
    obtain ⟨ws, hws⟩ := hkept.wheres
    rw [List.isEmpty_iff, hws] at hwe
    rcases hcon with hc | hc
    · rw [hte] at hc; cases hc
    · exact hc (List.append_eq_nil_iff.mp hwe).1
  · simp only [toSelect, hkept.panics, hpt, Bool.false_eq_true, if_false, hte'] at ha
    obtain rfl := Res.ok.inj ha
    have href : ∀ K : Alias → Prop, Within K t → ∀ c ∈ [Constraint.notExists (.mk false [] t'.stables t'.wheres [] none)],
        ∀ al ∈ c.refs, K al := by
      intro K hK c hc al ha
      rw [List.mem_singleton] at hc
      subst hc
      simp only [Constraint.refs, Select.refs, List.flatMap_nil, List.append_nil, List.mem_append, List.mem_filter] at ha
      rcases ha with ha | ⟨ha, -⟩
      · exfalso
        have hcomp : t'.computed = [] := by rw [hkept.computed, st.computed]; exact hT.computed
        have : ∀ l : List Alias, STable.refsAll (l.map fun al => if al.table = .computed then
            (t'.computed[al.n]?).getD (.table al) else .table al) = [] := by
          intro l
          induction l with
          | nil => rfl
          | cons a l ih =>
            have e : (if a.table = .computed then (t'.computed[a.n]?).getD (.table a) else .table a) = STable.table a := by
              rw [hcomp]; split <;> simp
            simp only [List.map_cons, STable.refsAll, ih, List.append_nil, e, STable.refs]
        unfold stables at ha
        rw [this] at ha
        cases ha
      · obtain ⟨c, hc, ha⟩ := mem_refsAll.mp ha
        exact (Within.finish hrt.inv hK h4).wh c hc al ha
    refine cstep_conditions h hcnt (ws := [.notExists (.mk false [] t'.stables t'.wheres [] none)]) (href _ hrt.inv.fresh) ?_
    intro E hE loc hl ρ hρ hat
    rw [key E hE loc hl ρ hρ hat, hfin E hE loc hl hat.live hat.wh]
    simp only [evalAll, evalC, Bool.and_true, evalSelect_ne, hte', true_and]

/-- Something leaves a condition. -/
def Leaving (k : Known) (cc : CC) (pending : List EPattern) (cs : List WhereClause) : Prop :=
  Con cc ∨ (∃ q ∈ pending, ELeaves k cc q) ∨ ∃ p, .pattern p ∈ cs ∧ ((∀ x ∈ p.vars, Bnd cc x) ∨ p.a.Uncached k)

/-- The second pass. -/
theorem step_cachedRun (hk : k.Faithful db.rows) (hd : DbOk k.schema db) :
    ∀ (cs : List WhereClause) (F : Env → Prop) (vals : Var → Option TypedValue) (pending : List EPattern) {cc cc' : CC}, CReady F db cc →
    (∀ x v, vals x = some v → AMap.get cc.vals x = some v) → (∀ c ∈ cs, CClause k vals c) →
    (∀ E, F E → ∀ ρ : Assign, ρ.Proper → Sem db E cc ρ → ∀ p, .pattern p ∈ cs → p.Refs ρ) →
    (∀ q ∈ pending, CPlain k.schema q) → applyRun k cc pending cs = .ok cc' →
    CStep F db cc cc' (fun ρ => (∀ q ∈ pending, ∃ r ∈ db.rows, q.Matches k.schema ρ r) ∧ Rest k.schema db.facts ρ cs) ∧
      (Leaving k cc pending cs → Con cc')
  | [], F, vals, pending, cc, cc', h, _, _, _, hp, ha => by
    rw [applyRun] at ha
    have st := step_cachedEvolved hk hd pending h hp ha
    refine ⟨st.congr (by simp [Rest]), ?_⟩
    rintro (hc | hc | ⟨p, hp', -⟩)
    · exact st.con hc
    · exact con_cachedEvolved hk hd pending h hp ha hc
    · cases hp'
  | c :: cs, F, vals, pending, cc, cc', h, hv, hc, hr, hp, ha => by
    have hc' : ∀ c ∈ cs, CClause k vals c := fun d hd' => hc d (by simp [hd'])
    have hr' : ∀ E, F E → ∀ ρ : Assign, ρ.Proper → Sem db E cc ρ → ∀ p, .pattern p ∈ cs → p.Refs ρ :=
      fun E hE ρ hρ hs p hp => hr E hE ρ hρ hs p (by simp [hp])
    have h0 := hc c (by simp)
    -- a clause that is not a pattern
    have other : (∀ p, c ≠ .pattern p) → ¬ c.IsAnno → (∀ c1 c2, CReady F db c1 → (∀ x v, vals x = some v → AMap.get c1.vals x = some v) →
        applyClause k c1 c = .ok c2 → CStep F db c1 c2 (fun ρ => Sat k.schema db.facts ρ c)) →
        CStep F db cc cc' (fun ρ => (∀ q ∈ pending, ∃ r ∈ db.rows, q.Matches k.schema ρ r) ∧ Rest k.schema db.facts ρ (c :: cs)) ∧
          (Leaving k cc pending (c :: cs) → Con cc') := by
      intro hnp hna hcl
      rw [applyRun_other hnp hna] at ha
      obtain ⟨c1, h1, ha⟩ := bind_iff.mp ha
      obtain ⟨c2, h2, ha⟩ := bind_iff.mp ha
      have s1 := step_cachedEvolved hk hd pending h hp h1
      have s2 := hcl c1 c2 s1.ready (fun x v hx => s1.vals x v (hv x v hx)) h2
      have s12 := s1.trans s2
      obtain ⟨s3, con3⟩ := step_cachedRun hk hd cs F vals [] s12.ready (fun x v hx => s12.vals x v (hv x v hx)) hc'
        (fun E hE ρ hρ hs => hr' E hE ρ hρ ((s12.sem E hE ρ hρ).mp hs).1) (by simp) ha
      refine ⟨(s12.trans s3).congr ?_, ?_⟩
      · intro E hE ρ hρ _
        simp only [List.not_mem_nil, false_implies, implies_true, true_and, Rest, List.mem_cons, forall_eq_or_imp, hna,
          not_false_eq_true, forall_const, and_assoc]
      · rintro (hc | hc | ⟨p, hp', hl⟩)
        · exact con3 (.inl (s12.con hc))
        · exact con3 (.inl (s2.con (con_cachedEvolved hk hd pending h hp h1 hc)))
        · rcases List.mem_cons.mp hp' with e | hp'
          · exact absurd e.symm (hnp p)
          · exact con3 (.inr (.inr ⟨p, hp', hl.imp (fun hl x hx => s12.bound x (hl x hx)) id⟩))
    cases c with
    | typeAnno x t =>
      rw [applyRun] at ha
      obtain ⟨st, con⟩ := step_cachedRun hk hd cs F vals pending h hv hc' hr' hp ha
      refine ⟨st.congr (by simp [Rest, WhereClause.IsAnno]), ?_⟩
      rintro (hc | hc | ⟨p, hp', hl⟩)
      · exact con (.inl hc)
      · exact con (.inr (.inl hc))
      · simp only [List.mem_cons, reduceCtorEq, false_or] at hp'
        exact con (.inr (.inr ⟨p, hp', hl⟩))
    | pattern p =>
      rw [applyRun, bind_iff] at ha
      obtain ⟨o, ho, ha⟩ := ha
      have hg : p.a.Given (AMap.get cc.vals) := given_mono hv h0.given
      have hsat : ∀ E, F E → ∀ ρ : Assign, ρ.Proper → Sem db E cc ρ → (Sat k.schema db.facts ρ (.pattern p) ↔
          ∃ q, o = some q ∧ ∃ r ∈ db.rows, q.Matches k.schema ρ r) := by
        intro E hE ρ hρ hs
        refine evolve_sat (L := NoVar) hd ⟨fun _ _ => id, fun _ _ => id, fun _ _ => id, fun _ _ _ => id, fun hn => absurd hg hn, ?_,
          h0.kw, h0.const⟩ ho hs
        have hrf := hr E hE ρ hρ hs p (by simp)
        obtain ⟨loc, -, hat⟩ := hs
        exact refs_noKeyword hrf hat.vals
      cases o with
      | none =>
        obtain rfl := Res.ok.inj ha
        refine ⟨CStep.giveUp h ?_, fun _ => Con.markEmpty _⟩
        rintro E hE ρ hρ hs ⟨-, hrest⟩
        obtain ⟨q, hq, -⟩ := (hsat E hE ρ hρ hs).mp (hrest _ (by simp) (by simp [WhereClause.IsAnno]))
        cases hq
      | some q =>
        obtain ⟨hpl, -, -, fe, -, fv, -⟩ := evolvePattern_form (L := NoVar) h.inv (fun _ _ => id) (fun _ _ => id) (fun _ _ => id)
          (fun _ _ _ => id) (fun hn => absurd hg hn) h0.kw h0.const ho
        have hq : CPlain k.schema q := by
          obtain ⟨a, ha⟩ := evolvePattern_given ho hg
          obtain ⟨⟨at_, h1⟩, -, h2, h3⟩ := hpl.known a ha
          exact ⟨⟨a, at_, ha, h1⟩, h2, h3, hpl.proper⟩
        obtain ⟨st, con⟩ := step_cachedRun hk hd cs F vals (pending ++ [q]) h hv hc' hr' (by
          intro q' hq'
          rcases List.mem_append.mp hq' with h | h
          · exact hp q' h
          · rw [List.mem_singleton] at h; subst h; exact hq) ha
        refine ⟨st.congr ?_, ?_⟩
        · intro E hE ρ hρ hs
          have := hsat E hE ρ hρ hs
          simp only [Option.some.injEq, exists_eq_left'] at this
          have hrest : Rest k.schema db.facts ρ (.pattern p :: cs) ↔ Sat k.schema db.facts ρ (.pattern p) ∧
              Rest k.schema db.facts ρ cs := by simp [Rest, WhereClause.IsAnno]
          rw [hrest, this, ← and_assoc]
          refine and_congr_left fun _ => ?_
          simp only [List.mem_append, List.mem_singleton]
          constructor
          · intro h; exact ⟨fun q' hq' => h q' (.inl hq'), h q (.inr rfl)⟩
          · rintro ⟨h1, h2⟩ q' (hq' | rfl)
            · exact h1 q' hq'
            · exact h2
        · rintro (hc | ⟨q', hq', hl⟩ | ⟨p', hp', hl⟩)
          · exact con (.inl hc)
          · exact con (.inr (.inl ⟨q', by simp [hq'], hl⟩))
          · simp only [List.mem_cons, WhereClause.pattern.injEq] at hp'
            rcases hp' with rfl | hp'
            · refine con (.inr (.inl ⟨q, by simp, hl.imp (fun hl x hx => hl x ?_) (evolvePattern_uncached ho)⟩))
              rcases hx with hx | hx
              · simp [Pattern.vars, fe x hx, NonValue.vars]
              · simp [Pattern.vars, fv x hx, PatValue.vars]
            · exact con (.inr (.inr ⟨p', hp', hl⟩))
    | pred op args =>
      refine other (by simp) (by simp [WhereClause.IsAnno]) fun c1 c2 h1 _ h2 => ?_
      cases op with
      | none => simp [applyClause] at h2
      | some op =>
        simp only [applyClause] at h2
        exact step_cachedPred h1 h2
    | not unify ds =>
      refine other (by simp) (by simp [WhereClause.IsAnno]) fun c1 c2 h1 hv1 h2 => ?_
      refine step_cachedNot h1 (fun tm t0 t hT g1 g2 => ?_) h2
      obtain ⟨hds, p, hpm, hpl⟩ := h0
      have s1 := step_cachedFirst (tmpl_cready h1 hT) g1
      have hval : ∀ x v, only (unified unify ds) vals x = some v → AMap.get tm.vals x = some v := by
        intro x v hx
        obtain ⟨hxU, hx⟩ := ite_some hx
        rw [hT.vals]
        unfold only
        rw [if_pos (mem_dedup'.mpr hxU)]
        exact hv1 x v hx
      obtain ⟨s2, con⟩ := step_cachedRun hk hd ds (Outer F db c1) (only (unified unify ds) vals) [] s1.ready
        (fun x v hx => s1.vals x v (hval x v hx)) (cclauses_iff.mp hds)
        (fun E hE ρ hρ hsem => ((s1.sem E hE ρ hρ).mp hsem).2.2) (by simp) g2
      refine ⟨(s1.trans s2).congr ?_, con (.inr (.inr ⟨p, hpm, hpl.imp (fun hpl x hx => s1.bound x ?_) id⟩))⟩
      · intro _ _ ρ _ _
        rw [← marks_rest]
        simp
      · have hxU : x ∈ dedup (unified unify ds) := mem_dedup'.mpr (hpl x hx)
        cases hcv : AMap.get c1.vals x with
        | some v => exact .inl ⟨v, by rw [hT.vals]; simp [only, hxU, hcv]⟩
        | none =>
          obtain ⟨q, r, hq⟩ := hT.bound x hxU hcv
          exact .inr ⟨[q], by rw [hT.colb, if_pos ⟨hxU, hcv⟩, hq]; rfl⟩
    | _ => exact h0.elim
termination_by cs => sizeOf cs

/-- What algebrizing makes of a query when the caches help. -/
theorem algebrized_cached (hk : k.Faithful db.rows) (hd : DbOk k.schema db) {q : FindQuery} {inputs : Inputs}
    (hin : inputs.Ok) (hel : ∀ cc : CC, cc.deriveTypes q.find.elements = cc) (hlim : ∀ x, q.limit ≠ .var x)
    (hs : ∀ c ∈ q.clauses, CClause k (only q.inVars (AMap.get inputs.values)) c)
    (hbound : ∀ x ∈ q.inVars, (AMap.get inputs.values x).isSome) {a : Algebraic}
    (h : algebrizeQuery k q inputs = .ok a) :
    Answering k db NoVar q inputs a ∧ (a.cc.empty = false → a.cc.wheres = [] → a.cc.tables = []) := by
  unfold algebrizeQuery at h
  obtain ⟨q1, hq, h⟩ := bind_iff.mp h
  have hq' : q1 = q := by
    unfold fromParsed at hq
    split at hq
    · cases hq
    · split at hq
      · cases hq
      · cases hl : q.limit with
        | var x => exact absurd hl (hlim x)
        | none => rw [hl] at hq; exact (Res.ok.inj hq).symm
        | fixed n => rw [hl] at hq; exact (Res.ok.inj hq).symm
  rw [hq'] at h
  clear hq' hq
  obtain ⟨a', ha, h⟩ := bind_iff.mp h
  split at h
  · obtain rfl := Res.ok.inj h
    unfold algebrize at ha
    obtain ⟨cc0, h0, ha⟩ := bind_iff.mp ha
    simp only at ha
    rw [hel cc0] at ha
    obtain ⟨cc3, h3, ha⟩ := bind_iff.mp ha
    obtain ⟨cc, hfin, ha⟩ := bind_iff.mp ha
    obtain ⟨od, hod, ha⟩ := bind_iff.mp ha
    obtain ⟨lim, hl, ha⟩ := bind_iff.mp ha
    obtain rfl := Res.ok.inj ha
    obtain ⟨hr0, hp0, hi0, -, hs0⟩ := ready_init (T := True) (L := NoVar) (db := db) h0 hin (fun _ _ => id) (· = [])
    unfold applyClauses at h3
    obtain ⟨cc1, h1, h2⟩ := bind_iff.mp h3
    have h0f : cc0.empty = false ∧ cc0.tables = [] ∧
        ∀ x, AMap.get cc0.known x = if x ∈ q.inVars then (AMap.get inputs.types x).map TypeSet.one else none := by
      unfold withInputs at h0
      obtain ⟨types, g1, h0⟩ := bind_iff.mp h0
      obtain ⟨values, -, h0⟩ := bind_iff.mp h0
      obtain rfl := Res.ok.inj h0
      refine ⟨rfl, rfl, fun x => ?_⟩
      show AMap.get (types.map fun p => (p.1, TypeSet.one p.2) : AMap Var TypeSet) x = _
      rw [get_mapOne, get_keepKeys g1 x]
      split <;> rfl
    have c0 : CReady (· = []) db cc0 := ⟨hr0.inv, hr0.typed, hr0.cols, fun _ _ => h0f.2.1⟩
    have s1 := step_cachedFirst c0 h1
    obtain ⟨s2, -⟩ := step_cachedRun hk hd q.clauses _ (only q.inVars (AMap.get inputs.values)) [] s1.ready
      (fun x v hx => s1.vals x v (by rw [← hr0.vals] at hx; exact hx)) hs
      (fun E hE ρ hρ hsem => ((s1.sem E hE ρ hρ).mp hsem).2.2) (by simp) h2
    have st : CStep (· = []) db cc0 cc3 (fun ρ => SatAll k.schema db.facts ρ q.clauses) := by
      refine (s1.trans s2).congr ?_
      intro _ _ ρ _ _
      rw [← marks_rest]
      simp
    clear s1 s2
    have hr3 := st.ready
    have hpan3 : cc3.panics = false := by rw [st.panics]; exact hp0
    obtain ⟨hkept, hkn, -, -⟩ := kept_finish (db := db) hr3.inv hfin
    have hvals0 : ∀ x, AMap.get cc0.vals x = if x ∈ q.inVars then AMap.get inputs.values x else none :=
      fun x => congrFun hr0.vals x
    have hsem : ∀ ρ : Assign, ρ.Proper → (Sem db [] cc3 ρ ↔ IsAnswer k.schema db.facts q inputs.values ρ) := by
      intro ρ hρ
      rw [st.sem [] rfl ρ hρ, hs0]
      constructor
      · rintro ⟨⟨hv, -⟩, hsat⟩
        refine ⟨hρ, ?_, hsat⟩
        intro x hx
        obtain ⟨v, hv'⟩ := Option.isSome_iff_exists.mp (hbound x hx)
        have := hv x v (by rw [hvals0 x, if_pos hx]; exact hv')
        rw [hv', this]
      · rintro ⟨-, hi, hsat⟩
        have hv : ∀ x v, AMap.get cc0.vals x = some v → ρ x = v := by
          intro x v hx
          rw [hvals0 x] at hx
          split at hx
          · rename_i hm
            rw [hi x hm] at hx; exact Option.some.inj hx
          · cases hx
        refine ⟨⟨hv, ?_⟩, hsat⟩
        intro x ts hx
        by_cases hmem : x ∈ q.inVars
        · have h1 : AMap.get cc0.vals x = some (ρ x) := by rw [hvals0 x, if_pos hmem]; exact hi x hmem
          rw [hr0.inv.valsKnown h0f.1 x _ h1] at hx
          obtain rfl := Option.some.inj hx
          simp [TypeSet.one]
        · rw [h0f.2.2 x, if_neg hmem] at hx
          cases hx
    have hst : cc.stables = cc3.stables := by
      unfold CC.stables
      rw [hkept.tables, hkept.computed]
    have hj : ∀ loc ∈ evalFrom db [] cc3.stables, JAt NoVar db cc3 (loc ++ []) := hr3.typed [] rfl
    have hreads : ∀ env (ρ : Assign), cc.empty = false → At db cc3 env ρ → Reads cc env ρ := by
      intro env ρ he hat
      refine ⟨?_, ?_, ?_, ?_⟩
      · intro x v hx; exact hat.vals x v (by rw [← hkept.vals]; exact hx)
      · intro x q qs hx; exact hat.cols x _ (by rw [← hkept.colb]; exact hx) q (by simp)
      · intro x ts hx
        rcases hkn he x with hk' | ⟨ts', hr, hk'⟩
        · exact hat.known x ts (by rw [← hk']; exact hx)
        · rw [hk'] at hx; obtain rfl := Option.some.inj hx
          exact hat.req x ts' hr
      · intro x q hx; exact hat.tags x q (by rw [← hkept.extracted]; exact hx)
    have hfound : ∀ ρ, IsAnswer k.schema db.facts q inputs.values ρ → cc.empty = false ∧ ∃ loc ∈ evalFrom db [] cc3.stables,
        evalAll db (loc ++ []) cc.wheres = true ∧ At db cc3 (loc ++ []) ρ := by
      intro ρ hρ
      obtain ⟨loc, hl, hat⟩ := (hsem ρ hρ.proper).mpr hρ
      obtain ⟨he, hw⟩ := (finish_iff hr3.inv hr3.cols hfin (hj loc hl)).mpr ⟨ρ, hρ.proper, hat⟩
      exact ⟨he, loc, hl, hw, hat⟩
    refine ⟨⟨rfl, rfl, ?_, hbound, ?_, ?_, ?_, ?_, ?_, ?_⟩, ?_⟩
    · show cc.panics = false
      rw [hkept.panics]; exact hpan3
    · constructor
      · intro hu
        rw [if_pos hu] at hl
        exact (Res.ok.inj hl).symm
      · intro hu
        rw [if_neg (by simp [hu])] at hl
        cases hq : q.limit with
        | var x => exact absurd hq (hlim x)
        | none => rw [hq] at hl; exact (Res.ok.inj hl).symm
        | fixed n => rw [hq] at hl; exact (Res.ok.inj hl).symm
    · constructor
      · intro ho; rw [ho] at hod; obtain rfl := Res.ok.inj hod; exact ⟨rfl, rfl⟩
      · intro o ho
        rw [ho] at hod
        exact hod
    · intro he ρ hρ
      have he : cc.empty = true := he
      have := (hfound ρ hρ).1
      rw [he] at this; cases this
    · intro loc hl he hw
      have hl : loc ∈ evalFrom db [] cc.stables := hl
      rw [hst] at hl
      obtain ⟨ρ, hρ, hat⟩ := (finish_iff hr3.inv hr3.cols hfin (hj loc hl)).mp ⟨he, hw⟩
      exact ⟨ρ, (hsem ρ hρ).mp ⟨loc, hl, hat⟩, hreads _ ρ he hat⟩
    · intro ρ hρ
      obtain ⟨he, loc, hl, hw, hat⟩ := hfound ρ hρ
      exact ⟨loc, by rw [hst]; exact hl, hw, hreads _ ρ he hat⟩
    · intro he x hLx hx
      have he : cc.empty = false := he
      cases hv : AMap.get cc.vals x with
      | some v =>
        refine ⟨v.valueType, fun ρ hρ => ?_⟩
        obtain ⟨he, loc, hl, hw, hat⟩ := hfound ρ hρ
        rw [hat.vals x v (by rw [← hkept.vals]; exact hv)]
      | none =>
        have hx : (AMap.get cc.colb x).isSome := by
          rcases hx with hx | hx
          · have hx : (AMap.get cc.vals x).isSome := hx
            rw [hv] at hx; cases hx
          · exact hx
        obtain ⟨qs, hqs⟩ := Option.isSome_iff_exists.mp hx
        rw [hkept.colb] at hqs
        obtain ⟨t, ht, -⟩ := hr3.cols.known (hkept.empty he) x qs hqs hLx
        refine ⟨t, fun ρ hρ => ?_⟩
        obtain ⟨he, loc, hl, hw, hat⟩ := hfound ρ hρ
        have := hat.known x _ ht
        simpa [TypeSet.one] using this
    · intro he hw
      show cc.tables = []
      rw [hkept.tables]
      obtain ⟨ws, hws⟩ := hkept.wheres
      have hw : cc.wheres = [] := hw
      rw [hws] at hw
      exact hr3.dry (hkept.empty he) (List.append_eq_nil_iff.mp hw).1
  · cases h

end
end CC
end Mentat
