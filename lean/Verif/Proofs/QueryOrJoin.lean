import Verif.Proofs.QueryOr
/-
Joining the arms of an `or` as a computed table: its rows are what the arms are satisfied by.
-/
namespace Mentat
namespace CC

/-! ### The columns of an arm -/

theorem projectedColumn_ok {c : CC} {x : Var} (hb : Bnd c x) (hn : ∀ x qs, AMap.get c.colb x = some qs → qs ≠ []) :
    ∃ r, c.projectedColumn x = .ok r := by
  unfold projectedColumn
  cases hv : AMap.get c.vals x with
  | some v => exact ⟨_, rfl⟩
  | none =>
    rcases hb with ⟨v, h⟩ | ⟨qs, h⟩
    · rw [h] at hv; cases hv
    · cases qs with
      | nil => exact absurd rfl (hn x _ h)
      | cons q r => simp only [h]; exact ⟨_, rfl⟩

theorem armColumns_ok {c : CC} (hn : ∀ x qs, AMap.get c.colb x = some qs → qs ≠ []) :
    ∀ (xs : List Var), (∀ x ∈ xs, Bnd c x) →
    ∃ cols, c.armColumns [] xs = .ok cols ∧ cols.map (·.2) = xs.map Col.var ∧
      ∀ env (ρ : Assign), Reads c env ρ → cols.map (fun q => q.1.eval env) = xs.map fun x => (ρ x).toSql.1
  | [], _ => ⟨[], rfl, rfl, fun _ _ _ => rfl⟩
  | x :: xs, hb => by
    obtain ⟨cols, h1, h2, h3⟩ := armColumns_ok hn xs fun x hx => hb x (List.mem_cons_of_mem _ hx)
    obtain ⟨⟨e, ts⟩, hr⟩ := projectedColumn_ok (hb x (by simp)) hn
    refine ⟨(e, .var x) :: cols, ?_, by simp [h2], fun env ρ hρ => ?_⟩
    · rw [armColumns, hr]
      simp only [List.not_mem_nil, if_false, h1]
      rfl
    · have := (projectedColumn_reads hr hρ).1
      simp only [List.map_cons, h3 env ρ hρ]
      rw [this]

/-- The row of an assignment. -/
def armRow (U : List Var) (ρ : Assign) : List SqlValue := U.map fun x => (ρ x).toSql.1

/-- An assignment an arm is satisfied by. -/
structure ArmSat (cc : CC) (U : List Var) (τ : Var → ValueType) (P : Assign → Prop) (ρ : Assign) : Prop where
  proper : ρ.Proper
  sat : P ρ
  shared : Shared cc U ρ
  types : ∀ x ∈ U, (ρ x).valueType = τ x

section
variable {F : Env → Prop} {L : Var → Prop} {db : Tables} {cc : CC} {U : List Var} {τ : Var → ValueType}

theorem Types.reads {c : CC} (h : Types U τ c.known) {env : Env} {ρ : Assign} (hr : Reads c env ρ) :
    ∀ x ∈ U, (ρ x).valueType = τ x := by
  intro x hx
  have := hr.known x _ (by rw [h.get, if_pos hx])
  simpa [TypeSet.one] using this

theorem armSelect_ok {c : CC} {P : Assign → Prop} (h : Done F db cc U τ c P) :
    ∃ q, c.armSelect U [] = .ok q ∧ q.cols.map (·.2) = U.map Col.var ∧
      ∀ E, F E → ∀ r, r ∈ evalSelect db E q ↔ ∃ ρ, ArmSat cc U τ P ρ ∧ r = armRow U ρ := by
  obtain ⟨cols, h1, h2, h3⟩ := armColumns_ok h.colsNe U h.bound
  refine ⟨.mk false cols c.stables c.wheres [] (if c.empty then some 0 else none), ?_, h2, ?_⟩
  · rw [armSelect, h1]
    show c.toSelect cols false [] none = _
    simp [toSelect, h.panics]
  · intro E hE r
    rw [evalSelect]
    cases he : c.empty with
    | true =>
      simp only [finishRows, if_true, List.take_zero, List.not_mem_nil, false_iff]
      rintro ⟨ρ, hρ, -⟩
      have := (h.found E hE ρ hρ.proper hρ.shared hρ.sat).1
      rw [he] at this; cases this
    | false =>
      simp only [finishRows, Bool.false_eq_true, if_false, List.isEmpty_nil, if_true, List.mem_map, List.mem_filter]
      constructor
      · rintro ⟨loc, ⟨hl, hw⟩, rfl⟩
        obtain ⟨ρ, hρ, hP, hs, hr⟩ := h.reads E hE loc hl he hw
        exact ⟨ρ, ⟨hρ, hP, hs, h.types.reads hr⟩, h3 _ ρ hr⟩
      · rintro ⟨ρ, hρ, rfl⟩
        obtain ⟨-, loc, hl, hw, hr⟩ := h.found E hE ρ hρ.proper hρ.shared hρ.sat
        exact ⟨loc, ⟨hl, hw⟩, h3 _ ρ hr⟩

theorem armSelects_ok : ∀ (ps : List (CC × (Assign → Prop))), (∀ p ∈ ps, Done F db cc U τ p.1 p.2) →
    ∃ qs, armSelects U [] (ps.map Prod.fst) = .ok qs ∧ (∀ q ∈ qs, q.cols.map (·.2) = U.map Col.var) ∧
      qs.length = ps.length ∧
      ∀ E, F E → ∀ r, r ∈ evalArms db E qs ↔ ∃ p ∈ ps, ∃ ρ, ArmSat cc U τ p.2 ρ ∧ r = armRow U ρ
  | [], _ => ⟨[], rfl, by simp, rfl, fun _ _ _ => by simp [evalArms]⟩
  | p :: ps, h => by
    obtain ⟨q, h1, h2, h3⟩ := armSelect_ok (h p (by simp))
    obtain ⟨qs, g1, g2, g3, g4⟩ := armSelects_ok ps fun p hp => h p (List.mem_cons_of_mem _ hp)
    refine ⟨q :: qs, ?_, ?_, by simp [g3], ?_⟩
    · rw [List.map_cons, armSelects, h1]
      show (armSelects U [] (ps.map Prod.fst)).bind _ = _
      rw [g1]; rfl
    · intro q' hq'
      rcases List.mem_cons.mp hq' with rfl | hq'
      · exact h2
      · exact g2 q' hq'
    · intro E hE r
      rw [evalArms, List.mem_append, h3 E hE, g4 E hE]
      simp

theorem armRow_same {ρ ρ' : Assign} (h : ∀ x ∈ U, (ρ x).valueType = (ρ' x).valueType)
    (hs : rowSame (armRow U ρ) (armRow U ρ') = true) : armRow U ρ = armRow U ρ' := by
  unfold rowSame at hs
  rw [Bool.and_eq_true, List.all_eq_true] at hs
  unfold armRow
  apply List.map_congr_left
  intro x hx
  have hz : ((ρ x).toSql.1, (ρ' x).toSql.1) ∈ (armRow U ρ).zip (armRow U ρ') := by
    unfold armRow
    rw [List.zip_map']
    exact List.mem_map.mpr ⟨x, hx, rfl⟩
  have := hs.2 _ hz
  have : (ρ x).toSql.1.eq (ρ' x).toSql.1 = true := by simpa [SqlValue.same, toSql_ne_null] using this
  exact (sqlEq_same (h x hx)).mp this

/-- The rows of a union. -/
theorem mem_union {ps : List (CC × (Assign → Prop))} (hne : ps ≠ []) {qs : List Select}
    (h2 : ∀ q ∈ qs, q.cols.map (·.2) = U.map Col.var) (h3 : qs.length = ps.length) {E : Env} {al : Alias}
    (h4 : ∀ r, r ∈ evalArms db E qs ↔ ∃ p ∈ ps, ∃ ρ, ArmSat cc U τ p.2 ρ ∧ r = armRow U ρ) (row : SRow) :
    row ∈ evalTable db E (.union qs al) ↔
      ∃ p ∈ ps, ∃ ρ, ArmSat cc U τ p.2 ρ ∧ row = namedRow (U.map Col.var) (armRow U ρ) := by
  cases qs with
  | nil => exact absurd (List.length_eq_zero_iff.mp h3.symm) hne
  | cons q qs =>
    rw [evalTable]
    simp only [h2 q (by simp)]
    rw [evalArms] at h4
    generalize hrows : evalSelect db E q ++ evalArms db E qs = rows at h4
    have key : ∀ r, r ∈ (if qs.isEmpty then rows else distinctRows rows) ↔ r ∈ rows := by
      intro r
      split
      · rfl
      · obtain ⟨d1, d2, -⟩ := distinctRows_spec rows
        refine ⟨d1 r, fun hr => ?_⟩
        obtain ⟨s, hs, e⟩ := d2 r hr
        rcases e with rfl | e
        · exact hs
        · obtain ⟨p, hp, ρ, hρ, rfl⟩ := (h4 r).mp hr
          obtain ⟨p', hp', ρ', hρ', rfl⟩ := (h4 s).mp (d1 s hs)
          rw [armRow_same (fun x hx => by rw [hρ.types x hx, hρ'.types x hx]) e]
          exact hs
    rw [List.mem_map]
    constructor
    · rintro ⟨r, hr, rfl⟩
      obtain ⟨p, hp, ρ, hρ, rfl⟩ := (h4 r).mp ((key r).mp hr)
      exact ⟨p, hp, ρ, hρ, rfl⟩
    · rintro ⟨p, hp, ρ, hρ, rfl⟩
      exact ⟨_, (key _).mpr ((h4 _).mpr ⟨p, hp, ρ, hρ, rfl⟩), rfl⟩

theorem namedRow_var (ρ : Assign) : ∀ {U : List Var} {x : Var}, x ∈ U →
    namedRow (U.map Col.var) (armRow U ρ) (.var x) = (ρ x).toSql.1 := by
  intro U
  induction U with
  | nil => intro x hx; cases hx
  | cons y U ih =>
    intro x hx
    unfold namedRow armRow
    simp only [List.map_cons, List.zip_cons_cons, AMap.get_cons]
    by_cases e : y = x
    · subst e; simp
    · have e' : ¬ (Col.var y = Col.var x) := by simpa using e
      rw [if_neg e']
      exact ih ((List.mem_cons.mp hx).resolve_left fun h => e h.symm)

end

/-! ### Binding the columns of a computed table -/

theorem entityColumn_var (al : Alias) (x : Var) : entityColumn (al, .var x) = false := by
  unfold entityColumn; cases al.table <;> rfl

theorem evalC_eqVar {db : Tables} {env : Env} {al : Alias} {x : Var} {w : SqlValue} (hw : w ≠ .null)
    (hc : cell env (al, .var x) ≠ .null) :
    evalC db env (.infix .eq (.col al (.var x)) (.const w)) = (cell env (al, .var x)).eq w := by
  simp only [evalC, evalInfix, SExpr.eval, SExpr.integerAffinity, Col.integerAffinity, Bool.false_and,
    Bool.false_eq_true, if_false]
  show SqlOp.eval .eq (cell env (al, .var x)) w = _
  simp [SqlOp.eval, hw, hc]

theorem at_bindVar {db : Tables} {cc : CC} {env : Env} {ρ : Assign} {s : Schema} {al : Alias} {x : Var} {w : TypedValue}
    (hc : cell env (al, .var x) = w.toSql.1) (hr : At db cc env ρ → (ρ x).valueType = w.valueType) :
    At db (cc.bindColumn s (al, .var x) x) env ρ ↔ At db cc env ρ ∧ cell env (al, .var x) = (ρ x).toSql.1 := by
  cases hv : AMap.get cc.vals x with
  | none =>
    rw [at_bindColumn_push hv]
    constructor
    · rintro ⟨h, h2, -⟩; exact ⟨h, h2⟩
    · rintro ⟨h, h2⟩
      exact ⟨h, h2, fun _ t h => by simp [typeTag] at h⟩
  | some v =>
    have e : cc.bindColumn s (al, .var x) x = cc.constrainConst (al, .var x) v := by
      unfold bindColumn
      simp [hv, entityColumn_var]
    rw [e]
    by_cases h : At db cc env ρ
    · have hx := h.vals x v hv
      have hvt := hr h
      rw [hx] at hvt ⊢
      have hval : At db (cc.addWhere (eqValue (al, .var x) v)) env ρ ↔
          At db cc env ρ ∧ cell env (al, .var x) = v.toSql.1 := by
        rw [at_addWhere]
        refine and_congr_right fun _ => ?_
        have : evalC db env (eqValue (al, .var x) v) = (cell env (al, .var x)).eq v.toSql.1 :=
          evalC_eqVar (toSql_ne_null _) (by rw [hc]; exact toSql_ne_null _)
        rw [this, hc]
        exact sqlEq_same hvt.symm
      cases v with
      | ref e =>
        cases w <;> simp [TypedValue.valueType] at hvt
        simp only [constrainConst, at_addWhere, evalC_eqEntid hc]
        rw [hc]
        simp [TypedValue.toSql]
      | _ => exact hval
    · constructor
      · intro h'
        exfalso; apply h
        cases v <;> simp only [constrainConst, at_addWhere] at h' <;> exact h'.1
      · intro h'; exact absurd h'.1 h

/-- The columns of the table are values of the types. -/
def VarCells (τ : Var → ValueType) (env : Env) (al : Alias) (xs : List Var) : Prop :=
  ∀ x ∈ xs, ∃ w : TypedValue, w.Proper ∧ w.valueType = τ x ∧ cell env (al, .var x) = w.toSql.1

/-- What binding the columns does. -/
structure BoundVars (L : Var → Prop) (db : Tables) (τ : Var → ValueType) (al : Alias) (xs : List Var) (cc cc' : CC) : Prop where
  grow : Grow cc cc'
  inv : Inv L cc → Inv L cc'
  cols : ColsKnown L cc → ColsKnown L cc'
  known : cc'.known = cc.known
  unmet : ∀ x, x ∉ xs → Unmet cc x → Unmet cc' x
  jat : ∀ env, VarCells τ env al xs → JAt L db cc env → JAt L db cc' env
  «at» : ∀ env, VarCells τ env al xs → ∀ ρ : Assign,
    (At db cc' env ρ ↔ At db cc env ρ ∧ ∀ x ∈ xs, cell env (al, .var x) = (ρ x).toSql.1)
  bound : ∀ x ∈ xs, Bnd cc' x
  up : ColsUp cc cc'
  within : ∀ K : Alias → Prop, K al → Within K cc → Within K cc'

theorem boundVars {L : Var → Prop} {db : Tables} {τ : Var → ValueType} {al : Alias} (hal : al.table = .computed)
    (s : Schema) : ∀ (xs : List Var) {cc : CC}, (∀ x ∈ xs, ¬ L x) →
    (∀ x ∈ xs, AMap.get cc.known x = some (TypeSet.one (τ x))) → BoundVars L db τ al xs cc (cc.bindVars s al xs)
  | [], cc, _, _ => ⟨Grow.refl _, id, id, rfl, fun _ _ h => h, fun _ _ h => h, fun _ _ _ => by simp [bindVars], by simp,
      .of_eq rfl, fun _ _ h => h⟩
  | x :: xs, cc, hL, hk => by
    have hkn : (cc.bindColumn s (al, .var x) x).known = cc.known := known_bindColumn cc s _ x
    have ih := boundVars (db := db) hal s xs (cc := cc.bindColumn s (al, .var x) x)
      (fun y hy => hL y (List.mem_cons_of_mem _ hy)) (fun y hy => by rw [hkn]; exact hk y (List.mem_cons_of_mem _ hy))
    have g := grow_bindColumn cc s (al, .var x) x
    have hx := hk x (by simp)
    have hxL := hL x (by simp)
    rw [bindVars]
    refine ⟨g.trans ih.grow, fun hi => ih.inv (hi.bindColumn s (fun h => absurd hal h) (.inr (.inl rfl))),
      fun hc => ih.cols (hc.bindColumn s _ fun _ _ => ⟨τ x, hx, fun h => by simp [Col.integerAffinity] at h⟩),
      ih.known.trans hkn, ?_, ?_, ?_, ?_, (colsUp_bindColumn cc s _ x).trans ih.up,
      fun K hK hw => ih.within K hK (hw.bindColumn s hK x)⟩
    · intro y hy hu
      simp only [List.mem_cons, not_or] at hy
      exact ih.unmet y hy.2 (hu.bindColumn (fun e => hy.1 e.symm) s _)
    · intro env hv hj
      refine ih.jat env (fun y hy => hv y (List.mem_cons_of_mem _ hy)) (hj.bindColumn s hxL fun _ _ => ⟨τ x, hx, ?_⟩)
      exact hv x (by simp)
    · intro env hv ρ
      obtain ⟨w, -, hwt, hc⟩ := hv x (by simp)
      rw [ih.at env (fun y hy => hv y (List.mem_cons_of_mem _ hy)) ρ, at_bindVar hc fun h => ?_, and_assoc]
      · simp only [List.mem_cons, forall_eq_or_imp]
      · rw [hwt]
        have := h.known x _ hx
        simpa [TypeSet.one] using this
    · intro y hy
      rcases List.mem_cons.mp hy with rfl | hy
      · rcases bnd_bindColumn cc s (al, .var y) y with ⟨v, hv⟩ | ⟨qs, hq⟩
        · exact .inl ⟨v, by rw [ih.grow.vals]; exact hv⟩
        · exact .inr (ih.up y qs hq)
      · exact ih.bound y hy

/-! ### Joining -/

theorem stables_union {cc : CC} (hl : ∀ al ∈ cc.tables, Low cc.computed.length al) (t : STable) :
    (cc.tables ++ [(⟨.computed, cc.computed.length⟩ : Alias)]).map (fun al => if al.table = .computed then
      ((cc.computed ++ [t])[al.n]?).getD (.table al) else .table al) = cc.stables ++ [t] := by
  unfold stables
  rw [List.map_append]
  congr 1
  · apply List.map_congr_left
    intro al ha
    by_cases hc : al.table = .computed
    · rw [if_pos hc, if_pos hc, List.getElem?_append_left (hl al ha hc)]
    · rw [if_neg hc, if_neg hc]
  · simp

theorem step_joinArms {T : Prop} {F : Env → Prop} {L : Var → Prop} {db : Tables} {vals : Var → Option TypedValue}
    {cc cc' : CC} {U : List Var} {τ : Var → ValueType} {m : Nat} {s : Schema} (hT : T) (hr : Ready T F L db vals cc)
    (hU : ∀ x ∈ U, ¬ L x) (hτ : ∀ x ∈ U, ∀ v, vals x = some v → τ x = v.valueType) (hm : cc.counter ≤ m)
    {ps : List (CC × (Assign → Prop))} (hdone : ∀ p ∈ ps, Done F db cc U τ p.1 p.2)
    (hdep : ∀ p ∈ ps, ∀ ρ ρ' : Assign, ρ.Proper → ρ'.Proper → (∀ x ∈ U, ρ x = ρ' x) → p.2 ρ → p.2 ρ')
    {Q : Assign → Prop} (hQ : ∀ E, F E → ∀ ρ : Assign, ρ.Proper → Sem db E cc ρ → (Q ρ ↔ ∃ p ∈ ps, p.2 ρ))
    (h : ({ cc with counter := m } : CC).joinArms s U (ps.map Prod.fst) = .ok cc') :
    StepOk F L db (· ∈ U) cc cc' Q ∧ (cc'.empty = false → ∀ x ∈ U, Pinned cc' x (τ x)) := by
  have hi := hr.inv
  have hlow := hr.low hT
  by_cases hps : ps = []
  · subst hps
    rw [List.map_nil, joinArms] at h
    obtain rfl := Res.ok.inj h
    have st0 : StepOk F L db (· ∈ U) cc { cc with counter := m } (fun _ => True) := by
      have := step_conditions (F := F) (X := (· ∈ U)) (P := fun _ => True) hi hr.typed hm (ws := []) (by simp) (by simp)
        (fun _ _ _ _ _ _ _ => by simp [evalAll])
      simpa using this
    have st1 := st0.trans (StepOk.giveUp (F := F) (db := db) (X := (· ∈ U)) (P := Q) st0.inv (by
      intro E hE ρ hρ hs hQρ
      have hs' := ((st0.sem E hE ρ hρ).mp hs).1
      obtain ⟨p, hp, -⟩ := (hQ E hE ρ hρ hs').mp hQρ
      cases hp))
    exact ⟨(st1.mono fun x hx => hx.elim id id).congr fun E _ ρ _ _ => by simp, fun he => by simp [CC.markEmpty] at he⟩
  · obtain ⟨p0, ps', rfl⟩ := List.exists_cons_of_ne_nil hps
    have hd0 := hdone p0 (by simp)
    have hty : ∀ c ∈ (p0 :: ps').map Prod.fst, Types U τ c.known := by
      intro c hc
      obtain ⟨p, hp, rfl⟩ := List.mem_map.mp hc
      exact (hdone p hp).types
    have hext : ∀ x ∈ U, AMap.get cc.extracted x = none := by
      intro x hx
      cases hg : AMap.get cc.extracted x with
      | none => rfl
      | some q => exact absurd (hi.tags x q hg) (hU x hx)
    obtain ⟨K, X, he1, hX, hKw, hK⟩ := broaden_types (U := U) (τ := τ) p0.1.known (cc := { cc with counter := m })
      (fun p hp => hd0.types.mem hp) hd0.agree hext
    simp only [hd0.types.key] at hK
    obtain ⟨qs, hq1, hq2, hq3, hq4⟩ := armSelects_ok (p0 :: ps') hdone
    have htn : (U.filter fun x => ((p0 :: ps').map Prod.fst).any fun c => (c.knownType x).isNone) = [] := by
      rw [List.filter_eq_nil_iff]
      intro x hx
      simp only [List.any_eq_true, not_exists, not_and]
      intro c hc
      rw [knownType_one (t := τ x) (by rw [(hty c hc).get, if_pos hx])]
      simp
    have hfold : (ps'.map Prod.fst).foldl (fun m c => unionTypes m c.known) p0.1.known = p0.1.known :=
      unionTypes_all _ hd0.types fun c hc => hty c (List.mem_cons_of_mem _ hc)
    rw [List.map_cons] at h htn hq1
    unfold joinArms at h
    simp only [htn, hfold, hq1, List.foldl_nil] at h
    rw [he1] at h
    have hal : (⟨.computed, cc.computed.length⟩ : Alias).table = .computed := rfl
    generalize hale : (⟨.computed, cc.computed.length⟩ : Alias) = al at h hal
    obtain ⟨cc2, hcc2⟩ : ∃ c2 : CC, c2 = { cc with
      counter := m, known := K, extracted := X, computed := cc.computed ++ [STable.union qs al] } := ⟨_, rfl⟩
    have hcc' : cc' = { (cc2.bindVars s al U) with tables := (cc2.bindVars s al U).tables ++ [al] } := by
      rw [hcc2]
      have := Res.ok.inj h
      rw [← this, ← hale]
    have hnl : ¬ Low cc.computed.length al := fun h => by
      rw [← hale] at h; exact Nat.lt_irrefl _ (h rfl)
    have hmono : ∀ a, Old cc.counter a → Old m a := fun a ha => ha.mono hm
    have hkn2 : ∀ x, AMap.get cc2.known x = if x ∈ U then some (TypeSet.one (τ x)) else AMap.get cc.known x := by
      intro x; rw [hcc2]; exact hK x
    have hX2 : ∀ x, AMap.get cc2.extracted x = AMap.get cc.extracted x := by intro x; rw [hcc2]; exact hX x
    have hw2 : ∀ K' : Alias → Prop, Within K' cc → Within K' cc2 := by
      intro K' hw
      refine ⟨by rw [hcc2]; exact hw.wh, by rw [hcc2]; exact hw.cols, fun x q hx => hw.tags x q (by rw [← hX2]; exact hx)⟩
    have hi2 : Inv L cc2 := by
      refine ⟨?_, ?_, by rw [hcc2]; exact hi.valsProper, ?_, ?_, by rw [hcc2]; exact hi.wfCols,
        by rw [hcc2]; exact hi.wfReq, by rw [hcc2]; exact hi.colsNe, ?_, ?_, ?_, by rw [hcc2]; exact hKw hi.wfKnown⟩
      · intro he x ts hx
        rw [hkn2] at hx
        split at hx
        · exact ⟨τ x, (Option.some.inj hx).symm⟩
        · exact hi.unit hd0.live x ts hx
      · intro he x v hx
        have hx' : AMap.get cc.vals x = some v := by rw [hcc2] at hx; exact hx
        rw [hkn2]
        split
        · rename_i hxU
          rw [hτ x hxU v (by rw [← hr.vals]; exact hx')]
        · exact hi.valsKnown hd0.live x v hx'
      · intro x hL
        obtain ⟨h1, h2, h3⟩ := hi.loose x hL
        refine ⟨by rw [hkn2, if_neg fun hx => hU x hx hL]; exact h1, by rw [hcc2]; exact h2, by rw [hcc2]; exact h3⟩
      · intro x q hx; exact hi.tags x q (by rw [← hX2]; exact hx)
      · have := hw2 _ (hi.fresh.mono hmono)
        have e : cc2.counter = m := by rw [hcc2]
        rw [e]; exact this
      · have e : cc2.counter = m := by rw [hcc2]
        have e' : cc2.tables = cc.tables := by rw [hcc2]
        rw [e, e']
        exact fun a ha => hmono a (hi.tables a ha)
      · intro i t ht
        have e : cc2.computed = cc.computed ++ [STable.union qs al] := by rw [hcc2]
        rw [e] at ht
        rcases Nat.lt_or_ge i cc.computed.length with hlt | hge
        · rw [List.getElem?_append_left hlt] at ht
          exact hi.computed i t ht
        · rw [List.getElem?_append_right hge] at ht
          cases hsub : i - cc.computed.length with
          | zero =>
            rw [hsub] at ht
            have hie : i = cc.computed.length := by omega
            simp only [List.getElem?_cons_zero, Option.some.injEq] at ht
            subst ht
            show al = _
            rw [hie, hale]
          | succ j => rw [hsub] at ht; simp at ht
    have hat2 : ∀ env (ρ : Assign), At db cc2 env ρ ↔ At db cc env ρ ∧ ∀ x ∈ U, (ρ x).valueType = τ x := by
      intro env ρ
      constructor
      · intro a
        have hty : ∀ x ∈ U, (ρ x).valueType = τ x := fun x hx => by
          have := a.known x (TypeSet.one (τ x)) (by rw [hkn2, if_pos hx])
          simpa [TypeSet.one] using this
        refine ⟨⟨hd0.live, ?_, ?_, ?_, ?_, ?_, ?_⟩, hty⟩
        · have := a.vals; rw [hcc2] at this; exact this
        · intro x ts hx
          by_cases hxU : x ∈ U
          · rw [hd0.agree x hxU ts hx, hty x hxU]; simp [TypeSet.one]
          · exact a.known x ts (by rw [hkn2, if_neg hxU]; exact hx)
        · have := a.req; rw [hcc2] at this; exact this
        · have := a.wh; rw [hcc2] at this; exact this
        · have := a.cols; rw [hcc2] at this; exact this
        · intro x q hx; exact a.tags x q (by rw [hX2]; exact hx)
      · rintro ⟨a, hty⟩
        refine ⟨by rw [hcc2]; exact a.live, by rw [hcc2]; exact a.vals, ?_, by rw [hcc2]; exact a.req,
          by rw [hcc2]; exact a.wh, by rw [hcc2]; exact a.cols, fun x q hx => a.tags x q (by rw [← hX2]; exact hx)⟩
        intro x ts hx
        rw [hkn2] at hx
        split at hx
        · rename_i hxU
          rw [← Option.some.inj hx, hty x hxU]; simp [TypeSet.one]
        · exact a.known x ts hx
    have hkeep : ∀ x t, AMap.get cc.known x = some (TypeSet.one t) → AMap.get cc2.known x = some (TypeSet.one t) := by
      intro x t hx
      rw [hkn2]
      split
      · rename_i hxU; rw [← hd0.agree x hxU _ hx]
      · exact hx
    have hj2 : ∀ env, JAt L db cc env → JAt L db cc2 env := by
      intro env hj he hw x qs hx
      have hx' : AMap.get cc.colb x = some qs := by rw [hcc2] at hx; exact hx
      have hc := hj hd0.live (by rw [hcc2] at hw; exact hw) x qs hx'
      refine ⟨fun hnL => ?_, fun hL => ?_⟩
      · obtain ⟨t, h1, h2, h3⟩ := hc.typed hnL
        exact ⟨t, hkeep x t h1, h2, by rw [hcc2]; exact h3⟩
      · obtain ⟨a, h1, h2, h3⟩ := hc.loose hL
        exact ⟨a, h1, by rw [hX2]; exact h2, by rw [hcc2]; exact h3⟩
    have hc2 : ColsKnown L cc → ColsKnown L cc2 := by
      intro hc
      refine ⟨fun he x qs hx hnL => ?_, fun he x q hx => ?_⟩
      · obtain ⟨t, h1, h2⟩ := hc.known hd0.live x qs (by rw [hcc2] at hx; exact hx) hnL
        exact ⟨t, hkeep x t h1, h2⟩
      · have := hc.tagged hd0.live x q (by rw [← hX2]; exact hx)
        rw [hcc2]; exact this
    have hu2 : ∀ x, x ∉ U → Unmet cc x → Unmet cc2 x := by
      intro x hx hu
      refine ⟨by rw [hcc2]; exact hu.vals, by rw [hkn2, if_neg hx]; exact hu.known, by rw [hcc2]; exact hu.cols,
        by rw [hX2]; exact hu.tags, by rw [hcc2]; exact hu.inputs⟩
    have B := boundVars (L := L) (db := db) (τ := τ) hal s U (cc := cc2) hU fun x hx => by rw [hkn2, if_pos hx]
    generalize hcc3 : cc2.bindVars s al U = cc3 at B hcc'
    have htab : cc3.tables = cc.tables := by rw [B.grow.tables, hcc2]
    have hcomp : cc3.computed = cc.computed ++ [STable.union qs al] := by rw [B.grow.computed, hcc2]
    have hst : cc'.stables = cc.stables ++ [STable.union qs al] := by
      rw [hcc']
      show (cc3.tables ++ [al]).map _ = _
      rw [htab, hcomp, ← hale]
      exact stables_union hlow.tables _
    -- environments
    have env_old : ∀ (l1 : Env) row E a, Low cc.computed.length a →
        Env.get (l1 ++ E) a = Env.get (l1 ++ [(al, row)] ++ E) a := by
      intro l1 row E a ha
      have hne : al ≠ a := fun e => hnl (e ▸ ha)
      rw [List.append_assoc, Env.get_append, Env.get_append]
      split
      · rfl
      · simp only [List.cons_append, List.nil_append, Env.get, AMap.get_cons, if_neg hne]
    have env_new : ∀ (l1 : Env) row E, l1 ∈ evalFrom db E cc.stables →
        Env.get (l1 ++ [(al, row)] ++ E) al = row := by
      intro l1 row E hl1
      have : al ∉ l1.map Prod.fst := by
        rw [evalFrom_keys hl1, stables_alias cc hi.computed]
        exact fun h => hnl (hlow.tables al h)
      rw [List.append_assoc, Env.get_append, if_neg this]
      simp [Env.get, AMap.get_cons]
    have hcells : ∀ (l1 : Env) E, l1 ∈ evalFrom db E cc.stables → ∀ ρ : Assign, ∀ x ∈ U,
        cell (l1 ++ [(al, namedRow (U.map Col.var) (armRow U ρ))] ++ E) (al, .var x) = (ρ x).toSql.1 := by
      intro l1 E hl1 ρ x hx
      show Env.get _ al _ = _
      rw [env_new l1 _ E hl1]
      exact namedRow_var ρ hx
    have hvc : ∀ (l1 : Env) E, l1 ∈ evalFrom db E cc.stables → ∀ (ρ : Assign) {P : Assign → Prop}, ArmSat cc U τ P ρ →
        VarCells τ (l1 ++ [(al, namedRow (U.map Col.var) (armRow U ρ))] ++ E) al U := fun l1 E hl1 ρ _ hρ x hx =>
      ⟨ρ x, hρ.proper x, hρ.types x hx, hcells l1 E hl1 ρ x hx⟩
    have hsame : Same cc3 cc' := by rw [hcc']; exact ⟨rfl, rfl, rfl, rfl, rfl, rfl, rfl⟩
    have hrows : ∀ E, F E → ∀ loc, loc ∈ evalFrom db E cc'.stables ↔ ∃ l1 ∈ evalFrom db E cc.stables,
        ∃ p ∈ p0 :: ps', ∃ ρ, ArmSat cc U τ p.2 ρ ∧ loc = l1 ++ [(al, namedRow (U.map Col.var) (armRow U ρ))] := by
      intro E hE loc
      rw [hst, mem_evalFrom_append]
      constructor
      · rintro ⟨l1, hl1, l2, hl2, rfl⟩
        rw [mem_evalFrom_one] at hl2
        obtain ⟨row, hrow, rfl⟩ := hl2
        obtain ⟨p, hp, ρ, hρ, rfl⟩ := (mem_union hps hq2 hq3 (hq4 E hE) row).mp hrow
        exact ⟨l1, hl1, p, hp, ρ, hρ, rfl⟩
      · rintro ⟨l1, hl1, p, hp, ρ, hρ, rfl⟩
        refine ⟨l1, hl1, _, mem_evalFrom_one.mpr ⟨_, (mem_union hps hq2 hq3 (hq4 E hE) _).mpr ⟨p, hp, ρ, hρ, rfl⟩, rfl⟩, rfl⟩
    have hemp : cc'.empty = false → cc.empty = false := fun _ => hd0.live
    refine ⟨⟨?_, ?_, ?_, ?_, ?_, ?_, hemp, ?_, ?_, ?_, ?_, ?_, ?_⟩, ?_⟩
    · have h3 := B.inv hi2
      rw [hcc']
      refine ⟨h3.unit, h3.valsKnown, h3.valsProper, h3.loose, h3.tags, h3.wfCols, h3.wfReq, h3.colsNe,
        ⟨h3.fresh.wh, h3.fresh.cols, h3.fresh.tags⟩, ?_, h3.computed, h3.wfKnown⟩
      intro a ha
      simp only [List.mem_append, List.mem_singleton] at ha
      rcases ha with ha | rfl
      · exact h3.tables a ha
      · exact fun h => absurd hal h
    · intro E hE loc hloc
      obtain ⟨l1, hl1, p, hp, ρ, hρ, rfl⟩ := (hrows E hE loc).mp hloc
      exact hsame.jat (B.jat _ (hvc l1 E hl1 ρ hρ) (hj2 _ (hlow.within.jat_congr (env_old l1 _ E) (hr.typed E hE l1 hl1))))
    · intro E hE ρ hρ
      constructor
      · rintro ⟨loc, hloc, hat⟩
        obtain ⟨l1, hl1, p, hp, ρ', hρ', rfl⟩ := (hrows E hE loc).mp hloc
        rw [← hsame.at, B.at _ (hvc l1 E hl1 ρ' hρ'), hat2, ← hlow.within.at_congr (env_old l1 _ E)] at hat
        obtain ⟨⟨hat, htyp⟩, hcell⟩ := hat
        have heq : ∀ x ∈ U, ρ' x = ρ x := by
          intro x hx
          have := hcell x hx
          rw [hcells l1 E hl1 ρ' x hx] at this
          exact toSql_inj (hρ'.proper x) (hρ x) (by rw [hρ'.types x hx, htyp x hx]) this
        refine ⟨⟨l1, hl1, hat⟩, (hQ E hE ρ hρ ⟨l1, hl1, hat⟩).mpr ⟨p, hp, ?_⟩⟩
        exact hdep p hp ρ' ρ hρ'.proper hρ heq hρ'.sat
      · rintro ⟨hs, hQρ⟩
        have hsh := hs.shared (U := U) fun _ _ => rfl
        obtain ⟨p, hp, hpρ⟩ := (hQ E hE ρ hρ hs).mp hQρ
        obtain ⟨-, loc0, -, -, hrd⟩ := (hdone p hp).found E hE ρ hρ hsh hpρ
        have hfit : ArmSat cc U τ p.2 ρ := ⟨hρ, hpρ, hsh, (hdone p hp).types.reads hrd⟩
        obtain ⟨l1, hl1, hat⟩ := hs
        refine ⟨_, (hrows E hE _).mpr ⟨l1, hl1, p, hp, ρ, hfit, rfl⟩, ?_⟩
        rw [← hsame.at, B.at _ (hvc l1 E hl1 ρ hfit), hat2, ← hlow.within.at_congr (env_old l1 _ E)]
        exact ⟨⟨hat, hfit.types⟩, hcells l1 E hl1 ρ⟩
    · intro _ x t hx
      rw [← hsame.known, B.known]
      exact hkeep x t hx
    · rw [← hsame.vals, B.grow.vals, hcc2]
    · rw [hcc']; show cc3.inputs = _; rw [B.grow.inputs, hcc2]
    · rw [hcc']; show cc3.panics = _; rw [B.grow.panics, hcc2]
    · rw [hcc']; show _ ≤ cc3.counter; rw [B.grow.counter, hcc2]; exact hm
    · intro x hx hu
      have := B.unmet x hx (hu2 x hx hu)
      rw [hcc']
      exact ⟨this.vals, this.known, this.cols, this.tags, this.inputs⟩
    · obtain ⟨ws, hws⟩ := B.grow.wheres
      refine ⟨ws, ?_⟩
      rw [← hsame.wheres, hws, hcc2]
    · intro hc
      have := B.cols (hc2 hc)
      rw [hcc']
      exact ⟨this.known, this.tagged⟩
    · have hcl : cc'.computed = cc.computed ++ [STable.union qs al] := by rw [hcc']; exact hcomp
      refine ⟨fun N hN hl => ?_, by rw [hcl]; simp, fun x hx => ?_⟩
      · rw [hcl, List.length_append, List.length_singleton] at hN
        have hlal : Low N al := by rw [← hale]; exact fun _ => Nat.lt_of_lt_of_le (Nat.lt_succ_self _) hN
        have := B.within _ hlal (hw2 _ hl.within)
        refine ⟨by rw [hcc']; exact ⟨this.wh, this.cols, this.tags⟩, ?_⟩
        rw [hcc']
        intro a ha
        simp only [List.mem_append, List.mem_singleton] at ha
        rcases ha with ha | rfl
        · rw [htab] at ha; exact hl.tables a ha
        · exact hlal
      · rcases hx with ⟨v, hv⟩ | ⟨qs', hq⟩
        · exact .inl ⟨v, by rw [← hsame.vals, B.grow.vals, hcc2]; exact hv⟩
        · obtain ⟨qs'', h''⟩ := B.up x qs' (by rw [hcc2]; exact hq)
          exact .inr ⟨qs'', by rw [← hsame.colb]; exact h''⟩
    · intro _ x hx
      refine ⟨?_, by rw [← hsame.known, B.known, hkn2, if_pos hx]⟩
      rcases B.bound x hx with ⟨v, hv⟩ | ⟨qs', hq⟩
      · exact .inl ⟨v, by rw [← hsame.vals]; exact hv⟩
      · exact .inr ⟨qs', by rw [← hsame.colb]; exact hq⟩

end CC
end Mentat
