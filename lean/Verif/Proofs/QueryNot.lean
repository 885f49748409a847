import Verif.Proofs.QueryMono
import Verif.Proofs.QuerySatVars
import Verif.Proofs.Store
/-
`not` and `not-join`: the rows kept are those for which no assignment agreeing on the unified variables
satisfies the clauses.
-/
namespace Mentat
namespace CC

/-! ### Adding conditions that depend on the rows of the environment -/

/-- Conditions added, and the counter of aliases moved on. -/
theorem step_conditions {F : Env → Prop} {L X : Var → Prop} {db : Tables} {cc : CC} {P : Assign → Prop}
    (hi : Inv L cc) (ht : TypedIn F L db cc) {n : Nat} (hn : cc.counter ≤ n) {ws : List Constraint}
    (hw : ∀ c ∈ ws, ∀ al ∈ c.refs, Old n al)
    (hlw : ∀ N, cc.computed.length ≤ N → Lows N cc → ∀ c ∈ ws, ∀ al ∈ c.refs, Low N al)
    (hp : ∀ E, F E → ∀ loc ∈ evalFrom db E cc.stables, ∀ ρ : Assign, ρ.Proper → At db cc (loc ++ E) ρ →
      (evalAll db (loc ++ E) ws = true ↔ P ρ)) :
    StepOk F L db X cc { cc with counter := n, wheres := cc.wheres ++ ws } P := by
  have hst : ({ cc with counter := n, wheres := cc.wheres ++ ws } : CC).stables = cc.stables := rfl
  have hat : ∀ env (ρ : Assign), At db { cc with counter := n, wheres := cc.wheres ++ ws } env ρ ↔
      At db cc env ρ ∧ evalAll db env ws = true := by
    intro env ρ
    constructor
    · intro h
      have := h.wh
      simp only [evalAll_append, Bool.and_eq_true] at this
      exact ⟨⟨h.live, h.vals, h.known, h.req, this.1, h.cols, h.tags⟩, this.2⟩
    · rintro ⟨h, hc⟩
      exact ⟨h.live, h.vals, h.known, h.req, by simp [evalAll_append, h.wh, hc], h.cols, h.tags⟩
  refine ⟨⟨hi.unit, hi.valsKnown, hi.valsProper, hi.loose, hi.tags, hi.wfCols, hi.wfReq, hi.colsNe, ?_, ?_, hi.computed, hi.wfKnown⟩,
    ?_, ?_, fun _ _ _ h => h, rfl, rfl, id, rfl, hn, fun x _ h => ⟨h.vals, h.known, h.cols, h.tags, h.inputs⟩, ⟨ws, rfl⟩,
    fun h => ⟨h.known, h.tagged⟩, ⟨fun N hN hl => ⟨⟨fun c hc al ha => ?_, hl.within.cols, hl.within.tags⟩, hl.tables⟩,
      Nat.le_refl _, fun _ h => h⟩⟩
  rotate_right
  · simp only [List.mem_append] at hc
    rcases hc with hc | hc
    · exact hl.within.wh c hc al ha
    · exact hlw N hN hl c hc al ha
  · refine ⟨?_, fun x qs hx q hq => (hi.fresh.cols x qs hx q hq).mono hn, fun x q hx => (hi.fresh.tags x q hx).mono hn⟩
    intro c hc al ha
    simp only [List.mem_append] at hc
    rcases hc with hc | hc
    · exact (hi.fresh.wh c hc al ha).mono hn
    · exact hw c hc al ha
  · exact fun al ha => (hi.tables al ha).mono hn
  · intro E hE loc hl he hwh
    simp only [evalAll_append, Bool.and_eq_true] at hwh
    exact fun x qs hx => ⟨(ht E hE loc hl he hwh.1 x qs hx).typed, (ht E hE loc hl he hwh.1 x qs hx).loose⟩
  · intro E hE ρ hρ
    unfold Sem
    rw [hst]
    simp only [hat]
    constructor
    · rintro ⟨loc, hl, h, h'⟩; exact ⟨⟨loc, hl, h⟩, (hp E hE loc hl ρ hρ h).mp h'⟩
    · rintro ⟨⟨loc, hl, h⟩, h'⟩; exact ⟨loc, hl, h, (hp E hE loc hl ρ hρ h).mpr h'⟩

/-! ### The aliases of a finished clause -/

theorem refs_typeConstraint (al : Alias) (tag : Nat) (o : Option (List Bool)) :
    ∀ b ∈ (typeConstraint al tag o).refs, b = al := by
  intro b hb
  cases o with
  | none => simp [typeConstraint, Constraint.refs, SExpr.refs] at hb; exact hb
  | some l =>
    simp only [typeConstraint, Constraint.refs, Constraint.refsAll, SExpr.refs, List.mem_append, mem_refsAll,
      List.mem_map, List.not_mem_nil, or_false, List.mem_singleton] at hb
    rcases hb with hb | ⟨c, ⟨t, -, rfl⟩, hb⟩
    · exact hb
    · simpa [Constraint.refs, SExpr.refs] using hb

theorem refs_hasTypes (al : Alias) (ts : TypeSet) (ck : Bool) : ∀ b ∈ (hasTypes al ts ck).refs, b = al := by
  intro b hb
  unfold hasTypes at hb
  split at hb
  · simp only [Constraint.refs, mem_refsAll] at hb
    obtain ⟨c, hc, hb⟩ := hb
    obtain ⟨t, -, rfl⟩ := List.mem_map.mp hc
    exact refs_typeConstraint _ _ _ b hb
  · simp only [Constraint.refs, mem_refsAll] at hb
    obtain ⟨c, hc, hb⟩ := hb
    obtain ⟨t, -, rfl⟩ := List.mem_map.mp hc
    exact refs_typeConstraint _ _ _ b hb

theorem Within.processLoop {K : Alias → Prop} : ∀ (l : List (Var × TypeSet)) {cc cc' : CC}, Within K cc →
    cc.processLoop l = .ok cc' → Within K cc'
  | [], cc, cc', hw, h => by obtain rfl := Res.ok.inj h; exact hw
  | (x, ts) :: l, cc, cc', hw, h => by
    have go : (match AMap.get (cc.narrowTypes x ts).extracted x with
        | none => Res.err .unboundVariable
        | some q => CC.processLoop ((cc.narrowTypes x ts).addWhere (hasTypes q.1 ts true)) l) = .ok cc' →
        Within K cc' := by
      intro h
      have hn := hw.narrowTypes x ts
      cases hq : AMap.get (cc.narrowTypes x ts).extracted x with
      | none => rw [hq] at h; cases h
      | some q =>
        rw [hq] at h
        exact Within.processLoop l (hn.addWhere fun al ha => by rw [refs_hasTypes _ _ _ al ha]; exact hn.tags x q hq) h
    rw [CC.processLoop] at h
    simp only at h
    cases hk : AMap.get cc.known x with
    | none => rw [hk] at h; exact go h
    | some s =>
      rw [hk] at h
      simp only at h
      split at h
      · obtain rfl := Res.ok.inj h; exact hw.markEmpty
      · split at h
        · exact Within.processLoop l hw h
        · exact go h

theorem Within.finish {K : Alias → Prop} {L : Var → Prop} {cc cc' : CC} (hi : Inv L cc) (hw : Within K cc)
    (h : cc.finish = .ok cc') : Within K cc' := by
  have h0 : Within K cc.expand.prune := by
    refine ⟨?_, hw.cols, ?_⟩
    · intro c hc al ha
      simp only [prune, expand, List.mem_append, List.mem_flatMap] at hc
      rcases hc with hc | ⟨⟨x, qs⟩, hp, hc⟩
      · exact hw.wh c hc al ha
      · have hx := AMap.mem_get hi.wfCols hp
        cases qs with
        | nil => simp at hc
        | cons q r =>
          obtain ⟨q', hq', rfl⟩ := List.mem_map.mp hc
          simp only [eqCol, Constraint.refs, SExpr.refs, List.mem_append, List.mem_singleton] at ha
          rcases ha with rfl | rfl
          · exact hw.cols x _ hx q (by simp)
          · exact hw.cols x _ hx q' (by simp [hq'])
    · intro x q hx
      refine hw.tags x q ?_
      have : AMap.get (List.filter (fun p : Var × QA => !(match AMap.get cc.known p.1 with
        | some s => s.isUnit
        | none => false)) cc.extracted) x = some q := hx
      rw [get_filterKeys cc.extracted (fun y => !(match AMap.get cc.known y with
        | some s => s.isUnit
        | none => false)) x] at this
      generalize (!(match AMap.get cc.known x with
        | some s => s.isUnit
        | none => false)) = b at this
      cases b with
      | true => exact this
      | false => cases this
  unfold CC.finish processRequired at h
  split at h
  · obtain rfl := Res.ok.inj h; exact h0
  · exact Within.processLoop _ h0 h

/-! ### The template -/

section
variable {T : Prop} {F : Env → Prop} {L : Var → Prop} {db : Tables} {k : Known} {vals : Var → Option TypedValue}

/-- The environments in which the clauses of a `not` are evaluated. -/
def Outer (F : Env → Prop) (db : Tables) (cc : CC) (E' : Env) : Prop :=
  ∃ E loc, F E ∧ loc ∈ evalFrom db E cc.stables ∧ E' = loc ++ E ∧ cc.empty = false ∧ evalAll db E' cc.wheres = true

/-- The values of the variables of a list. -/
def only (U : List Var) (vals : Var → Option TypedValue) (x : Var) : Option TypedValue :=
  if x ∈ U then vals x else none

theorem get_withKeys {α : Type} (m : AMap Var α) (U : List Var) (x : Var) :
    AMap.get (withKeys m U) x = if x ∈ U then AMap.get m x else none := by
  unfold withKeys
  rw [get_filterKeys m (fun y => decide (y ∈ U)) x]
  simp

structure Tmpl (U : List Var) (cc t : CC) : Prop where
  counter : t.counter = cc.counter
  empty : t.empty = cc.empty
  panics : t.panics = false
  tables : t.tables = []
  computed : t.computed = []
  wheres : t.wheres = []
  inputs : ∀ x, x ∈ t.inputs ↔ x ∈ cc.inputs ∧ x ∈ U
  vals : AMap.get t.vals = only U (AMap.get cc.vals)
  known : ∀ x, AMap.get t.known x = if x ∈ U then AMap.get cc.known x else none
  extracted : ∀ x, AMap.get t.extracted x = if x ∈ U then AMap.get cc.extracted x else none
  required : ∀ x, AMap.get t.required x = if x ∈ U then AMap.get cc.required x else none
  wfReq : AMap.WF cc.required → AMap.WF t.required
  wfCols : AMap.WF t.colb
  wfKnown : AMap.WF cc.known → AMap.WF t.known
  bound : ∀ x ∈ U, AMap.get cc.vals x = none → ∃ q r, AMap.get cc.colb x = some (q :: r)
  colb : ∀ x, AMap.get t.colb x = if x ∈ U ∧ AMap.get cc.vals x = none then
        (AMap.get cc.colb x).bind fun qs => qs.head?.map fun q => [q] else none

theorem wf_withKeys {α : Type} {m : AMap Var α} (h : AMap.WF m) (U : List Var) : AMap.WF (withKeys m U) := by
  unfold AMap.WF withKeys at *
  exact h.sublist (List.filter_sublist.map _)

theorem tmpl_of {cc t : CC} {U : List Var} (h : cc.notBindings (cc.template U) U = .ok t) : Tmpl U cc t := by
  obtain ⟨V, C, rfl, h1, h2, h3, h4⟩ := notBindings_eq U h
  refine ⟨rfl, rfl, rfl, rfl, rfl, rfl, by simp [template], ?_, fun x => get_withKeys _ _ _, fun x => get_withKeys _ _ _,
    fun x => get_withKeys _ _ _, fun h => wf_withKeys h _, h2 (AMap.wf_nil), fun h => wf_withKeys h _, h3, ?_⟩
  · funext x
    rw [h1]
    simp only [template, get_withKeys, only]
    by_cases hx : x ∈ U
    · simp only [hx, true_and, if_true]
      split <;> rfl
    · simp [hx]
  · intro x
    rw [h4]
    simp [template]

theorem Tmpl.col {cc t : CC} {U : List Var} (h : Tmpl U cc t) {x : Var} {qs : List QA}
    (hx : AMap.get t.colb x = some qs) :
    x ∈ U ∧ AMap.get cc.vals x = none ∧ ∃ q r, qs = [q] ∧ AMap.get cc.colb x = some (q :: r) := by
  rw [h.colb] at hx
  split at hx
  · rename_i hc
    obtain ⟨q, r, hq⟩ := h.bound x hc.1 hc.2
    rw [hq] at hx
    simp at hx
    exact ⟨hc.1, hc.2, q, r, hx.symm, hq⟩
  · cases hx

theorem ite_some {α : Type} {p : Prop} [Decidable p] {o : Option α} {a : α} (h : (if p then o else none) = some a) :
    p ∧ o = some a := by
  split at h
  · rename_i hp; exact ⟨hp, h⟩
  · cases h

theorem tmpl_ready {cc t : CC} {U : List Var} (hr : Ready T F L db vals cc) (hU : ∀ x ∈ U, ¬ L x)
    (ht : Tmpl U cc t) : Ready False (Outer F db cc) L db (only U vals) t := by
  have hnoext : ∀ x, AMap.get t.extracted x = none := by
    intro x
    cases h : AMap.get t.extracted x with
    | none => rfl
    | some q =>
      rw [ht.extracted] at h
      obtain ⟨hx, h⟩ := ite_some h
      exact absurd (hr.inv.tags x q h) (hU x hx)
  refine ⟨by rw [ht.vals, hr.vals], ?_, ?_, ?_, False.elim⟩
  · refine ⟨?_, ?_, ?_, ?_, ?_, ht.wfCols, ht.wfReq hr.inv.wfReq, ?_, ⟨?_, ?_, ?_⟩, ?_, ?_, ht.wfKnown hr.inv.wfKnown⟩
    · intro he x ts hx
      rw [ht.known] at hx
      exact hr.inv.unit (ht.empty ▸ he) x ts (ite_some hx).2
    · intro he x v hx
      rw [ht.vals] at hx
      obtain ⟨hxU, hx⟩ := ite_some hx
      rw [ht.known, if_pos hxU]
      exact hr.inv.valsKnown (ht.empty ▸ he) x v hx
    · intro x v hx
      rw [ht.vals] at hx
      exact hr.inv.valsProper x v (ite_some hx).2
    · intro x hL
      obtain ⟨h1, h2, h3⟩ := hr.inv.loose x hL
      refine ⟨by rw [ht.known, h1]; simp, by rw [ht.vals]; simp [only, h2], ?_⟩
      rw [ht.inputs]
      exact fun h => h3 h.1
    · intro x q hx; rw [hnoext] at hx; cases hx
    · intro x qs hx
      obtain ⟨-, -, q, r, rfl, -⟩ := ht.col hx
      simp
    · rw [ht.wheres]; simp
    · intro x qs hx q hq
      obtain ⟨-, -, q', r, rfl, hc⟩ := ht.col hx
      rw [List.mem_singleton] at hq
      subst hq
      rw [ht.counter]
      exact hr.inv.fresh.cols x _ hc q (by simp)
    · intro x q hx; rw [hnoext] at hx; cases hx
    · rw [ht.tables]; simp
    · rw [ht.computed]; simp
  · rintro E' ⟨E, loc, hE, hl, rfl, he, hw⟩ loc' hl' he' hw' x qs hx
    have hloc : loc' = [] := by
      have : t.stables = [] := by simp [stables, ht.tables]
      rw [this] at hl'
      simpa [evalFrom] using hl'
    subst hloc
    obtain ⟨hxU, hnv, q, r, rfl, hc⟩ := ht.col hx
    have hcell := hr.typed E hE loc hl he hw x _ hc
    refine ⟨fun hnL => ?_, fun hL => absurd hL (hU x hxU)⟩
    obtain ⟨ty, h1, h2, -⟩ := hcell.typed hnL
    refine ⟨ty, by rw [ht.known, if_pos hxU]; exact h1, ?_, ?_⟩
    · intro q' hq'
      rw [List.mem_singleton] at hq'
      subst hq'
      exact h2 q' (by simp)
    · intro v hv
      rw [ht.vals] at hv
      rw [(ite_some hv).2] at hnv
      cases hnv
  · refine ⟨?_, ?_⟩
    · intro he x qs hx hL
      obtain ⟨hxU, -, q, r, rfl, hc⟩ := ht.col hx
      obtain ⟨ty, h1, h2⟩ := hr.cols.known (ht.empty ▸ he) x _ hc hL
      refine ⟨ty, by rw [ht.known, if_pos hxU]; exact h1, fun q' hq' => h2 q' ?_⟩
      rw [List.mem_singleton] at hq'
      simp [hq']
    · intro _ x q hx; rw [hnoext] at hx; cases hx

/-- In the template only the values of the unified variables are fixed. -/
theorem tmpl_sem {cc t : CC} {U : List Var} (hr : Ready T F L db vals cc) (hU : ∀ x ∈ U, ¬ L x) (ht : Tmpl U cc t)
    {E' : Env} {ρ ρ' : Assign} (hρ : ρ.Proper) (hρ' : ρ'.Proper) (hat : At db cc E' ρ) :
    Sem db E' t ρ' ↔ ∀ x ∈ U, ρ' x = ρ x := by
  have hst : t.stables = [] := by simp [stables, ht.tables]
  have hsem : Sem db E' t ρ' ↔ At db t E' ρ' := by
    unfold Sem
    rw [hst]
    simp [evalFrom]
  rw [hsem]
  constructor
  · intro h x hx
    cases hv : AMap.get cc.vals x with
    | some v =>
      rw [hat.vals x v hv, h.vals x v (by rw [ht.vals]; simp [only, hx, hv])]
    | none =>
      obtain ⟨q, r, hc⟩ := ht.bound x hx hv
      obtain ⟨ty, h1, -⟩ := hr.cols.known hat.live x _ hc (hU x hx)
      have e1 := hat.known x _ h1
      have e2 := h.known x (TypeSet.one ty) (by rw [ht.known, if_pos hx]; exact h1)
      simp only [TypeSet.one, decide_eq_true_eq] at e1 e2
      have e3 := hat.cols x _ hc q (by simp)
      have e4 := h.cols x [q] (by rw [ht.colb, if_pos ⟨hx, hv⟩, hc]; rfl) q (by simp)
      exact toSql_inj (hρ' x) (hρ x) (e2.trans e1.symm) (e4.symm.trans e3)
  · intro h
    refine ⟨ht.empty ▸ hat.live, ?_, ?_, ?_, by rw [ht.wheres]; rfl, ?_, ?_⟩
    · intro x v hx
      rw [ht.vals] at hx
      obtain ⟨hxU, hx⟩ := ite_some hx
      rw [h x hxU]; exact hat.vals x v hx
    · intro x ts hx
      rw [ht.known] at hx
      obtain ⟨hxU, hx⟩ := ite_some hx
      rw [h x hxU]; exact hat.known x ts hx
    · intro x ts hx
      rw [ht.required] at hx
      obtain ⟨hxU, hx⟩ := ite_some hx
      rw [h x hxU]; exact hat.req x ts hx
    · intro x qs hx q hq
      obtain ⟨hxU, -, q', r, rfl, hc⟩ := ht.col hx
      rw [List.mem_singleton] at hq
      subst hq
      rw [h x hxU]
      exact hat.cols x _ hc q (by simp)
    · intro x q hx
      rw [ht.extracted] at hx
      obtain ⟨hxU, hx⟩ := ite_some hx
      exact absurd (hr.inv.tags x q hx) (hU x hxU)

theorem tmpl_unmet {cc t : CC} {U : List Var} (ht : Tmpl U cc t) {x : Var} (hx : x ∉ U) : Unmet t x := by
  refine ⟨by rw [ht.vals]; simp [only, hx], by rw [ht.known]; simp [hx], ?_, by rw [ht.extracted]; simp [hx], ?_⟩
  · rw [ht.colb]; simp [hx]
  · rw [ht.inputs]; simp [hx]

/-! ### `not` -/

/-- The variables a `not` unifies. -/
def unified : UnifyVars → List WhereClause → List Var
  | none, cs => WhereClause.varsAll cs
  | some vs, _ => vs

theorem applyClause_not (cc : CC) (unify : UnifyVars) (cs : List WhereClause) :
    applyClause k cc (.not unify cs) = if !validateNot unify cs then .err .other else
      (cc.notBindings (cc.template (dedup (unified unify cs))) (dedup (unified unify cs))).bind fun tmpl =>
        (tmpl.firstPass cs).bind fun t0 => (applyRun k t0 [] cs).bind fun t => cc.joinNot t := by
  cases unify <;> simp only [applyClause, unified]

theorem mem_dedup' {x : Var} {l : List Var} : x ∈ dedup l ↔ x ∈ l := by
  exact mem_dedup

theorem sat_not {s : Schema} {facts : Facts} {ρ : Assign} (hρ : ρ.Proper) (unify : UnifyVars) (cs : List WhereClause) :
    Sat s facts ρ (.not unify cs) ↔
      ¬ ∃ ρ' : Assign, ρ'.Proper ∧ (∀ x ∈ unified unify cs, ρ' x = ρ x) ∧ SatAll s facts ρ' cs := by
  cases unify with
  | some vs => simp only [Sat, unified]
  | none =>
    simp only [Sat, unified]
    refine not_congr ⟨fun h => ⟨ρ, hρ, fun _ _ => rfl, h⟩, ?_⟩
    rintro ⟨ρ', hρ', h1, h2⟩
    exact (satAll_congr cs hρ hρ' fun x hx => (h1 x hx).symm).mpr h2

theorem evalSelect_ne {env : Env} {tables : List STable} {wh : List Constraint} :
    (evalSelect db env (.mk false [] tables wh [] none)).isEmpty = true ↔
      ¬ ∃ loc ∈ evalFrom db env tables, evalAll db (loc ++ env) wh = true := by
  simp only [evalSelect, finishRows, Bool.false_eq_true, if_false, List.isEmpty_nil, if_true, List.isEmpty_iff,
    List.map_eq_nil_iff, List.filter_eq_nil_iff]
  constructor
  · rintro h ⟨loc, hl, hw⟩; exact h loc hl hw
  · intro h loc hl hw; exact h ⟨loc, hl, hw⟩

theorem step_not (hk : k.cache = none) (hd : DbOk k.schema db) {unify : UnifyVars} {cs : List WhereClause}
    (hb : WhereClause.basicAll cs = true) (hU : ∀ x ∈ unified unify cs, ¬ L x)
    (hg : ∃ p, .pattern p ∈ cs ∧ p.a.Given (only (unified unify cs) vals))
    (hlo : LooseOnce L cs)
    (hok : ∀ F', RunOk False k F' L db (only (unified unify cs) vals) cs) :
    ClauseStep T k F L db vals (.not unify cs) := by
  intro cc cc' h hr _
  rw [applyClause_not] at h
  split at h
  · cases h
  rw [bind_iff] at h
  obtain ⟨tm, h1, h⟩ := h
  rw [bind_iff] at h
  obtain ⟨t0, h2, h⟩ := h
  rw [bind_iff] at h
  obtain ⟨t, h3, h⟩ := h
  have hT := tmpl_of h1
  have hmem : ∀ x, x ∈ dedup (unified unify cs) ↔ x ∈ unified unify cs := fun x => mem_dedup'
  have honly : only (dedup (unified unify cs)) vals = only (unified unify cs) vals := by
    funext x; simp only [only, hmem]
  have hU' : ∀ x ∈ dedup (unified unify cs), ¬ L x := fun x hx => hU x ((hmem x).mp hx)
  have hrt := tmpl_ready hr hU' hT
  rw [honly] at hrt
  have mt := (firstPass_mono cs h2).trans (applyRun_mono hk cs [] hb h3)
  have hpt : t.panics = false := by rw [mt.panics]; exact hT.panics
  obtain ⟨st, -⟩ := step_clauses hk hd (hok (Outer F db cc)) h2 h3 hrt (fun c hc _ x hx hL =>
    tmpl_unmet hT fun hx' => hU' x hx' hL) hlo
  have hcon : Con t := by
    refine applyRun_con hk cs [] hb h3 (.inr (.inr ?_))
    obtain ⟨p, hp, hpg⟩ := hg
    exact ⟨p, hp, by rw [(firstPass_mono cs h2).vals, hT.vals, hr.vals, honly]; exact hpg⟩
  have hcnt : cc.counter ≤ t.counter := by rw [← hT.counter]; exact st.counter
  -- what the clauses mean in the environment of a row
  have key : ∀ E, F E → ∀ loc ∈ evalFrom db E cc.stables, ∀ ρ : Assign, ρ.Proper → At db cc (loc ++ E) ρ →
      (Sat k.schema db.facts ρ (.not unify cs) ↔ ¬ ∃ ρ' : Assign, ρ'.Proper ∧ Sem db (loc ++ E) t ρ') := by
    intro E hE loc hl ρ hρ hat
    rw [sat_not hρ]
    refine not_congr (exists_congr fun ρ' => and_congr_right fun hρ' => ?_)
    rw [st.sem (loc ++ E) ⟨E, loc, hE, hl, rfl, hat.live, hat.wh⟩ ρ' hρ', tmpl_sem hr hU' hT hρ hρ' hat]
    simp only [hmem]
  have skip : (∀ E, F E → ∀ loc ∈ evalFrom db E cc.stables, ∀ ρ : Assign, ρ.Proper → At db cc (loc ++ E) ρ →
      ¬ ∃ ρ' : Assign, ρ'.Proper ∧ Sem db (loc ++ E) t ρ') →
      StepOk F L db (· ∈ (WhereClause.not unify cs).vars) cc { cc with counter := t.counter }
        (fun ρ => Sat k.schema db.facts ρ (.not unify cs)) := by
    intro hno
    have := step_conditions (X := (· ∈ (WhereClause.not unify cs).vars)) (P := fun ρ => Sat k.schema db.facts ρ (.not unify cs))
      hr.inv hr.typed hcnt (ws := []) (by simp) (by simp)
      (fun E hE loc hl ρ hρ hat => by
        rw [key E hE loc hl ρ hρ hat]
        simp only [evalAll, true_iff]
        exact hno E hE loc hl ρ hρ hat)
    simpa using this
  unfold joinNot at h
  simp only at h
  split at h
  · rename_i hte
    obtain rfl := Res.ok.inj h
    refine skip ?_
    rintro E hE loc hl ρ hρ hat ⟨ρ', -, hs⟩
    rw [sem_live hs] at hte; cases hte
  rename_i hte
  have hte : t.empty = false := by simpa using hte
  rw [bind_iff] at h
  obtain ⟨t', h4, h⟩ := h
  obtain ⟨hkept, -⟩ := kept_finish (db := db) st.inv h4
  have hfin : ∀ E, F E → ∀ loc ∈ evalFrom db E cc.stables, cc.empty = false → evalAll db (loc ++ E) cc.wheres = true →
      ((∃ ρ' : Assign, ρ'.Proper ∧ Sem db (loc ++ E) t ρ') ↔
        ∃ loc' ∈ evalFrom db (loc ++ E) t'.stables, t'.empty = false ∧ evalAll db (loc' ++ (loc ++ E)) t'.wheres = true) := by
    intro E hE loc hl he hw
    have hF : Outer F db cc (loc ++ E) := ⟨E, loc, hE, hl, rfl, he, hw⟩
    rw [hkept.stables]
    constructor
    · rintro ⟨ρ', hρ', loc', hl', hat'⟩
      exact ⟨loc', hl', (finish_iff st.inv (st.cols hrt.cols) h4 (st.typed _ hF loc' hl')).mpr ⟨ρ', hρ', hat'⟩⟩
    · rintro ⟨loc', hl', hx⟩
      obtain ⟨ρ', hρ', hat'⟩ := (finish_iff st.inv (st.cols hrt.cols) h4 (st.typed _ hF loc' hl')).mp hx
      exact ⟨ρ', hρ', loc', hl', hat'⟩
  split at h
  · rename_i hte'
    obtain rfl := Res.ok.inj h
    refine skip ?_
    intro E hE loc hl ρ hρ hat
    rw [hfin E hE loc hl hat.live hat.wh]
    rintro ⟨loc', -, he', -⟩
    rw [he'] at hte'; cases hte'
  rename_i hte'
  have hte' : t'.empty = false := by simpa using hte'
  split at h
  · rename_i hwe
    exfalso
    obtain ⟨ws, hws⟩ := hkept.wheres
    rw [List.isEmpty_iff, hws] at hwe
    rcases hcon with hc | hc
    · rw [hte] at hc; cases hc
    · exact hc (List.append_eq_nil_iff.mp hwe).1
  · simp only [toSelect, hkept.panics, hpt, Bool.false_eq_true, if_false, hte'] at h
    obtain rfl := Res.ok.inj h
    have href : ∀ K : Alias → Prop, Within K t → ∀ c ∈ [Constraint.notExists (.mk false [] t'.stables t'.wheres [] none)],
        ∀ al ∈ c.refs, K al := by
      intro K hK c hc al ha
      rw [List.mem_singleton] at hc
      subst hc
      simp only [Constraint.refs, Select.refs, List.flatMap_nil, List.append_nil, List.mem_append, List.mem_filter] at ha
      rcases ha with ha | ⟨ha, -⟩
      · exfalso
        have hcomp : t'.computed = [] := by rw [hkept.computed, mt.computed]; exact hT.computed
        have : ∀ l : List Alias, STable.refsAll (l.map fun al => if al.table = .computed then
            (t'.computed[al.n]?).getD (.table al) else .table al) = [] := by
          intro l
          induction l with
          | nil => rfl
          | cons a l ih =>
            have e : (if a.table = .computed then (t'.computed[a.n]?).getD (.table a) else .table a) = STable.table a := by
              rw [hcomp]; split <;> simp
            simp only [List.map_cons, STable.refsAll, ih, List.append_nil, e, STable.refs]
        unfold stables at ha
        rw [this] at ha
        cases ha
      · obtain ⟨c, hc, ha⟩ := mem_refsAll.mp ha
        exact (Within.finish st.inv hK h4).wh c hc al ha
    refine step_conditions hr.inv hr.typed hcnt (ws := [.notExists (.mk false [] t'.stables t'.wheres [] none)])
      (href _ st.inv.fresh) ?_ ?_
    · intro N _ hl
      refine href _ (st.ext.low N (by rw [mt.computed, hT.computed]; exact Nat.zero_le _) ⟨⟨?_, ?_, ?_⟩, ?_⟩).within
      · rw [hT.wheres]; simp
      · intro x qs hx q hq
        obtain ⟨-, -, q', r, rfl, hc⟩ := hT.col hx
        rw [List.mem_singleton] at hq
        subst hq
        exact hl.within.cols x _ hc q (by simp)
      · intro x q hx
        rw [hT.extracted] at hx
        exact hl.within.tags x q (ite_some hx).2
      · rw [hT.tables]; simp
    · intro E hE loc hl ρ hρ hat
      rw [key E hE loc hl ρ hρ hat, hfin E hE loc hl hat.live hat.wh]
      simp only [evalAll, evalC, Bool.and_true, evalSelect_ne, hte', true_and]

end

end CC
end Mentat
