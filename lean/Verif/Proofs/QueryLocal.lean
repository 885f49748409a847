import Verif.Proofs.QueryFrame
/-
Disjunctions with variables of their own: `or-join` joins the rest of the query in the variables of its
list only.  The variables left out are local to it, but what the arms know of their types is broadened into
the clauses of the whole query.  The clauses are compared with ones that know nothing of them.
-/
namespace Mentat
namespace CC

section
variable {D : Var → Prop}

theorem erase_none {α : Type} {m : AMap Var α} {x : Var} (h : AMap.get m x = none) : AMap.erase m x = m := by
  rw [AMap.get_eq_none_iff] at h
  unfold AMap.erase
  refine List.filter_eq_self.mpr fun p hp => ?_
  simp only [decide_eq_true_eq, bne_iff_ne, ne_eq]
  rintro rfl
  exact h (List.mem_map.mpr ⟨p, hp, rfl⟩)

theorem dropKeys_cons_of {α : Type} {p : Var × α} {m : AMap Var α} (h : D p.1) :
    dropKeys D (p :: m : AMap Var α) = dropKeys D m := by
  unfold dropKeys
  simp [h]

theorem dropKeys_cons {α : Type} {p : Var × α} {m : AMap Var α} (h : ¬ D p.1) :
    dropKeys D (p :: m : AMap Var α) = p :: dropKeys D m := by
  unfold dropKeys
  simp [h]

/-- Broadening the types of the variables left out is not seen. -/
theorem Like.broadenLocal : ∀ (l : List (Var × TypeSet)) {a b : CC}, Like D a b →
    LikeR D (a.broadenTypes l) (b.broadenTypes (dropKeys D l))
  | [], a, b, h => .ok h
  | (x, ts) :: l, a, b, h => by
    by_cases hx : D x
    · rw [dropKeys_cons_of (p := (x, ts)) hx, CC.broadenTypes]
      obtain ⟨K, rfl, rfl, hq⟩ := h
      cases hg : AMap.get a.known x with
      | none =>
        have e : (if ts.isUnit = true then AMap.erase a.extracted x else a.extracted) = a.extracted := by
          split
          · exact erase_none (hq x hx).1
          · rfl
        simp only [e]
        exact Like.broadenLocal l ⟨_, rfl, (dropKeys_insert_of a.known hx ts).symm, hq⟩
      | some s =>
        simp only
        split
        · intro _ h; cases h
        · exact Like.broadenLocal l ⟨_, rfl, (dropKeys_insert_of a.known hx _).symm, hq⟩
    · rw [dropKeys_cons (p := (x, ts)) hx, CC.broadenTypes, CC.broadenTypes]
      obtain ⟨K, rfl, hK, hq⟩ := h
      simp only [agree_get hK hx]
      cases AMap.get a.known x with
      | none =>
        refine Like.broadenLocal l ⟨_, rfl, agree_insert hK hx _, fun y hy => ⟨?_, (hq y hy).2⟩⟩
        show AMap.get (if ts.isUnit = true then AMap.erase a.extracted x else a.extracted) y = none
        split
        · rw [AMap.get_erase, (hq y hy).1]; simp
        · exact (hq y hy).1
      | some s =>
        simp only
        refine .ite (fun _ h => by cases h) ?_
        exact Like.broadenLocal l ⟨_, rfl, agree_insert hK hx _, hq⟩

theorem dropKeys_append {α : Type} (m o : AMap Var α) : dropKeys D (m ++ o : AMap Var α) = dropKeys D m ++ dropKeys D o :=
  List.filter_append ..

theorem dropKeys_map {α β : Type} (f : Var × α → β) (m : AMap Var α) :
    dropKeys D (m.map fun p => (p.1, f p) : AMap Var β) = (dropKeys D m).map fun p => (p.1, f p) := by
  unfold dropKeys
  rw [List.filter_map]
  rfl

theorem unionTypes_drop (m o : AMap Var TypeSet) :
    dropKeys D (unionTypes m o) = unionTypes (dropKeys D m) (dropKeys D o) := by
  unfold unionTypes
  rw [dropKeys_append, dropKeys_map, dropKeys_map]
  congr 1
  · refine List.map_congr_left fun p hp => ?_
    rw [dropKeys_get D o (dropKeys_mem.mp hp).2]
  · congr 1
    have e : ∀ p : Var × TypeSet, ¬ D p.1 → AMap.get (dropKeys D m) p.1 = AMap.get m p.1 := fun p h => dropKeys_get D m h
    generalize dropKeys D m = m' at e
    unfold dropKeys
    rw [List.filter_filter, List.filter_filter]
    refine List.filter_congr fun p _ => ?_
    by_cases h : D p.1
    · simp [h]
    · simp [h, e p h]

theorem foldUnion_drop : ∀ (l : List CC) {f : CC → CC} (_ : ∀ c, (f c).known = dropKeys D c.known) (m : AMap Var TypeSet),
    dropKeys D (l.foldl (fun m c => unionTypes m c.known) m) =
      (l.map f).foldl (fun m c => unionTypes m c.known) (dropKeys D m)
  | [], _, _, _ => rfl
  | c :: l, f, hf, m => by
    rw [List.foldl_cons, List.map_cons, List.foldl_cons, hf c, ← unionTypes_drop]
    exact foldUnion_drop l hf _

/-! ### A finished arm, without what it knows of its own variables -/

/-- What the arm knows of the variables it shares. -/
noncomputable def restrict (D : Var → Prop) (U : List Var) (c : CC) : CC :=
  { c with
    known := dropKeys D c.known
    colb := withKeys c.colb U
    vals := withKeys c.vals U
    extracted := withKeys c.extracted U }

theorem restrict_projected {U : List Var} (hD : ∀ x ∈ U, ¬ D x) (c : CC) {x : Var} (hx : x ∈ U) :
    (restrict D U c).projectedColumn x = c.projectedColumn x := by
  unfold projectedColumn knownTypeSet restrict
  simp only [get_withKeys, if_pos hx, dropKeys_get D c.known (hD x hx)]

theorem restrict_columns {U : List Var} (hD : ∀ x ∈ U, ¬ D x) (c : CC) (needed : List Var) : ∀ xs : List Var, (∀ x ∈ xs, x ∈ U) →
    (restrict D U c).armColumns needed xs = c.armColumns needed xs
  | [], _ => rfl
  | x :: xs, hx => by
    rw [armColumns, armColumns, restrict_projected hD c (hx x (by simp)),
      restrict_columns hD c needed xs fun y hy => hx y (List.mem_cons_of_mem _ hy)]
    have e : AMap.get (restrict D U c).extracted x = AMap.get c.extracted x := by
      simp only [restrict, get_withKeys, if_pos (hx x (by simp))]
    rw [e]

theorem restrict_selects {U : List Var} (hD : ∀ x ∈ U, ¬ D x) (needed : List Var) : ∀ cs : List CC,
    armSelects U needed (cs.map (restrict D U)) = armSelects U needed cs
  | [] => rfl
  | c :: cs => by
    rw [List.map_cons, armSelects, armSelects, restrict_selects hD needed cs]
    unfold armSelect
    rw [restrict_columns hD c needed U fun _ h => h]
    rfl

/-- Joining the arms, compared with joining arms that know of the variables shared only. -/
theorem Like.joinLocal {a b : CC} (h : Like D a b) (s : Schema) {U : List Var} (hU : ∀ x ∈ U, ¬ D x) (acc : List CC) :
    LikeR D (a.joinArms s U acc) (b.joinArms s U (acc.map (restrict D U))) := by
  cases acc with
  | nil => exact .ok h.markEmpty
  | cons first rest =>
    have hn : (U.filter fun x => ((first :: rest).map (restrict D U)).any fun c => (c.knownType x).isNone) =
        U.filter fun x => (first :: rest).any fun c => (c.knownType x).isNone := by
      refine List.filter_congr fun x hx => ?_
      rw [List.any_map]
      congr 1
      funext c
      simp only [Function.comp, CC.knownType, restrict, dropKeys_get D c.known (hU x hx)]
    rw [joinArms_eq, List.map_cons, joinArms_eq, ← List.map_cons, hn, restrict_selects hU]
    unfold joinWith
    have e : (rest.map (restrict D U)).foldl (fun m c => unionTypes m c.known) (restrict D U first).known =
        dropKeys D (rest.foldl (fun m c => unionTypes m c.known) first.known) :=
      (foldUnion_drop rest (f := restrict D U) (fun _ => rfl) first.known).symm
    rw [e]
    exact (Like.broadenLocal _ h).bind fun a1 b1 h1 =>
      .ok (h1.joined s hU (fun x hx => hU x (List.mem_filter.mp hx).1) _)

end

section
variable {T T' : Prop} {F : Env → Prop} {L : Var → Prop} {db : Tables} {vals : Var → Option TypedValue} {cc : CC}
  {U : List Var} {τ : Var → ValueType} {n : Nat} {D : Var → Prop}

/-- A finished arm means that its own variables have values with which its clauses are satisfied. -/
theorem done_local (hr : Ready T F L db vals cc) (hU : ∀ x ∈ U, ¬ L x) (hD : ∀ x ∈ U, ¬ D x) {V : Var → Prop}
    (hV : ∀ x, V x → ¬ L x) (hVD : ∀ x, V x → x ∉ U → D x) {c0 c : CC} {P : Assign → Prop}
    (st : StepOk F L db V (start cc U n) c0 P) (he : c0.empty = false)
    (hpin : ∀ x ∈ U, vals x = none → Pinned c0 x (τ x)) (hτ : ∀ x ∈ U, ∀ v, vals x = some v → τ x = v.valueType)
    (hfin : c0.finish = .ok c) :
    Done F db cc U τ (restrict D U c) (fun ρ => ∃ ρ' : Assign, ρ'.Proper ∧ (∀ x ∈ U, ρ' x = ρ x) ∧ P ρ') ∧
      c.counter = c0.counter := by
  have hr0 : Ready T F L db (only U vals) (start cc U n) := start_ready hr hU
  have hc0 := st.cols hr0.cols
  obtain ⟨hkept, hkn, -⟩ := kept_finish (db := db) st.inv hfin
  have hv : ∀ x ∈ U, ∀ v, vals x = some v → AMap.get c0.vals x = some v := by
    intro x hx v hv
    rw [st.vals, start_vals hr]
    simp [only, hx, hv]
  have hlive : cc.empty = false := st.empty he
  have hx0 : ∀ x, AMap.get c0.extracted x = none := by
    intro x
    cases hg : AMap.get c0.extracted x with
    | none => rfl
    | some q =>
      have hL := st.inv.tags x q hg
      by_cases hx : x ∈ U
      · exact absurd hL (hU x hx)
      · by_cases hxV : V x
        · exact absurd hL (hV x hxV)
        · rw [(st.unmet x hxV (start_unmet hx)).tags] at hg; cases hg
  have hkc : c.known = c0.known := finish_known hx0 hfin
  have hkU : ∀ x ∈ U, AMap.get c0.known x = some (TypeSet.one (τ x)) := by
    intro x hx
    cases hvx : vals x with
    | none => exact (hpin x hx hvx).2
    | some v => rw [st.inv.valsKnown he x v (hv x hx v hvx), hτ x hx v hvx]
  have hty : Types U τ (restrict D U c).known := by
    refine ⟨?_, fun x => ?_⟩
    · show AMap.WF (dropKeys D c.known)
      rw [hkc]
      exact st.inv.wfKnown.sublist (List.filter_sublist.map _)
    · show AMap.get (dropKeys D c.known) x = _
      rw [hkc]
      by_cases hx : x ∈ U
      · rw [if_pos hx, dropKeys_get D _ (hD x hx)]; exact hkU x hx
      · rw [if_neg hx]
        by_cases hd : D x
        · exact dropKeys_none D _ hd
        · rw [dropKeys_get D _ hd]
          exact (st.unmet x (fun hxV => hd (hVD x hxV hx)) (start_unmet hx)).known
  have hst : c.stables = c0.stables := by
    unfold CC.stables
    rw [hkept.tables, hkept.computed]
  have hreads : ∀ env (ρ ρ' : Assign), (∀ x ∈ U, ρ' x = ρ x) → At db c0 env ρ' → Reads (restrict D U c) env ρ := by
    intro env ρ ρ' hρ hat
    refine ⟨?_, ?_, ?_, ?_⟩
    · intro x v hx
      simp only [restrict, get_withKeys] at hx
      obtain ⟨hxU, hx⟩ := ite_some hx
      rw [← hρ x hxU]
      exact hat.vals x v (by rw [← hkept.vals]; exact hx)
    · intro x q qs hx
      simp only [restrict, get_withKeys] at hx
      obtain ⟨hxU, hx⟩ := ite_some hx
      rw [← hρ x hxU]
      exact hat.cols x _ (by rw [← hkept.colb]; exact hx) q (by simp)
    · intro x ts hx
      rw [hty.get] at hx
      obtain ⟨hxU, hx⟩ := ite_some hx
      rw [← Option.some.inj hx, ← hρ x hxU]
      exact hat.known x _ (hkU x hxU)
    · intro x q hx
      simp only [restrict, get_withKeys, hkept.extracted, hx0] at hx
      split at hx <;> cases hx
  refine ⟨⟨hlive, fun x hx s hs => ?_, ?_, hty, fun x hx => ?_, ?_, ?_, ?_⟩, hkept.counter⟩
  · obtain ⟨t, rfl⟩ := hr.inv.unit hlive x s hs
    have := st.keep he x t (by simp [start, receptacle, template, get_withKeys, hx, hs])
    rw [hkU x hx] at this
    exact (Option.some.inj this).symm
  · show c.panics = false
    rw [hkept.panics, st.panics]; rfl
  · have hbd : Bnd c0 x := by
      cases hvx : vals x with
      | none => exact (hpin x hx hvx).1
      | some v => exact .inl ⟨v, hv x hx v hvx⟩
    rcases hbd with ⟨v, hv⟩ | ⟨qs, hq⟩
    · exact .inl ⟨v, by simp only [restrict, get_withKeys, if_pos hx, hkept.vals]; exact hv⟩
    · exact .inr ⟨qs, by simp only [restrict, get_withKeys, if_pos hx, hkept.colb]; exact hq⟩
  · intro x qs hx
    simp only [restrict, get_withKeys] at hx
    exact st.inv.colsNe x qs (by rw [← hkept.colb]; exact (ite_some hx).2)
  · intro E hE loc hl hce hw
    have hl : loc ∈ evalFrom db E c.stables := hl
    rw [hst] at hl
    obtain ⟨ρ, hρ, hat⟩ := (finish_iff st.inv hc0 hfin (st.typed E hE loc hl)).mp ⟨hce, hw⟩
    obtain ⟨hs, hP⟩ := (st.sem E hE ρ hρ).mp ⟨loc, hl, hat⟩
    exact ⟨ρ, hρ, ⟨ρ, hρ, fun _ _ => rfl, hP⟩, (sem_start hr hU).mp hs, hreads _ ρ ρ (fun _ _ => rfl) hat⟩
  · rintro E hE ρ hρ hsh ⟨ρ', hρ', hag, hP⟩
    obtain ⟨loc, hl, hat⟩ := (st.sem E hE ρ' hρ').mpr ⟨(sem_start hr hU).mpr (hsh.congr hag), hP⟩
    obtain ⟨hce, hw⟩ := (finish_iff st.inv hc0 hfin (st.typed E hE loc hl)).mpr ⟨ρ', hρ', hat⟩
    exact ⟨hce, loc, by show loc ∈ evalFrom db E c.stables; rw [hst]; exact hl, hw, hreads _ ρ ρ' hag hat⟩

end

section
variable {T T' : Prop} {F : Env → Prop} {L : Var → Prop} {db : Tables} {k : Known} {vals : Var → Option TypedValue} {cc : CC}
  {U : List Var} {τ : Var → ValueType} {D : Var → Prop}

/-- The arm is satisfied with some values for its own variables. -/
def SatFor (s : Schema) (facts : Facts) (U : List Var) (arm : OrClause) (ρ : Assign) : Prop :=
  ∃ ρ' : Assign, ρ'.Proper ∧ (∀ x ∈ U, ρ' x = ρ x) ∧ SatArm s facts ρ' arm

theorem arms_local (hk : k.cache = none) (hd : DbOk k.schema db) (hr : Ready T F L db vals cc) (hU : ∀ x ∈ U, ¬ L x)
    (hD : ∀ x ∈ U, ¬ D x) (hτ : ∀ x ∈ U, ∀ v, vals x = some v → τ x = v.valueType) : ∀ (arms : List OrClause) {n : Nat}
    {r : List CC × Nat}, (∀ arm ∈ arms, (∀ x ∈ arm.vars, ¬ L x ∧ (x ∉ U → D x)) ∧ RunOk T' k F L db (only U vals) arm.list ∧
      ∀ x ∈ U, vals x = none → ∃ p, .pattern p ∈ arm.list ∧ p.Types k.schema (only U vals) x (τ x)) →
    applyArms k (cc.template U) n (arms.map fun _ => true) arms = .ok r →
    ∃ ps : List (CC × (Assign → Prop)), ps.map Prod.fst = r.1.map (restrict D U) ∧ n ≤ r.2 ∧
      (∀ p ∈ ps, Done F db cc U τ p.1 p.2 ∧ ∃ arm ∈ arms, p.2 = SatFor k.schema db.facts U arm) ∧
      ∀ E, F E → ∀ ρ : Assign, ρ.Proper → Shared cc U ρ → ∀ arm ∈ arms, SatFor k.schema db.facts U arm ρ →
        ∃ p ∈ ps, p.2 ρ
  | [], n, r, _, h => by
    rw [List.map_nil, applyArms] at h
    obtain rfl := Res.ok.inj h
    exact ⟨[], rfl, Nat.le_refl _, by simp, by simp⟩
  | arm :: arms, n, r, hok, h => by
    rw [List.map_cons, applyArms] at h
    simp only [List.headD_cons, if_true, List.tail_cons] at h
    rw [bind_iff] at h
    obtain ⟨c0, hc0, h⟩ := h
    obtain ⟨ha1, ha2, ha3⟩ := hok arm (by simp)
    have hr0 : Ready T' F L db (only U vals) (start cc U n) := start_ready hr hU
    obtain ⟨st, hpin⟩ := step_arm hk hd ha2 (fun x hx => (ha1 x hx).1) hc0 hr0
    have hcnt : n ≤ c0.counter := st.counter
    have hok' := fun a (ha : a ∈ arms) => hok a (List.mem_cons_of_mem _ ha)
    by_cases he : c0.empty = true
    · rw [if_pos he] at h
      obtain ⟨ps, h1, h2, h3, h4⟩ := arms_local hk hd hr hU hD hτ arms hok' h
      refine ⟨ps, h1, Nat.le_trans hcnt h2, fun p hp => ?_, fun E hE ρ hρ hs a ha hsat => ?_⟩
      · obtain ⟨h5, a, ha, h6⟩ := h3 p hp
        exact ⟨h5, a, List.mem_cons_of_mem _ ha, h6⟩
      · rcases List.mem_cons.mp ha with rfl | ha
        · obtain ⟨ρ', hρ', hag, hsat⟩ := hsat
          have := (st.sem E hE ρ' hρ').mpr ⟨(sem_start hr hU).mpr (hs.congr hag), hsat⟩
          rw [sem_live this] at he; cases he
        · exact h4 E hE ρ hρ hs a ha hsat
    · rw [if_neg he, bind_iff] at h
      have he : c0.empty = false := by simpa using he
      obtain ⟨c, hc, h⟩ := h
      rw [bind_iff] at h
      obtain ⟨r', hr', h⟩ := h
      obtain rfl := Res.ok.inj h
      obtain ⟨ps, h1, h2, h3, h4⟩ := arms_local hk hd hr hU hD hτ arms hok' hr'
      obtain ⟨hdone, hcc⟩ := done_local hr hU hD (fun x hx => (ha1 x hx).1) (fun x hx => (ha1 x hx).2) st he
        (fun x hx hv => hpin he x (τ x) (by simp [only, hv]) (ha3 x hx hv)) hτ hc
      refine ⟨(restrict D U c, SatFor k.schema db.facts U arm) :: ps, by simp [h1], ?_, fun p hp => ?_,
        fun E hE ρ hρ hs a ha hsat => ?_⟩
      · exact Nat.le_trans hcnt (by rw [← hcc]; exact h2)
      · rcases List.mem_cons.mp hp with rfl | hp
        · exact ⟨hdone, arm, by simp, rfl⟩
        · obtain ⟨h5, a, ha, h6⟩ := h3 p hp
          exact ⟨h5, a, List.mem_cons_of_mem _ ha, h6⟩
      · rcases List.mem_cons.mp ha with rfl | ha
        · exact ⟨_, List.mem_cons_self, hsat⟩
        · obtain ⟨p, hp, hpρ⟩ := h4 E hE ρ hρ hs a ha hsat
          exact ⟨p, List.mem_cons_of_mem _ hp, hpρ⟩

/-- An `or-join` whose arms have variables of their own asks that one of the arms is satisfied with some values
for them. -/
theorem step_orLocal (hT : T) (hk : k.cache = none) (hd : DbOk k.schema db) {vs : List Var} {arms : List OrClause}
    (hne : arms ≠ []) (hf : fullyUnified (some vs) arms = false) (hL : ∀ x ∈ OrClause.varsAll arms, ¬ L x)
    (hD : ∀ x ∈ OrClause.varsAll arms, x ∈ vs → ¬ D x) (hloc : ∀ x ∈ OrClause.varsAll arms, x ∉ vs → D x) {τ : Var → ValueType}
    (hty : ∀ arm ∈ arms, ∀ x ∈ vs, vals x = none →
      ∃ p, .pattern p ∈ arm.list ∧ p.Types k.schema (only (dedup vs) vals) x (τ x))
    (hrun : ∀ arm ∈ arms, RunOk T k F L db (only (dedup vs) vals) arm.list) {a a' b : CC} (hab : Like D a b)
    (h : applyClause k a (.or (some vs) arms) = .ok a') (hr : Ready T F L db vals b) :
    ∃ b', Like D a' b' ∧ StepOk F L db (· ∈ (WhereClause.or (some vs) arms).vars) b b'
      (fun ρ => Sat k.schema db.facts ρ (.or (some vs) arms)) := by
  rw [applyClause.eq_def] at h
  simp only at h
  split at h
  · cases h
  rename_i hv
  have hv : validateOr (some vs) arms = true := by simpa using hv
  have hsub : ∀ arm ∈ arms, ∀ x ∈ vs, x ∈ arm.vars := by
    simpa only [validateOr, List.all_eq_true, varsSubset, decide_eq_true_eq] using hv
  have h : ((applyArms k (a.template (dedup vs)) a.counter (arms.map fun _ => true) arms).bind fun r =>
      ({ a with counter := r.2 }).joinArms k.schema (dedup vs) r.1) = .ok a' := by
    rcases arms with _ | ⟨c, _ | ⟨d, as⟩⟩
    · exact absurd rfl hne
    · simp only [hf, Bool.false_eq_true, if_false, Option.getD_some] at h
      exact h
    · simp only [hf, Bool.false_eq_true, if_false, Option.getD_some] at h
      exact h
  obtain ⟨τ', hτ'⟩ : ∃ τ' : Var → ValueType, ∀ x, τ' x = match vals x with | some v => v.valueType | none => τ x :=
    ⟨_, fun _ => rfl⟩
  have hτ1 : ∀ x v, vals x = some v → τ' x = v.valueType := fun x v hx => by rw [hτ', hx]
  have hτ2 : ∀ x, vals x = none → τ' x = τ x := fun x hx => by rw [hτ', hx]
  have hUvar : ∀ x ∈ dedup vs, x ∈ OrClause.varsAll arms := by
    intro x hx
    obtain ⟨c, as, rfl⟩ := List.exists_cons_of_ne_nil hne
    exact mem_orVarsAll.mpr ⟨c, by simp, hsub c (by simp) x (mem_dedup'.mp hx)⟩
  have hUD : ∀ x ∈ dedup vs, ¬ D x := fun x hx => hD x (hUvar x hx) (mem_dedup'.mp hx)
  have hUL : ∀ x ∈ dedup vs, ¬ L x := fun x hx => hL x (hUvar x hx)
  rw [bind_iff] at h
  obtain ⟨r, hrr, h⟩ := h
  rw [← hab.template hUD] at hrr
  obtain ⟨ps, h1, h2, h3, h4⟩ := arms_local (T' := T) (τ := τ') (D := D) hk hd hr hUL hUD (fun x _ v hx => hτ1 x v hx) arms
    (fun arm ha => ⟨fun x hx => ⟨hL x (mem_orVarsAll.mpr ⟨arm, ha, hx⟩), fun hxU =>
        hloc x (mem_orVarsAll.mpr ⟨arm, ha, hx⟩) fun hxv => hxU (mem_dedup'.mpr hxv)⟩, hrun arm ha, fun x hx hvx => by
      rw [hτ2 x hvx]; exact hty arm ha x (mem_dedup'.mp hx) hvx⟩) hrr
  obtain ⟨b', hb', hlike⟩ := (hab.withCounter r.2).joinLocal k.schema hUD r.1 a' h
  rw [← h1] at hb'
  refine ⟨b', hlike, (step_joinArms hT hr hUL (fun x _ v hx => hτ1 x v hx) (by rw [← hab.counter] at h2; exact h2)
    (fun p hp => (h3 p hp).1) ?_ ?_ hb').1.mono fun x hx => ?_⟩
  · intro p hp ρ ρ' hρ hρ' he hpρ
    obtain ⟨-, arm, ha, e⟩ := h3 p hp
    rw [e] at hpρ ⊢
    obtain ⟨σ, hσ, hag, hsat⟩ := hpρ
    exact ⟨σ, hσ, fun x hx => (hag x hx).trans (he x hx), hsat⟩
  · intro E hE ρ hρ hs
    simp only [Sat]
    constructor
    · rintro ⟨ρ', hρ', hag, hsat⟩
      obtain ⟨arm, ha, hsat⟩ := satAny_iff.mp hsat
      exact h4 E hE ρ hρ (hs.shared fun _ _ => rfl) arm ha ⟨ρ', hρ', fun x hx => hag x (mem_dedup'.mp hx), hsat⟩
    · rintro ⟨p, hp, hpρ⟩
      obtain ⟨-, arm, ha, e⟩ := h3 p hp
      rw [e] at hpρ
      obtain ⟨ρ', hρ', hag, hsat⟩ := hpρ
      exact ⟨ρ', hρ', fun x hx => hag x (mem_dedup'.mpr hx), satAny_iff.mpr ⟨arm, ha, hsat⟩⟩
  · rw [WhereClause.vars]; exact hUvar x hx

/-! ### Clauses some of which are such disjunctions -/

/-- Applying the clause adds the condition that it is satisfied, to clauses that know nothing of the variables left out. -/
def ClauseStepD (T : Prop) (k : Known) (F : Env → Prop) (L : Var → Prop) (db : Tables) (vals : Var → Option TypedValue)
    (D : Var → Prop) (c : WhereClause) : Prop :=
  ∀ a a' b, Like D a b → applyClause k a c = .ok a' → Ready T F L db vals b → (∀ x ∈ c.vars, L x → Unmet b x) →
    ∃ b', Like D a' b' ∧ StepOk F L db (· ∈ c.vars) b b' (fun ρ => Sat k.schema db.facts ρ c)

theorem ClauseStep.frame (hk : k.cache = none) {c : WhereClause} {s : Schema} {L' : Var → Prop}
    {vals' : Var → Option TypedValue} (hs : c.Simple s L' vals') (hx : ∀ x ∈ c.vars, ¬ D x)
    (h : ClauseStep T k F L db vals c) : ClauseStepD T k F L db vals D c := by
  intro a a' b hab ha hr hu
  obtain ⟨b', hb, hl⟩ := Like.applyClause hk c hs hx hab a' ha
  exact ⟨b', hl, h b b' hb hr hu⟩

/-- The clauses can be applied, to clauses that know nothing of the variables left out. -/
def RunOkD (T : Prop) (k : Known) (F : Env → Prop) (L : Var → Prop) (db : Tables) (vals : Var → Option TypedValue)
    (D : Var → Prop) (cs : List WhereClause) : Prop :=
  ∀ c ∈ cs, (∀ x t, c = .typeAnno x t → ¬ D x) ∧ (∀ p, c = .pattern p → PatOk L vals p ∧ ∀ x ∈ p.vars, ¬ D x) ∧
    (¬ c.IsAnno → ClauseStepD T k F L db vals D c)

theorem step_runLocal (hk : k.cache = none) (hd : DbOk k.schema db) : ∀ (cs : List WhereClause) (pending : List EPattern)
    {a a' b : CC}, RunOkD T k F L db vals D cs → applyRun k a pending cs = .ok a' → Like D a b → Ready T F L db vals b →
    (∀ q ∈ pending, EPattern.Clear D q) →
    (∀ q ∈ pending, Plain L k.schema b q ∧ Settled b.vals q) →
    (∀ q ∈ pending, ∀ x, q.v = .var x → L x → Unmet b x) →
    pending.Pairwise (fun p q => ∀ x, q.v = .var x → L x → p.v ≠ .var x) →
    (∀ c ∈ cs, ¬ c.IsAnno → ∀ x ∈ c.vars, L x → Unmet b x ∧ ∀ q ∈ pending, q.v ≠ .var x) →
    LooseOnce L cs →
    ∃ b', Like D a' b' ∧ StepOk F L db (fun x => HasAny pending x ∨ ∃ c ∈ cs, ¬ c.IsAnno ∧ x ∈ c.vars) b b'
      (fun ρ => (∀ q ∈ pending, ∃ r ∈ db.rows, q.Matches k.schema ρ r) ∧ Rest k.schema db.facts ρ cs)
  | [], pending, a, a', b, _, h, hab, hr, hcl, hp, hu, hpw, _, _ => by
    rw [applyRun] at h
    obtain ⟨b', hb', hl⟩ := Like.applyEvolved hk pending hab hcl a' h
    refine ⟨b', hl, ((step_applyEvolved hk hd pending hr.inv hr.typed hp hu hpw hb').mono fun x hx => .inl hx).congr ?_⟩
    intro _ _ ρ _ _; simp [Rest]
  | c :: cs, pending, a, a', b, hok, h, hab, hr, hcl, hp, hu, hpw, hun, hlo => by
    have hok' : RunOkD T k F L db vals D cs := fun d hd' => hok d (by simp [hd'])
    unfold LooseOnce at hlo
    rw [List.pairwise_cons] at hlo
    by_cases hanno : c.IsAnno
    · cases c with
      | typeAnno y t =>
        rw [applyRun] at h
        obtain ⟨b', hl, st⟩ := step_runLocal hk hd cs pending hok' h hab hr hcl hp hu hpw (fun d hd' => hun d (by simp [hd'])) hlo.2
        refine ⟨b', hl, (st.mono ?_).congr ?_⟩
        · rintro x (hx | ⟨d, hd', hx⟩)
          · exact .inl hx
          · exact .inr ⟨d, by simp [hd'], hx⟩
        · intro _ _ ρ _ _
          simp [Rest, WhereClause.IsAnno]
      | _ => exact hanno.elim
    by_cases hpat : ∃ p, c = .pattern p
    · obtain ⟨p, rfl⟩ := hpat
      obtain ⟨hp0, hpD⟩ := (hok (.pattern p) (by simp)).2.1 p rfl
      rw [applyRun, bind_iff] at h
      obtain ⟨o, ho, h⟩ := h
      rw [← hab.evolvePattern k.schema hpD] at ho
      have hp' : PatOk L (AMap.get b.vals) p := by rw [hr.vals]; exact hp0
      cases o with
      | none =>
        obtain rfl := Res.ok.inj h
        refine ⟨b.markEmpty, hab.markEmpty, StepOk.giveUp hr.inv ?_⟩
        rintro E hE ρ hρ hs ⟨-, hrest⟩
        obtain ⟨q, hq, -⟩ := (evolve_sat hd hp' ho hs).mp (hrest _ (by simp) hanno)
        cases hq
      | some q =>
        obtain ⟨hpl, hset, -, he, ha, hv, ht⟩ := evolvePattern_plain hr.inv hp' ho
        have hin : ∀ x, q.Has x → x ∈ (WhereClause.pattern p).vars := fun x hx => has_vars he ha hv ht hx
        have hunp := hun (.pattern p) (by simp) hanno
        obtain ⟨b', hl, st⟩ := step_runLocal hk hd cs (pending ++ [q]) hok' h hab hr (by
          intro q' hq'
          rw [List.mem_append, List.mem_singleton] at hq'
          rcases hq' with hq' | rfl
          · exact hcl q' hq'
          · exact evolved_clear ho hpD) (by
          intro q' hq'
          rw [List.mem_append, List.mem_singleton] at hq'
          rcases hq' with hq' | rfl
          · exact hp q' hq'
          · exact ⟨hpl, hset⟩) (by
          intro q' hq' x hx hL
          rw [List.mem_append, List.mem_singleton] at hq'
          rcases hq' with hq' | rfl
          · exact hu q' hq' x hx hL
          · exact (hunp x (hin x (.inr (.inr (.inl hx)))) hL).1) (by
          rw [List.pairwise_append]
          refine ⟨hpw, by simp, ?_⟩
          intro a ha' b hb x hx hL
          rw [List.mem_singleton] at hb
          subst hb
          exact (hunp x (hin x (.inr (.inr (.inl hx)))) hL).2 a ha') (by
          intro d hd' hda x hx hL
          refine ⟨(hun d (by simp [hd']) hda x hx hL).1, ?_⟩
          intro q' hq'
          rw [List.mem_append, List.mem_singleton] at hq'
          rcases hq' with hq' | rfl
          · exact (hun d (by simp [hd']) hda x hx hL).2 q' hq'
          · intro hx'
            rcases hlo.1 d hd' with h' | h' | h'
            · exact hanno h'
            · exact hda h'
            · exact h' x (hin x (.inr (.inr (.inl hx')))) hx hL) hlo.2
        refine ⟨b', hl, (st.mono ?_).congr ?_⟩
        · rintro x (⟨q', hq', hx⟩ | ⟨d, hd', hx⟩)
          · rw [List.mem_append, List.mem_singleton] at hq'
            rcases hq' with hq' | rfl
            · exact .inl ⟨q', hq', hx⟩
            · exact .inr ⟨_, by simp, hanno, hin x hx⟩
          · exact .inr ⟨d, by simp [hd'], hx⟩
        · intro E hE ρ hρ hs
          have hsat := evolve_sat hd hp' ho hs
          simp only [Option.some.injEq, exists_eq_left'] at hsat
          simp only [List.mem_append, Rest, List.mem_cons, List.not_mem_nil, or_false]
          constructor
          · rintro ⟨h3, h4⟩
            refine ⟨fun q' hq' => h3 q' (.inl hq'), fun d hd' hda => ?_⟩
            rcases hd' with rfl | hd'
            · exact hsat.mpr (h3 q (.inr rfl))
            · exact h4 d hd' hda
          · rintro ⟨h3, h4⟩
            refine ⟨fun q' hq' => ?_, fun d hd' hda => h4 d (.inr hd') hda⟩
            rcases hq' with hq' | rfl
            · exact h3 q' hq'
            · exact hsat.mp (h4 _ (.inl rfl) hanno)
    · rw [applyRun_other (fun p e => hpat ⟨p, e⟩) hanno, bind_iff] at h
      obtain ⟨a1, h1, h⟩ := h
      rw [bind_iff] at h
      obtain ⟨a2, h2, h⟩ := h
      obtain ⟨b1, hb1, hl1⟩ := Like.applyEvolved hk pending hab hcl a1 h1
      have st0 := step_applyEvolved hk hd pending hr.inv hr.typed hp hu hpw hb1
      have hnp : ∀ x, L x → (∀ q ∈ pending, q.v ≠ .var x) → ¬ HasAny pending x := by
        rintro x hL hx ⟨q, hq, he | ha | hv | ht⟩
        · exact (hp q hq).1.e x he hL
        · exact ((hp q hq).1.a x ha).1 hL
        · exact hx q hq hv
        · exact (hp q hq).1.tx x ht hL
      obtain ⟨b2, hl2, st1⟩ := (hok c (by simp)).2.2 hanno a1 a2 b1 hl1 h2 (hr.step st0) fun x hx hL => by
        obtain ⟨u1, u2⟩ := hun c (by simp) hanno x hx hL
        exact st0.unmet x (hnp x hL u2) u1
      obtain ⟨b', hl, st2⟩ := step_runLocal hk hd cs [] hok' h hl2 ((hr.step st0).step st1) (by simp) (by simp) (by simp) (by simp) (by
        intro d hd' hda x hx hL
        refine ⟨?_, by simp⟩
        obtain ⟨u1, u2⟩ := hun d (by simp [hd']) hda x hx hL
        refine st1.unmet x ?_ (st0.unmet x (hnp x hL u2) u1)
        intro hxc
        rcases hlo.1 d hd' with h' | h' | h'
        · exact hanno h'
        · exact hda h'
        · exact h' x hxc hx hL) hlo.2
      refine ⟨b', hl, ((st0.trans (st1.trans st2)).mono ?_).congr ?_⟩
      · rintro x (hx | hx | ⟨q, hq, -⟩ | ⟨d, hd', hx⟩)
        · exact .inl hx
        · exact .inr ⟨c, by simp, hanno, hx⟩
        · cases hq
        · exact .inr ⟨d, by simp [hd'], hx⟩
      · intro _ _ ρ _ _
        simp only [Rest, List.mem_cons]
        constructor
        · rintro ⟨h3, h4, -, h5⟩
          refine ⟨h3, fun d hd' hda => ?_⟩
          rcases hd' with rfl | hd'
          · exact h4
          · exact h5 d hd' hda
        · rintro ⟨h3, h4⟩
          exact ⟨h3, h4 c (.inl rfl) hanno, by simp, fun d hd' hda => h4 d (.inr hd') hda⟩

/-- Applying a list of clauses adds the condition that they are all satisfied. -/
theorem step_clausesLocal (hk : k.cache = none) (hd : DbOk k.schema db) {cs : List WhereClause} {a a1 a' b : CC}
    (hok : RunOkD T k F L db vals D cs) (h1 : a.firstPass cs = .ok a1) (h2 : applyRun k a1 [] cs = .ok a') (hab : Like D a b)
    (hr : Ready T F L db vals b) (hun : ∀ c ∈ cs, ¬ c.IsAnno → ∀ x ∈ c.vars, L x → Unmet b x) (hlo : LooseOnce L cs) :
    ∃ b', Like D a' b' ∧ StepOk F L db (fun x => ∃ c ∈ cs, ¬ c.IsAnno ∧ x ∈ c.vars) b b'
      (fun ρ => SatAll k.schema db.facts ρ cs) := by
  have hL : ∀ p, .pattern p ∈ cs → ∀ x, p.RefVar x → ¬ L x := by
    intro p hp x hx
    have hpo := ((hok _ hp).2.1 p rfl).1
    rcases hx with hx | hx | hx
    · exact hpo.e x hx
    · exact hpo.a x hx
    · exact hpo.tx x hx
  obtain ⟨b1, hb1, hl1⟩ := Like.firstPass cs hab (fun c hc => ⟨(hok c hc).1, fun p e => ((hok c hc).2.1 p e).2⟩) a1 h1
  have st0 := step_firstPass cs hr.inv hr.typed hL hb1
  obtain ⟨b', hl, st1⟩ := step_runLocal hk hd cs [] hok h2 hl1 (hr.step st0) (by simp) (by simp) (by simp) (by simp)
    (fun c hc hca x hx hLx => ⟨st0.unmet x (fun ⟨p, hp, hpx⟩ => hL p hp x hpx hLx) (hun c hc hca x hx hLx), by simp⟩) hlo
  refine ⟨b', hl, ((st0.trans st1).mono ?_).congr ?_⟩
  · rintro x (⟨p, hp, hx⟩ | ⟨q, hq, -⟩ | hx)
    · exact ⟨_, hp, by simp [WhereClause.IsAnno], refVar_vars hx⟩
    · cases hq
    · exact hx
  · intro _ _ ρ _ _
    rw [← marks_rest]
    simp

end
end CC

/-! ### Queries with such disjunctions -/

/-- The variables an `or-join` keeps to itself. -/
def WhereClause.locals : WhereClause → List Var
  | .or (some vs) arms => if CC.fullyUnified (some vs) arms then [] else (OrClause.varsAll arms).filter fun x => decide (x ∉ vs)
  | _ => []

/-- The variables by which a clause joins the rest of the query. -/
def WhereClause.outer (c : WhereClause) : List Var := c.vars.filter fun x => decide (x ∉ c.locals)

/-- An `or-join` with variables of its own, whose arms are of the kinds treated and give the variables it joins by the
same types. -/
def WhereClause.Joins (s : Schema) (L : Var → Prop) (vals : Var → Option TypedValue) : WhereClause → Prop
  | .or (some vs) arms => arms ≠ [] ∧ CC.fullyUnified (some vs) arms = false ∧ (∀ x ∈ OrClause.varsAll arms, ¬ L x) ∧
      (∃ τ : Var → ValueType, ∀ arm ∈ arms, ∀ x ∈ vs, vals x = none →
        ∃ p, .pattern p ∈ arm.list ∧ p.Types s (CC.only vs vals) x (τ x)) ∧ OrClause.SimpleAll s L (CC.only vs vals) arms
  | _ => False

/-- The variables of an element. -/
def Element.vars : Element → List Var
  | .var x => [x]
  | .corresponding x => [x]
  | .pull x => [x]
  | .aggregate _ args => argVars args

/-- The variables found, ordered by, or mentioned by `:with`. -/
def FindQuery.shown (q : FindQuery) : List Var :=
  q.find.elements.flatMap Element.vars ++ q.withVars ++ (q.order.getD []).map (·.2)

/-- The clauses are of the kinds treated, and the variables `or-join`s keep to themselves are not met outside of
`or-join`s that keep them to themselves. -/
structure ClausesOk (s : Schema) (L : Var → Prop) (vals : Var → Option TypedValue) (q : FindQuery) : Prop where
  each : ∀ c ∈ q.clauses, c.Simple s L vals ∨ c.Joins s L vals
  apart : ∀ c ∈ q.clauses, ∀ x ∈ c.locals, x ∉ q.inVars ∧ x ∉ q.shown ∧ ∀ d ∈ q.clauses, x ∉ d.outer

section
variable {s : Schema} {L : Var → Prop} {vals : Var → Option TypedValue}

theorem WhereClause.Simple.locals {c : WhereClause} (h : c.Simple s L vals) : c.locals = [] := by
  cases c with
  | or unify arms =>
    cases unify with
    | none => rfl
    | some vs =>
      rw [WhereClause.Simple] at h
      simp [WhereClause.locals, h.2.1]
  | _ => rfl

theorem locals_vars {c : WhereClause} {x : Var} (h : x ∈ c.locals) : x ∈ c.vars := by
  cases c with
  | or unify arms =>
    cases unify with
    | none => cases h
    | some vs =>
      simp only [WhereClause.locals] at h
      split at h
      · cases h
      · rw [WhereClause.vars]
        exact (List.mem_filter.mp h).1
  | _ => cases h

theorem WhereClause.Simple.outer {c : WhereClause} (h : c.Simple s L vals) : c.outer = c.vars := by
  unfold WhereClause.outer
  rw [h.locals]
  simp

theorem simpleAll_iff {s : Schema} {vals : Var → Option TypedValue} : ∀ {cs : List WhereClause},
    WhereClause.SimpleAll s L vals cs ↔ ∀ c ∈ cs, c.Simple s L vals
  | [] => by simp [WhereClause.SimpleAll]
  | c :: cs => by simp [WhereClause.SimpleAll, simpleAll_iff (cs := cs)]

theorem simpleArms_iff {s : Schema} {vals : Var → Option TypedValue} : ∀ {as : List OrClause},
    OrClause.SimpleAll s L vals as ↔ ∀ a ∈ as, WhereClause.SimpleAll s L vals a.list
  | [] => by simp [OrClause.SimpleAll]
  | a :: as => by
    simp only [OrClause.SimpleAll, List.forall_mem_cons, simpleArms_iff (as := as)]
    cases a <;> simp [OrClause.Simple, OrClause.list, WhereClause.SimpleAll]

theorem usesAll_iff {o : DataSource} : ∀ {cs : List WhereClause}, WhereClause.usesAll o cs = true ↔ ∃ c ∈ cs, c.uses o = true
  | [] => by simp [WhereClause.usesAll]
  | c :: cs => by simp [WhereClause.usesAll, usesAll_iff (cs := cs)]

theorem usesArms_iff {o : DataSource} : ∀ {as : List OrClause},
    OrClause.usesAll o as = true ↔ ∃ a ∈ as, WhereClause.usesAll o a.list = true
  | [] => by simp [OrClause.usesAll]
  | a :: as => by
    simp only [OrClause.usesAll, Bool.or_eq_true, List.exists_mem_cons_iff, usesArms_iff (as := as)]
    cases a <;> simp [OrClause.uses, OrClause.list, WhereClause.usesAll]

/-- Without such disjunctions. -/
theorem ClausesOk.simple {q : FindQuery} (h : WhereClause.SimpleAll s L vals q.clauses) : ClausesOk s L vals q := by
  have h := simpleAll_iff.mp h
  refine ⟨fun c hc => .inl (h c hc), fun c hc x hx => ?_⟩
  rw [(h c hc).locals] at hx
  cases hx

theorem WhereClause.Joins.shape {c : WhereClause} (h : c.Joins s L vals) : ∃ vs arms, c = .or (some vs) arms := by
  cases c with
  | or unify arms =>
    cases unify with
    | none => exact h.elim
    | some vs => exact ⟨vs, arms, rfl⟩
  | _ => exact h.elim

end

namespace CC

section
variable {k : Known} {L : Var → Prop} {db : Tables} {vals : Var → Option TypedValue}

/-- The variables some `or-join` of the query keeps to itself. -/
def _root_.Mentat.FindQuery.Local (q : FindQuery) (x : Var) : Prop := ∃ c ∈ q.clauses, x ∈ c.locals

theorem runOk_local (hk : k.cache = none) (hd : DbOk k.schema db) {q : FindQuery} (hs : ClausesOk k.schema L vals q)
    (hsrc : ∀ o, WhereClause.usesAll o q.clauses = true → SourceOk db o) (F : Env → Prop) :
    RunOkD True k F L db vals q.Local q.clauses := by
  have hD : ∀ c ∈ q.clauses, ∀ x ∈ c.outer, ¬ q.Local x := by
    rintro c hc x hx ⟨d, hd', hxd⟩
    exact (hs.apart d hd' x hxd).2.2 c hc hx
  intro c hc
  have hu : ∀ o, c.uses o = true → SourceOk db o := fun o ho => hsrc o (usesAll_iff.mpr ⟨c, hc, ho⟩)
  rcases hs.each c hc with hsim | hj
  · have hx := hD c hc
    rw [hsim.outer] at hx
    refine ⟨?_, ?_, fun _ => (simple_step hk hd c hsim hu True F (.inr trivial)).frame hk hsim hx⟩
    · rintro x t rfl; exact hx x (by simp [WhereClause.vars])
    · rintro p rfl
      refine ⟨by rwa [WhereClause.Simple] at hsim, by simpa [WhereClause.vars] using hx⟩
  · obtain ⟨vs, arms, rfl⟩ := hj.shape
    have hx := hD _ hc
    obtain ⟨h1, h2, h3, ⟨τ, h4⟩, h5⟩ := hj
    have ho : ∀ x, only vs vals x = only (dedup vs) vals x := by
      intro x; simp only [only, mem_dedup']
    refine ⟨by simp, by simp, fun _ a a' b hab ha hr _ => step_orLocal trivial hk hd h1 h2 h3 ?_ ?_ (τ := τ) ?_ ?_ hab ha hr⟩
    · intro x hxv hxs
      refine hx x (List.mem_filter.mpr ⟨by rw [WhereClause.vars]; exact hxv, ?_⟩)
      simp only [decide_eq_true_eq, WhereClause.locals, h2]
      simp [hxs]
    · intro x hxv hxs
      refine ⟨_, hc, ?_⟩
      simp only [WhereClause.locals, h2, Bool.false_eq_true, if_false]
      exact List.mem_filter.mpr ⟨hxv, by simpa using hxs⟩
    · intro arm ha x hxs hvx
      obtain ⟨p, hp, ht⟩ := h4 arm ha x hxs hvx
      exact ⟨p, hp, Pattern.types_congr (fun y _ => ho y) ht⟩
    · intro arm ha
      exact simple_arms hk hd arms h5 (by simpa only [WhereClause.uses] using hu) True F trivial arm ha _ fun x _ => ho x

theorem simplifyOrder_like {D : Var → Prop} {a b : CC} (h : Like D a b) : ∀ o : List (Bool × Var), (∀ p ∈ o, ¬ D p.2) →
    b.simplifyOrder o = a.simplifyOrder o
  | [], _ => rfl
  | (d, x) :: o, ho => by
    rw [simplifyOrder, simplifyOrder, h.vals, h.colb, h.knownType (ho (d, x) (by simp)),
      simplifyOrder_like h o fun p hp => ho p (List.mem_cons_of_mem _ hp)]

theorem algebrized' (hk : k.cache = none) (hd : DbOk k.schema db) {q : FindQuery} {inputs : Inputs}
    (hin : inputs.Ok) (hel : ∀ cc : CC, cc.deriveTypes q.find.elements = cc) (hlim : ∀ x, q.limit ≠ .var x)
    (hs : ClausesOk k.schema L (only q.inVars (AMap.get inputs.values)) q) (hlo : LooseOnce L q.clauses)
    (hL : ∀ x ∈ q.inVars, ¬ L x) (hsrc : ∀ o, WhereClause.usesAll o q.clauses = true → SourceOk db o) {a : Algebraic}
    (h : algebrizeQuery k q inputs = .ok a) :
    ∃ b, Like q.Local a.cc b ∧ Algebrized k db L q inputs { a with cc := b } := by
  unfold algebrizeQuery at h
  obtain ⟨q1, hq, h⟩ := bind_iff.mp h
  have hq' : q1 = q := by
    unfold fromParsed at hq
    split at hq
    · cases hq
    · split at hq
      · cases hq
      · cases hl : q.limit with
        | var x => exact absurd hl (hlim x)
        | none => rw [hl] at hq; exact (Res.ok.inj hq).symm
        | fixed n => rw [hl] at hq; exact (Res.ok.inj hq).symm
  rw [hq'] at h
  clear hq' hq
  obtain ⟨a', ha, h⟩ := bind_iff.mp h
  split at h
  · rename_i hun
    obtain rfl := Res.ok.inj h
    unfold algebrize at ha
    obtain ⟨cc0, h0, ha⟩ := bind_iff.mp ha
    simp only at ha
    rw [hel cc0] at ha
    obtain ⟨acc3, h3, ha⟩ := bind_iff.mp ha
    obtain ⟨acc, hafin, ha⟩ := bind_iff.mp ha
    obtain ⟨od, hod, ha⟩ := bind_iff.mp ha
    obtain ⟨lim, hl, ha⟩ := bind_iff.mp ha
    obtain rfl := Res.ok.inj ha
    obtain ⟨hr0, hp0, hi0, hu0, hs0⟩ := ready_init (T := True) (L := L) (db := db) h0 hin hL (· = [])
    unfold applyClauses at h3
    obtain ⟨cc1, h1, h2⟩ := bind_iff.mp h3
    have hlike0 : Like q.Local cc0 cc0 := by
      refine .refl fun x ⟨c, hc, hx⟩ => ?_
      have hx := (hs.apart c hc x hx).1
      unfold withInputs at h0
      obtain ⟨types, g1, h0⟩ := bind_iff.mp h0
      obtain ⟨values, -, h0⟩ := bind_iff.mp h0
      obtain rfl := Res.ok.inj h0
      refine ⟨?_, rfl, rfl⟩
      show AMap.get (types.map fun p => (p.1, TypeSet.one p.2) : AMap Var TypeSet) x = none
      rw [get_mapOne, get_keepKeys g1 x, if_neg hx]; rfl
    obtain ⟨cc3, hlike3, st⟩ := step_clausesLocal (F := (· = [])) hk hd (runOk_local hk hd hs hsrc _) h1 h2 hlike0 hr0
      (fun c _ _ x _ hLx => hu0 x hLx) hlo
    obtain ⟨cc, hfin, hlike⟩ := hlike3.finish _ hafin
    have hpan3 : cc3.panics = false := by rw [st.panics]; exact hp0
    have hr3 := hr0.step st
    obtain ⟨hkept, hkn, -, -⟩ := kept_finish (db := db) hr3.inv hfin
    have hvals : ∀ x, AMap.get cc.vals x = if x ∈ q.inVars then AMap.get inputs.values x else none := by
      intro x
      rw [hkept.vals]
      exact congrFun hr3.vals x
    have hvals0 : ∀ x, AMap.get cc0.vals x = if x ∈ q.inVars then AMap.get inputs.values x else none :=
      fun x => congrFun hr0.vals x
    have hinp : cc.inputs = q.inVars := by rw [hkept.inputs, st.inputs, hi0]
    have hbound : ∀ x ∈ q.inVars, (AMap.get inputs.values x).isSome := by
      intro x hx
      have hun : cc.inputs.filter (fun x => (AMap.get cc.vals x).isNone) = [] := by
        rw [hlike.inputs, hlike.vals]
        simpa [Algebraic.unbound] using hun
      have := List.filter_eq_nil_iff.mp hun x (by rw [hinp]; exact hx)
      rw [hvals x, if_pos hx] at this
      cases hg : AMap.get inputs.values x with
      | none => rw [hg] at this; simp at this
      | some v => rfl
    have hsem : ∀ ρ : Assign, ρ.Proper → (Sem db [] cc3 ρ ↔ IsAnswer k.schema db.facts q inputs.values ρ) := by
      intro ρ hρ
      rw [st.sem [] rfl ρ hρ, hs0]
      constructor
      · rintro ⟨⟨hv, -⟩, hsat⟩
        refine ⟨hρ, ?_, hsat⟩
        intro x hx
        obtain ⟨v, hv'⟩ := Option.isSome_iff_exists.mp (hbound x hx)
        have := hv x v (by rw [hvals0 x, if_pos hx]; exact hv')
        rw [hv', this]
      · rintro ⟨-, hi, hsat⟩
        have hv : ∀ x v, AMap.get cc0.vals x = some v → ρ x = v := by
          intro x v hx
          rw [hvals0 x] at hx
          split at hx
          · rename_i hm
            rw [hi x hm] at hx; exact Option.some.inj hx
          · cases hx
        refine ⟨⟨hv, ?_⟩, hsat⟩
        intro x ts hx
        by_cases hmem : x ∈ q.inVars
        · have h1 : AMap.get cc0.vals x = some (ρ x) := by rw [hvals0 x, if_pos hmem]; exact hi x hmem
          have h0e : cc0.empty = false := by
            unfold withInputs at h0
            obtain ⟨types, -, h0⟩ := bind_iff.mp h0
            obtain ⟨values, -, h0⟩ := bind_iff.mp h0
            obtain rfl := Res.ok.inj h0
            rfl
          rw [hr0.inv.valsKnown h0e x _ h1] at hx
          obtain rfl := Option.some.inj hx
          simp [TypeSet.one]
        · exfalso
          unfold withInputs at h0
          obtain ⟨types, g1, h0⟩ := bind_iff.mp h0
          obtain ⟨values, -, h0⟩ := bind_iff.mp h0
          obtain rfl := Res.ok.inj h0
          have hx : AMap.get (types.map fun p => (p.1, TypeSet.one p.2) : AMap Var TypeSet) x = some ts := hx
          rw [get_mapOne, get_keepKeys g1 x, if_neg hmem] at hx
          cases hx
    have hst : cc.stables = cc3.stables := by
      unfold CC.stables
      rw [hkept.tables, hkept.computed]
    have hj : ∀ loc ∈ evalFrom db [] cc3.stables, JAt L db cc3 (loc ++ []) := hr3.typed [] rfl
    have hreads : ∀ env (ρ : Assign), cc.empty = false → At db cc3 env ρ → Reads cc env ρ := by
      intro env ρ he hat
      refine ⟨?_, ?_, ?_, ?_⟩
      · intro x v hx; exact hat.vals x v (by rw [← hkept.vals]; exact hx)
      · intro x q qs hx; exact hat.cols x _ (by rw [← hkept.colb]; exact hx) q (by simp)
      · intro x ts hx
        rcases hkn he x with hk' | ⟨ts', hr, hk'⟩
        · exact hat.known x ts (by rw [← hk']; exact hx)
        · rw [hk'] at hx; obtain rfl := Option.some.inj hx
          exact hat.req x ts' hr
      · intro x q hx; exact hat.tags x q (by rw [← hkept.extracted]; exact hx)
    have hfound : ∀ ρ, IsAnswer k.schema db.facts q inputs.values ρ → cc.empty = false ∧ ∃ loc ∈ evalFrom db [] cc3.stables,
        evalAll db (loc ++ []) cc.wheres = true ∧ At db cc3 (loc ++ []) ρ := by
      intro ρ hρ
      obtain ⟨loc, hl, hat⟩ := (hsem ρ hρ.proper).mpr hρ
      obtain ⟨he, hw⟩ := (finish_iff hr3.inv hr3.cols hfin (hj loc hl)).mpr ⟨ρ, hρ.proper, hat⟩
      exact ⟨he, loc, hl, hw, hat⟩
    refine ⟨cc, hlike, ⟨rfl, rfl, ?_, hbound, ?_, ?_, ?_, ?_, ?_, ?_⟩, hvals, ?_⟩
    · show cc.panics = false
      rw [hkept.panics]; exact hpan3
    · constructor
      · intro hu
        rw [if_pos hu] at hl
        exact (Res.ok.inj hl).symm
      · intro hu
        rw [if_neg (by simp [hu])] at hl
        cases hq : q.limit with
        | var x => exact absurd hq (hlim x)
        | none => rw [hq] at hl; exact (Res.ok.inj hl).symm
        | fixed n => rw [hq] at hl; exact (Res.ok.inj hl).symm
    · constructor
      · intro ho; rw [ho] at hod; obtain rfl := Res.ok.inj hod; exact ⟨rfl, rfl⟩
      · intro o ho
        rw [ho] at hod
        refine (simplifyOrder_like hlike o ?_).trans hod
        rintro p hp ⟨c, hc, hx⟩
        refine (hs.apart c hc p.2 hx).2.1 (List.mem_append_right _ ?_)
        rw [ho]
        exact List.mem_map.mpr ⟨p, hp, rfl⟩
    · intro he ρ hρ
      have he : cc.empty = true := he
      have := (hfound ρ hρ).1
      rw [he] at this; cases this
    · intro loc hl he hw
      have hl : loc ∈ evalFrom db [] cc.stables := hl
      rw [hst] at hl
      obtain ⟨ρ, hρ, hat⟩ := (finish_iff hr3.inv hr3.cols hfin (hj loc hl)).mp ⟨he, hw⟩
      exact ⟨ρ, (hsem ρ hρ).mp ⟨loc, hl, hat⟩, hreads _ ρ he hat⟩
    · intro ρ hρ
      obtain ⟨he, loc, hl, hw, hat⟩ := hfound ρ hρ
      exact ⟨loc, by rw [hst]; exact hl, hw, hreads _ ρ he hat⟩
    · intro he x hLx hx
      have he : cc.empty = false := he
      cases hv : AMap.get cc.vals x with
      | some v =>
        refine ⟨v.valueType, fun ρ hρ => ?_⟩
        obtain ⟨he, loc, hl, hw, hat⟩ := hfound ρ hρ
        rw [hat.vals x v (by rw [← hkept.vals]; exact hv)]
      | none =>
        have hx : (AMap.get cc.colb x).isSome := by
          rcases hx with hx | hx
          · have hx : (AMap.get cc.vals x).isSome := hx
            rw [hv] at hx; cases hx
          · exact hx
        obtain ⟨qs, hqs⟩ := Option.isSome_iff_exists.mp hx
        rw [hkept.colb] at hqs
        obtain ⟨t, ht, -⟩ := hr3.cols.known (hkept.empty he) x qs hqs hLx
        refine ⟨t, fun ρ hρ => ?_⟩
        obtain ⟨he, loc, hl, hw, hat⟩ := hfound ρ hρ
        have := hat.known x _ ht
        simpa [TypeSet.one] using this
    · intro x hx hx'
      show AMap.get cc.colb x = none
      rw [hkept.colb]
      refine (st.unmet x ?_ ?_).cols
      · rintro ⟨c, hc, -, hm⟩
        exact hx' (mem_varsAll.mpr ⟨c, hc, hm⟩)
      · refine ⟨by rw [hvals0 x, if_neg hx], ?_, ?_, ?_, by rw [hi0]; exact hx⟩
        all_goals
          unfold withInputs at h0
          obtain ⟨types, g1, h0⟩ := bind_iff.mp h0
          obtain ⟨values, -, h0⟩ := bind_iff.mp h0
          obtain rfl := Res.ok.inj h0
        · show AMap.get (types.map fun p => (p.1, TypeSet.one p.2) : AMap Var TypeSet) x = none
          rw [get_mapOne, get_keepKeys g1 x, if_neg hx]; rfl
        · rfl
        · rfl
  · cases h


end
/-! ### What is projected does not depend on the types of variables that are not shown -/

section
variable {D : Var → Prop} {a b : CC}

theorem Like.projectedColumn (h : Like D a b) {x : Var} (hx : ¬ D x) : b.projectedColumn x = a.projectedColumn x := by
  unfold CC.projectedColumn
  rw [h.vals, h.colb, h.knownTypeSet hx]

theorem Like.typeColumn (h : Like D a b) (x : Var) : b.typeColumn x = a.typeColumn x := by
  obtain ⟨K, rfl, -, -⟩ := h
  rfl

theorem Like.projectVar (h : Like D a b) {x : Var} (hx : ¬ D x) (p : Proj) : b.projectVar p x = a.projectVar p x := by
  unfold CC.projectVar
  rw [h.projectedColumn hx]
  congr 1
  funext r
  rw [h.typeColumn]

theorem Like.aggregateColumn (h : Like D a b) {x : Var} (hx : ¬ D x) (op : AggOp) :
    b.aggregateColumn op x = a.aggregateColumn op x := by
  unfold CC.aggregateColumn
  rw [h.knownTypeSet hx, h.vals]

theorem simpleAggregate_vars {op : Option AggOp} {args : List FnArg} {op' : AggOp} {x : Var}
    (h : simpleAggregate op args = some (op', x)) : x ∈ argVars args := by
  unfold simpleAggregate at h
  split at h
  · cases h; simp [argVars]
  · cases h

theorem Like.projectElement (h : Like D a b) {e : Element} (hx : ∀ x ∈ e.vars, ¬ D x) (p : Proj) :
    b.projectElement p e = a.projectElement p e := by
  cases e with
  | var x =>
    simp only [CC.projectElement]
    rw [h.projectVar (hx x (by simp [Element.vars]))]
  | corresponding x =>
    simp only [CC.projectElement]
    rw [h.projectVar (hx x (by simp [Element.vars]))]
  | pull x =>
    have hx := hx x (by simp [Element.vars])
    simp only [CC.projectElement]
    rw [h.projectedColumn hx, h.projectVar hx]
  | aggregate op args =>
    simp only [CC.projectElement]
    cases hs : simpleAggregate op args with
    | none => rfl
    | some y =>
      obtain ⟨op', x⟩ := y
      have hx := hx x (simpleAggregate_vars hs)
      simp only [h.aggregateColumn hx, h.projectedColumn hx, h.knownTypeSet hx, h.typeColumn]

theorem Like.projectLoop (h : Like D a b) : ∀ (es : List Element), (∀ e ∈ es, ∀ x ∈ e.vars, ¬ D x) → ∀ p,
    b.projectElementsLoop p es = a.projectElementsLoop p es
  | [], _, _ => rfl
  | e :: es, hx, p => by
    simp only [CC.projectElementsLoop, h.projectElement (hx e (by simp))]
    congr 1
    funext p'
    exact h.projectLoop es (fun e he => hx e (List.mem_cons_of_mem _ he)) p'

theorem Like.projectNamed (h : Like D a b) : ∀ (xs : List Var), (∀ x ∈ xs, ¬ D x) → ∀ p,
    b.projectNamed p xs = a.projectNamed p xs
  | [], _, _ => rfl
  | x :: xs, hx, p => by
    have ih := h.projectNamed xs fun y hy => hx y (List.mem_cons_of_mem _ hy)
    simp only [CC.projectNamed, h.vals, h.colb, h.knownTypeSet (hx x (by simp)), h.typeColumn, ih]

theorem Like.projectGroup (h : Like D a b) : ∀ (xs : List (Var × Bool)), (∀ x ∈ xs, ¬ D x.1) → ∀ p gb,
    b.projectGroup p gb xs = a.projectGroup p gb xs
  | [], _, _, _ => rfl
  | (x, g) :: xs, hx, p, gb => by
    have ih := h.projectGroup xs fun y hy => hx y (List.mem_cons_of_mem _ hy)
    simp only [CC.projectGroup, h.vals, h.colb, h.knownTypeSet (hx (x, g) (by simp)), h.typeColumn, ih]

theorem Like.projectWith (h : Like D a b) : ∀ (xs : List Var), (∀ x ∈ xs, ¬ D x) → ∀ p,
    b.projectWith p xs = a.projectWith p xs
  | [], _, _ => rfl
  | x :: xs, hx, p => by
    have ih := h.projectWith xs fun y hy => hx y (List.mem_cons_of_mem _ hy)
    simp only [CC.projectWith, h.vals, h.projectedColumn (hx x (by simp)), h.typeColumn, ih]

theorem projectVar_groups {p p' : Proj} {x : Var} (h : a.projectVar p x = .ok p') :
    p'.outerVars = p.outerVars ∧ p'.corrVars = p.corrVars := by
  unfold CC.projectVar at h
  obtain ⟨r, -, h⟩ := bind_iff.mp h
  simp only at h
  split at h
  · cases h; exact ⟨rfl, rfl⟩
  · obtain ⟨tc, -, h⟩ := bind_iff.mp h
    cases h; exact ⟨rfl, rfl⟩

theorem projectElement_groups {e : Element} (hx : ∀ x ∈ e.vars, ¬ D x) {p p' : Proj} (h : a.projectElement p e = .ok p')
    (hp : ∀ x, x ∈ p.outerVars ∨ x ∈ p.corrVars → ¬ D x) : ∀ x, x ∈ p'.outerVars ∨ x ∈ p'.corrVars → ¬ D x := by
  cases e with
  | var x =>
    simp only [CC.projectElement] at h
    split at h
    · cases h
    · obtain ⟨h1, h2⟩ := projectVar_groups h
      rw [h1, h2]
      intro y hy
      simp only [List.mem_append, List.mem_singleton] at hy
      rcases hy with (hy | rfl) | hy
      · exact hp y (.inl hy)
      · exact hx y (by simp [Element.vars])
      · exact hp y (.inr hy)
  | corresponding x =>
    simp only [CC.projectElement] at h
    split at h
    · cases h
    · obtain ⟨h1, h2⟩ := projectVar_groups h
      rw [h1, h2]
      intro y hy
      simp only [List.mem_append, List.mem_singleton] at hy
      rcases hy with hy | hy | rfl
      · exact hp y (.inl hy)
      · exact hp y (.inr hy)
      · exact hx y (by simp [Element.vars])
  | pull x =>
    simp only [CC.projectElement] at h
    obtain ⟨r, -, h⟩ := bind_iff.mp h
    split at h
    · obtain ⟨h1, h2⟩ := projectVar_groups h
      rw [h1, h2]
      intro y hy
      rcases hy with hy | hy
      · unfold setInsert at hy
        split at hy
        · exact hp y (.inl hy)
        · rcases List.mem_append.mp hy with hy | hy
          · exact hp y (.inl hy)
          · obtain rfl := List.mem_singleton.mp hy
            exact hx y (by simp [Element.vars])
      · exact hp y (.inr hy)
    · cases h
  | aggregate op args =>
    simp only [CC.projectElement] at h
    split at h
    · cases h
    · obtain ⟨r, -, h⟩ := bind_iff.mp h
      obtain ⟨p1, h1, h⟩ := bind_iff.mp h
      cases h
      split at h1
      · cases h1; exact hp
      · obtain ⟨c, -, h1⟩ := bind_iff.mp h1
        split at h1
        · obtain ⟨tc, -, h1⟩ := bind_iff.mp h1
          cases h1; exact hp
        · cases h1; exact hp

theorem projectLoop_groups : ∀ (es : List Element), (∀ e ∈ es, ∀ x ∈ e.vars, ¬ D x) → ∀ {p p' : Proj},
    a.projectElementsLoop p es = .ok p' → (∀ x, x ∈ p.outerVars ∨ x ∈ p.corrVars → ¬ D x) →
      ∀ x, x ∈ p'.outerVars ∨ x ∈ p'.corrVars → ¬ D x
  | [], _, _, _, h, hp => by cases h; exact hp
  | e :: es, hx, p, p', h, hp => by
    rw [CC.projectElementsLoop] at h
    obtain ⟨p1, h1, h⟩ := bind_iff.mp h
    exact projectLoop_groups es (fun e he => hx e (List.mem_cons_of_mem _ he)) h
      (projectElement_groups (hx e (by simp)) h1 hp)

theorem projectNamed_groups : ∀ (xs : List Var), (∀ x ∈ xs, ¬ D x) → ∀ {p p' : Proj},
    a.projectNamed p xs = .ok p' → (∀ x, x ∈ p.outerVars ∨ x ∈ p.corrVars → ¬ D x) →
      ∀ x, x ∈ p'.outerVars ∨ x ∈ p'.corrVars → ¬ D x
  | [], _, _, _, h, hp => by cases h; exact hp
  | x :: xs, hx, p, p', h, hp => by
    have hxs := fun y hy => hx y (List.mem_cons_of_mem _ hy)
    have hp1 : ∀ y, y ∈ p.outerVars ++ [x] ∨ y ∈ p.corrVars → ¬ D y := by
      intro y hy
      simp only [List.mem_append, List.mem_singleton] at hy
      rcases hy with (hy | rfl) | hy
      · exact hp y (.inl hy)
      · exact hx y (by simp)
      · exact hp y (.inr hy)
    rw [CC.projectNamed] at h
    split at h
    · exact projectNamed_groups xs hxs h hp
    · split at h
      · simp only at h
        split at h
        · exact projectNamed_groups xs hxs h hp1
        · obtain ⟨tc, -, h⟩ := bind_iff.mp h
          exact projectNamed_groups xs hxs h hp1
      · cases h

theorem Like.constants (h : Like D a b) : ∀ es : List Element, b.constants es = a.constants es
  | [] => rfl
  | e :: es => by
    cases e <;> simp only [CC.constants, h.vals, h.constants es]

theorem simplifyOrder_named : ∀ (o : List (Bool × Var)) {r}, a.simplifyOrder o = .ok r → ∀ x ∈ r.2, x ∈ o.map (·.2)
  | [], r, h, x, hx => by cases h; cases hx
  | (d, y) :: o, r, h, x, hx => by
    rw [simplifyOrder] at h
    split at h
    · exact List.mem_cons_of_mem _ (simplifyOrder_named o h x hx)
    · split at h
      · cases h
      · obtain ⟨p, h1, h⟩ := bind_iff.mp h
        cases h
        have ih := simplifyOrder_named o h1
        simp only at hx
        split at hx
        · exact List.mem_cons_of_mem _ (ih x hx)
        · rcases List.mem_cons.mp hx with rfl | hx
          · simp
          · exact List.mem_cons_of_mem _ (ih x hx)

theorem runAlgebrized_like (fl : Floats) (db : Tables) {a : Algebraic} {b : CC} (h : Like D a.cc b)
    (hf : ∀ e ∈ a.find.elements, ∀ x ∈ e.vars, ¬ D x) (hn : ∀ x ∈ a.named, ¬ D x) (hw : ∀ x ∈ a.withVars, ¬ D x) :
    runAlgebrized fl db { a with cc := b } = runAlgebrized fl db a := by
  have hproj : projectElements { a with cc := b } = projectElements a := by
    unfold projectElements
    simp only
    rw [h.projectLoop _ hf]
    cases h1 : a.cc.projectElementsLoop {} a.find.elements with
    | err e => rfl
    | panic => rfl
    | ok p1 =>
      simp only [Res.bind]
      split
      · rfl
      have g1 := projectLoop_groups _ hf h1 (by simp)
      rw [h.projectNamed _ hn]
      cases h2 : a.cc.projectNamed p1 a.named with
      | err e => rfl
      | panic => rfl
      | ok p2 =>
        have g2 := projectNamed_groups _ hn h2 g1
        simp only
        split
        · rfl
        rw [h.projectGroup]
        · cases h3 : a.cc.projectGroup p2 [] (p2.outerVars.map (·, true) ++ p2.corrVars.map (·, false)) with
          | err e => rfl
          | panic => rfl
          | ok p3 =>
            simp only
            rw [h.projectWith _ hw]
        · intro y hy
          simp only [List.mem_append, List.mem_map] at hy
          rcases hy with ⟨x, hx, rfl⟩ | ⟨x, hx, rfl⟩
          · exact g2 x (.inl hx)
          · exact g2 x (.inr hx)
  have hsel : ∀ p, selectRows fl db { a with cc := b } p = selectRows fl db a p := by
    obtain ⟨K, rfl, -, -⟩ := h
    intro p
    rfl
  have hcon : fromConstants { a with cc := b } = fromConstants a := by
    unfold fromConstants
    simp only
    rw [h.constants]
  have hunit : ({ a with cc := b } : Algebraic).fullyUnitBound = a.fullyUnitBound := by
    obtain ⟨K, rfl, -, -⟩ := h
    rfl
  unfold runAlgebrized
  rw [hproj, hcon, hunit]
  simp only [hsel, h.empty]

end

section
variable {k : Known} {L : Var → Prop} {db : Tables}

/-- A query of the kinds treated runs as one whose compiled form answers it. -/
theorem algebrized (fl : Floats) (hk : k.cache = none) (hd : DbOk k.schema db) {q : FindQuery} {inputs : Inputs}
    (hin : inputs.Ok) (hel : ∀ cc : CC, cc.deriveTypes q.find.elements = cc) (hlim : ∀ x, q.limit ≠ .var x)
    (hs : ClausesOk k.schema L (only q.inVars (AMap.get inputs.values)) q) (hlo : LooseOnce L q.clauses)
    (hL : ∀ x ∈ q.inVars, ¬ L x) (hsrc : ∀ o, WhereClause.usesAll o q.clauses = true → SourceOk db o) {a : Algebraic}
    (h : algebrizeQuery k q inputs = .ok a) :
    ∃ a', Algebrized k db L q inputs a' ∧ runAlgebrized fl db a' = runAlgebrized fl db a ∧ Like q.Local a.cc a'.cc := by
  obtain ⟨b, hl, al⟩ := algebrized' hk hd hin hel hlim hs hlo hL hsrc h
  refine ⟨_, al, runAlgebrized_like fl db hl ?_ ?_ ?_, hl⟩
  · rintro e he x hx ⟨c, hc, hxc⟩
    refine (hs.apart c hc x hxc).2.1 (List.mem_append_left _ (List.mem_append_left _ (List.mem_flatMap.mpr ⟨e, ?_, hx⟩)))
    have := al.find
    simp only at this
    rwa [this] at he
  · rintro x hx ⟨c, hc, hxc⟩
    refine (hs.apart c hc x hxc).2.1 (List.mem_append_right _ ?_)
    cases ho : q.order with
    | none =>
      have := (al.order.1 ho).2
      simp only at this
      rw [this] at hx
      cases hx
    | some o => exact simplifyOrder_named o (al.order.2 o ho) x hx
  · rintro x hx ⟨c, hc, hxc⟩
    refine (hs.apart c hc x hxc).2.1 (List.mem_append_left _ (List.mem_append_right _ ?_))
    have := al.withs
    simp only at this
    rwa [this] at hx

theorem Like.same {D : Var → Prop} {a b : CC} (h : Like D a b) (hD : ∀ x, ¬ D x) : b = a := by
  obtain ⟨K, rfl, rfl, -⟩ := h
  have : dropKeys D a.known = a.known := by
    unfold dropKeys
    rw [List.filter_eq_self]
    intro p _
    simpa using hD p.1
  rw [this]

/-- Without variables that `or-join`s keep to themselves, the compiled form answers the query. -/
theorem algebrized_plain (hk : k.cache = none) (hd : DbOk k.schema db) {q : FindQuery} {inputs : Inputs}
    (hin : inputs.Ok) (hel : ∀ cc : CC, cc.deriveTypes q.find.elements = cc) (hlim : ∀ x, q.limit ≠ .var x)
    (hs : ClausesOk k.schema L (only q.inVars (AMap.get inputs.values)) q) (hlo : LooseOnce L q.clauses)
    (hL : ∀ x ∈ q.inVars, ¬ L x) (hsrc : ∀ o, WhereClause.usesAll o q.clauses = true → SourceOk db o)
    (hno : ∀ x, ¬ q.Local x) {a : Algebraic} (h : algebrizeQuery k q inputs = .ok a) : Algebrized k db L q inputs a := by
  obtain ⟨b, hl, al⟩ := algebrized' hk hd hin hel hlim hs hlo hL hsrc h
  obtain rfl := hl.same hno
  exact al

end
end CC
end Mentat
