import Verif.Proofs.QueryProject
/-
The pieces `or` is made of: the types the arms agree on, the conjoining clauses an arm starts from, and
the columns an arm projects.
-/
namespace Mentat
namespace CC

/-! ### Types known of some variables -/

/-- The map gives each of these variables, and no other, its one type. -/
structure Types (U : List Var) (τ : Var → ValueType) (m : AMap Var TypeSet) : Prop where
  wf : AMap.WF m
  get : ∀ x, AMap.get m x = if x ∈ U then some (TypeSet.one (τ x)) else none

section
variable {U : List Var} {τ : Var → ValueType} {m o : AMap Var TypeSet}

theorem Types.mem (h : Types U τ m) {p : Var × TypeSet} (hp : p ∈ m) : p.1 ∈ U ∧ p.2 = TypeSet.one (τ p.1) := by
  have := AMap.mem_get h.wf (k := p.1) (v := p.2) hp
  rw [h.get] at this
  obtain ⟨h1, h2⟩ := ite_some this
  exact ⟨h1, (Option.some.inj h2).symm⟩

theorem Types.key (h : Types U τ m) {x : Var} : x ∈ m.map Prod.fst ↔ x ∈ U := by
  constructor
  · intro hx
    obtain ⟨p, hp, rfl⟩ := List.mem_map.mp hx
    exact (h.mem hp).1
  · intro hx
    have := h.get x
    rw [if_pos hx] at this
    exact List.mem_map.mpr ⟨_, AMap.get_some_mem this, rfl⟩

theorem one_union (t : ValueType) : (TypeSet.one t).union (TypeSet.one t) = TypeSet.one t := by
  funext u; simp [TypeSet.union, TypeSet.one]

theorem one_inter (t : ValueType) : (TypeSet.one t).inter (TypeSet.one t) = TypeSet.one t := by
  funext u; simp [TypeSet.inter, TypeSet.one]

theorem one_nonempty (t : ValueType) : (TypeSet.one t).isEmpty = false := by
  rw [Bool.eq_false_iff]
  intro h
  have := TypeSet.isEmpty_iff.mp h t
  simp [TypeSet.one] at this

/-- additional types: the union of equal maps is the map (or.rs:588-600) -/
theorem unionTypes_same (h : Types U τ m) (h' : Types U τ o) : unionTypes m o = m := by
  have e1 : (o.filter fun p => (AMap.get m p.1).isNone) = [] := by
    rw [List.filter_eq_nil_iff]
    intro p hp
    rw [h.get, if_pos (h'.mem hp).1]
    simp
  have e2 : (m.map fun p => (p.1, match AMap.get o p.1 with | some ts => p.2.union ts | none => TypeSet.any)) = m := by
    conv => rhs; rw [← List.map_id m]
    apply List.map_congr_left
    intro p hp
    obtain ⟨h1, h2⟩ := h.mem hp
    rw [h'.get, if_pos h1]
    simp only [h2, one_union, id_eq]
    rw [← h2]
  unfold unionTypes
  rw [e1]
  exact (congrArg (· ++ []) e2).trans (List.append_nil m)

theorem unionTypes_all : ∀ (cs : List CC), Types U τ m → (∀ c ∈ cs, Types U τ c.known) →
    cs.foldl (fun m c => unionTypes m c.known) m = m
  | [], _, _ => rfl
  | c :: cs, h, h' => by
    rw [List.foldl_cons, unionTypes_same h (h' c (by simp))]
    exact unionTypes_all cs h fun c hc => h' c (List.mem_cons_of_mem _ hc)

/-- Broadening by types that are already known, or of variables whose types are not, never widens. -/
theorem broaden_types : ∀ (l : List (Var × TypeSet)) {cc : CC},
    (∀ p ∈ l, p.1 ∈ U ∧ p.2 = TypeSet.one (τ p.1)) →
    (∀ x ∈ U, ∀ s, AMap.get cc.known x = some s → s = TypeSet.one (τ x)) →
    (∀ x ∈ U, AMap.get cc.extracted x = none) →
    ∃ K X, cc.broadenTypes l = .ok { cc with known := K, extracted := X } ∧
      (∀ x, AMap.get X x = AMap.get cc.extracted x) ∧ (AMap.WF cc.known → AMap.WF K) ∧
      ∀ x, AMap.get K x = if x ∈ l.map Prod.fst then some (TypeSet.one (τ x)) else AMap.get cc.known x
  | [], cc, _, _, _ => ⟨cc.known, cc.extracted, rfl, fun _ => rfl, id, fun x => by simp⟩
  | (y, ts) :: r, cc, hl, hk, hx => by
    obtain ⟨hy, hts⟩ := hl (y, ts) (by simp)
    simp only at hy hts
    have hr : ∀ p ∈ r, p.1 ∈ U ∧ p.2 = TypeSet.one (τ p.1) := fun p hp => hl p (List.mem_cons_of_mem _ hp)
    rw [broadenTypes]
    cases hg : AMap.get cc.known y with
    | none =>
      simp only
      have hX : ∀ x, AMap.get (if ts.isUnit then AMap.erase cc.extracted y else cc.extracted) x = AMap.get cc.extracted x := by
        intro x
        split
        · rw [AMap.get_erase]
          split
          · rename_i e; subst e; rw [hx _ hy]
          · rfl
        · rfl
      obtain ⟨K, X, e, hX', hw, hK⟩ := broaden_types r (cc := { cc with
          known := AMap.insert cc.known y ts
          extracted := if ts.isUnit then AMap.erase cc.extracted y else cc.extracted }) hr
        (by
          intro x hxU s hs
          simp only [AMap.get_insert] at hs
          split at hs
          · rename_i e; subst e; rw [← Option.some.inj hs, hts]
          · exact hk x hxU s hs)
        (fun x hxU => by simp only [hX]; exact hx x hxU)
      refine ⟨K, X, e, fun x => by rw [hX']; exact hX x, fun h => hw (AMap.wf_insert h y ts), fun x => ?_⟩
      rw [hK]
      simp only [AMap.get_insert, List.map_cons, List.mem_cons]
      by_cases h1 : x ∈ r.map Prod.fst
      · simp [h1]
      · by_cases h2 : x = y
        · subst h2; simp [hts]
        · have h3 : ¬ y = x := fun e => h2 e.symm
          simp [h1, h2, h3]
    | some s =>
      have hs := hk y hy s hg
      subst hs
      simp only [one_nonempty, Bool.false_and, Bool.false_eq_true, if_false, hts, one_union]
      obtain ⟨K, X, e, hX', hw, hK⟩ := broaden_types r (cc := { cc with
          known := AMap.insert cc.known y (TypeSet.one (τ y)) }) hr
        (by
          intro x hxU s hs
          simp only [AMap.get_insert] at hs
          split at hs
          · rename_i e; subst e; rw [← Option.some.inj hs]
          · exact hk x hxU s hs) hx
      refine ⟨K, X, e, hX', fun h => hw (AMap.wf_insert h y _), fun x => ?_⟩
      rw [hK]
      simp only [AMap.get_insert, List.map_cons, List.mem_cons]
      by_cases h1 : x ∈ r.map Prod.fst
      · simp [h1]
      · by_cases h2 : x = y
        · subst h2; simp
        · have h3 : ¬ y = x := fun e => h2 e.symm
          simp [h1, h2, h3]

/-- Narrowing by types that are already known, or of variables whose types are not. -/
theorem narrow_types : ∀ (l : List (Var × TypeSet)) {cc : CC},
    (∀ p ∈ l, p.1 ∈ U ∧ p.2 = TypeSet.one (τ p.1)) →
    (∀ x ∈ U, ∀ s, AMap.get cc.known x = some s → s = TypeSet.one (τ x)) →
    ∃ K, cc.narrowAll l = { cc with known := K } ∧ (AMap.WF cc.known → AMap.WF K) ∧
      ∀ x, AMap.get K x = if x ∈ l.map Prod.fst then some (TypeSet.one (τ x)) else AMap.get cc.known x
  | [], cc, _, _ => ⟨cc.known, rfl, id, fun x => by simp⟩
  | (y, ts) :: r, cc, hl, hk => by
    obtain ⟨hy, hts⟩ := hl (y, ts) (by simp)
    simp only at hy hts
    have hr : ∀ p ∈ r, p.1 ∈ U ∧ p.2 = TypeSet.one (τ p.1) := fun p hp => hl p (List.mem_cons_of_mem _ hp)
    have hn : cc.narrowTypes y ts = { cc with known := AMap.insert cc.known y (TypeSet.one (τ y)) } := by
      unfold narrowTypes
      rw [hts, one_nonempty]
      simp only [Bool.false_eq_true, if_false]
      cases hg : AMap.get cc.known y with
      | none => rfl
      | some s =>
        have hs := hk y hy s hg
        subst hs
        simp only [one_inter, one_nonempty, Bool.false_eq_true, if_false]
    rw [narrowAll, hn]
    obtain ⟨K, e, hw, hK⟩ := narrow_types r (cc := { cc with
        known := AMap.insert cc.known y (TypeSet.one (τ y)) }) hr
      (by
        intro x hxU s hs
        simp only [AMap.get_insert] at hs
        split at hs
        · rename_i e; subst e; rw [← Option.some.inj hs]
        · exact hk x hxU s hs)
    refine ⟨K, e, fun h => hw (AMap.wf_insert h y _), fun x => ?_⟩
    rw [hK]
    simp only [AMap.get_insert, List.map_cons, List.mem_cons]
    by_cases h1 : x ∈ r.map Prod.fst
    · simp [h1]
    · by_cases h2 : x = y
      · subst h2; simp
      · have h3 : ¬ y = x := fun e => h2 e.symm
        simp [h1, h2, h3]

/-- Folding the types of arms that agree (or.rs:471-478). -/
theorem fold_types : ∀ (cs : List CC) {acc : CC}, (∀ c ∈ cs, Types U τ c.known) →
    (∀ x s, AMap.get acc.known x = some s → x ∈ U ∧ s = TypeSet.one (τ x)) →
    (∀ x, AMap.get acc.extracted x = none) → AMap.WF acc.known → (cs ≠ [] ∨ Types U τ acc.known) →
    ∃ r, foldTypes cs acc = .ok r ∧ Types U τ r.known
  | [], acc, _, _, _, _, h => ⟨acc, rfl, h.resolve_left fun h => h rfl⟩
  | c :: cs, acc, hc, ha, hx, hw, _ => by
    have hT := hc c (by simp)
    obtain ⟨K, X, e, hX, hw', hK⟩ := broaden_types (U := U) (τ := τ) c.known (cc := acc) (fun p hp => hT.mem hp)
      (fun x _ s hs => (ha x s hs).2) (fun x _ => hx x)
    rw [foldTypes, e]
    have hKT : Types U τ K := by
      refine ⟨hw' hw, fun x => ?_⟩
      rw [hK]
      simp only [hT.key]
      split
      · rfl
      · rename_i hn
        cases hg : AMap.get acc.known x with
        | none => rfl
        | some s => exact absurd (ha x s hg).1 hn
    exact fold_types cs (acc := { acc with known := K, extracted := X })
      (fun c hc' => hc c (List.mem_cons_of_mem _ hc'))
      (fun x s hs => by
        simp only [hKT.get] at hs
        obtain ⟨h1, h2⟩ := ite_some hs
        exact ⟨h1, (Option.some.inj h2).symm⟩)
      (fun x => by simp only [hX]; exact hx x) hKT.wf (.inr hKT)

end

/-! ### What an arm starts from -/

/-- or.rs:549-556: an arm is applied to a receptacle of the template, with the counter of aliases of the
arm before. -/
def start (cc : CC) (U : List Var) (n : Nat) : CC := { (cc.template U).receptacle with counter := n }

/-- What an arm is told of the variables it shares with the rest of the query. -/
structure Shared (cc : CC) (U : List Var) (ρ : Assign) : Prop where
  live : cc.empty = false
  vals : ∀ x ∈ U, ∀ v, AMap.get cc.vals x = some v → ρ x = v
  known : ∀ x ∈ U, ∀ ts, AMap.get cc.known x = some ts → ts (ρ x).valueType = true
  req : ∀ x ∈ U, ∀ ts, AMap.get cc.required x = some ts → ts (ρ x).valueType = true

section
variable {T : Prop} {F : Env → Prop} {L : Var → Prop} {db : Tables} {vals : Var → Option TypedValue} {cc : CC}
  {U : List Var} {n : Nat}

theorem Sem.shared {E : Env} {ρ ρ' : Assign} (h : Sem db E cc ρ) (he : ∀ x ∈ U, ρ' x = ρ x) : Shared cc U ρ' := by
  obtain ⟨loc, -, hat⟩ := h
  exact ⟨hat.live, fun x hx v hv => by rw [he x hx]; exact hat.vals x v hv,
    fun x hx ts hv => by rw [he x hx]; exact hat.known x ts hv,
    fun x hx ts hv => by rw [he x hx]; exact hat.req x ts hv⟩

theorem Shared.congr {ρ ρ' : Assign} (h : Shared cc U ρ) (he : ∀ x ∈ U, ρ' x = ρ x) : Shared cc U ρ' :=
  ⟨h.live, fun x hx v hv => by rw [he x hx]; exact h.vals x hx v hv,
    fun x hx ts hv => by rw [he x hx]; exact h.known x hx ts hv,
    fun x hx ts hv => by rw [he x hx]; exact h.req x hx ts hv⟩

theorem start_extracted (hr : Ready T F L db vals cc) (hU : ∀ x ∈ U, ¬ L x) (x : Var) :
    AMap.get (start cc U n).extracted x = none := by
  cases h : AMap.get (start cc U n).extracted x with
  | none => rfl
  | some q =>
    simp only [start, receptacle, template, get_withKeys] at h
    obtain ⟨hx, h⟩ := ite_some h
    exact absurd (hr.inv.tags x q h) (hU x hx)

theorem start_vals (hr : Ready T F L db vals cc) : AMap.get (start cc U n).vals = only U vals := by
  funext x
  simp only [start, receptacle, template, get_withKeys, only, hr.vals]

theorem start_ready {T' : Prop} {F' : Env → Prop} (hr : Ready T F L db vals cc) (hU : ∀ x ∈ U, ¬ L x) :
    Ready T' F' L db (only U vals) (start cc U n) := by
  have hx := start_extracted (n := n) hr hU
  refine ⟨start_vals hr, ⟨?_, ?_, ?_, ?_, ?_, AMap.wf_nil, wf_withKeys hr.inv.wfReq U, ?_, ⟨?_, ?_, ?_⟩, ?_, ?_,
    wf_withKeys hr.inv.wfKnown U⟩, ?_, ⟨?_, ?_⟩, fun _ => ⟨⟨?_, ?_, ?_⟩, ?_⟩⟩
  · intro he x ts h
    simp only [start, receptacle, template, get_withKeys] at h
    exact hr.inv.unit he x ts (ite_some h).2
  · intro he x v h
    simp only [start, receptacle, template, get_withKeys] at h ⊢
    obtain ⟨h1, h2⟩ := ite_some h
    rw [if_pos h1]
    exact hr.inv.valsKnown he x v h2
  · intro x v h
    simp only [start, receptacle, template, get_withKeys] at h
    exact hr.inv.valsProper x v (ite_some h).2
  · intro x hL
    obtain ⟨h1, h2, h3⟩ := hr.inv.loose x hL
    simp [start, receptacle, template, get_withKeys, h1, h2, h3]
  · intro x q h; rw [hx] at h; cases h
  · intro x qs h; simp [start, receptacle, AMap.get] at h
  · intro al h; simp [start, receptacle] at h
  · intro x qs h; simp [start, receptacle, AMap.get] at h
  · intro x q h; rw [hx] at h; cases h
  · intro al h; simp [start, receptacle] at h
  · intro i t h; simp [start, receptacle] at h
  · intro E _ loc _ _ _ x qs h; simp [start, receptacle, AMap.get] at h
  · intro _ x qs h; simp [start, receptacle, AMap.get] at h
  · intro _ x q h; rw [hx] at h; cases h
  · intro al h; simp [start, receptacle] at h
  · intro x qs h; simp [start, receptacle, AMap.get] at h
  · intro x q h; rw [hx] at h; cases h
  · intro al h; simp [start, receptacle] at h

theorem start_unmet {x : Var} (hx : x ∉ U) : Unmet (start cc U n) x := by
  refine ⟨?_, ?_, rfl, ?_, ?_⟩ <;> simp [start, receptacle, template, get_withKeys, hx]

theorem at_start {env : Env} {ρ : Assign} (hr : Ready T F L db vals cc) (hU : ∀ x ∈ U, ¬ L x) :
    At db (start cc U n) env ρ ↔ Shared cc U ρ := by
  have hx := start_extracted (n := n) hr hU
  constructor
  · intro h
    refine ⟨h.live, fun x hx v hv => h.vals x v ?_, fun x hx ts hv => h.known x ts ?_, fun x hx ts hv => h.req x ts ?_⟩ <;>
      simp [start, receptacle, template, get_withKeys, hx, hv]
  · intro h
    refine ⟨h.live, fun x v hv => ?_, fun x ts hv => ?_, fun x ts hv => ?_, rfl, fun x qs hv => ?_, fun x q hv => ?_⟩
    · simp only [start, receptacle, template, get_withKeys] at hv
      exact h.vals x (ite_some hv).1 v (ite_some hv).2
    · simp only [start, receptacle, template, get_withKeys] at hv
      exact h.known x (ite_some hv).1 ts (ite_some hv).2
    · simp only [start, receptacle, template, get_withKeys] at hv
      exact h.req x (ite_some hv).1 ts (ite_some hv).2
    · simp [start, receptacle, AMap.get] at hv
    · rw [hx] at hv; cases hv

theorem sem_start {E : Env} {ρ : Assign} (hr : Ready T F L db vals cc) (hU : ∀ x ∈ U, ¬ L x) :
    Sem db E (start cc U n) ρ ↔ Shared cc U ρ := by
  have hs : (start cc U n).stables = [] := by simp [stables, start, receptacle]
  unfold Sem
  rw [hs]
  simp only [evalFrom, List.mem_singleton, exists_eq_left]
  exact at_start hr hU

end

/-! ### Applying an arm -/

/-- The clauses of an arm. -/
def _root_.Mentat.OrClause.list : OrClause → List WhereClause
  | .clause c => [c]
  | .and cs => cs

theorem mem_varsAll {cs : List WhereClause} {x : Var} : x ∈ WhereClause.varsAll cs ↔ ∃ c ∈ cs, x ∈ c.vars := by
  induction cs with
  | nil => simp [WhereClause.varsAll]
  | cons c cs ih => simp [WhereClause.varsAll, ih]

theorem mem_orVarsAll {arms : List OrClause} {x : Var} : x ∈ OrClause.varsAll arms ↔ ∃ a ∈ arms, x ∈ a.vars := by
  induction arms with
  | nil => simp [OrClause.varsAll]
  | cons c cs ih => simp [OrClause.varsAll, ih]

theorem mem_armVars {arm : OrClause} {x : Var} : x ∈ arm.vars ↔ ∃ c ∈ arm.list, x ∈ c.vars := by
  cases arm with
  | clause c => simp [OrClause.vars, OrClause.list]
  | and cs => simp [OrClause.vars, OrClause.list, mem_varsAll]

theorem satAny_iff {s : Schema} {facts : Facts} {ρ : Assign} {arms : List OrClause} :
    SatAny s facts ρ arms ↔ ∃ a ∈ arms, SatArm s facts ρ a := by
  induction arms with
  | nil => simp [SatAny]
  | cons a as ih => simp [SatAny, ih]

section
variable {T : Prop} {k : Known} {F : Env → Prop} {L : Var → Prop} {db : Tables} {vals : Var → Option TypedValue}

theorem pins_lone (hk : k.cache = none) {p : Pattern} (hp : PatOk L vals p) {cc cc' : CC}
    (h : cc.applyLonePattern k p = .ok cc') (hr : Ready T F L db vals cc) (he : cc'.empty = false) {x : Var}
    {t : ValueType} (hx : vals x = none) (ht : p.Types k.schema vals x t) : Pinned cc' x t := by
  have hp' : PatOk L (AMap.get cc.vals) p := by rw [hr.vals]; exact hp
  unfold applyLonePattern at h
  rw [bind_iff] at h
  obtain ⟨o, ho, h⟩ := h
  cases o with
  | none => obtain rfl := Res.ok.inj h; simp [CC.markEmpty] at he
  | some q =>
    obtain ⟨hpl, -⟩ := evolvePattern_plain hr.inv hp' ho
    exact pins_applyPattern hk hpl h he (evolve_types ho (by rw [hr.vals]; exact hx) (by rw [hr.vals]; exact ht))

theorem step_arm (hk : k.cache = none) (hd : DbOk k.schema db) {arm : OrClause} (hok : RunOk T k F L db vals arm.list)
    (hL : ∀ x ∈ arm.vars, ¬ L x) {cc cc' : CC} (h : applyOrClause k cc arm = .ok cc') (hr : Ready T F L db vals cc) :
    StepOk F L db (· ∈ arm.vars) cc cc' (fun ρ => SatArm k.schema db.facts ρ arm) ∧
      (cc'.empty = false → ∀ x t, vals x = none → (∃ p, .pattern p ∈ arm.list ∧ p.Types k.schema vals x t) →
        Pinned cc' x t) := by
  cases arm with
  | clause c =>
    rw [applyOrClause] at h
    have hc : ClauseStep T k F L db vals c := by
      by_cases ha : c.IsAnno
      · cases c <;> simp only [WhereClause.IsAnno] at ha
        exact step_anno _ _
      · exact (hok c (by simp [OrClause.list]) ha).2
    refine ⟨hc cc cc' h hr fun x hx hLx => absurd hLx (hL x hx), ?_⟩
    rintro he x t hx ⟨p, hp, ht⟩
    simp only [OrClause.list, List.mem_singleton] at hp
    subst hp
    rw [applyClause] at h
    exact pins_lone hk ((hok _ (by simp [OrClause.list]) (by simp [WhereClause.IsAnno])).1 p rfl) h hr he hx ht
  | and cs =>
    rw [applyOrClause, bind_iff] at h
    obtain ⟨cc1, h1, h2⟩ := h
    have hL' : ∀ c ∈ cs, ∀ x ∈ c.vars, ¬ L x := fun c hc x hx => hL x (mem_armVars.mpr ⟨c, hc, hx⟩)
    obtain ⟨st, hpin⟩ := step_clauses hk hd hok h1 h2 hr (fun c hc _ x hx hLx => absurd hLx (hL' c hc x hx))
      (List.Pairwise.imp_of_mem (R := fun _ _ => True)
        (fun {c d} hc _ _ => .inr (.inr fun x hx _ => hL' c hc x hx)) (List.pairwise_of_forall fun _ _ => trivial))
    exact ⟨st.mono fun x ⟨c, hc, _, hx⟩ => mem_armVars.mpr ⟨c, hc, hx⟩, hpin⟩

end

/-! ### A finished arm -/

theorem amap_nil {α : Type} {m : AMap Var α} (h : ∀ x, AMap.get m x = none) : m = [] := by
  cases m with
  | nil => rfl
  | cons p m =>
    have := h p.1
    rw [show p :: m = (p.1, p.2) :: m from rfl, AMap.get_cons] at this
    simp at this

theorem narrowTypes_extracted (cc : CC) (x : Var) (ts : TypeSet) : (cc.narrowTypes x ts).extracted = cc.extracted := by
  unfold narrowTypes
  split
  · rfl
  · cases AMap.get cc.known x with
    | none => rfl
    | some s => simp only; split <;> rfl

/-- Without columns of type tags the types required cannot narrow those known. -/
theorem processLoop_known : ∀ (l : List (Var × TypeSet)) {cc cc' : CC}, (∀ x, AMap.get cc.extracted x = none) →
    cc.processLoop l = .ok cc' → cc'.known = cc.known
  | [], cc, cc', _, h => by obtain rfl := Res.ok.inj h; rfl
  | (x, ts) :: l, cc, cc', hx, h => by
    rw [processLoop] at h
    have hgo : AMap.get (cc.narrowTypes x ts).extracted x = none := by rw [narrowTypes_extracted, hx]
    cases hg : AMap.get cc.known x with
    | none => simp only [hg, hgo] at h; cases h
    | some s =>
      simp only [hg, hgo] at h
      split at h
      · obtain rfl := Res.ok.inj h; rfl
      · split at h
        · exact processLoop_known l hx h
        · cases h

theorem finish_known {cc cc' : CC} (hx : ∀ x, AMap.get cc.extracted x = none) (h : cc.finish = .ok cc') :
    cc'.known = cc.known := by
  unfold finish processRequired at h
  split at h
  · obtain rfl := Res.ok.inj h; rfl
  · refine processLoop_known (cc := cc.expand.prune) _ ?_ h
    intro x
    simp only [prune, expand, amap_nil hx, List.filter_nil]
    rfl

/-- A finished arm whose clauses mean `P`: what it projects, and what its rows are. -/
structure Done (F : Env → Prop) (db : Tables) (cc : CC) (U : List Var) (τ : Var → ValueType) (c : CC)
    (P : Assign → Prop) : Prop where
  live : cc.empty = false
  agree : ∀ x ∈ U, ∀ s, AMap.get cc.known x = some s → s = TypeSet.one (τ x)
  panics : c.panics = false
  types : Types U τ c.known
  bound : ∀ x ∈ U, Bnd c x
  colsNe : ∀ x qs, AMap.get c.colb x = some qs → qs ≠ []
  reads : ∀ E, F E → ∀ loc ∈ evalFrom db E c.stables, c.empty = false → evalAll db (loc ++ E) c.wheres = true →
    ∃ ρ : Assign, ρ.Proper ∧ P ρ ∧ Shared cc U ρ ∧ Reads c (loc ++ E) ρ
  found : ∀ E, F E → ∀ ρ : Assign, ρ.Proper → Shared cc U ρ → P ρ →
    c.empty = false ∧ ∃ loc ∈ evalFrom db E c.stables, evalAll db (loc ++ E) c.wheres = true ∧ Reads c (loc ++ E) ρ

section
variable {T T' : Prop} {F : Env → Prop} {L : Var → Prop} {db : Tables} {vals : Var → Option TypedValue} {cc : CC}
  {U : List Var} {τ : Var → ValueType} {n : Nat}

theorem pinned_types (hr : Ready T F L db vals cc) (hU : ∀ x ∈ U, ¬ L x) {c0 : CC} {P : Assign → Prop}
    (st : StepOk F L db (· ∈ U) (start cc U n) c0 P) (he : c0.empty = false)
    (hpin : ∀ x ∈ U, vals x = none → Pinned c0 x (τ x)) (hτ : ∀ x ∈ U, ∀ v, vals x = some v → τ x = v.valueType) :
    Types U τ c0.known ∧ (∀ x ∈ U, Bnd c0 x) ∧ cc.empty = false ∧
      ∀ x ∈ U, ∀ s, AMap.get cc.known x = some s → s = TypeSet.one (τ x) := by
  have hv : ∀ x ∈ U, ∀ v, vals x = some v → AMap.get c0.vals x = some v := by
    intro x hx v hv
    rw [st.vals, start_vals hr]
    simp [only, hx, hv]
  have hlive : cc.empty = false := st.empty he
  have hty : Types U τ c0.known := by
    refine ⟨st.inv.wfKnown, fun x => ?_⟩
    by_cases hx : x ∈ U
    · rw [if_pos hx]
      cases hvx : vals x with
      | none => exact (hpin x hx hvx).2
      | some v => rw [st.inv.valsKnown he x v (hv x hx v hvx), hτ x hx v hvx]
    · rw [if_neg hx]
      exact (st.unmet x hx (start_unmet hx)).known
  refine ⟨hty, fun x hx => ?_, hlive, fun x hx s hs => ?_⟩
  · cases hvx : vals x with
    | none => exact (hpin x hx hvx).1
    | some v => exact .inl ⟨v, hv x hx v hvx⟩
  · obtain ⟨t, rfl⟩ := hr.inv.unit hlive x s hs
    have := st.keep he x t (by simp [start, receptacle, template, get_withKeys, hx, hs])
    rw [hty.get, if_pos hx] at this
    exact (Option.some.inj this).symm

theorem done_finish (hr : Ready T F L db vals cc) (hU : ∀ x ∈ U, ¬ L x) {c0 c : CC} {P : Assign → Prop}
    (st : StepOk F L db (· ∈ U) (start cc U n) c0 P) (he : c0.empty = false)
    (hpin : ∀ x ∈ U, vals x = none → Pinned c0 x (τ x)) (hτ : ∀ x ∈ U, ∀ v, vals x = some v → τ x = v.valueType)
    (hfin : c0.finish = .ok c) : Done F db cc U τ c P ∧ c.counter = c0.counter := by
  have hr0 : Ready T F L db (only U vals) (start cc U n) := start_ready hr hU
  have hc0 := st.cols hr0.cols
  obtain ⟨hkept, hkn, -⟩ := kept_finish (db := db) st.inv hfin
  obtain ⟨hty, hbd, hlive, hag⟩ := pinned_types hr hU st he hpin hτ
  have hx0 : ∀ x, AMap.get c0.extracted x = none := by
    intro x
    cases hg : AMap.get c0.extracted x with
    | none => rfl
    | some q =>
      have hL := st.inv.tags x q hg
      by_cases hx : x ∈ U
      · exact absurd hL (hU x hx)
      · rw [(st.unmet x hx (start_unmet hx)).tags] at hg; cases hg
  have hst : c.stables = c0.stables := by
    unfold CC.stables
    rw [hkept.tables, hkept.computed]
  have hreads : ∀ env (ρ : Assign), c.empty = false → At db c0 env ρ → Reads c env ρ := by
    intro env ρ he hat
    refine ⟨?_, ?_, ?_, ?_⟩
    · intro x v hx; exact hat.vals x v (by rw [← hkept.vals]; exact hx)
    · intro x q qs hx; exact hat.cols x _ (by rw [← hkept.colb]; exact hx) q (by simp)
    · intro x ts hx
      rcases hkn he x with hk' | ⟨ts', hr, hk'⟩
      · exact hat.known x ts (by rw [← hk']; exact hx)
      · rw [hk'] at hx; obtain rfl := Option.some.inj hx
        exact hat.req x ts' hr
    · intro x q hx; exact hat.tags x q (by rw [← hkept.extracted]; exact hx)
  refine ⟨⟨hlive, hag, ?_, by rw [finish_known hx0 hfin]; exact hty, fun x hx => ?_, ?_, ?_, ?_⟩, hkept.counter⟩
  · rw [hkept.panics, st.panics]; rfl
  · rcases hbd x hx with ⟨v, hv⟩ | ⟨qs, hq⟩
    · exact .inl ⟨v, by rw [hkept.vals]; exact hv⟩
    · exact .inr ⟨qs, by rw [hkept.colb]; exact hq⟩
  · intro x qs hx; exact st.inv.colsNe x qs (by rw [← hkept.colb]; exact hx)
  · intro E hE loc hl hce hw
    rw [hst] at hl
    obtain ⟨ρ, hρ, hat⟩ := (finish_iff st.inv hc0 hfin (st.typed E hE loc hl)).mp ⟨hce, hw⟩
    obtain ⟨hs, hP⟩ := (st.sem E hE ρ hρ).mp ⟨loc, hl, hat⟩
    exact ⟨ρ, hρ, hP, (sem_start hr hU).mp hs, hreads _ ρ hce hat⟩
  · intro E hE ρ hρ hsh hP
    obtain ⟨loc, hl, hat⟩ := (st.sem E hE ρ hρ).mpr ⟨(sem_start hr hU).mpr hsh, hP⟩
    obtain ⟨hce, hw⟩ := (finish_iff st.inv hc0 hfin (st.typed E hE loc hl)).mpr ⟨ρ, hρ, hat⟩
    exact ⟨hce, loc, by rw [hst]; exact hl, hw, hreads _ ρ hce hat⟩

end

end CC
end Mentat
