import Verif.Proofs.QueryOrJoin
import Verif.Proofs.QueryOrSimple
import Mathlib.Data.List.Perm.Subperm
/-
The disjunctions: what the arms are found to be, which of them are left out, and that the clauses made of
them ask that one of the arms is satisfied.
-/
namespace Mentat

/-- What a pattern says of types depends on the values of its variables only. -/
theorem Pattern.types_congr {s : Schema} {vals vals' : Var → Option TypedValue} {p : Pattern} {x : Var} {t : ValueType}
    (h : ∀ y ∈ p.vars, vals y = vals' y) (ht : p.Types s vals x t) : p.Types s vals' x t := by
  rcases ht with ht | ⟨h1, a, at_, h2, h3⟩
  · exact .inl ht
  · refine .inr ⟨h1, a, at_, ?_, h3⟩
    rcases h2 with h2 | h2 | ⟨y, h2, h4⟩
    · exact .inl h2
    · exact .inr (.inl h2)
    · exact .inr (.inr ⟨y, h2, by rw [← h y (by simp [Pattern.vars, h2, NonValue.vars])]; exact h4⟩)

theorem vars_of_list {arm : OrClause} {c : WhereClause} (h : c ∈ arm.list) {x : Var} (hx : x ∈ c.vars) : x ∈ arm.vars := by
  cases arm with
  | clause c' =>
    simp only [OrClause.list, List.mem_singleton] at h
    subst h
    rw [OrClause.vars]; exact hx
  | and cs =>
    rw [OrClause.vars]
    exact CC.mem_varsAll.mpr ⟨c, h, hx⟩

namespace CC

/-! ### The arms of a disjunction -/

/-- The arms a mask keeps. -/
def keptArms (arms : List OrClause) (mask : List Bool) : List OrClause := ((arms.zip mask).filter (·.2)).map (·.1)

theorem keptArms_nil (arms : List OrClause) : keptArms arms [] = [] := by simp [keptArms]

theorem keptArms_cons (arm : OrClause) (arms : List OrClause) (b : Bool) (mask : List Bool) :
    keptArms (arm :: arms) (b :: mask) = if b then arm :: keptArms arms mask else keptArms arms mask := by
  cases b <;> simp [keptArms]

theorem mem_keptArms {arms : List OrClause} {mask : List Bool} {arm : OrClause} (h : arm ∈ keptArms arms mask) : arm ∈ arms := by
  obtain ⟨⟨a, b⟩, h1, rfl⟩ := List.mem_map.mp h
  exact (List.of_mem_zip (List.mem_filter.mp h1).1).1

section
variable {T T' : Prop} {F : Env → Prop} {L : Var → Prop} {db : Tables} {k : Known} {vals : Var → Option TypedValue} {cc : CC}
  {U : List Var} {τ : Var → ValueType}

/-- Each arm kept is applied to what it is told of the variables shared, and is left out only if it cannot be
satisfied. -/
theorem arms_done (hk : k.cache = none) (hd : DbOk k.schema db) (hr : Ready T F L db vals cc) (hU : ∀ x ∈ U, ¬ L x)
    (hτ : ∀ x ∈ U, ∀ v, vals x = some v → τ x = v.valueType) : ∀ (arms : List OrClause) (mask : List Bool) {n : Nat}
    {r : List CC × Nat}, (∀ arm ∈ keptArms arms mask, (∀ x ∈ arm.vars, x ∈ U) ∧ RunOk T' k F L db (only U vals) arm.list ∧
      ∀ x ∈ U, vals x = none → ∃ p, .pattern p ∈ arm.list ∧ p.Types k.schema (only U vals) x (τ x)) →
    applyArms k (cc.template U) n mask arms = .ok r →
    ∃ ps : List (CC × (Assign → Prop)), ps.map Prod.fst = r.1 ∧ n ≤ r.2 ∧
      (∀ p ∈ ps, Done F db cc U τ p.1 p.2 ∧ ∃ arm ∈ keptArms arms mask, p.2 = fun ρ => SatArm k.schema db.facts ρ arm) ∧
      ∀ E, F E → ∀ ρ : Assign, ρ.Proper → Shared cc U ρ → ∀ arm ∈ keptArms arms mask, SatArm k.schema db.facts ρ arm →
        ∃ p ∈ ps, p.2 ρ
  | [], mask, n, r, _, h => by
    rw [applyArms] at h
    obtain rfl := Res.ok.inj h
    refine ⟨[], rfl, Nat.le_refl _, by simp, ?_⟩
    intro E _ ρ _ _ arm harm
    simp [keptArms] at harm
  | arm :: arms, [], n, r, hok, h => by
    rw [applyArms] at h
    simp only [List.headD_nil, Bool.false_eq_true, if_false, List.tail_nil] at h
    obtain ⟨ps, h1, h2, h3, h4⟩ := arms_done hk hd hr hU hτ arms [] (by simp [keptArms_nil]) h
    simp only [keptArms_nil] at h3 h4 ⊢
    exact ⟨ps, h1, h2, h3, h4⟩
  | arm :: arms, false :: mask, n, r, hok, h => by
    rw [applyArms] at h
    simp only [List.headD_cons, Bool.false_eq_true, if_false, List.tail_cons] at h
    have e : keptArms (arm :: arms) (false :: mask) = keptArms arms mask := by rw [keptArms_cons]; rfl
    rw [e] at hok ⊢
    exact arms_done hk hd hr hU hτ arms mask hok h
  | arm :: arms, true :: mask, n, r, hok, h => by
    rw [applyArms] at h
    simp only [List.headD_cons, if_true, List.tail_cons] at h
    have e : keptArms (arm :: arms) (true :: mask) = arm :: keptArms arms mask := by rw [keptArms_cons]; rfl
    rw [e] at hok ⊢
    rw [bind_iff] at h
    obtain ⟨c0, hc0, h⟩ := h
    obtain ⟨ha1, ha2, ha3⟩ := hok arm (by simp)
    have hr0 : Ready T' F L db (only U vals) (start cc U n) := start_ready hr hU
    obtain ⟨st, hpin⟩ := step_arm hk hd ha2 (fun x hx => hU x (ha1 x hx)) hc0 hr0
    have st' := st.mono (Y := (· ∈ U)) ha1
    have hcnt : n ≤ c0.counter := st.counter
    have hok' := fun a (ha : a ∈ keptArms arms mask) => hok a (List.mem_cons_of_mem _ ha)
    by_cases he : c0.empty = true
    · rw [if_pos he] at h
      obtain ⟨ps, h1, h2, h3, h4⟩ := arms_done hk hd hr hU hτ arms mask hok' h
      refine ⟨ps, h1, Nat.le_trans hcnt h2, fun p hp => ?_, fun E hE ρ hρ hs a ha hsat => ?_⟩
      · obtain ⟨h5, a, ha, h6⟩ := h3 p hp
        exact ⟨h5, a, List.mem_cons_of_mem _ ha, h6⟩
      · rcases List.mem_cons.mp ha with rfl | ha
        · have := (st.sem E hE ρ hρ).mpr ⟨(sem_start hr hU).mpr hs, hsat⟩
          rw [sem_live this] at he; cases he
        · exact h4 E hE ρ hρ hs a ha hsat
    · rw [if_neg he, bind_iff] at h
      have he : c0.empty = false := by simpa using he
      obtain ⟨c, hc, h⟩ := h
      rw [bind_iff] at h
      obtain ⟨r', hr', h⟩ := h
      obtain rfl := Res.ok.inj h
      obtain ⟨ps, h1, h2, h3, h4⟩ := arms_done hk hd hr hU hτ arms mask hok' hr'
      obtain ⟨hdone, hcc⟩ := done_finish hr hU st' he (fun x hx hv => hpin he x (τ x) (by simp [only, hv]) (ha3 x hx hv)) hτ hc
      refine ⟨(c, fun ρ => SatArm k.schema db.facts ρ arm) :: ps, by simp [h1], ?_, fun p hp => ?_,
        fun E hE ρ hρ hs a ha hsat => ?_⟩
      · exact Nat.le_trans hcnt (by rw [← hcc]; exact h2)
      · rcases List.mem_cons.mp hp with rfl | hp
        · exact ⟨hdone, arm, by simp, rfl⟩
        · obtain ⟨h5, a, ha, h6⟩ := h3 p hp
          exact ⟨h5, a, List.mem_cons_of_mem _ ha, h6⟩
      · rcases List.mem_cons.mp ha with rfl | ha
        · exact ⟨_, List.mem_cons_self, hsat⟩
        · obtain ⟨p, hp, hpρ⟩ := h4 E hE ρ hρ hs a ha hsat
          exact ⟨p, List.mem_cons_of_mem _ hp, hpρ⟩

end

/-! ### What kind of disjunction it is -/

/-- An arm left out at once: a pattern for which there is no table. -/
def Dropped (cc : CC) (s : Schema) (arm : OrClause) : Prop :=
  ∃ p, arm = .clause (.pattern p) ∧ cc.tableForArm s p = .ok none

/-- The shape of a disjunction of these patterns. -/
def shapeOf (ps : List Pattern) : OrShape :=
  match ps with
  | [] => .empty
  | [p] => .unit p
  | ps => .simple ps

def headShape (pats : List Pattern) (p : Pattern) : Bool :=
  match pats with
  | [] => true
  | q :: _ => sameShape q p

/-- Patterns of one shape, on one table. -/
def Alike (cc : CC) (s : Schema) (tbl : Option DTable) (ps : List Pattern) : Prop :=
  ∀ p ∈ ps, (∃ t, tbl = some t ∧ cc.tableForArm s p = .ok (some t)) ∧ ∀ q, ps.head? = some q → SameVars q p

theorem deconstruct_spec {cc : CC} {s : Schema} : ∀ (arms : List OrClause) (pats : List Pattern) (tbl : Option DTable)
    (mask : List Bool) {shape : OrShape}, Alike cc s tbl pats → cc.deconstruct s pats tbl mask arms = .ok shape →
    (∃ ps tbl', shape = shapeOf ps ∧ Alike cc s tbl' ps ∧
      (∀ arm ∈ arms, Dropped cc s arm ∨ ∃ p ∈ ps, arm = .clause (.pattern p)) ∧ (∀ p ∈ pats, p ∈ ps) ∧
      ∀ p ∈ ps, p ∈ pats ∨ .clause (.pattern p) ∈ arms) ∨
    ∃ m2, shape = .complex (mask ++ m2) ∧ ∀ arm ∈ arms, arm ∈ keptArms arms m2 ∨ Dropped cc s arm
  | [], pats, tbl, mask, shape, hal, h => by
    have h : .ok (shapeOf pats) = Res.ok shape := by
      rw [← h]
      match pats with
      | [] => rfl
      | [p] => rfl
      | p :: q :: ps => rfl
    obtain rfl := Res.ok.inj h
    exact .inl ⟨pats, tbl, rfl, hal, by simp, fun p hp => hp, fun p hp => .inl hp⟩
  | arm :: arms, pats, tbl, mask, shape, hal, h => by
    have hrest : shape = .complex (mask ++ true :: arms.map fun _ => true) →
        ∃ m2, shape = .complex (mask ++ m2) ∧ ∀ a ∈ arm :: arms, a ∈ keptArms (arm :: arms) m2 ∨ Dropped cc s a := by
      rintro rfl
      refine ⟨true :: arms.map fun _ => true, rfl, fun a ha => .inl ?_⟩
      have hall : ∀ l : List OrClause, keptArms l (l.map fun _ => true) = l := by
        intro l
        induction l with
        | nil => rfl
        | cons x l ih => rw [List.map_cons, keptArms_cons, if_pos rfl, ih]
      have := hall (arm :: arms)
      rw [List.map_cons] at this
      rw [this]; exact ha
    by_cases hp : ∃ p, arm = .clause (.pattern p)
    · obtain ⟨p, rfl⟩ := hp
      rw [deconstruct.eq_def] at h
      simp only at h
      rw [bind_iff] at h
      obtain ⟨ot, hot, h⟩ := h
      cases ot with
      | none =>
        simp only at h
        have hdrop : Dropped cc s (.clause (.pattern p)) := ⟨p, rfl, hot⟩
        rcases deconstruct_spec arms pats tbl (mask ++ [false]) hal h with ⟨ps, tbl', h1, h2, h3, h4, h5⟩ | ⟨m2, h1, h2⟩
        · refine .inl ⟨ps, tbl', h1, h2, fun a ha => ?_, h4, fun q hq => (h5 q hq).imp id (List.mem_cons_of_mem _)⟩
          rcases List.mem_cons.mp ha with rfl | ha
          · exact .inl hdrop
          · exact h3 a ha
        · refine .inr ⟨false :: m2, by rw [h1]; simp, fun a ha => ?_⟩
          rw [keptArms_cons, if_neg (by simp)]
          rcases List.mem_cons.mp ha with rfl | ha
          · exact .inr hdrop
          · exact h2 a ha
      | some t =>
        have h : (if headShape pats p && tbl.all (fun t' => decide (t' = t)) then
            cc.deconstruct s (pats ++ [p]) (some t) (mask ++ [true]) arms
            else .ok (.complex (mask ++ true :: arms.map fun _ => true))) = Res.ok shape := by
          cases pats <;> exact h
        split at h
        · rename_i hsame
          simp only [Bool.and_eq_true] at hsame
          obtain ⟨hs1, hs2⟩ := hsame
          have hal' : Alike cc s (some t) (pats ++ [p]) := by
            intro q hq
            have htbl : ∀ t', tbl = some t' → t' = t := by
              rintro t' rfl; simpa using hs2
            refine ⟨⟨t, rfl, ?_⟩, fun q0 h0 => ?_⟩
            · rcases List.mem_append.mp hq with hq | hq
              · obtain ⟨⟨t', ht', e⟩, -⟩ := hal q hq
                rw [e, htbl t' ht']
              · rw [List.mem_singleton.mp hq]; exact hot
            · cases pats with
              | nil =>
                simp only [List.nil_append, List.mem_singleton, List.head?_cons, Option.some.injEq] at hq h0
                subst hq; subst h0
                exact ⟨fun _ => Iff.rfl, fun _ => Iff.rfl, fun _ => Iff.rfl, fun _ => Iff.rfl⟩
              | cons p1 pats =>
                simp only [List.cons_append, List.head?_cons, Option.some.injEq] at h0
                subst h0
                rcases List.mem_append.mp hq with hq | hq
                · exact (hal q hq).2 p1 rfl
                · rw [List.mem_singleton.mp hq]; exact .of_shape hs1
          rcases deconstruct_spec arms (pats ++ [p]) (some t) (mask ++ [true]) hal' h with
            ⟨ps, tbl', h1, h2, h3, h4, h5⟩ | ⟨m2, h1, h2⟩
          · refine .inl ⟨ps, tbl', h1, h2, fun a ha => ?_, fun q hq => h4 q (by simp [hq]), fun q hq => ?_⟩
            · rcases List.mem_cons.mp ha with rfl | ha
              · exact .inr ⟨p, h4 p (by simp), rfl⟩
              · exact h3 a ha
            · rcases h5 q hq with hq | hq
              · rcases List.mem_append.mp hq with hq | hq
                · exact .inl hq
                · rw [List.mem_singleton.mp hq]; exact .inr List.mem_cons_self
              · exact .inr (List.mem_cons_of_mem _ hq)
          · refine .inr ⟨true :: m2, by rw [h1]; simp, fun a ha => ?_⟩
            rw [keptArms_cons, if_pos rfl]
            rcases List.mem_cons.mp ha with rfl | ha
            · exact .inl List.mem_cons_self
            · exact (h2 a ha).imp (List.mem_cons_of_mem _) id
        · exact .inr (hrest (Res.ok.inj h).symm)
    · rw [deconstruct] at h
      · exact .inr (hrest (Res.ok.inj h).symm)
      · intro p e; exact hp ⟨p, e⟩

theorem dropped_unsat {L : Var → Prop} {db : Tables} {k : Known} {cc : CC} (hd : DbOk k.schema db) (hi : Inv L cc)
    {arm : OrClause} (h : Dropped cc k.schema arm) (hp : ∀ p, arm = .clause (.pattern p) → PatOk L (AMap.get cc.vals) p)
    {E : Env} {ρ : Assign} (hs : Sem db E cc ρ) : ¬ SatArm k.schema db.facts ρ arm := by
  obtain ⟨p, rfl, ht⟩ := h
  have hpo := hp p rfl
  rw [SatArm]
  intro hsat
  obtain ⟨o, ho⟩ := evolve_of_tableForArm ht
  obtain ⟨q, rfl, r, hr, hm⟩ := (evolve_sat hd hpo ho hs).mp hsat
  obtain ⟨hpl, -⟩ := evolvePattern_plain hi hpo ho
  rw [tableForArm_evolve ho] at ht
  exact no_match_of_no_table hd hpl (Res.ok.inj ht) hr hm

/-! ### Which variables are shared -/

theorem subset_of_length {α : Type} [DecidableEq α] {l l' : List α} (hn : l.Nodup) (hs : ∀ x ∈ l, x ∈ l')
    (h : l.length = l'.length) : ∀ x ∈ l', x ∈ l := by
  have h1 : l.Subperm l' := List.subperm_of_subset hn hs
  have h2 := h1.perm_of_length_le (Nat.le_of_eq h.symm)
  intro x hx
  exact h2.mem_iff.mpr hx

/-- All arms of a disjunction that is fully unified mention all its variables. -/
theorem arms_same {unify : UnifyVars} {arms : List OrClause} (hv : validateOr unify arms = true)
    (hf : fullyUnified unify arms = true) {arm : OrClause} (ha : arm ∈ arms) {x : Var} (hx : x ∈ OrClause.varsAll arms) :
    x ∈ arm.vars ∧ ∀ vs, unify = some vs → x ∈ vs := by
  cases unify with
  | none =>
    refine ⟨?_, fun vs h => by cases h⟩
    cases arms with
    | nil => cases ha
    | cons a arms =>
      simp only [validateOr, List.all_eq_true, varsEq, varsSubset, Bool.and_eq_true, decide_eq_true_eq] at hv
      obtain ⟨b, hb, hxb⟩ := mem_orVarsAll.mp hx
      have h1 : x ∈ a.vars := by
        rcases List.mem_cons.mp hb with rfl | hb
        · exact hxb
        · exact (hv b hb).2 x hxb
      rcases List.mem_cons.mp ha with rfl | ha
      · exact h1
      · exact (hv arm ha).1 x h1
  | some vs =>
    simp only [validateOr, List.all_eq_true, varsSubset, decide_eq_true_eq] at hv
    simp only [fullyUnified, beq_iff_eq] at hf
    have hsub : ∀ y ∈ dedup vs, y ∈ dedup (OrClause.varsAll arms) := by
      intro y hy
      rw [mem_dedup'] at hy ⊢
      exact mem_orVarsAll.mpr ⟨arm, ha, hv arm ha y hy⟩
    have := subset_of_length (nodup_dedup vs) hsub hf x (by rw [mem_dedup']; exact hx)
    rw [mem_dedup'] at this
    exact ⟨hv arm ha x this, fun vs' h => by cases h; exact this⟩

theorem sat_or {s : Schema} {db : Facts} {unify : UnifyVars} {arms : List OrClause}
    (hsame : ∀ vs, unify = some vs → ∀ x ∈ OrClause.varsAll arms, x ∈ vs) {ρ : Assign} (hρ : ρ.Proper) :
    Sat s db ρ (.or unify arms) ↔ ∃ arm ∈ arms, SatArm s db ρ arm := by
  rw [← satAny_iff]
  cases unify with
  | none => simp only [Sat]
  | some vs =>
    simp only [Sat]
    constructor
    · rintro ⟨ρ', hρ', he, h⟩
      exact (satAny_congr arms hρ' hρ fun x hx => he x (hsame vs rfl x hx)).mp h
    · intro h; exact ⟨ρ, hρ, fun _ _ => rfl, h⟩

/-! ### The disjunction -/

/-- A disjunction all of whose arms share all variables, and give them the same types, asks that one of the arms is
satisfied. -/
theorem step_or {T : Prop} {F : Env → Prop} {L : Var → Prop} {db : Tables} {vals : Var → Option TypedValue} {k : Known}
    (hT : T) (hk : k.cache = none) (hd : DbOk k.schema db) {unify : UnifyVars} {arms : List OrClause} (hne : arms ≠ [])
    (hf : fullyUnified unify arms = true) (hL : ∀ x ∈ OrClause.varsAll arms, ¬ L x) {τ : Var → ValueType}
    (hty : ∀ arm ∈ arms, ∀ x ∈ arm.vars, vals x = none → ∃ p, .pattern p ∈ arm.list ∧ p.Types k.schema vals x (τ x))
    (hrun : ∀ arm ∈ arms, RunOk T k F L db vals arm.list)
    (hrun' : ∀ arm ∈ arms, ∀ U : List Var, (∀ x ∈ arm.vars, x ∈ U) → RunOk T k F L db (only U vals) arm.list) :
    ClauseStep T k F L db vals (.or unify arms) := by
  intro cc cc' h hr _
  rw [applyClause.eq_def] at h
  simp only at h
  split at h
  · cases h
  rename_i hv
  have hv : validateOr unify arms = true := by simpa using hv
  have hsame : ∀ arm ∈ arms, ∀ x ∈ OrClause.varsAll arms, x ∈ arm.vars := fun arm ha x hx => (arms_same hv hf ha hx).1
  have hsat : ∀ ρ : Assign, ρ.Proper → (Sat k.schema db.facts ρ (.or unify arms) ↔
      ∃ arm ∈ arms, SatArm k.schema db.facts ρ arm) := by
    obtain ⟨a, as, rfl⟩ := List.exists_cons_of_ne_nil hne
    intro ρ hρ
    exact sat_or (fun vs e x hx => (arms_same hv hf (List.mem_cons_self (a := a)) hx).2 vs e) hρ
  have hvars : ∀ x ∈ OrClause.varsAll arms, x ∈ (WhereClause.or unify arms).vars := by
    intro x hx
    cases unify with
    | none => rw [WhereClause.vars]; exact hx
    | some vs =>
      rw [WhereClause.vars]
      obtain ⟨a, as, rfl⟩ := List.exists_cons_of_ne_nil hne
      first
        | exact hx
        | exact List.mem_append_right _ hx
        | exact (arms_same hv hf (List.mem_cons_self (a := a)) hx).2 vs rfl
  have hpat : ∀ p, .clause (.pattern p) ∈ arms → PatOk L vals p := fun p hp =>
    (hrun _ hp (.pattern p) (by simp [OrClause.list]) (by simp [WhereClause.IsAnno])).1 p rfl
  have hL' : ∀ arm ∈ arms, ∀ x ∈ arm.vars, ¬ L x := fun arm ha x hx => hL x (mem_orVarsAll.mpr ⟨arm, ha, hx⟩)
  -- the types with those of the values given
  obtain ⟨τ', hτ'⟩ : ∃ τ' : Var → ValueType, ∀ x, τ' x = match vals x with | some v => v.valueType | none => τ x :=
    ⟨_, fun _ => rfl⟩
  have hτ1 : ∀ x v, vals x = some v → τ' x = v.valueType := fun x v hx => by rw [hτ', hx]
  have hτ2 : ∀ x, vals x = none → τ' x = τ x := fun x hx => by rw [hτ', hx]
  rcases arms with _ | ⟨a, _ | ⟨b, as⟩⟩
  · exact absurd rfl hne
  · obtain ⟨arm, rfl⟩ : ∃ arm, arm = a := ⟨a, rfl⟩
    simp only at h
    rw [if_pos hf] at h
    have st := (step_arm hk hd (hrun arm (by simp)) (hL' arm (by simp)) h hr).1
    refine (st.mono fun x hx => hvars x (mem_orVarsAll.mpr ⟨arm, by simp, hx⟩)).congr fun E _ ρ hρ _ => ?_
    rw [hsat ρ hρ]; simp
  · simp only at h
    rw [if_pos hf, bind_iff] at h
    generalize harms : a :: b :: as = arms at *
    obtain ⟨shape, hsh, h⟩ := h
    have hdrop : ∀ {arm}, arm ∈ arms → Dropped cc k.schema arm → ∀ {E ρ}, Sem db E cc ρ →
        ¬ SatArm k.schema db.facts ρ arm := fun ha hdr _ _ hs =>
      dropped_unsat hd hr.inv hdr (fun p e => by rw [hr.vals]; exact hpat p (e ▸ ha)) hs
    rcases deconstruct_spec arms [] none [] (fun p hp => by cases hp) hsh with
      ⟨ps, tbl', rfl, hal, hcov, -, hps⟩ | ⟨mask, rfl, hcov⟩
    · have hps' : ∀ p ∈ ps, .clause (.pattern p) ∈ arms := fun p hp => (hps p hp).resolve_left (by simp)
      have hQ : ∀ E, ∀ ρ : Assign, ρ.Proper → Sem db E cc ρ → ((∃ p ∈ ps, Sat k.schema db.facts ρ (.pattern p)) ↔
          Sat k.schema db.facts ρ (.or unify arms)) := by
        intro E ρ hρ hs
        rw [hsat ρ hρ]
        constructor
        · rintro ⟨p, hp, h1⟩
          exact ⟨_, hps' p hp, by rw [SatArm]; exact h1⟩
        · rintro ⟨arm, ha, h1⟩
          rcases hcov arm ha with hdr | ⟨p, hp, rfl⟩
          · exact absurd h1 (hdrop ha hdr hs)
          · exact ⟨p, hp, by rw [SatArm] at h1; exact h1⟩
      have hpv : ∀ p ∈ ps, ∀ x ∈ p.vars, x ∈ OrClause.varsAll arms := fun p hp x hx =>
        mem_orVarsAll.mpr ⟨_, hps' p hp, by rw [OrClause.vars, WhereClause.vars]; exact hx⟩
      rcases ps with _ | ⟨p1, _ | ⟨p2, ps⟩⟩
      · simp only [shapeOf] at h
        obtain rfl := Res.ok.inj h
        refine StepOk.giveUp hr.inv fun E hE ρ hρ hs hsat' => ?_
        obtain ⟨p, hp, -⟩ := (hQ E ρ hρ hs).mpr hsat'
        cases hp
      · obtain ⟨p, rfl⟩ : ∃ p, p = p1 := ⟨p1, rfl⟩
        simp only [shapeOf] at h
        have st := step_lonePattern (T := T) (F := F) hk hd (hpat p (hps' p (by simp))) cc cc' (by rw [applyClause]; exact h) hr
          (fun x hx hLx => absurd hLx (hL x (hpv p (by simp) x (by rw [WhereClause.vars] at hx; exact hx))))
        refine (st.mono fun x hx => hvars x (hpv p (by simp) x (by rw [WhereClause.vars] at hx; exact hx))).congr
          fun E _ ρ hρ hs => ?_
        rw [← hQ E ρ hρ hs]; simp
      · simp only [shapeOf] at h
        obtain ⟨⟨t, ht, -⟩, -⟩ := hal p1 (by simp)
        have st := step_simpleOr (τ := τ') (t := t) (p0 := p1) hd hr (fun x hx => hL x ((mem_dedup').mp hx)) (fun x _ v hx => hτ1 x v hx)
          (fun p hp => hpat p (hps' p hp)) (fun p hp x hx => mem_dedup'.mpr (hpv p hp x hx)) ?_ (fun p hp => (hal p hp).2 p1 rfl) ?_ h
        · refine (st.mono fun x hx => hvars x (mem_dedup'.mp hx)).congr fun E _ ρ hρ hs => hQ E ρ hρ hs
        · intro p hp x hx hvx
          obtain ⟨p', hp', ht'⟩ := hty _ (hps' p hp) x (hsame _ (hps' p hp) x (mem_dedup'.mp hx)) hvx
          simp only [OrClause.list, List.mem_singleton, WhereClause.pattern.injEq] at hp'
          rw [hτ2 x hvx, ← hp']
          exact ht'
        · intro p hp
          obtain ⟨⟨t', ht', e⟩, -⟩ := hal p hp
          rw [ht] at ht'
          rw [e, ← Option.some.inj ht']
    · simp only [List.nil_append] at h
      rw [bind_iff] at h
      obtain ⟨r, hrr, h⟩ := h
      change applyArms k (cc.template (dedup (OrClause.varsAll (keptArms arms mask)))) cc.counter mask arms = .ok r at hrr
      change ({ cc with counter := r.2 } : CC).joinArms k.schema (dedup (OrClause.varsAll (keptArms arms mask))) r.1 = .ok cc' at h
      generalize hUe : dedup (OrClause.varsAll (keptArms arms mask)) = U at hrr h
      have hUm : ∀ x, x ∈ U ↔ ∃ arm ∈ keptArms arms mask, x ∈ arm.vars := by
        intro x; rw [← hUe, mem_dedup', mem_orVarsAll]
      have hUv : ∀ x ∈ U, x ∈ OrClause.varsAll arms := by
        intro x hx
        obtain ⟨arm, ha, hx⟩ := (hUm x).mp hx
        exact mem_orVarsAll.mpr ⟨arm, mem_keptArms ha, hx⟩
      have hUL : ∀ x ∈ U, ¬ L x := fun x hx => hL x (hUv x hx)
      obtain ⟨ps, h1, h2, h3, h4⟩ := arms_done (T' := T) (τ := τ') (U := U) hk hd hr hUL (fun x _ v hx => hτ1 x v hx) arms mask
        (fun arm ha => by
          have hau : ∀ x ∈ arm.vars, x ∈ U := fun x hx => (hUm x).mpr ⟨arm, ha, hx⟩
          refine ⟨hau, hrun' arm (mem_keptArms ha) U hau, fun x hx hvx => ?_⟩
          obtain ⟨p, hp, ht⟩ := hty arm (mem_keptArms ha) x (hsame arm (mem_keptArms ha) x (hUv x hx)) hvx
          refine ⟨p, hp, Pattern.types_congr (fun y hy => ?_) (by rw [hτ2 x hvx]; exact ht)⟩
          have : y ∈ U := hau y (vars_of_list hp (by rw [WhereClause.vars]; exact hy))
          simp [only, this]) hrr
      rw [← h1] at h
      refine ((step_joinArms hT hr hUL (fun x _ v hx => hτ1 x v hx) h2 (fun p hp => (h3 p hp).1) ?_ ?_ h).1).mono
        fun x hx => hvars x (hUv x hx)
      · intro p hp ρ ρ' hρ hρ' he hpρ
        obtain ⟨-, arm, ha, e⟩ := h3 p hp
        rw [e] at hpρ ⊢
        exact (satArm_congr arm hρ hρ' fun x hx => he x ((hUm x).mpr ⟨arm, ha, hx⟩)).mp hpρ
      · intro E hE ρ hρ hs
        rw [hsat ρ hρ]
        constructor
        · rintro ⟨arm, ha, h5⟩
          rcases hcov arm ha with hk' | hdr
          · exact h4 E hE ρ hρ (hs.shared fun _ _ => rfl) arm hk' h5
          · exact absurd h5 (hdrop ha hdr hs)
        · rintro ⟨p, hp, hpρ⟩
          obtain ⟨-, arm, ha, e⟩ := h3 p hp
          rw [e] at hpρ
          exact ⟨arm, mem_keptArms ha, hpρ⟩

end CC
end Mentat
