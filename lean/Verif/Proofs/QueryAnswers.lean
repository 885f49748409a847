import Verif.Proofs.QueryOrStep
import Verif.Proofs.QueryFulltext
/-
The answers of a query: from the inputs, through the clauses, to the rows of the statement.
-/
namespace Mentat

mutual
/-- Does the clause read this table?  (Of the log, only the values matter.) -/
def WhereClause.uses (o : DataSource) : WhereClause → Bool
  | .not _ cs => WhereClause.usesAll o cs
  | .or _ arms => OrClause.usesAll o arms
  | .whereFn .txData _ b => match o with
    | .log => (b.vars[2]?).join.isSome
    | .texts => false
  | .whereFn .fulltext _ _ => match o with
    | .log => false
    | .texts => true
  | _ => false
def WhereClause.usesAll (o : DataSource) : List WhereClause → Bool
  | [] => false
  | c :: cs => c.uses o || WhereClause.usesAll o cs
def OrClause.uses (o : DataSource) : OrClause → Bool
  | .clause c => c.uses o
  | .and cs => WhereClause.usesAll o cs
def OrClause.usesAll (o : DataSource) : List OrClause → Bool
  | [] => false
  | a :: as => a.uses o || OrClause.usesAll o as
end

mutual
/-- The clauses treated: patterns, comparisons, statements of types, the functions that read the log or search the strings, negations
of these, and disjunctions of lists of them whose arms all mention the same variables and give them the
same types.  `L` are the variables whose type is not known, `vals` the values that are given. -/
def WhereClause.Simple (s : Schema) (L : Var → Prop) (vals : Var → Option TypedValue) : WhereClause → Prop
  | .pattern p => PatOk L vals p
  | .pred _ args => ∀ x ∈ argVars args, ¬ L x
  | .typeAnno _ _ => True
  | .not unify cs => (∀ x ∈ CC.unified unify cs, ¬ L x) ∧
      (∃ p, .pattern p ∈ cs ∧ p.a.Given (CC.only (CC.unified unify cs) vals)) ∧ CC.LooseOnce L cs ∧
      WhereClause.basicAll cs = true ∧ WhereClause.SimpleAll s L (CC.only (CC.unified unify cs) vals) cs
  | .or unify arms => arms ≠ [] ∧ CC.fullyUnified unify arms = true ∧ (∀ x ∈ OrClause.varsAll arms, ¬ L x) ∧
      (∃ τ : Var → ValueType, ∀ arm ∈ arms, ∀ x ∈ arm.vars, vals x = none →
        ∃ p, .pattern p ∈ arm.list ∧ p.Types s vals x (τ x)) ∧ OrClause.SimpleAll s L vals arms
  | .whereFn .txIds args b => (∀ x ∈ argVars args, ¬ L x) ∧ ∀ x, some x ∈ b.vars → ¬ L x
  | .whereFn .txData args b => (∀ x ∈ argVars args, ¬ L x) ∧ ∀ i x, b.vars[i]? = some (some x) → (L x ↔ i = 2)
  | .whereFn .fulltext _ b => (∀ x, some x ∈ b.vars → ¬ L x) ∧ (b.vars[3]?).join = none
  | .whereFn _ _ _ => False
def WhereClause.SimpleAll (s : Schema) (L : Var → Prop) (vals : Var → Option TypedValue) : List WhereClause → Prop
  | [] => True
  | c :: cs => c.Simple s L vals ∧ WhereClause.SimpleAll s L vals cs
def OrClause.Simple (s : Schema) (L : Var → Prop) (vals : Var → Option TypedValue) : OrClause → Prop
  | .clause c => c.Simple s L vals
  | .and cs => WhereClause.SimpleAll s L vals cs
def OrClause.SimpleAll (s : Schema) (L : Var → Prop) (vals : Var → Option TypedValue) : List OrClause → Prop
  | [] => True
  | a :: as => a.Simple s L vals ∧ OrClause.SimpleAll s L vals as
end

/-! ### The class of clauses depends on the values of their variables only -/

theorem NonValue.given_congr {vals vals' : Var → Option TypedValue} {p : NonValue} (h : ∀ x ∈ p.vars, vals x = vals' x) :
    p.Given vals ↔ p.Given vals' := by
  cases p <;> simp_all [NonValue.Given, NonValue.vars]

theorem PatOk.congr {L : Var → Prop} {vals vals' : Var → Option TypedValue} {p : Pattern}
    (h : ∀ x ∈ p.vars, vals x = vals' x) (hp : PatOk L vals p) : PatOk L vals' p := by
  have he : ∀ x, p.e = .var x → vals x = vals' x := fun x hx => h x (by simp [Pattern.vars, hx, NonValue.vars])
  have ha : ∀ x, p.a = .var x → vals x = vals' x := fun x hx => h x (by simp [Pattern.vars, hx, NonValue.vars])
  have hv : ∀ x, p.v = .var x → vals x = vals' x := fun x hx => h x (by simp [Pattern.vars, hx, PatValue.vars])
  have ht : ∀ x, p.tx = .var x → vals x = vals' x := fun x hx => h x (by simp [Pattern.vars, hx, NonValue.vars])
  have hg : p.a.Given vals ↔ p.a.Given vals' := NonValue.given_congr fun x hx => h x (by simp [Pattern.vars, hx])
  refine ⟨hp.e, hp.a, hp.tx, fun hg' => hp.given (hg.mpr hg'), fun hg' => ?_, ⟨?_, ?_, ?_⟩, hp.kw, hp.const⟩
  · rcases hp.open' (fun h => hg' (hg.mp h)) with h1 | ⟨x, h1, h2, h3⟩ | h1
    · exact .inl h1
    · exact .inr (.inl ⟨x, h1, by rw [← hv x h1]; exact h2, by rw [← hv x h1]; exact h3⟩)
    · exact .inr (.inr h1)
  · intro x k hx; rw [← he x hx]; exact hp.noKw.1 x k hx
  · intro x k hx; rw [← ha x hx]; exact hp.noKw.2.1 x k hx
  · intro x k hx; rw [← ht x hx]; exact hp.noKw.2.2 x k hx

theorem CC.only_congr {U : List Var} {vals vals' : Var → Option TypedValue} {x : Var} (h : vals x = vals' x) :
    CC.only U vals x = CC.only U vals' x := by
  unfold CC.only; rw [h]

section
variable {s : Schema} {L : Var → Prop}

mutual
theorem simple_congr : ∀ (c : WhereClause) {vals vals' : Var → Option TypedValue}, (∀ x ∈ c.vars, vals x = vals' x) →
    c.Simple s L vals → c.Simple s L vals'
  | .pattern p, vals, vals', h, hs => by
    rw [WhereClause.Simple] at hs ⊢
    rw [WhereClause.vars] at h
    exact hs.congr h
  | .pred op args, vals, vals', h, hs => by rw [WhereClause.Simple] at hs ⊢; exact hs
  | .typeAnno x t, vals, vals', h, hs => by rw [WhereClause.Simple]; trivial
  | .not unify cs, vals, vals', h, hs => by
    rw [WhereClause.Simple] at hs ⊢
    rw [WhereClause.vars] at h
    obtain ⟨h1, ⟨p, hp, hg⟩, h3, h4, h5⟩ := hs
    have ho : ∀ x ∈ WhereClause.varsAll cs, CC.only (CC.unified unify cs) vals x = CC.only (CC.unified unify cs) vals' x :=
      fun x hx => CC.only_congr (h x hx)
    refine ⟨h1, ⟨p, hp, (NonValue.given_congr fun x hx => ho x ?_).mp hg⟩, h3, h4, simpleAll_congr cs ho h5⟩
    exact CC.mem_varsAll.mpr ⟨_, hp, by rw [WhereClause.vars]; simp [Pattern.vars, hx]⟩
  | .or unify arms, vals, vals', h, hs => by
    rw [WhereClause.Simple] at hs ⊢
    rw [WhereClause.vars] at h
    obtain ⟨h1, h2, h3, ⟨τ, h4⟩, h5⟩ := hs
    have h' : ∀ arm ∈ arms, ∀ x ∈ arm.vars, vals x = vals' x := fun arm ha x hx =>
      h x (CC.mem_orVarsAll.mpr ⟨arm, ha, hx⟩)
    refine ⟨h1, h2, h3, ⟨τ, fun arm ha x hx hv => ?_⟩, simpleArms_congr arms h h5⟩
    obtain ⟨p, hp, ht⟩ := h4 arm ha x hx (by rw [h' arm ha x hx]; exact hv)
    exact ⟨p, hp, Pattern.types_congr (fun y hy => h' arm ha y (vars_of_list hp (by rw [WhereClause.vars]; exact hy))) ht⟩
  | .whereFn f args b, vals, vals', h, hs => by
    cases f <;> (simp only [WhereClause.Simple] at hs ⊢; try exact hs)
theorem simpleAll_congr : ∀ (cs : List WhereClause) {vals vals' : Var → Option TypedValue},
    (∀ x ∈ WhereClause.varsAll cs, vals x = vals' x) → WhereClause.SimpleAll s L vals cs → WhereClause.SimpleAll s L vals' cs
  | [], _, _, _, _ => by rw [WhereClause.SimpleAll]; trivial
  | c :: cs, vals, vals', h, hs => by
    rw [WhereClause.SimpleAll] at hs ⊢
    rw [WhereClause.varsAll] at h
    exact ⟨simple_congr c (fun x hx => h x (List.mem_append_left _ hx)) hs.1,
      simpleAll_congr cs (fun x hx => h x (List.mem_append_right _ hx)) hs.2⟩
theorem simpleArm_congr : ∀ (a : OrClause) {vals vals' : Var → Option TypedValue}, (∀ x ∈ a.vars, vals x = vals' x) →
    a.Simple s L vals → a.Simple s L vals'
  | .clause c, vals, vals', h, hs => by
    rw [OrClause.Simple] at hs ⊢
    rw [OrClause.vars] at h
    exact simple_congr c h hs
  | .and cs, vals, vals', h, hs => by
    rw [OrClause.Simple] at hs ⊢
    rw [OrClause.vars] at h
    exact simpleAll_congr cs h hs
theorem simpleArms_congr : ∀ (as : List OrClause) {vals vals' : Var → Option TypedValue},
    (∀ x ∈ OrClause.varsAll as, vals x = vals' x) → OrClause.SimpleAll s L vals as → OrClause.SimpleAll s L vals' as
  | [], _, _, _, _ => by rw [OrClause.SimpleAll]; trivial
  | a :: as, vals, vals', h, hs => by
    rw [OrClause.SimpleAll] at hs ⊢
    rw [OrClause.varsAll] at h
    exact ⟨simpleArm_congr a (fun x hx => h x (List.mem_append_left _ hx)) hs.1,
      simpleArms_congr as (fun x hx => h x (List.mem_append_right _ hx)) hs.2⟩
end

end

/-- The types of the inputs are those of the values, and the values such as the store can hold. -/
structure CC.Inputs.Ok (i : CC.Inputs) : Prop where
  wf : AMap.WF i.types
  types : ∀ x v, AMap.get i.values x = some v → AMap.get i.types x = some v.valueType
  proper : ∀ x v, AMap.get i.values x = some v → v.Proper

/-- An assignment that agrees with the inputs and satisfies the clauses. -/
structure IsAnswer (s : Schema) (facts : Facts) (q : FindQuery) (values : AMap Var TypedValue) (ρ : Assign) : Prop where
  proper : ρ.Proper
  inputs : ∀ x ∈ q.inVars, AMap.get values x = some (ρ x)
  sat : SatAll s facts ρ q.clauses

namespace CC

section
variable {k : Known} {L : Var → Prop} {db : Tables}

mutual
theorem simple_step (hk : k.cache = none) (hd : DbOk k.schema db) : ∀ (c : WhereClause) {vals : Var → Option TypedValue},
    c.Simple k.schema L vals → (∀ o, c.uses o = true → SourceOk db o) → ∀ (T : Prop) F, (c.basic = true ∨ T) → ClauseStep T k F L db vals c
  | .pattern p, vals, h, hl, T, F, hT => step_lonePattern hk hd (by rwa [WhereClause.Simple] at h)
  | .pred op args, vals, h, hl, T, F, hT => step_pred (by rwa [WhereClause.Simple] at h)
  | .typeAnno x t, vals, h, hl, T, F, hT => step_anno x t
  | .not unify cs, vals, h, hl, T, F, hT => by
    rw [WhereClause.Simple] at h
    exact step_not hk hd h.2.2.2.1 h.1 h.2.1 h.2.2.1
      (fun F => simple_run hk hd cs h.2.2.2.2 (by simpa only [WhereClause.uses] using hl) False F (.inl h.2.2.2.1))
  | .or u arms, vals, h, hl, T, F, hT => by
    rw [WhereClause.Simple] at h
    obtain ⟨h1, h2, h3, ⟨τ, h4⟩, h5⟩ := h
    have hT : T := hT.resolve_left (by simp [WhereClause.basic])
    simp only [WhereClause.uses] at hl
    have hrun := simple_arms hk hd arms h5 hl T F hT
    refine step_or hT hk hd h1 h2 h3 h4 (fun arm ha => hrun arm ha _ fun _ _ => rfl) fun arm ha U hU => hrun arm ha _ ?_
    intro x hx
    simp [only, hU x hx]
  | .whereFn f args b, vals, h, hl, T, F, hT => by
    cases f with
    | txIds =>
      rw [WhereClause.Simple] at h
      intro cc cc' ha hr _
      simp only [applyClause] at ha
      have := step_txIds hr.inv hr.typed h.1 h.2 ha
      simp only [Sat]
      exact this
    | txData =>
      rw [WhereClause.Simple] at h
      intro cc cc' ha hr hu
      simp only [applyClause] at ha
      have := step_txData hr.inv hr.typed h.1 h.2
        (fun x hx => hl .log (by simp only [WhereClause.uses, hx]; rfl))
        (fun x hx => hu x (by
          simp only [WhereClause.vars, List.mem_append, List.mem_filterMap, id]
          exact .inr ⟨some x, List.mem_of_getElem? hx, rfl⟩) ((h.2 2 x hx).mpr rfl)) ha
      simp only [Sat]
      exact this
    | fulltext =>
      rw [WhereClause.Simple] at h
      intro cc cc' ha hr _
      simp only [applyClause] at ha
      have := step_fulltext hd (hl .texts rfl) hr.inv hr.typed h.1 h.2 ha
      simp only [Sat]
      exact this
    | _ => simp [WhereClause.Simple] at h
theorem simple_run (hk : k.cache = none) (hd : DbOk k.schema db) : ∀ (cs : List WhereClause)
    {vals : Var → Option TypedValue}, WhereClause.SimpleAll k.schema L vals cs →
    (∀ o, WhereClause.usesAll o cs = true → SourceOk db o) → ∀ (T : Prop) F, (WhereClause.basicAll cs = true ∨ T) → RunOk T k F L db vals cs
  | [], vals, h, hl, T, F, hT => by intro c hc; cases hc
  | c :: cs, vals, h, hl, T, F, hT => by
    rw [WhereClause.SimpleAll] at h
    simp only [WhereClause.usesAll, Bool.or_eq_true] at hl
    rw [WhereClause.basicAll, Bool.and_eq_true] at hT
    have h0 := simple_step hk hd c h.1 (fun o e => hl o (.inl e)) T F (hT.imp And.left id)
    intro d hd' hno
    rw [List.mem_cons] at hd'
    rcases hd' with rfl | hd'
    · refine ⟨?_, h0⟩
      rintro p rfl
      have := h.1
      rwa [WhereClause.Simple] at this
    · exact simple_run hk hd cs h.2 (fun o e => hl o (.inr e)) T F (hT.imp And.right id) d hd' hno
theorem simple_arm (hk : k.cache = none) (hd : DbOk k.schema db) : ∀ (a : OrClause) {vals : Var → Option TypedValue},
    a.Simple k.schema L vals → (∀ o, a.uses o = true → SourceOk db o) → ∀ (T : Prop) F, T → RunOk T k F L db vals a.list
  | .clause c, vals, h, hl, T, F, hT => by
    rw [OrClause.Simple] at h
    simp only [OrClause.uses] at hl
    have h0 := simple_step hk hd c h hl T F (.inr hT)
    intro d hd' hno
    simp only [OrClause.list, List.mem_singleton] at hd'
    subst hd'
    refine ⟨?_, h0⟩
    rintro p rfl
    rwa [WhereClause.Simple] at h
  | .and cs, vals, h, hl, T, F, hT => by
    rw [OrClause.Simple] at h
    simp only [OrClause.uses] at hl
    exact simple_run hk hd cs h hl T F (.inr hT)
theorem simple_arms (hk : k.cache = none) (hd : DbOk k.schema db) : ∀ (as : List OrClause) {vals : Var → Option TypedValue},
    OrClause.SimpleAll k.schema L vals as → (∀ o, OrClause.usesAll o as = true → SourceOk db o) → ∀ (T : Prop) F, T →
    ∀ arm ∈ as, ∀ vals', (∀ x ∈ arm.vars, vals x = vals' x) → RunOk T k F L db vals' arm.list
  | [], _, _, _, _, _, _ => by intro arm ha; cases ha
  | a :: as, vals, h, hl, T, F, hT => by
    rw [OrClause.SimpleAll] at h
    simp only [OrClause.usesAll, Bool.or_eq_true] at hl
    have h0 : ∀ vals', (∀ x ∈ a.vars, vals x = vals' x) → RunOk T k F L db vals' a.list := fun vals' hv =>
      simple_arm hk hd a (simpleArm_congr a hv h.1) (fun o e => hl o (.inl e)) T F hT
    intro arm ha vals' hv
    rw [List.mem_cons] at ha
    rcases ha with rfl | ha
    · exact h0 vals' hv
    · exact simple_arms hk hd as h.2 (fun o e => hl o (.inr e)) T F hT arm ha vals' hv
end

theorem get_keepKeys {α : Type} {m m' : AMap Var α} {ks : List Var} (h : keepKeys m ks = .ok m') (x : Var) :
    AMap.get m' x = if x ∈ ks then AMap.get m x else none := by
  unfold keepKeys at h
  split at h
  · rename_i hm
    obtain rfl := Res.ok.inj h
    have : m = [] := by simpa using hm
    subst this
    simp
  · split at h
    · rename_i hks
      obtain rfl := Res.ok.inj h
      have : ks = [] := by simpa using hks
      subst this
      simp
    · split at h
      · cases h
      · obtain rfl := Res.ok.inj h
        exact get_withKeys m ks x

theorem get_mapOne (m : AMap Var ValueType) (x : Var) :
    AMap.get (m.map fun p => (p.1, TypeSet.one p.2) : AMap Var TypeSet) x = (AMap.get m x).map TypeSet.one := by
  induction m with
  | nil => rfl
  | cons p m ih =>
    obtain ⟨y, t⟩ := p
    simp only [List.map_cons, AMap.get_cons, ih]
    split <;> rfl

theorem wf_mapOne {m : AMap Var ValueType} (h : AMap.WF m) :
    AMap.WF (m.map fun p => (p.1, TypeSet.one p.2) : AMap Var TypeSet) := by
  unfold AMap.WF AMap.keys at *
  simpa [List.map_map, Function.comp_def] using h

theorem wf_keepKeys {α : Type} {m m' : AMap Var α} {ks : List Var} (h : keepKeys m ks = .ok m') (hw : AMap.WF m) :
    AMap.WF m' := by
  unfold keepKeys at h
  split at h
  · obtain rfl := Res.ok.inj h; exact hw
  · split at h
    · obtain rfl := Res.ok.inj h; exact AMap.wf_nil
    · split at h
      · cases h
      · obtain rfl := Res.ok.inj h
        exact wf_withKeys hw ks

/-- The clauses with the inputs. -/
theorem ready_init {T : Prop} {inVars : List Var} {inputs : Inputs} {n : Nat} {cc : CC} (h : withInputs inVars inputs n = .ok cc)
    (hin : inputs.Ok) (hL : ∀ x ∈ inVars, ¬ L x) (F : Env → Prop) :
    Ready T F L db (only inVars (AMap.get inputs.values)) cc ∧ cc.panics = false ∧ cc.inputs = inVars ∧
      (∀ x, L x → Unmet cc x) ∧ ∀ E (ρ : Assign), Sem db E cc ρ ↔
        (∀ x v, AMap.get cc.vals x = some v → ρ x = v) ∧
        ∀ x ts, AMap.get cc.known x = some ts → ts (ρ x).valueType = true := by
  unfold withInputs at h
  obtain ⟨types, h1, h⟩ := bind_iff.mp h
  obtain ⟨values, h2, h⟩ := bind_iff.mp h
  obtain rfl := Res.ok.inj h
  have ht := get_keepKeys h1
  have hv := get_keepKeys h2
  have hknown : ∀ x, AMap.get (types.map fun p => (p.1, TypeSet.one p.2) : AMap Var TypeSet) x =
      if x ∈ inVars then (AMap.get inputs.types x).map TypeSet.one else none := by
    intro x
    rw [get_mapOne, ht x]
    split <;> rfl
  have hvk : ∀ x v, AMap.get values x = some v →
      AMap.get (types.map fun p => (p.1, TypeSet.one p.2) : AMap Var TypeSet) x = some (TypeSet.one v.valueType) := by
    intro x v hx
    rw [hv x] at hx
    rw [hknown x]
    split at hx
    · rename_i hm
      rw [if_pos hm, hin.types x v hx]; rfl
    · cases hx
  have hun : ∀ x, L x → AMap.get values x = none ∧
      AMap.get (types.map fun p => (p.1, TypeSet.one p.2) : AMap Var TypeSet) x = none ∧ x ∉ inVars := by
    intro x hx
    have hx : x ∉ inVars := fun hm => hL x hm hx
    exact ⟨by rw [hv x, if_neg hx], by rw [hknown x, if_neg hx], hx⟩
  refine ⟨⟨?_, ?_, ?_, ?_, ?_⟩, rfl, rfl, ?_, ?_⟩
  · funext x; exact hv x
  · refine ⟨?_, fun _ => hvk, ?_, fun x hx => ⟨(hun x hx).2.1, (hun x hx).1, (hun x hx).2.2⟩, ?_, AMap.wf_nil, AMap.wf_nil, ?_, ?_, ?_, ?_, ?_⟩
    · intro _ x ts hx
      have hx : AMap.get (types.map fun p => (p.1, TypeSet.one p.2) : AMap Var TypeSet) x = some ts := hx
      rw [hknown x] at hx
      split at hx
      · cases hg : AMap.get inputs.types x with
        | none => rw [hg] at hx; cases hx
        | some t => rw [hg] at hx; cases hx; exact ⟨t, rfl⟩
      · cases hx
    · intro x v hx
      have hx : AMap.get values x = some v := hx
      rw [hv x] at hx
      split at hx
      · exact hin.proper x v hx
      · cases hx
    · intro x q hx; simp at hx
    · intro x qs hx; simp at hx
    · exact ⟨by simp, by simp, by simp⟩
    · intro al hal; cases hal
    · intro i t ht; simp at ht
    · exact wf_mapOne (wf_keepKeys h1 hin.wf)
  · intro E hE loc hl hem hw x qs hx; simp at hx
  · exact ⟨fun _ x qs hx => by simp at hx, fun _ x q hx => by simp at hx⟩
  · exact fun _ => ⟨⟨by simp, by simp, by simp⟩, by simp⟩
  · intro x hx
    exact ⟨(hun x hx).1, (hun x hx).2.1, rfl, rfl, (hun x hx).2.2⟩
  · intro E ρ
    constructor
    · rintro ⟨loc, -, h⟩; exact ⟨h.vals, h.known⟩
    · rintro ⟨h1, h2⟩
      refine ⟨[], ?_, ⟨rfl, h1, h2, ?_, ?_, ?_, ?_⟩⟩
      · simp [CC.stables, evalFrom]
      · intro x ts hx; simp at hx
      · simp [evalAll]
      · intro x qs hx; simp at hx
      · intro x q hx; simp at hx

theorem deriveTypes_vars (cc : CC) : ∀ xs : List Var, cc.deriveTypes (xs.map .var) = cc
  | [] => rfl
  | x :: xs => by simp only [List.map_cons, deriveTypes]; exact deriveTypes_vars cc xs

/-- What a statement made of a query has to do with its answers. -/
structure Answering (k : Known) (db : Tables) (L : Var → Prop) (q : FindQuery) (inputs : Inputs) (a : Algebraic) : Prop where
  find : a.find = q.find
  withs : a.withVars = q.withVars
  panics : a.cc.panics = false
  bound : ∀ x ∈ q.inVars, (AMap.get inputs.values x).isSome
  limit : (q.find.isUnitLimited = true → a.limit = .fixed 1) ∧ (q.find.isUnitLimited = false → a.limit = q.limit)
  order : (q.order = none → a.order = [] ∧ a.named = []) ∧
    ∀ o, q.order = some o → a.cc.simplifyOrder o = .ok (a.order, a.named)
  empty : a.cc.empty = true → ∀ ρ, ¬ IsAnswer k.schema db.facts q inputs.values ρ
  reads : ∀ loc ∈ evalFrom db [] a.cc.stables, a.cc.empty = false → evalAll db (loc ++ []) a.cc.wheres = true →
    ∃ ρ, IsAnswer k.schema db.facts q inputs.values ρ ∧ Reads a.cc (loc ++ []) ρ
  found : ∀ ρ, IsAnswer k.schema db.facts q inputs.values ρ → ∃ loc ∈ evalFrom db [] a.cc.stables,
    evalAll db (loc ++ []) a.cc.wheres = true ∧ Reads a.cc (loc ++ []) ρ
  typed : a.cc.empty = false → ∀ x, ¬ L x → (AMap.get a.cc.vals x).isSome ∨ (AMap.get a.cc.colb x).isSome →
    ∃ t, ∀ ρ, IsAnswer k.schema db.facts q inputs.values ρ → (ρ x).valueType = t

/-- What algebrizing makes of a query. -/
structure Algebrized (k : Known) (db : Tables) (L : Var → Prop) (q : FindQuery) (inputs : Inputs) (a : Algebraic) : Prop
    extends Answering k db L q inputs a where
  vals : ∀ x, AMap.get a.cc.vals x = if x ∈ q.inVars then AMap.get inputs.values x else none
  met : ∀ x, x ∉ q.inVars → x ∉ WhereClause.varsAll q.clauses → AMap.get a.cc.colb x = none

end
end CC
end Mentat

namespace Mentat

/-- A value that reads back as itself (`C01_round_trip_partial`): not the nil UUID, not a fraction of a
second before 1970, not a keyword without a namespace. -/
def TypedValue.Readable (v : TypedValue) : Prop :=
  v ≠ .uuid 0 ∧ (∀ us, v = .instant us → 0 ≤ us ∨ us % 1000000 = 0) ∧ ∀ k, v = .keyword k → k.ns ≠ []

namespace CC

section
variable {k : Known} {L : Var → Prop} {db : Tables} {q : FindQuery} {inputs : Inputs} {a : Algebraic} {xs : List Var}

theorem projectLoop_bound {cc : CC} : ∀ (xs : List Var) {p p' : Proj}
    (_ : cc.projectElementsLoop p (xs.map .var) = .ok p'), ∀ x ∈ xs,
    (AMap.get cc.vals x).isSome ∨ (AMap.get cc.colb x).isSome
  | [], p, p', h => by intro x hx; cases hx
  | y :: xs, p, p', h => by
    simp only [List.map_cons, projectElementsLoop] at h
    obtain ⟨p1, h1, h2⟩ := bind_iff.mp h
    intro x hx
    rw [List.mem_cons] at hx
    rcases hx with rfl | hx
    · simp only [projectElement] at h1
      split at h1
      · cases h1
      · unfold projectVar at h1
        obtain ⟨r, hr, -⟩ := bind_iff.mp h1
        unfold projectedColumn at hr
        cases hv : AMap.get cc.vals x with
        | some v => simp
        | none =>
          rw [hv] at hr
          cases hc : AMap.get cc.colb x with
          | some v => simp
          | none => rw [hc] at hr; cases hr
    · exact projectLoop_bound xs h2 x hx

theorem forall₂_alike_eq : ∀ {xs : List Var} {ρ ρ' : Assign}, List.Forall₂ TypedValue.Alike (xs.map ρ) (xs.map ρ') →
    ∀ x ∈ xs, (ρ x).Alike (ρ' x)
  | [], _, _, _ => by intro x hx; cases hx
  | y :: xs, ρ, ρ', h => by
    simp only [List.map_cons, List.forall₂_cons] at h
    intro x hx
    rw [List.mem_cons] at hx
    rcases hx with rfl | hx
    · exact h.1
    · exact forall₂_alike_eq h.2 x hx

theorem Alike.eq_of_type {v w : TypedValue} (h : v.Alike w) (ht : v.valueType = w.valueType) : v = w := by
  rcases h with h | ⟨n, h1, h2⟩
  · exact h
  · cases v <;> cases w <;> simp [TypedValue.valueType] at ht <;> simp [TypedValue.number?] at h1 h2
    · rename_i a b
      have : a * 2 ^ 1074 = b * 2 ^ 1074 := by rw [h1, h2]
      have := Int.eq_of_mul_eq_mul_right (Int.ne_of_gt (Int.pow_pos (by decide))) this
      rw [this]
    · rw [h1, h2]

/-- The rows of the statement are those of the answers. -/
theorem rows_answers (h : Answering k db L q inputs a) (hf : q.find.elements = xs.map .var) (he : a.cc.empty = false)
    {p : Projected} (hp : projectElements a = .ok p) {fl : Floats} {rows : List (List SqlValue)}
    (hr : selectRows fl db a p = .ok rows) {lim : Option Nat} (hlim : a.limit.number = .ok lim) :
    ∃ ks, p.templates = tmplsFrom 0 ks ∧ ks.length = xs.length ∧
      (∀ r ∈ rows, ∃ ρ, IsAnswer k.schema db.facts q inputs.values ρ ∧ List.Forall₂ TagOk (xs.map ρ) ks ∧
        ∃ suf, r = rowOf (xs.map ρ) ks ++ suf ∧ ((∀ y ∈ a.named, y ∈ xs) → suf = [])) ∧
      (lim = none → ∀ ρ, IsAnswer k.schema db.facts q inputs.values ρ → ∃ r ∈ rows, ∀ ρ', List.Forall₂ TagOk (xs.map ρ') ks →
        IsAnswer k.schema db.facts q inputs.values ρ' →
        ∀ suf, r = rowOf (xs.map ρ') ks ++ suf → List.Forall₂ TypedValue.Alike (xs.map ρ) (xs.map ρ') ∧
          ∀ x ∈ xs, ¬ L x → ρ x = ρ' x) ∧
      (isDistinct a false = true → rows.Pairwise fun s r => rowSame r s = false) ∧
      ∀ n, lim = some n → rows.length ≤ n := by
  obtain ⟨hout, ks, new, ht, hl, hnew, hcols⟩ := projectElements_spec (by rw [h.find]; exact hf) hp
  have hbound : ∀ x ∈ xs, (AMap.get a.cc.vals x).isSome ∨ (AMap.get a.cc.colb x).isSome := by
    unfold projectElements at hp
    rw [h.find, hf] at hp
    obtain ⟨p1, h1, -⟩ := bind_iff.mp hp
    exact projectLoop_bound xs h1
  unfold selectRows at hr
  rw [hlim, hout] at hr
  obtain ⟨lim', e, hr⟩ := bind_iff.mp hr
  obtain rfl := Res.ok.inj e
  obtain ⟨s, hs, hr⟩ := bind_iff.mp hr
  unfold toSelect at hs
  rw [h.panics, he] at hs
  simp only [Bool.false_eq_true, if_false] at hs
  obtain rfl := Res.ok.inj hs
  unfold runSql at hr
  split at hr
  · obtain rfl := Res.ok.inj hr
    simp only [evalSelect]
    have hraw1 : ∀ r ∈ ((evalFrom db [] a.cc.stables).filter fun loc => evalAll db (loc ++ []) a.cc.wheres).map
        (fun loc => p.cols.map fun c => c.1.eval (loc ++ [])), ∃ loc, ∃ ρ, IsAnswer k.schema db.facts q inputs.values ρ ∧
        List.Forall₂ TagOk (xs.map ρ) ks ∧ r = rowOf (xs.map ρ) ks ++ new.map (fun c => c.1.eval loc) := by
      intro r hr
      rw [List.mem_map] at hr
      obtain ⟨loc, hl, rfl⟩ := hr
      rw [List.mem_filter] at hl
      obtain ⟨ρ, hρ, hrd⟩ := h.reads loc hl.1 he hl.2
      obtain ⟨g1, g2⟩ := hcols _ ρ hrd
      exact ⟨loc ++ [], ρ, hρ, g1, g2⟩
    have hraw2 : ∀ ρ, IsAnswer k.schema db.facts q inputs.values ρ → ∃ r ∈ ((evalFrom db [] a.cc.stables).filter fun loc => evalAll db (loc ++ []) a.cc.wheres).map
        (fun loc => p.cols.map fun c => c.1.eval (loc ++ [])), ∃ loc, List.Forall₂ TagOk (xs.map ρ) ks ∧
          r = rowOf (xs.map ρ) ks ++ new.map (fun c => c.1.eval loc) := by
      intro ρ hρ
      obtain ⟨loc, hl, hw, hrd⟩ := h.found ρ hρ
      obtain ⟨g1, g2⟩ := hcols _ ρ hrd
      exact ⟨_, List.mem_map.mpr ⟨loc, List.mem_filter.mpr ⟨hl, hw⟩, rfl⟩, loc ++ [], g1, g2⟩
    refine ⟨ks, ht, hl, ?_, ?_, ?_, ?_⟩
    · intro r hr
      obtain ⟨loc, ρ, hρ, g1, g2⟩ := hraw1 r (finishRows_mem r hr)
      exact ⟨ρ, hρ, g1, _, g2, fun hy => by rw [hnew hy]; rfl⟩
    · rintro rfl ρ hρ
      obtain ⟨r, hr, loc, g1, g2⟩ := hraw2 ρ hρ
      obtain ⟨s, hs, hrs⟩ := finishRows_all (distinct := isDistinct a false) (names := p.cols.map (·.2)) (order := a.order) r hr
      refine ⟨s, hs, ?_⟩
      intro ρ' ht' hρ' suf hsuf
      have hsame : rowSame r s = true := by
        rcases hrs with rfl | h
        · exact rowSame_refl r
        · exact h
      rw [g2, hsuf] at hsame
      have hlen : ∀ {vs ws : List TypedValue} {ks : List (Option Nat)}, List.Forall₂ TagOk vs ks → List.Forall₂ TagOk ws ks →
          (rowOf vs ks).length = (rowOf ws ks).length := by
        intro vs ws ks h1 h2
        induction h1 generalizing ws with
        | nil => cases h2; rfl
        | cons _ _ ih =>
          cases h2 with
          | cons _ h2 => simp [rowOf, length_cellsOf, ih h2]
      rw [rowSame_append (hlen g1 ht')] at hsame
      have hal : List.Forall₂ TypedValue.Alike (xs.map ρ) (xs.map ρ') :=
        rowOf_same g1 ht' (by simpa using fun x _ => hρ.proper x) (by simpa using fun x _ => hρ'.proper x) hsame.1
      refine ⟨hal, ?_⟩
      intro x hx hLx
      obtain ⟨t, ht⟩ := h.typed he x hLx (hbound x hx)
      exact Alike.eq_of_type (forall₂_alike_eq hal x hx) (by rw [ht ρ hρ, ht ρ' hρ'])
    · intro hdist
      rw [hdist]
      exact finishRows_distinct
    · rintro n rfl
      exact finishRows_length
  · cases hr

theorem forall₂_left {α β : Type} {R : α → β → Prop} {l : List α} {l' : List β} (h : List.Forall₂ R l l') :
    ∀ a ∈ l, ∃ b ∈ l', R a b := by
  induction h with
  | nil => intro a ha; cases ha
  | cons h _ ih =>
    intro a ha
    rw [List.mem_cons] at ha
    rcases ha with rfl | ha
    · exact ⟨_, by simp, h⟩
    · obtain ⟨b, hb, hab⟩ := ih a ha
      exact ⟨b, List.mem_cons_of_mem _ hb, hab⟩

theorem forall₂_right {α β : Type} {R : α → β → Prop} {l : List α} {l' : List β} (h : List.Forall₂ R l l') :
    ∀ b ∈ l', ∃ a ∈ l, R a b := by
  induction h with
  | nil => intro a ha; cases ha
  | cons h _ ih =>
    intro a ha
    rw [List.mem_cons] at ha
    rcases ha with rfl | ha
    · exact ⟨_, by simp, h⟩
    · obtain ⟨b, hb, hab⟩ := ih a ha
      exact ⟨b, List.mem_cons_of_mem _ hb, hab⟩

theorem forall₂_nodup {α β : Type} {R : α → β → Prop} {l : List α} {l' : List β} (h : List.Forall₂ R l l')
    (hp : l.Pairwise fun a b => ∀ v, R a v → R b v → False) : l'.Nodup := by
  induction h with
  | nil => exact List.nodup_nil
  | cons h h' ih =>
    rw [List.pairwise_cons] at hp
    rw [List.nodup_cons]
    refine ⟨fun hm => ?_, ih hp.2⟩
    obtain ⟨a, ha, hab⟩ := forall₂_right h' _ hm
    exact hp.1 a ha _ h hab

theorem lookupRows_spec {ts : List TIndex} : ∀ {rows : List (List SqlValue)} {vs : List (List TypedValue)},
    lookupRows ts rows = .ok vs → List.Forall₂ (fun r v => lookupAll r ts = .ok v) rows vs
  | [], vs, h => by obtain rfl := Res.ok.inj h; exact .nil
  | r :: rs, vs, h => by
    simp only [lookupRows] at h
    obtain ⟨v, h1, h⟩ := bind_iff.mp h
    obtain ⟨vs', h2, h⟩ := bind_iff.mp h
    obtain rfl := Res.ok.inj h
    exact .cons h1 (lookupRows_spec h2)

theorem lookupAll_answer {ρ : Assign} (hρ : ρ.Proper) (hread : ∀ x ∈ xs, (ρ x).Readable) {ks : List (Option Nat)}
    (ht : List.Forall₂ TagOk (xs.map ρ) ks) (suf : List SqlValue) :
    lookupAll (rowOf (xs.map ρ) ks ++ suf) (tmplsFrom 0 ks) = .ok (xs.map ρ) := by
  have := lookupAll_row ht [] suf
  simp only [List.nil_append, List.length_nil] at this
  rw [this]
  refine readAll_ok fun v hv => ?_
  rw [List.mem_map] at hv
  obtain ⟨x, hx, rfl⟩ := hv
  exact (C01_round_trip_partial (hρ x)).mpr (hread x hx)

theorem not_fullyUnitBound (h : Algebrized k db L q inputs a) (hf : q.find.elements = xs.map .var)
    (hx : ∃ x ∈ xs, x ∉ q.inVars) : a.fullyUnitBound = false := by
  obtain ⟨x, hx, hn⟩ := hx
  unfold Algebraic.fullyUnitBound
  rw [h.find, hf, Bool.and_eq_false_iff]
  right
  rw [List.all_eq_false]
  refine ⟨.var x, List.mem_map.mpr ⟨x, hx, rfl⟩, ?_⟩
  simp [h.vals x, hn]

end
end CC
end Mentat
