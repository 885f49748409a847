import Verif.Spec.Query
/-
Whether an assignment satisfies a clause depends only on the variables the clause mentions.
-/
namespace Mentat

variable {s : Schema} {db : Facts}

theorem NonValue.matches_congr {ρ ρ' : Assign} {e : Entid} {p : NonValue} (h : ∀ x ∈ p.vars, ρ x = ρ' x) :
    p.Matches s ρ e ↔ p.Matches s ρ' e := by
  cases p <;> simp_all [NonValue.Matches, NonValue.vars]

theorem PatValue.matches_congr {ρ ρ' : Assign} {v : TypedValue} {p : PatValue} (h : ∀ x ∈ p.vars, ρ x = ρ' x) :
    p.Matches s ρ v ↔ p.Matches s ρ' v := by
  cases p <;> simp_all [PatValue.Matches, PatValue.vars]

theorem Pattern.matches_congr {ρ ρ' : Assign} {r : Row} {p : Pattern} (h : ∀ x ∈ p.vars, ρ x = ρ' x) :
    p.Matches s ρ r ↔ p.Matches s ρ' r := by
  unfold Pattern.Matches
  rw [NonValue.matches_congr fun x hx => h x (by simp [Pattern.vars, hx]),
    NonValue.matches_congr (p := p.a) fun x hx => h x (by simp [Pattern.vars, hx]),
    PatValue.matches_congr fun x hx => h x (by simp [Pattern.vars, hx]),
    NonValue.matches_congr (p := p.tx) fun x hx => h x (by simp [Pattern.vars, hx])]

theorem FnArg.denotes_congr {ρ ρ' : Assign} {v : TypedValue} {a : FnArg} (h : ∀ x, a = .var x → ρ x = ρ' x) :
    a.Denotes s ρ v ↔ a.Denotes s ρ' v := by
  cases a with
  | var x => simp only [FnArg.Denotes]; rw [h x rfl]
  | _ => exact Iff.rfl

theorem holds?_congr {ρ ρ' : Assign} {v : TypedValue} {o : Option (Option Var)}
    (h : ∀ x, o = some (some x) → ρ x = ρ' x) : Holds? ρ v o ↔ Holds? ρ' v o := by
  cases o with
  | none => exact Iff.rfl
  | some o =>
    cases o with
    | none => exact Iff.rfl
    | some x => simp only [Holds?]; rw [h x rfl]

theorem mem_argVars {args : List FnArg} {x : Var} : x ∈ argVars args ↔ FnArg.var x ∈ args := by
  unfold argVars
  rw [List.mem_filterMap]
  constructor
  · rintro ⟨a, ha, h⟩
    cases a <;> simp at h
    subst h; exact ha
  · intro h; exact ⟨_, h, rfl⟩

theorem fnSat_congr {ρ ρ' : Assign} {op : FnOp} {args : List FnArg} {b : Binding}
    (ha : ∀ x ∈ argVars args, ρ x = ρ' x) (hb : ∀ x ∈ b.vars.filterMap id, ρ x = ρ' x) :
    FnSat s db ρ op args b ↔ FnSat s db ρ' op args b := by
  have hb' : ∀ (i : Nat) v, Holds? ρ v b.vars[i]? ↔ Holds? ρ' v b.vars[i]? := by
    intro i v
    refine holds?_congr fun x hx => hb x ?_
    rw [List.mem_filterMap]
    exact ⟨some x, List.mem_of_getElem? hx, rfl⟩
  have hd : ∀ a ∈ args, ∀ v, a.Denotes s ρ v ↔ a.Denotes s ρ' v := by
    intro a hm v
    refine FnArg.denotes_congr fun x hx => ha x (mem_argVars.mpr (hx ▸ hm))
  unfold FnSat
  split
  · rename_i t0 t1 t2
    simp only [hb', hd t1 (by simp), hd t2 (by simp)]
  · rename_i t0 t1 t2
    have h0 : b.vars.head? = b.vars[0]? := by cases b.vars <;> rfl
    rw [h0]
    simp only [hb', hd t1 (by simp), hd t2 (by simp)]
  · rename_i t0 t
    simp only [hb', hd t (by simp)]
  · exact Iff.rfl

/-- A local choice for some variables. -/
theorem exists_local {ρ ρ' : Assign} {vs vars : List Var} {P : Assign → Prop} (hρ' : ρ'.Proper)
    (h : ∀ x ∈ vars, ρ x = ρ' x)
    (hP : ∀ σ σ' : Assign, σ.Proper → σ'.Proper → (∀ x ∈ vars, σ x = σ' x) → P σ → P σ') :
    (∃ σ : Assign, σ.Proper ∧ (∀ x ∈ vs, σ x = ρ x) ∧ P σ) → ∃ σ : Assign, σ.Proper ∧ (∀ x ∈ vs, σ x = ρ' x) ∧ P σ := by
  rintro ⟨σ, hσ, hv, hp⟩
  have hτ : Assign.Proper (fun x => if x ∈ vars then σ x else ρ' x) := by
    intro x
    simp only
    split
    · exact hσ x
    · exact hρ' x
  refine ⟨fun x => if x ∈ vars then σ x else ρ' x, hτ, ?_, hP σ _ hσ hτ ?_ hp⟩
  · intro x hx
    simp only
    split
    · rename_i hm; rw [hv x hx]; exact h x hm
    · rfl
  · intro x hx; simp [hx]

mutual
theorem sat_congr : ∀ (c : WhereClause) {ρ ρ' : Assign}, ρ.Proper → ρ'.Proper → (∀ x ∈ c.vars, ρ x = ρ' x) →
    (Sat s db ρ c ↔ Sat s db ρ' c)
  | .pattern p, ρ, ρ', _, _, h => by
    simp only [Sat]
    rw [WhereClause.vars] at h
    simp only [Pattern.matches_congr h]
  | .pred op args, ρ, ρ', _, _, h => by
    rw [WhereClause.vars] at h
    have hd : ∀ a ∈ args, ∀ v, a.Denotes s ρ v ↔ a.Denotes s ρ' v := fun a hm v =>
      FnArg.denotes_congr fun x hx => h x (mem_argVars.mpr (hx ▸ hm))
    match op, args with
    | some op, [l, r] => simp only [Sat, hd l (by simp), hd r (by simp)]
    | none, _ => simp [Sat]
    | some op, [] => simp [Sat]
    | some op, [_] => simp [Sat]
    | some op, _ :: _ :: _ :: _ => simp [Sat]
  | .whereFn op args b, ρ, ρ', _, _, h => by
    rw [WhereClause.vars] at h
    simp only [Sat]
    exact fnSat_congr (fun x hx => h x (by simp [hx])) (fun x hx => h x (by rw [List.mem_append]; exact .inr hx))
  | .or none arms, ρ, ρ', hρ, hρ', h => by
    rw [WhereClause.vars] at h
    simp only [Sat]
    exact satAny_congr arms hρ hρ' h
  | .or (some vs) arms, ρ, ρ', hρ, hρ', h => by
    rw [WhereClause.vars] at h
    simp only [Sat]
    have hP : ∀ σ σ' : Assign, σ.Proper → σ'.Proper → (∀ x ∈ OrClause.varsAll arms, σ x = σ' x) →
        SatAny s db σ arms → SatAny s db σ' arms := fun σ σ' h1 h2 h3 => (satAny_congr arms h1 h2 h3).mp
    exact ⟨exists_local hρ' h hP, exists_local hρ (fun x hx => (h x hx).symm) hP⟩
  | .not none cs, ρ, ρ', hρ, hρ', h => by
    rw [WhereClause.vars] at h
    simp only [Sat]
    exact not_congr (satAll_congr cs hρ hρ' h)
  | .not (some vs) cs, ρ, ρ', hρ, hρ', h => by
    rw [WhereClause.vars] at h
    simp only [Sat]
    have hP : ∀ σ σ' : Assign, σ.Proper → σ'.Proper → (∀ x ∈ WhereClause.varsAll cs, σ x = σ' x) →
        SatAll s db σ cs → SatAll s db σ' cs := fun σ σ' h1 h2 h3 => (satAll_congr cs h1 h2 h3).mp
    exact not_congr ⟨exists_local hρ' h hP, exists_local hρ (fun x hx => (h x hx).symm) hP⟩
  | .typeAnno x t, ρ, ρ', _, _, h => by
    simp only [Sat]
    rw [h x (by simp [WhereClause.vars])]
theorem satAll_congr : ∀ (cs : List WhereClause) {ρ ρ' : Assign}, ρ.Proper → ρ'.Proper →
    (∀ x ∈ WhereClause.varsAll cs, ρ x = ρ' x) → (SatAll s db ρ cs ↔ SatAll s db ρ' cs)
  | [], _, _, _, _, _ => by simp only [SatAll]
  | c :: cs, ρ, ρ', hρ, hρ', h => by
    simp only [SatAll]
    rw [WhereClause.varsAll] at h
    rw [sat_congr c hρ hρ' fun x hx => h x (by simp [hx]), satAll_congr cs hρ hρ' fun x hx => h x (by simp [hx])]
theorem satArm_congr : ∀ (a : OrClause) {ρ ρ' : Assign}, ρ.Proper → ρ'.Proper →
    (∀ x ∈ a.vars, ρ x = ρ' x) → (SatArm s db ρ a ↔ SatArm s db ρ' a)
  | .clause c, ρ, ρ', hρ, hρ', h => by
    simp only [SatArm]
    rw [OrClause.vars] at h
    exact sat_congr c hρ hρ' h
  | .and cs, ρ, ρ', hρ, hρ', h => by
    simp only [SatArm]
    rw [OrClause.vars] at h
    exact satAll_congr cs hρ hρ' h
theorem satAny_congr : ∀ (as : List OrClause) {ρ ρ' : Assign}, ρ.Proper → ρ'.Proper →
    (∀ x ∈ OrClause.varsAll as, ρ x = ρ' x) → (SatAny s db ρ as ↔ SatAny s db ρ' as)
  | [], _, _, _, _, _ => by simp only [SatAny]
  | a :: as, ρ, ρ', hρ, hρ', h => by
    simp only [SatAny]
    rw [OrClause.varsAll] at h
    rw [satArm_congr a hρ hρ' fun x hx => h x (by simp [hx]), satAny_congr as hρ hρ' fun x hx => h x (by simp [hx])]
end

end Mentat
