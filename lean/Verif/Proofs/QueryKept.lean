import Verif.Proofs.QueryAnswers
/-
What clauses other than `ground`, and `fulltext` with a score, do to the values bound and the input
variables: nothing.  This covers `or` and `or-join`.
-/
namespace Mentat

mutual
/-- A variable may be bound to a constant: `ground` is there, or the score of `fulltext`, outside of a
negation. -/
def WhereClause.grounds : WhereClause → Bool
  | .whereFn op _ b => !op.reads b
  | .or _ arms => OrClause.groundsAny arms
  | _ => false
def WhereClause.groundsAny : List WhereClause → Bool
  | [] => false
  | c :: cs => c.grounds || WhereClause.groundsAny cs
def OrClause.grounds : OrClause → Bool
  | .clause c => c.grounds
  | .and cs => WhereClause.groundsAny cs
def OrClause.groundsAny : List OrClause → Bool
  | [] => false
  | a :: as => a.grounds || OrClause.groundsAny as
end

namespace CC

/-- The values bound and the input variables are the same. -/
structure Kept' (cc cc' : CC) : Prop where
  vals : cc'.vals = cc.vals
  inputs : cc'.inputs = cc.inputs

theorem Kept'.refl (cc : CC) : Kept' cc cc := ⟨rfl, rfl⟩
theorem Kept'.trans {a b c : CC} (h : Kept' a b) (h' : Kept' b c) : Kept' a c :=
  ⟨h'.vals.trans h.vals, h'.inputs.trans h.inputs⟩
theorem Mono.kept {a b : CC} (h : Mono a b) : Kept' a b := ⟨h.vals, h.inputs⟩
theorem Grow.kept {a b : CC} (h : Grow a b) : Kept' a b := ⟨h.vals, h.inputs⟩

theorem processLoop_kept : ∀ (l : List (Var × TypeSet)) {cc cc' : CC}, cc.processLoop l = .ok cc' → Kept' cc cc'
  | [], cc, cc', h => by obtain rfl := Res.ok.inj h; exact .refl _
  | (x, ts) :: l, cc, cc', h => by
    have go : (match AMap.get (cc.narrowTypes x ts).extracted x with
        | none => Res.err .unboundVariable
        | some q => processLoop ((cc.narrowTypes x ts).addWhere (hasTypes q.1 ts true)) l) = .ok cc' → Kept' cc cc' := by
      intro h
      cases hq : AMap.get (cc.narrowTypes x ts).extracted x with
      | none => rw [hq] at h; cases h
      | some q =>
        rw [hq] at h
        exact (grow_narrowTypes cc x ts).kept.trans ((grow_addWhere _ _).kept.trans (processLoop_kept l h))
    rw [processLoop] at h
    simp only at h
    cases hk : AMap.get cc.known x with
    | none => rw [hk] at h; exact go h
    | some s =>
      rw [hk] at h
      simp only at h
      split at h
      · obtain rfl := Res.ok.inj h; exact ⟨rfl, rfl⟩
      · split at h
        · exact processLoop_kept l h
        · exact go h

theorem finish_kept {cc cc' : CC} (h : cc.finish = .ok cc') : Kept' cc cc' := by
  unfold finish processRequired at h
  split at h
  · obtain rfl := Res.ok.inj h; exact ⟨rfl, rfl⟩
  · exact (show Kept' cc cc.expand.prune from ⟨rfl, rfl⟩).trans (processLoop_kept _ h)

theorem joinNot_kept {cc cc' t : CC} (h : cc.joinNot t = .ok cc') : Kept' cc cc' := by
  unfold joinNot at h
  simp only at h
  split at h
  · obtain rfl := Res.ok.inj h; exact ⟨rfl, rfl⟩
  · obtain ⟨t', h1, h⟩ := bind_iff.mp h
    split at h
    · obtain rfl := Res.ok.inj h; exact ⟨rfl, rfl⟩
    · split at h
      · obtain rfl := Res.ok.inj h; exact ⟨rfl, rfl⟩
      · split at h <;> obtain rfl := Res.ok.inj h <;> exact ⟨rfl, rfl⟩

theorem broadenTypes_kept : ∀ (l : List (Var × TypeSet)) {cc cc' : CC}, cc.broadenTypes l = .ok cc' → Kept' cc cc'
  | [], cc, cc', h => by obtain rfl := Res.ok.inj h; exact .refl _
  | (x, ts) :: l, cc, cc', h => by
    rw [broadenTypes] at h
    cases hk : AMap.get cc.known x with
    | none =>
      rw [hk] at h
      have := broadenTypes_kept l (cc := { cc with
        known := AMap.insert cc.known x ts
        extracted := if ts.isUnit then AMap.erase cc.extracted x else cc.extracted }) h
      exact ⟨this.vals, this.inputs⟩
    | some s =>
      rw [hk] at h
      simp only at h
      split at h
      · cases h
      · have := broadenTypes_kept l h
        exact ⟨this.vals, this.inputs⟩

theorem bindVars_kept (s : Schema) (al : Alias) : ∀ (xs : List Var) (cc : CC), Kept' cc (cc.bindVars s al xs)
  | [], cc => .refl _
  | x :: xs, cc => by
    rw [bindVars]
    exact (grow_bindColumn cc s (al, .var x) x).kept.trans (bindVars_kept s al xs _)

theorem narrowAll_kept : ∀ (l : List (Var × TypeSet)) (cc : CC), Kept' cc (cc.narrowAll l)
  | [], cc => .refl _
  | (x, ts) :: l, cc => by
    rw [narrowAll]
    exact (grow_narrowTypes cc x ts).kept.trans (narrowAll_kept l _)

theorem joinArms_kept {cc cc' : CC} {s : Schema} {xs : List Var} {acc : List CC} (h : cc.joinArms s xs acc = .ok cc') :
    Kept' cc cc' := by
  unfold joinArms at h
  split at h
  · obtain rfl := Res.ok.inj h; exact ⟨rfl, rfl⟩
  · simp only at h
    obtain ⟨cc1, h1, h⟩ := bind_iff.mp h
    obtain rfl := Res.ok.inj h
    refine (broadenTypes_kept _ h1).trans (.trans ?_ (.trans (bindVars_kept s _ xs _) ⟨rfl, rfl⟩))
    split <;> exact ⟨rfl, rfl⟩

theorem applySimpleOr_kept {cc cc' : CC} {s : Schema} {ps : List Pattern} {xs : List Var}
    (h : cc.applySimpleOr s ps xs = .ok cc') : Kept' cc cc' := by
  unfold applySimpleOr at h
  split at h
  · obtain rfl := Res.ok.inj h; exact .refl _
  · obtain ⟨eps, -, h⟩ := bind_iff.mp h
    split at h
    · cases h
    · simp only at h
      split at h
      · cases h
      · split at h
        · obtain rfl := Res.ok.inj h; exact ⟨rfl, rfl⟩
        · obtain ⟨f, -, h⟩ := bind_iff.mp h
          obtain rfl := Res.ok.inj h
          refine Kept'.trans ?_ (narrowAll_kept _ _)
          exact ⟨rfl, rfl⟩

variable {k : Known}

theorem applyLonePattern_kept (hk : k.cache = none) {cc cc' : CC} {p : Pattern} (h : cc.applyLonePattern k p = .ok cc') :
    Kept' cc cc' := by
  unfold applyLonePattern at h
  obtain ⟨o, -, h⟩ := bind_iff.mp h
  cases o with
  | none => obtain rfl := Res.ok.inj h; exact (mono_markEmpty _).kept
  | some q => exact (applyPattern_mono hk h).1.kept

mutual
theorem applyClause_kept (hk : k.cache = none) : ∀ (c : WhereClause) {cc cc' : CC}, c.grounds = false →
    applyClause k cc c = .ok cc' → Kept' cc cc'
  | .pattern p, cc, cc', _, h => by
    rw [applyClause] at h
    exact applyLonePattern_kept hk h
  | .pred op args, cc, cc', _, h => by
    cases op with
    | none => simp [applyClause] at h
    | some op => simp only [applyClause] at h; exact (applyInequality_mono h).kept
  | .typeAnno x t, cc, cc', _, h => (applyClause_mono hk (.typeAnno x t) (by simp [WhereClause.basic]) h).kept
  | .whereFn op args b, cc, cc', hb, h => by
    simp only [applyClause] at h
    cases op with
    | txIds => exact (applyTxIds_mono h).kept
    | txData => exact (applyTxData_mono h).kept
    | fulltext => exact (applyFulltext_mono (by simpa [WhereClause.grounds, FnOp.reads] using hb) h).kept
    | _ => simp [WhereClause.grounds, FnOp.reads] at hb
  | .or unify arms, cc, cc', hb, h => by
    rw [WhereClause.grounds] at hb
    have ja : ∀ {n xs acc}, ({ cc with counter := n } : CC).joinArms k.schema xs acc = .ok cc' → Kept' cc cc' :=
      fun h => ⟨(joinArms_kept h).vals, (joinArms_kept h).inputs⟩
    match arms, hb, h with
    | [], _, h =>
      simp only [applyClause] at h
      split at h
      · cases h
      · obtain rfl := Res.ok.inj h; exact .refl _
    | [arm], hb, h =>
      simp only [applyClause] at h
      split at h
      · cases h
      split at h
      · simp only [OrClause.groundsAny, Bool.or_false] at hb
        exact applyOrClause_kept hk arm hb h
      · obtain ⟨r, -, h⟩ := bind_iff.mp h
        exact ja h
    | a :: b :: arms, _, h =>
      simp only [applyClause] at h
      split at h
      · cases h
      split at h
      · obtain ⟨shape, -, h⟩ := bind_iff.mp h
        cases shape with
        | empty => obtain rfl := Res.ok.inj h; exact ⟨rfl, rfl⟩
        | unit p => exact applyLonePattern_kept hk h
        | simple ps => exact applySimpleOr_kept h
        | complex mask =>
          obtain ⟨r, -, h⟩ := bind_iff.mp h
          exact ja h
      · obtain ⟨r, -, h⟩ := bind_iff.mp h
        exact ja h
  | .not unify cs, cc, cc', hb, h => by
    simp only [applyClause] at h
    split at h
    · cases h
    obtain ⟨tmpl, -, h⟩ := bind_iff.mp h
    obtain ⟨t0, -, h⟩ := bind_iff.mp h
    obtain ⟨t, -, h⟩ := bind_iff.mp h
    exact joinNot_kept h
theorem applyRun_kept (hk : k.cache = none) : ∀ (cs : List WhereClause) (pending : List EPattern) {cc cc' : CC},
    WhereClause.groundsAny cs = false → applyRun k cc pending cs = .ok cc' → Kept' cc cc'
  | [], pending, cc, cc', _, h => by rw [applyRun] at h; exact (applyEvolved_mono hk _ h).1.kept
  | c :: cs, pending, cc, cc', hb, h => by
    simp only [WhereClause.groundsAny, Bool.or_eq_false_iff] at hb
    by_cases hanno : c.IsAnno
    · cases c with
      | typeAnno y t => rw [applyRun] at h; exact applyRun_kept hk cs pending hb.2 h
      | _ => exact hanno.elim
    by_cases hpat : ∃ p, c = .pattern p
    · obtain ⟨p, rfl⟩ := hpat
      rw [applyRun] at h
      obtain ⟨o, ho, h⟩ := bind_iff.mp h
      cases o with
      | none => obtain rfl := Res.ok.inj h; exact (mono_markEmpty _).kept
      | some q => exact applyRun_kept hk cs _ hb.2 h
    · rw [applyRun_other (fun p e => hpat ⟨p, e⟩) hanno] at h
      obtain ⟨c1, h1, h⟩ := bind_iff.mp h
      obtain ⟨c2, h2, h⟩ := bind_iff.mp h
      exact ((applyEvolved_mono hk _ h1).1.kept.trans (applyClause_kept hk c hb.1 h2)).trans (applyRun_kept hk cs [] hb.2 h)
theorem applyOrClause_kept (hk : k.cache = none) : ∀ (a : OrClause) {cc cc' : CC}, a.grounds = false →
    applyOrClause k cc a = .ok cc' → Kept' cc cc'
  | .clause c, cc, cc', hb, h => by
    rw [applyOrClause] at h
    rw [OrClause.grounds] at hb
    exact applyClause_kept hk c hb h
  | .and cs, cc, cc', hb, h => by
    rw [applyOrClause] at h
    rw [OrClause.grounds] at hb
    obtain ⟨cc1, h1, h⟩ := bind_iff.mp h
    exact (firstPass_mono _ h1).kept.trans (applyRun_kept hk cs [] hb h)
end

theorem deriveTypes_kept : ∀ (l : List Element) (cc : CC), Kept' cc (cc.deriveTypes l)
  | [], cc => .refl _
  | .pull x :: r, cc => by rw [deriveTypes]; exact (grow_constrainType cc x .ref).kept.trans (deriveTypes_kept r _)
  | .var x :: r, cc => by rw [deriveTypes]; exact deriveTypes_kept r _; simp
  | .corresponding x :: r, cc => by rw [deriveTypes]; exact deriveTypes_kept r _; simp
  | .aggregate _ _ :: r, cc => by rw [deriveTypes]; exact deriveTypes_kept r _; simp

theorem fromParsed_same {q q' : FindQuery} (h : fromParsed q = .ok q') : q' = q := by
  unfold fromParsed at h
  split at h
  · cases h
  · split at h
    · cases h
    · split at h
      · split at h
        · exact (Res.ok.inj h).symm
        · cases h
      · exact (Res.ok.inj h).symm

/-- What algebrizing does with the values given, when nothing is bound by `ground` or from a cache. -/
theorem algebrize_vals (hk : k.cache = none) {q : FindQuery} {inputs : Inputs} (hq : WhereClause.groundsAny q.clauses = false)
    {a : Algebraic} (h : algebrizeQuery k q inputs = .ok a) :
    a.cc.inputs = q.inVars ∧ (∀ x, AMap.get a.cc.vals x = if x ∈ q.inVars then AMap.get inputs.values x else none) ∧
    ∀ x ∈ q.inVars, (AMap.get inputs.values x).isSome := by
  unfold algebrizeQuery at h
  obtain ⟨q', hq', h⟩ := bind_iff.mp h
  rw [fromParsed_same hq'] at h
  clear hq'
  obtain ⟨a', ha, h⟩ := bind_iff.mp h
  split at h
  rotate_left
  · cases h
  rename_i hun
  obtain rfl := Res.ok.inj h
  unfold algebrize at ha
  obtain ⟨cc0, h0, ha⟩ := bind_iff.mp ha
  simp only at ha
  obtain ⟨cc3, h3, ha⟩ := bind_iff.mp ha
  obtain ⟨cc, hfin, ha⟩ := bind_iff.mp ha
  obtain ⟨od, -, ha⟩ := bind_iff.mp ha
  obtain ⟨lim, -, ha⟩ := bind_iff.mp ha
  obtain rfl := Res.ok.inj ha
  have k1 : Kept' cc0 (match q.limit with
      | .var x => (cc0.deriveTypes q.find.elements).narrowTypes x (TypeSet.one .long)
      | _ => cc0.deriveTypes q.find.elements) := by
    refine (deriveTypes_kept q.find.elements cc0).trans ?_
    split
    · exact (grow_narrowTypes _ _ _).kept
    · exact .refl _
  unfold applyClauses at h3
  obtain ⟨cc1, h1, h2⟩ := bind_iff.mp h3
  have kk := ((k1.trans (firstPass_mono _ h1).kept).trans (applyRun_kept hk _ _ hq h2)).trans (finish_kept hfin)
  unfold withInputs at h0
  obtain ⟨types, -, h0⟩ := bind_iff.mp h0
  obtain ⟨values, hv, h0⟩ := bind_iff.mp h0
  obtain rfl := Res.ok.inj h0
  have hvals : ∀ x, AMap.get cc.vals x = if x ∈ q.inVars then AMap.get inputs.values x else none := by
    intro x; rw [kk.vals]; exact get_keepKeys hv x
  refine ⟨kk.inputs, hvals, fun x hx => ?_⟩
  have hun : cc.inputs.filter (fun x => (AMap.get cc.vals x).isNone) = [] := by
    simpa [Algebraic.unbound] using hun
  have := List.filter_eq_nil_iff.mp hun x (by rw [kk.inputs]; exact hx)
  rw [hvals x, if_pos hx] at this
  simpa [Option.isSome_iff_ne_none] using this

end CC
end Mentat
