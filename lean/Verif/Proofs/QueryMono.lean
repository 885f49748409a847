import Verif.Proofs.QueryFinish
/-
What holds of applying clauses without `or` and without functions but those that read a table, whatever they are applied to, when
nothing is cached: no value is bound, no table is computed, nothing panics later, conditions are only
added; and a pattern of a given attribute leaves a condition.
-/
namespace Mentat

/-- The functions that read a table and bind no variable to a constant: those of the transaction log, and
`fulltext` when the score is not asked for. -/
def FnOp.reads : FnOp → Binding → Bool
  | .txIds, _ => true
  | .txData, _ => true
  | .fulltext, b => (b.vars[3]?).join.isNone
  | _, _ => false

mutual
/-- No `or` and no functions but those that read a table. -/
def WhereClause.basic : WhereClause → Bool
  | .pattern _ => true
  | .pred _ _ => true
  | .typeAnno _ _ => true
  | .not _ cs => WhereClause.basicAll cs
  | .whereFn op _ b => op.reads b
  | .or _ _ => false
def WhereClause.basicAll : List WhereClause → Bool
  | [] => true
  | c :: cs => c.basic && WhereClause.basicAll cs
end

namespace CC

structure Mono (cc cc' : CC) : Prop where
  computed : cc'.computed = cc.computed
  panics : cc'.panics = cc.panics
  vals : cc'.vals = cc.vals
  wheres : ∃ ws, cc'.wheres = cc.wheres ++ ws
  empty : cc'.empty = false → cc.empty = false
  inputs : cc'.inputs = cc.inputs

theorem Mono.refl (cc : CC) : Mono cc cc := ⟨rfl, rfl, rfl, ⟨[], by simp⟩, id, rfl⟩

theorem Mono.trans {a b c : CC} (h : Mono a b) (h' : Mono b c) : Mono a c := by
  obtain ⟨w, hw⟩ := h.wheres
  obtain ⟨w', hw'⟩ := h'.wheres
  exact ⟨h'.computed.trans h.computed, h'.panics.trans h.panics, h'.vals.trans h.vals,
    ⟨w ++ w', by rw [hw', hw, List.append_assoc]⟩, fun e => h.empty (h'.empty e), h'.inputs.trans h.inputs⟩

theorem Grow.toMono {a b : CC} (h : Grow a b) : Mono a b := ⟨h.computed, h.panics, h.vals, h.wheres, h.empty, h.inputs⟩

theorem mono_markEmpty (cc : CC) : Mono cc cc.markEmpty := (grow_markEmpty cc).toMono

/-- Known to be empty, or with a condition. -/
def Con (cc : CC) : Prop := cc.empty = true ∨ cc.wheres ≠ []

theorem Con.mono {a b : CC} (h : Con a) (hm : Mono a b) : Con b := by
  rcases h with h | h
  · left
    cases hb : b.empty with
    | true => rfl
    | false => rw [hm.empty hb] at h; cases h
  · right
    obtain ⟨w, hw⟩ := hm.wheres
    rw [hw]
    intro e
    exact h (List.append_eq_nil_iff.mp e).1

theorem Con.markEmpty (cc : CC) : Con cc.markEmpty := .inl rfl

variable {k : Known}

theorem cacheLookup_uncached (hk : k.cache = none) (cc : CC) (p : EPattern) :
    cc.cacheLookup k p = none ∨ cc.cacheLookup k p = some cc.markEmpty := by
  unfold cacheLookup
  split
  · exact .inl rfl
  split
  · split
    · exact .inr rfl
    · simp [Known.cachedForward, Known.cachedReverse, hk]
  · exact .inl rfl

theorem applyPattern_mono (hk : k.cache = none) {cc cc' : CC} {p : EPattern} (h : cc.applyPattern k p = .ok cc') :
    Mono cc cc' ∧ ((∃ a, p.a = .entid a) → Con cc') := by
  unfold applyPattern at h
  split at h
  · simp at h
  rcases cacheLookup_uncached hk cc p with hc | hc
  · rw [hc] at h
    simp only at h
    cases ht : cc.tableFor k.schema p.a p.v with
    | none => rw [ht] at h; obtain rfl := Res.ok.inj h; exact ⟨mono_markEmpty cc, fun _ => Con.markEmpty cc⟩
    | some t =>
      rw [ht] at h
      obtain rfl := Res.ok.inj h
      have g := (grow_applyForAlias { cc with counter := cc.counter + 1 } k.schema p ⟨t, cc.counter⟩).toMono
      refine ⟨⟨g.computed, g.panics, g.vals, g.wheres, g.empty, g.inputs⟩, ?_⟩
      generalize ({ cc with counter := cc.counter + 1 } : CC) = cc1
      · rintro ⟨a, ha⟩
        have hA : Con (cc1.stageA k.schema p ⟨t, cc.counter⟩) := by
          right
          unfold stageA
          rw [ha]
          simp [applyRefPlace, addWhere]
        have hV := hA.mono (grow_applyValuePlace _ k.schema ⟨t, cc.counter⟩
          ((cc1.stageA k.schema p ⟨t, cc.counter⟩).valueTypeOf k.schema p) p.v).toMono
        show Con (cc1.applyForAlias k.schema p ⟨t, cc.counter⟩)
        rw [applyForAlias_eq]
        split
        · rename_i he; exact .inl he
        · split
          · exact Con.markEmpty _
          · split
            · exact Con.mono hV (grow_applyRefPlace _ _ _ _ _).toMono
            · exact hV
  · rw [hc] at h
    obtain rfl := Res.ok.inj h
    exact ⟨mono_markEmpty cc, fun _ => Con.markEmpty cc⟩

theorem applyEvolved_mono (hk : k.cache = none) : ∀ (qs : List EPattern) {cc cc' : CC},
    cc.applyEvolved k qs = .ok cc' → Mono cc cc' ∧ ((∃ q ∈ qs, ∃ a, q.a = .entid a) → Con cc')
  | [], cc, cc', h => by obtain rfl := Res.ok.inj h; exact ⟨Mono.refl _, by simp⟩
  | q :: qs, cc, cc', h => by
    rw [applyEvolved] at h
    cases hr : cc.reEvolve q with
    | none =>
      rw [hr] at h; obtain rfl := Res.ok.inj h
      exact ⟨mono_markEmpty _, fun _ => Con.markEmpty _⟩
    | some q' =>
      rw [hr] at h
      simp only at h
      rw [bind_iff] at h
      obtain ⟨c1, h1, h2⟩ := h
      obtain ⟨m1, n1⟩ := applyPattern_mono hk h1
      obtain ⟨m2, n2⟩ := applyEvolved_mono hk qs h2
      refine ⟨m1.trans m2, ?_⟩
      rintro ⟨p, hp, a, ha⟩
      rw [List.mem_cons] at hp
      rcases hp with rfl | hp
      · refine (n1 ⟨a, ?_⟩).mono m2
        unfold reEvolve at hr
        simp only at hr
        split at hr
        · split at hr
          · cases hr; exact ha
          · cases hr; exact ha
          · cases hr
        · cases hr; exact ha
      · exact n2 ⟨p, hp, a, ha⟩

theorem firstPass_mono : ∀ (cs : List WhereClause) {cc cc' : CC}, cc.firstPass cs = .ok cc' → Mono cc cc'
  | [], cc, cc', h => by obtain rfl := Res.ok.inj h; exact Mono.refl _
  | c :: cs, cc, cc', h => by
    have hm : ∀ (d : CC) p, Mono d (d.markRef p) := by
      intro d p
      cases p with
      | var x => exact (grow_constrainType d x .ref).toMono
      | _ => exact Mono.refl _
    cases c with
    | typeAnno x t =>
      simp only [firstPass] at h
      cases t with
      | none => simp [applyTypeAnno, Res.bind] at h
      | some t =>
        simp only [applyTypeAnno, Res.bind] at h
        refine Mono.trans ?_ (firstPass_mono cs h)
        obtain ⟨b, r, e, hb, -⟩ := addRequirement_same cc x (TypeSet.one t)
        rw [e]
        exact ⟨rfl, rfl, rfl, ⟨[], by simp⟩, hb, rfl⟩
    | pattern p =>
      simp only [firstPass] at h
      exact (((hm _ _).trans (hm _ _)).trans (hm _ _)).trans (firstPass_mono cs h)
    | _ => exact firstPass_mono cs (by simpa only [firstPass] using h)

theorem resolveNumeric_mono {cc : CC} {a : FnArg} {r : CC × SExpr} (h : cc.resolveNumeric a = .ok r) :
    Mono cc r.1 := by
  unfold resolveNumeric at h
  split at h
  · rename_i x
    cases hv : AMap.get cc.vals x with
    | some v =>
      rw [hv] at h
      simp only at h
      split at h
      · rw [← Res.ok.inj h]; exact Mono.refl _
      · cases h
    | none =>
      rw [hv] at h
      simp only at h
      rw [bind_iff] at h
      obtain ⟨e, -, h⟩ := h
      rw [← Res.ok.inj h]
      exact (grow_narrowTypes cc x TypeSet.numeric).toMono
  · rw [← Res.ok.inj h]; exact Mono.refl _
  · rw [← Res.ok.inj h]; exact Mono.refl _
  · cases h

theorem resolveInstant_mono {cc : CC} {a : FnArg} {r : CC × SExpr} (h : cc.resolveInstant a = .ok r) :
    Mono cc r.1 := by
  unfold resolveInstant at h
  split at h
  · split at h
    · rw [← Res.ok.inj h]; exact Mono.refl _
    · cases h
    · simp only at h
      rw [bind_iff] at h
      obtain ⟨e, -, h⟩ := h
      rw [← Res.ok.inj h]
      exact (grow_constrainType _ _ _).toMono
  · rw [← Res.ok.inj h]; exact Mono.refl _
  · cases h

theorem resolveRef_mono {cc : CC} {s : Schema} {a : FnArg} {r : CC × SExpr} (h : cc.resolveRef s a = .ok r) :
    Mono cc r.1 := by
  unfold resolveRef at h
  split at h
  · simp only at h
    split at h
    · rw [← Res.ok.inj h]; exact (grow_constrainType _ _ _).toMono
    · rw [bind_iff] at h
      obtain ⟨e, -, h⟩ := h
      rw [← Res.ok.inj h]
      exact (grow_constrainType _ _ _).toMono
  · rw [← Res.ok.inj h]; exact Mono.refl _
  · split at h
    · rw [← Res.ok.inj h]; exact Mono.refl _
    · cases h
  · cases h

theorem compare_mono {cc cc' : CC} {f : CC → FnArg → Res (CC × SExpr)}
    (hf : ∀ c a r, f c a = .ok r → Mono c r.1) {l r : FnArg} {o : SqlOp}
    (h : (f cc l).bind (fun p => (f p.1 r).bind fun q => .ok (q.1.addWhere (.infix o p.2 q.2))) = .ok cc') :
    Mono cc cc' := by
  rw [bind_iff] at h
  obtain ⟨p, hp, h⟩ := h
  rw [bind_iff] at h
  obtain ⟨q, hq, h⟩ := h
  rw [← Res.ok.inj h]
  exact ((hf _ _ _ hp).trans (hf _ _ _ hq)).trans (grow_addWhere _ _).toMono

theorem applyInequality_mono {cc cc' : CC} {s : Schema} {op : Ineq} {args : List FnArg}
    (h : cc.applyInequality s op args = .ok cc') : Mono cc cc' := by
  unfold applyInequality at h
  split at h
  · rename_i l r
    rw [bind_iff] at h
    obtain ⟨pl, -, h⟩ := h
    simp only at h
    split at h
    · cases h
    rw [bind_iff] at h
    obtain ⟨pr, -, h⟩ := h
    split at h
    · cases h
    generalize (if pl.inter op.supported .long = true then (pl.inter op.supported).union (TypeSet.one .double)
      else pl.inter op.supported) = lt at h
    generalize (if pr.inter op.supported .long = true then (pr.inter op.supported).union (TypeSet.one .double)
      else pr.inter op.supported) = rt at h
    split at h
    · rw [← Res.ok.inj h]; exact mono_markEmpty _
    refine compare_mono ?_ h
    intro c a r hr
    split at hr
    · exact resolveInstant_mono hr
    · split at hr
      · exact resolveNumeric_mono hr
      · split at hr
        · exact resolveRef_mono hr
        · cases hr
  · cases h

/-! ### The log -/

theorem mono_bindTyped (cc : CC) (s : Schema) (q : QA) (t : ValueType) (o : Option Var) :
    Mono cc (cc.bindTyped s q t o).1 := by
  cases o with
  | none => exact Mono.refl _
  | some x =>
    simp only [bindTyped]
    split
    · exact (grow_constrainType _ _ _).toMono
    · exact (grow_constrainType _ _ _).toMono.trans (grow_bindColumn _ _ _ _).toMono

theorem mono_withLog (cc : CC) : Mono cc cc.withLog := ⟨rfl, rfl, rfl, ⟨[], by simp [withLog]⟩, id, rfl⟩

theorem mono_bindLog (s : Schema) (al : Alias) : ∀ (l : List (Col × Option ValueType × Option Var)) (cc : CC),
    Mono cc (cc.bindLog s al l)
  | [], cc => Mono.refl _
  | (c, some t, o) :: r, cc => by
    simp only [bindLog]
    split
    · exact (mono_bindTyped _ _ _ _ _).trans (mono_bindLog s al r _)
    · exact mono_bindTyped _ _ _ _ _
  | (c, none, some x) :: r, cc => (grow_bindColumn _ _ _ _).toMono.trans (mono_bindLog s al r _)
  | (c, none, none) :: r, cc => mono_bindLog s al r cc

theorem mono_addWhere (cc : CC) (c : Constraint) : Mono cc (cc.addWhere c) := (grow_addWhere cc c).toMono

theorem applyTxIds_mono {cc cc' : CC} {s : Schema} {args : List FnArg} {b : Binding}
    (h : cc.applyTxIds s args b = .ok cc') : Mono cc cc' := by
  unfold applyTxIds at h
  split at h
  · split at h
    · cases h
    split at h
    · cases h
    simp only at h
    split at h
    · cases h
    · rename_i x hx
      split at h
      · rw [bind_iff] at h
        obtain ⟨p1, h1, h⟩ := h
        rw [bind_iff] at h
        obtain ⟨p2, h2, h⟩ := h
        obtain rfl := Res.ok.inj h
        refine (resolveRef_mono h1).trans ((resolveRef_mono h2).trans ((mono_withLog _).trans ?_))
        split
        · exact ((mono_bindTyped _ _ _ _ _).trans (mono_addWhere _ _)).trans (mono_addWhere _ _)
        · exact mono_bindTyped _ _ _ _ _
      · cases h
  · cases h

theorem applyTxData_mono {cc cc' : CC} {s : Schema} {args : List FnArg} {b : Binding}
    (h : cc.applyTxData s args b = .ok cc') : Mono cc cc' := by
  unfold applyTxData at h
  split at h
  · split at h
    · cases h
    split at h
    · cases h
    split at h
    · split at h
      · cases h
      simp only at h
      split at h
      · rw [bind_iff] at h
        obtain ⟨p, h1, h⟩ := h
        obtain rfl := Res.ok.inj h
        exact (resolveRef_mono h1).trans ((mono_withLog _).trans ((mono_addWhere _ _).trans (mono_bindLog _ _ _ _)))
      · cases h
    · cases h
  · cases h

/-! ### `fulltext` -/

theorem mono_withTexts (cc : CC) (a : Entid) : Mono cc (cc.withTexts a) :=
  (show Mono cc { cc with counter := cc.counter + 2, tables := cc.tables ++ [cc.textAlias, cc.textDatoms] } from
    ⟨rfl, rfl, rfl, ⟨[], by simp⟩, id, rfl⟩).trans ((mono_addWhere _ _).trans (mono_addWhere _ _))

theorem mono_bindText {cc : CC} {s : Schema} {q : QA} {o : Option Var} {p : CC × Bool}
    (h : cc.bindText s q o = .ok p) : Mono cc p.1 := by
  cases o with
  | none => obtain rfl := Res.ok.inj h; exact Mono.refl _
  | some x =>
    simp only [bindText] at h
    split at h
    · obtain rfl := Res.ok.inj h; exact (grow_constrainType _ _ _).toMono
    · split at h
      · cases h
      · obtain rfl := Res.ok.inj h
        exact (grow_constrainType _ _ _).toMono.trans (grow_bindColumn _ _ _ _).toMono

theorem applyFulltext_mono {cc cc' : CC} {s : Schema} {args : List FnArg} {b : Binding}
    (hb : (b.vars[3]?).join = none) (h : cc.applyFulltext s args b = .ok cc') : Mono cc cc' := by
  unfold applyFulltext at h
  split at h
  rotate_left
  · cases h
  split at h
  · cases h
  split at h
  · cases h
  split at h
  rotate_left
  · cases h
  rename_i bs _ _
  split at h
  · cases h
  split at h
  rotate_left
  · cases h
  rw [bind_iff] at h
  obtain ⟨a, -, h⟩ := h
  split at h
  · cases h
  split at h
  · obtain rfl := Res.ok.inj h; exact mono_markEmpty _
  simp only at h
  rw [bind_iff] at h
  obtain ⟨e, -, h⟩ := h
  refine (mono_withTexts cc a).trans ((mono_addWhere _ (.search cc.textAlias e)).trans ?_)
  generalize (cc.withTexts a).addWhere (.search cc.textAlias e) = c1 at h ⊢
  simp only [bindSearch] at h
  split at h
  · obtain rfl := Res.ok.inj h; exact mono_bindTyped _ _ _ _ _
  refine (mono_bindTyped c1 s (cc.textDatoms, .e) .ref (bs[0]?).join).trans ?_
  rw [bind_iff] at h
  obtain ⟨q, hq, h⟩ := h
  refine (mono_bindText hq).trans ?_
  split at h
  · obtain rfl := Res.ok.inj h; exact Mono.refl _
  split at h
  · obtain rfl := Res.ok.inj h; exact mono_bindTyped _ _ _ _ _
  simp only [Binding.vars] at hb
  rw [hb] at h
  obtain rfl := Res.ok.inj h
  exact mono_bindTyped _ _ _ _ _

/-! ### `not` -/

/-- The template with the bindings of the unified variables. -/
theorem notBindings_eq {cc : CC} : ∀ (xs : List Var) {tmpl t : CC}, cc.notBindings tmpl xs = .ok t →
    ∃ V C, t = { tmpl with vals := V, colb := C } ∧
      (∀ x, AMap.get V x = if x ∈ xs ∧ (AMap.get cc.vals x).isSome then AMap.get cc.vals x else AMap.get tmpl.vals x) ∧
      (AMap.WF tmpl.colb → AMap.WF C) ∧
      (∀ x ∈ xs, AMap.get cc.vals x = none → ∃ q r, AMap.get cc.colb x = some (q :: r)) ∧
      ∀ x, AMap.get C x = if x ∈ xs ∧ AMap.get cc.vals x = none then
        (AMap.get cc.colb x).bind fun qs => qs.head?.map fun q => [q] else AMap.get tmpl.colb x
  | [], tmpl, t, h => by
    obtain rfl := Res.ok.inj h
    exact ⟨_, _, rfl, by simp, id, by simp, by simp⟩
  | y :: xs, tmpl, t, h => by
    rw [notBindings] at h
    cases hv : AMap.get cc.vals y with
    | some v =>
      rw [hv] at h
      obtain ⟨V, C, rfl, h1, h2, h3, h4⟩ := notBindings_eq xs h
      refine ⟨V, C, rfl, ?_, h2, ?_, ?_⟩
      · intro x
        rw [h1]
        by_cases e : y = x
        · subst e; simp [hv]
        · have e' : ¬ x = y := fun h => e h.symm
          simp only [AMap.get_insert, if_neg e, List.mem_cons, e', false_or]
      · intro x hx hn
        rw [List.mem_cons] at hx
        rcases hx with rfl | hx
        · rw [hv] at hn; cases hn
        · exact h3 x hx hn
      · intro x
        rw [h4]
        by_cases e : x = y
        · subst e; simp [hv]
        · simp [e]
    | none =>
      rw [hv] at h
      simp only at h
      cases hc : AMap.get cc.colb y with
      | none => rw [hc] at h; cases h
      | some qs =>
        rw [hc] at h
        cases qs with
        | nil => cases h
        | cons q r =>
          simp only at h
          obtain ⟨V, C, rfl, h1, h2, h3, h4⟩ := notBindings_eq xs h
          refine ⟨V, C, rfl, ?_, fun hw => h2 (AMap.wf_insert hw _ _), ?_, ?_⟩
          · intro x
            rw [h1]
            by_cases e : x = y
            · subst e; simp [hv]
            · simp [e]
          · intro x hx hn
            rw [List.mem_cons] at hx
            rcases hx with rfl | hx
            · exact ⟨q, r, hc⟩
            · exact h3 x hx hn
          · intro x
            rw [h4]
            by_cases e : y = x
            · subst e
              simp [hv, hc]
            · have e' : ¬ x = y := fun h => e h.symm
              simp only [AMap.get_insert, if_neg e, List.mem_cons, e', false_or]

theorem processLoop_panics : ∀ (l : List (Var × TypeSet)) {cc cc' : CC}, cc.processLoop l = .ok cc' →
    cc'.panics = cc.panics
  | [], cc, cc', h => by obtain rfl := Res.ok.inj h; rfl
  | (x, ts) :: l, cc, cc', h => by
    have go : (match AMap.get (cc.narrowTypes x ts).extracted x with
        | none => Res.err .unboundVariable
        | some q => processLoop ((cc.narrowTypes x ts).addWhere (hasTypes q.1 ts true)) l) = .ok cc' →
        cc'.panics = cc.panics := by
      intro h
      cases hq : AMap.get (cc.narrowTypes x ts).extracted x with
      | none => rw [hq] at h; cases h
      | some q =>
        rw [hq] at h
        rw [processLoop_panics l h]
        exact (grow_narrowTypes cc x ts).panics
    rw [processLoop] at h
    simp only at h
    cases hk : AMap.get cc.known x with
    | none => rw [hk] at h; exact go h
    | some s =>
      rw [hk] at h
      simp only at h
      split at h
      · obtain rfl := Res.ok.inj h; rfl
      · split at h
        · exact processLoop_panics l h
        · exact go h

theorem finish_panics {cc cc' : CC} (h : cc.finish = .ok cc') : cc'.panics = cc.panics := by
  unfold finish processRequired at h
  split at h
  · obtain rfl := Res.ok.inj h; rfl
  · exact processLoop_panics _ (cc := cc.expand.prune) h

theorem joinNot_mono {cc cc' t : CC} (ht : t.panics = false) (h : cc.joinNot t = .ok cc') : Mono cc cc' := by
  unfold joinNot at h
  simp only at h
  split at h
  · obtain rfl := Res.ok.inj h; exact ⟨rfl, rfl, rfl, ⟨[], by simp⟩, id, rfl⟩
  · rw [bind_iff] at h
    obtain ⟨t', h1, h⟩ := h
    split at h
    · obtain rfl := Res.ok.inj h; exact ⟨rfl, rfl, rfl, ⟨[], by simp⟩, id, rfl⟩
    · split at h
      · obtain rfl := Res.ok.inj h; exact ⟨rfl, rfl, rfl, ⟨[], by simp⟩, id, rfl⟩
      · simp only [toSelect, finish_panics h1, ht, Bool.false_eq_true, if_false] at h
        obtain rfl := Res.ok.inj h; exact ⟨rfl, rfl, rfl, ⟨_, rfl⟩, id, rfl⟩

mutual
theorem applyClause_mono (hk : k.cache = none) : ∀ (c : WhereClause) {cc cc' : CC}, c.basic = true →
    applyClause k cc c = .ok cc' → Mono cc cc'
  | .pattern p, cc, cc', _, h => by
    rw [applyClause] at h
    unfold applyLonePattern at h
    rw [bind_iff] at h
    obtain ⟨o, -, h⟩ := h
    cases o with
    | none => obtain rfl := Res.ok.inj h; exact mono_markEmpty _
    | some q => exact (applyPattern_mono hk h).1
  | .pred op args, cc, cc', _, h => by
    cases op with
    | none => simp [applyClause] at h
    | some op => simp only [applyClause] at h; exact applyInequality_mono h
  | .typeAnno x t, cc, cc', _, h => by
    rw [applyClause] at h
    cases t with
    | none => simp [applyTypeAnno] at h
    | some t =>
      obtain rfl := Res.ok.inj h
      obtain ⟨b, r, e, hb, -⟩ := addRequirement_same cc x (TypeSet.one t)
      rw [e]
      exact ⟨rfl, rfl, rfl, ⟨[], by simp⟩, hb, rfl⟩
  | .whereFn op args b, cc, cc', hb, h => by
    simp only [applyClause] at h
    cases op with
    | txIds => exact applyTxIds_mono h
    | txData => exact applyTxData_mono h
    | fulltext => exact applyFulltext_mono (by simpa [WhereClause.basic, FnOp.reads] using hb) h
    | _ => simp [WhereClause.basic, FnOp.reads] at hb
  | .or _ _, _, _, hb, _ => by simp [WhereClause.basic] at hb
  | .not unify cs, cc, cc', hb, h => by
    rw [WhereClause.basic] at hb
    simp only [applyClause] at h
    split at h
    · cases h
    rw [bind_iff] at h
    obtain ⟨tmpl, h1, h⟩ := h
    rw [bind_iff] at h
    obtain ⟨t0, h2, h⟩ := h
    rw [bind_iff] at h
    obtain ⟨t, h3, h⟩ := h
    refine joinNot_mono ?_ h
    obtain ⟨V, C, rfl, -⟩ := notBindings_eq _ h1
    rw [(applyRun_mono hk cs [] hb h3).panics, (firstPass_mono cs h2).panics]
    rfl
theorem applyRun_mono (hk : k.cache = none) : ∀ (cs : List WhereClause) (pending : List EPattern) {cc cc' : CC},
    WhereClause.basicAll cs = true → applyRun k cc pending cs = .ok cc' → Mono cc cc'
  | [], pending, cc, cc', _, h => by rw [applyRun] at h; exact (applyEvolved_mono hk _ h).1
  | c :: cs, pending, cc, cc', hb, h => by
    simp only [WhereClause.basicAll, Bool.and_eq_true] at hb
    by_cases hanno : c.IsAnno
    · cases c with
      | typeAnno y t => rw [applyRun] at h; exact applyRun_mono hk cs pending hb.2 h
      | _ => exact hanno.elim
    by_cases hpat : ∃ p, c = .pattern p
    · obtain ⟨p, rfl⟩ := hpat
      rw [applyRun, bind_iff] at h
      obtain ⟨o, ho, h⟩ := h
      cases o with
      | none => obtain rfl := Res.ok.inj h; exact mono_markEmpty _
      | some q => exact applyRun_mono hk cs _ hb.2 h
    · rw [applyRun_other (fun p e => hpat ⟨p, e⟩) hanno, bind_iff] at h
      obtain ⟨c1, h1, h⟩ := h
      rw [bind_iff] at h
      obtain ⟨c2, h2, h⟩ := h
      exact ((applyEvolved_mono hk _ h1).1.trans (applyClause_mono hk c hb.1 h2)).trans (applyRun_mono hk cs [] hb.2 h)
end

theorem evolvePattern_given {cc : CC} {s : Schema} {p : Pattern} {q : EPattern}
    (h : cc.evolvePattern s p = .ok (some q)) (hp : p.a.Given (AMap.get cc.vals)) : ∃ a, q.a = .entid a := by
  unfold evolvePattern at h
  cases he : cc.evolveNonValue s p.e with
  | none => rw [he] at h; simp at h
  | some qe =>
    rw [he] at h
    simp only at h
    cases ha : cc.evolveAttribute s p.a with
    | none => rw [ha] at h; simp at h
    | some qt =>
      obtain ⟨qa, t⟩ := qt
      rw [ha] at h
      simp only at h
      rw [bind_iff] at h
      obtain ⟨ov, -, h⟩ := h
      cases ov with
      | none => simp at h
      | some v =>
        simp only at h
        cases htx : cc.evolveNonValue s p.tx with
        | none => rw [htx] at h; simp at h
        | some tx =>
          rw [htx] at h
          simp only [Res.ok.injEq, Option.some.injEq] at h
          subst h
          simp only
          unfold evolveAttribute at ha
          cases hn : cc.evolveNonValue s p.a with
          | none => rw [hn] at ha; cases ha
          | some n =>
            obtain ⟨e, rfl⟩ := (evolve_given hn).mp hp
            rw [hn] at ha
            simp only at ha
            split at ha
            · cases ha; exact ⟨e, rfl⟩
            · cases ha

/-- A pattern of a given attribute leaves a condition. -/
theorem applyRun_con (hk : k.cache = none) : ∀ (cs : List WhereClause) (pending : List EPattern) {cc cc' : CC},
    WhereClause.basicAll cs = true → applyRun k cc pending cs = .ok cc' →
    (Con cc ∨ (∃ q ∈ pending, ∃ a, q.a = .entid a) ∨ ∃ p, .pattern p ∈ cs ∧ p.a.Given (AMap.get cc.vals)) → Con cc'
  | [], pending, cc, cc', _, h, hg => by
    rw [applyRun] at h
    obtain ⟨m, n⟩ := applyEvolved_mono hk _ h
    rcases hg with hg | hg | ⟨p, hp, -⟩
    · exact hg.mono m
    · exact n hg
    · cases hp
  | c :: cs, pending, cc, cc', hb, h, hg => by
    simp only [WhereClause.basicAll, Bool.and_eq_true] at hb
    by_cases hanno : c.IsAnno
    · cases c with
      | typeAnno y t =>
        rw [applyRun] at h
        refine applyRun_con hk cs pending hb.2 h (hg.imp id (Or.imp id ?_))
        rintro ⟨p, hp, hg⟩
        simp only [List.mem_cons, reduceCtorEq, false_or] at hp
        exact ⟨p, hp, hg⟩
      | _ => exact hanno.elim
    by_cases hpat : ∃ p, c = .pattern p
    · obtain ⟨p, rfl⟩ := hpat
      rw [applyRun, bind_iff] at h
      obtain ⟨o, ho, h⟩ := h
      cases o with
      | none => obtain rfl := Res.ok.inj h; exact Con.markEmpty _
      | some q =>
        refine applyRun_con hk cs _ hb.2 h ?_
        rcases hg with hg | ⟨q', hq', hg⟩ | ⟨p', hp', hg⟩
        · exact .inl hg
        · exact .inr (.inl ⟨q', by simp [hq'], hg⟩)
        · simp only [List.mem_cons, WhereClause.pattern.injEq] at hp'
          rcases hp' with rfl | hp'
          · exact .inr (.inl ⟨q, by simp, evolvePattern_given ho hg⟩)
          · exact .inr (.inr ⟨p', hp', hg⟩)
    · rw [applyRun_other (fun p e => hpat ⟨p, e⟩) hanno, bind_iff] at h
      obtain ⟨c1, h1, h⟩ := h
      rw [bind_iff] at h
      obtain ⟨c2, h2, h⟩ := h
      obtain ⟨m1, n1⟩ := applyEvolved_mono hk _ h1
      have m2 := applyClause_mono hk c hb.1 h2
      refine applyRun_con hk cs [] hb.2 h ?_
      rcases hg with hg | hg | ⟨p', hp', hg⟩
      · exact .inl ((hg.mono m1).mono m2)
      · exact .inl ((n1 hg).mono m2)
      · rw [List.mem_cons] at hp'
        rcases hp' with rfl | hp'
        · exact absurd ⟨p', rfl⟩ hpat
        · exact .inr (.inr ⟨p', hp', by rw [m2.vals, m1.vals]; exact hg⟩)

end CC
end Mentat
