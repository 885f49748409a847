import Verif.Proofs.QueryPred
/-
The two passes over a list of clauses: what applying all of them adds to the meaning.
-/
namespace Mentat

/-- The datoms and the log of the tables. -/
def Tables.facts (db : Tables) : Facts := ⟨db.rows, db.log.filter fun l => decide (l.timeline = 0), db.matches⟩

/-- A clause that only states the type of a variable. -/
def WhereClause.IsAnno : WhereClause → Prop
  | .typeAnno _ _ => True
  | _ => False

namespace CC

theorem bind_iff {α β : Type} {x : Res α} {f : α → Res β} {b : β} :
    x.bind f = .ok b ↔ ∃ a, x = .ok a ∧ f a = .ok b := by
  cases x <;> simp [Res.bind]

/-! ### Requirements -/

section
variable {F : Env → Prop} {L X : Var → Prop} {db : Tables} {cc : CC}

theorem addRequirement_same (cc : CC) (x : Var) (ts : TypeSet) :
    ∃ b r, cc.addRequirement x ts = { cc with empty := b, required := r } ∧ (b = false → cc.empty = false) ∧
      (AMap.WF cc.required → AMap.WF r) ∧
      (b = false → ∀ y us, AMap.get cc.required y = some us → ∃ us', AMap.get r y = some us' ∧
        ∀ t, us t = false → us' t = false) := by
  unfold addRequirement
  split
  · exact ⟨true, cc.required, rfl, by simp, id, by simp⟩
  · cases hr : AMap.get cc.required x with
    | none =>
      refine ⟨cc.empty, _, rfl, id, fun h => AMap.wf_insert h _ _, ?_⟩
      intro _ y us hy
      refine ⟨us, ?_, fun _ h => h⟩
      rw [AMap.get_insert]
      split
      · rename_i e; subst e; rw [hr] at hy; cases hy
      · exact hy
    | some s =>
      have key : ∀ y us, AMap.get cc.required y = some us →
          ∃ us', AMap.get (AMap.insert cc.required x (ts.inter s)) y = some us' ∧
            ∀ t, us t = false → us' t = false := by
        intro y us hy
        rw [AMap.get_insert]
        split
        · rename_i e
          subst e
          rw [hr] at hy
          cases hy
          exact ⟨_, rfl, fun t h => by simp [TypeSet.inter, h]⟩
        · exact ⟨us, hy, fun _ h => h⟩
      simp only
      split
      · exact ⟨true, _, rfl, by simp, fun h => AMap.wf_insert h _ _, by simp⟩
      · exact ⟨cc.empty, _, rfl, id, fun h => AMap.wf_insert h _ _, fun _ => key⟩

/-- Requiring a type. -/
theorem step_addRequirement (hi : Inv L cc) (ht : TypedIn F L db cc) (x : Var) (ts : TypeSet) :
    StepOk F L db X cc (cc.addRequirement x ts) (fun ρ => ts (ρ x).valueType = true) := by
  have hat := fun env (ρ : Assign) => at_addRequirement (db := db) (env := env) (ρ := ρ) (cc := cc) (x := x) (ts := ts)
  obtain ⟨b, r, e, hb, hwf, hr⟩ := addRequirement_same cc x ts
  rw [e] at hat ⊢
  have hst : ({ cc with empty := b, required := r } : CC).stables = cc.stables := rfl
  refine ⟨?_, ?_, ?_, fun _ _ _ h => h, rfl, rfl, hb, rfl, Nat.le_refl _,
    fun y _ h => ⟨h.vals, h.known, h.cols, h.tags, h.inputs⟩, ⟨[], by simp⟩, fun h => ⟨fun he => h.known (hb he), fun he => h.tagged (hb he)⟩,
    ⟨fun _ _ h => ⟨⟨h.within.wh, h.within.cols, h.within.tags⟩, h.tables⟩, Nat.le_refl _, fun _ h => h⟩⟩
  · exact ⟨fun he => hi.unit (hb he), fun he => hi.valsKnown (hb he), hi.valsProper, hi.loose, hi.tags, hi.wfCols,
      hwf hi.wfReq, hi.colsNe, ⟨hi.fresh.wh, hi.fresh.cols, hi.fresh.tags⟩, hi.tables, hi.computed, hi.wfKnown⟩
  · intro E hE loc hl he hw y qs hy
    have hc := ht E hE loc (hst ▸ hl) (hb he) hw y qs hy
    refine ⟨hc.typed, fun hL => ?_⟩
    obtain ⟨al, h1, h2, h3⟩ := hc.loose hL
    refine ⟨al, h1, h2, h3.imp id ?_⟩
    rintro ⟨h4, us, h5, h6⟩
    obtain ⟨us', h7, h8⟩ := hr he y us h5
    exact ⟨h4, us', h7, h8 _ h6⟩
  · intro E hE ρ hρ
    unfold Sem
    rw [hst]
    simp only [hat]
    constructor
    · rintro ⟨loc, hl, h, h'⟩; exact ⟨⟨loc, hl, h⟩, h'⟩
    · rintro ⟨⟨loc, hl, h⟩, h'⟩; exact ⟨loc, hl, h, h'⟩

/-! ### The first pass -/

theorem step_markRef (hi : Inv L cc) (ht : TypedIn F L db cc) {p : NonValue} (hp : ∀ x, p = .var x → ¬ L x) :
    StepOk F L db (fun x => p = .var x) cc (cc.markRef p) (fun ρ => ∀ x, p = .var x → (ρ x).valueType = .ref) := by
  cases p with
  | var x =>
    refine ((step_constrainType hi ht (hp x rfl) .ref).mono ?_).congr ?_
    · rintro y rfl; rfl
    · intro _ _ ρ _ _; simp
  | _ => exact (StepOk.refl hi ht).congr (by simp)

/-- What the first pass adds: the types stated, and those of the places of patterns. -/
def Marks (cs : List WhereClause) (ρ : Assign) : Prop :=
  (∀ x t, .typeAnno x t ∈ cs → t = some (ρ x).valueType) ∧ ∀ p, .pattern p ∈ cs → p.Refs ρ

theorem step_firstPass : ∀ (cs : List WhereClause) {cc cc' : CC}, Inv L cc → TypedIn F L db cc →
    (∀ p, .pattern p ∈ cs → ∀ x, p.RefVar x → ¬ L x) → cc.firstPass cs = .ok cc' →
    StepOk F L db (fun x => ∃ p, .pattern p ∈ cs ∧ p.RefVar x) cc cc' (Marks cs)
  | [], cc, cc', hi, ht, _, h => by
    obtain rfl := Res.ok.inj h
    exact (StepOk.refl hi ht).congr (by simp [Marks])
  | c :: cs, cc, cc', hi, ht, hL, h => by
    have hL' : ∀ p, .pattern p ∈ cs → ∀ x, p.RefVar x → ¬ L x := fun p hp => hL p (by simp [hp])
    have skip : (∀ p, c ≠ .pattern p) → (∀ x t, c ≠ .typeAnno x t) → cc.firstPass cs = .ok cc' →
        StepOk F L db (fun x => ∃ p, .pattern p ∈ c :: cs ∧ p.RefVar x) cc cc' (Marks (c :: cs)) := by
      intro h1 h2 h
      refine ((step_firstPass cs hi ht hL' h).mono ?_).congr ?_
      · rintro x ⟨p, hp, hx⟩; exact ⟨p, by simp [hp], hx⟩
      · intro _ _ ρ _ _
        simp only [Marks, List.mem_cons]
        constructor
        · rintro ⟨a, b⟩
          exact ⟨fun x t hx => hx.elim (fun e => absurd e.symm (h2 x t)) (a x t),
            fun p hp => hp.elim (fun e => absurd e.symm (h1 p)) (b p)⟩
        · rintro ⟨a, b⟩
          exact ⟨fun x t hx => a x t (.inr hx), fun p hp => b p (.inr hp)⟩
    cases c with
    | typeAnno x t =>
      simp only [firstPass] at h
      cases t with
      | none => simp [applyTypeAnno, Res.bind] at h
      | some t =>
        have st := step_addRequirement (X := fun _ => False) hi ht x (TypeSet.one t)
        refine ((st.trans (step_firstPass cs st.inv st.typed hL' h)).mono ?_).congr ?_
        · rintro y (hy | ⟨p, hp, hx⟩)
          · exact hy.elim
          · exact ⟨p, by simp [hp], hx⟩
        · intro _ _ ρ _ _
          simp only [Marks, List.mem_cons, TypeSet.one, decide_eq_true_eq, reduceCtorEq, false_or,
            WhereClause.typeAnno.injEq]
          constructor
          · rintro ⟨a, b, c⟩
            exact ⟨fun y u hy => hy.elim (fun ⟨e1, e2⟩ => by rw [e1, e2, a]) (b y u), c⟩
          · rintro ⟨b, c⟩
            exact ⟨(Option.some.inj (b x (some t) (.inl ⟨rfl, rfl⟩))).symm, fun y u hy => b y u (.inr hy), c⟩
    | pattern p =>
      simp only [firstPass] at h
      have s1 := step_markRef hi ht (p := p.e) fun x hx => hL p (by simp) x (.inl hx)
      have s2 := step_markRef s1.inv s1.typed (p := p.a) fun x hx => hL p (by simp) x (.inr (.inl hx))
      have s3 := step_markRef s2.inv s2.typed (p := p.tx) fun x hx => hL p (by simp) x (.inr (.inr hx))
      refine ((((s1.trans s2).trans s3).trans (step_firstPass cs s3.inv s3.typed hL' h)).mono ?_).congr ?_
      · rintro x (((hx | hx) | hx) | ⟨q, hq, hx⟩)
        · exact ⟨p, by simp, .inl hx⟩
        · exact ⟨p, by simp, .inr (.inl hx)⟩
        · exact ⟨p, by simp, .inr (.inr hx)⟩
        · exact ⟨q, by simp [hq], hx⟩
      · intro _ _ ρ _ _
        simp only [Marks, List.mem_cons, reduceCtorEq, false_or, WhereClause.pattern.injEq, Pattern.Refs]
        constructor
        · rintro ⟨⟨⟨a, b⟩, c⟩, d, e⟩
          exact ⟨d, fun q hq => hq.elim (fun e => by subst e; exact ⟨a, b, c⟩) (e q)⟩
        · rintro ⟨d, e⟩
          have := e p (.inl rfl)
          exact ⟨⟨⟨this.1, this.2.1⟩, this.2.2⟩, d, fun q hq => e q (.inr hq)⟩
    | _ => exact skip (by simp) (by simp) (by simpa only [firstPass] using h)

end

/-! ### The second pass -/

/-- What must hold before a clause is applied.  `T`: the clauses are those of a whole query or of an arm of
an `or`, not of a `not`, so that the computed tables they speak of are their own. -/
structure Ready (T : Prop) (F : Env → Prop) (L : Var → Prop) (db : Tables) (vals : Var → Option TypedValue) (cc : CC) :
    Prop where
  vals : AMap.get cc.vals = vals
  inv : Inv L cc
  typed : TypedIn F L db cc
  cols : ColsKnown L cc
  low : T → Lows cc.computed.length cc

theorem Ready.step {T : Prop} {F : Env → Prop} {L X : Var → Prop} {db : Tables} {vals : Var → Option TypedValue}
    {cc cc' : CC} {P : Assign → Prop} (h : Ready T F L db vals cc) (st : StepOk F L db X cc cc' P) :
    Ready T F L db vals cc' :=
  ⟨by rw [st.vals]; exact h.vals, st.inv, st.typed, st.cols h.cols, fun ht => st.ext.low _ (Nat.le_refl _) (by
    have := h.low ht
    exact ⟨this.within.mono fun _ h => h.mono st.ext.len, fun al ha => (this.tables al ha).mono st.ext.len⟩)⟩

/-- Applying the clause adds the condition that it is satisfied. -/
def ClauseStep (T : Prop) (k : Known) (F : Env → Prop) (L : Var → Prop) (db : Tables) (vals : Var → Option TypedValue)
    (c : WhereClause) : Prop :=
  ∀ cc cc', applyClause k cc c = .ok cc' → Ready T F L db vals cc → (∀ x ∈ c.vars, L x → Unmet cc x) →
    StepOk F L db (· ∈ c.vars) cc cc' (fun ρ => Sat k.schema db.facts ρ c)

theorem has_vars {p : Pattern} {q : EPattern} (he : ∀ x, q.e = .var x → p.e = .var x)
    (ha : ∀ x, q.a = .var x → p.a = .var x) (hv : ∀ x, q.v = .var x → p.v = .var x)
    (ht : ∀ x, q.tx = .var x → p.tx = .var x) {x : Var} (h : q.Has x) : x ∈ p.vars := by
  rcases h with h | h | h | h
  · have := he x h; simp [Pattern.vars, this, NonValue.vars]
  · have := ha x h; simp [Pattern.vars, this, NonValue.vars]
  · have := hv x h; simp [Pattern.vars, this, PatValue.vars]
  · have := ht x h; simp [Pattern.vars, this, NonValue.vars]

section
variable {T : Prop} {F : Env → Prop} {L : Var → Prop} {db : Tables} {k : Known} {vals : Var → Option TypedValue}

/-- Satisfaction of a pattern by the datoms is that of the evolved one. -/
theorem evolve_sat (hd : DbOk k.schema db) {cc : CC} {p : Pattern} (hp : PatOk L (AMap.get cc.vals) p) {o : Option EPattern}
    (h : cc.evolvePattern k.schema p = .ok o) {E : Env} {ρ : Assign} (hs : Sem db E cc ρ) :
    Sat k.schema db.facts ρ (.pattern p) ↔ ∃ q, o = some q ∧ ∃ r ∈ db.rows, q.Matches k.schema ρ r := by
  obtain ⟨loc, -, hat⟩ := hs
  simp only [Sat, Tables.facts]
  constructor
  · rintro ⟨r, hr, hm⟩
    obtain ⟨q, hq, hq'⟩ := (evolvePattern_matches hd hat.vals hat.known hp.noKw h hr).mp hm
    exact ⟨q, hq, r, hr, hq'⟩
  · rintro ⟨q, hq, r, hr, hm⟩
    exact ⟨r, hr, (evolvePattern_matches hd hat.vals hat.known hp.noKw h hr).mpr ⟨q, hq, hm⟩⟩

/-- A pattern. -/
theorem step_lonePattern (hk : k.cache = none) (hd : DbOk k.schema db) {p : Pattern} (hp : PatOk L vals p) :
    ClauseStep T k F L db vals (.pattern p) := by
  intro cc cc' h hr hu
  rw [applyClause] at h
  have hp' : PatOk L (AMap.get cc.vals) p := by rw [hr.vals]; exact hp
  unfold applyLonePattern at h
  rw [bind_iff] at h
  obtain ⟨o, ho, h⟩ := h
  cases o with
  | none =>
    obtain rfl := Res.ok.inj h
    refine StepOk.giveUp hr.inv ?_
    intro E hE ρ hρ hs hsat
    obtain ⟨q, hq, -⟩ := (evolve_sat hd hp' ho hs).mp hsat
    cases hq
  | some q =>
    obtain ⟨hpl, -, -, he, ha, hv, ht⟩ := evolvePattern_plain hr.inv hp' ho
    have st := step_applyPattern (F := F) hk hd hr.inv hr.typed hpl
      (fun x hx hL => hu x (has_vars he ha hv ht (.inr (.inr (.inl hx)))) hL) h
    refine (st.mono fun x hx => has_vars he ha hv ht hx).congr ?_
    intro E hE ρ hρ hs
    rw [evolve_sat hd hp' ho hs]
    simp

/-- A statement of a type, by itself. -/
theorem step_anno (x : Var) (t : Option ValueType) : ClauseStep T k F L db vals (.typeAnno x t) := by
  intro cc cc' h hr _
  rw [applyClause] at h
  cases t with
  | none => simp [applyTypeAnno] at h
  | some t =>
    obtain rfl := Res.ok.inj h
    refine (step_addRequirement hr.inv hr.typed x (TypeSet.one t)).congr ?_
    intro _ _ ρ _ _
    simp only [TypeSet.one, decide_eq_true_eq, Sat, Option.some.injEq]
    exact eq_comm

/-- A predicate. -/
theorem step_pred {op : Option Ineq} {args : List FnArg}
    (ha : ∀ x ∈ argVars args, ¬ L x) : ClauseStep T k F L db vals (.pred op args) := by
  intro cc cc' h hr _
  cases op with
  | none => simp [applyClause] at h
  | some op =>
    simp only [applyClause] at h
    exact step_applyInequality hr.inv hr.typed hr.cols ha h

/-- The loose variables of the clauses are not shared. -/
def LooseOnce (L : Var → Prop) (cs : List WhereClause) : Prop :=
  cs.Pairwise fun c d => c.IsAnno ∨ d.IsAnno ∨ ∀ x ∈ c.vars, x ∈ d.vars → ¬ L x

/-- The clauses besides the statements of types are satisfied. -/
def Rest (s : Schema) (facts : Facts) (ρ : Assign) (cs : List WhereClause) : Prop :=
  ∀ c ∈ cs, ¬ c.IsAnno → Sat s facts ρ c

/-- The clauses can be applied. -/
def RunOk (T : Prop) (k : Known) (F : Env → Prop) (L : Var → Prop) (db : Tables) (vals : Var → Option TypedValue)
    (cs : List WhereClause) : Prop :=
  ∀ c ∈ cs, ¬ c.IsAnno → (∀ p, c = .pattern p → PatOk L vals p) ∧ ClauseStep T k F L db vals c

theorem applyRun_other {cc : CC} {pending : List EPattern} {c : WhereClause} {cs : List WhereClause}
    (h1 : ∀ p, c ≠ .pattern p) (h2 : ¬ c.IsAnno) :
    applyRun k cc pending (c :: cs) = (cc.applyEvolved k pending).bind fun cc' =>
      (applyClause k cc' c).bind fun cc'' => applyRun k cc'' [] cs := by
  cases c with
  | pattern p => exact absurd rfl (h1 p)
  | typeAnno x t => exact absurd trivial h2
  | _ => rw [applyRun] <;> simp

/-- The types the patterns waiting and those of the clauses give to a variable without a value. -/
def RunTypes (s : Schema) (vals : Var → Option TypedValue) (pending : List EPattern) (cs : List WhereClause) (x : Var)
    (t : ValueType) : Prop :=
  (∃ q ∈ pending, q.Types s x t) ∨ vals x = none ∧ ∃ p, .pattern p ∈ cs ∧ p.Types s vals x t

theorem step_applyRun (hk : k.cache = none) (hd : DbOk k.schema db) : ∀ (cs : List WhereClause) (pending : List EPattern)
    {cc cc' : CC}, RunOk T k F L db vals cs → applyRun k cc pending cs = .ok cc' → Ready T F L db vals cc →
    (∀ q ∈ pending, Plain L k.schema cc q ∧ Settled cc.vals q) →
    (∀ q ∈ pending, ∀ x, q.v = .var x → L x → Unmet cc x) →
    pending.Pairwise (fun p q => ∀ x, q.v = .var x → L x → p.v ≠ .var x) →
    (∀ c ∈ cs, ¬ c.IsAnno → ∀ x ∈ c.vars, L x → Unmet cc x ∧ ∀ q ∈ pending, q.v ≠ .var x) →
    LooseOnce L cs →
    StepOk F L db (fun x => HasAny pending x ∨ ∃ c ∈ cs, ¬ c.IsAnno ∧ x ∈ c.vars) cc cc'
      (fun ρ => (∀ q ∈ pending, ∃ r ∈ db.rows, q.Matches k.schema ρ r) ∧ Rest k.schema db.facts ρ cs) ∧
    (cc'.empty = false → ∀ x t, RunTypes k.schema vals pending cs x t → Pinned cc' x t)
  | [], pending, cc, cc', _, h, hr, hp, hu, hpw, _, _ => by
    rw [applyRun] at h
    refine ⟨((step_applyEvolved hk hd pending hr.inv hr.typed hp hu hpw h).mono fun x hx => .inl hx).congr ?_, ?_⟩
    · intro _ _ ρ _ _; simp [Rest]
    · rintro he x t (⟨q, hq, hx⟩ | ⟨-, p, hp, -⟩)
      · exact pins_applyEvolved hk hd pending hr.inv hr.typed hp hu hpw h he q hq x t hx
      · cases hp
  | c :: cs, pending, cc, cc', hok, h, hr, hp, hu, hpw, hun, hlo => by
    have hok' : RunOk T k F L db vals cs := fun d hd' => hok d (by simp [hd'])
    unfold LooseOnce at hlo
    rw [List.pairwise_cons] at hlo
    by_cases hanno : c.IsAnno
    · cases c with
      | typeAnno y t =>
        rw [applyRun] at h
        obtain ⟨st, hpin⟩ := step_applyRun hk hd cs pending hok' h hr hp hu hpw (fun d hd' => hun d (by simp [hd'])) hlo.2
        refine ⟨(st.mono ?_).congr ?_, ?_⟩
        · rintro x (hx | ⟨d, hd', hx⟩)
          · exact .inl hx
          · exact .inr ⟨d, by simp [hd'], hx⟩
        · intro _ _ ρ _ _
          simp [Rest, WhereClause.IsAnno]
        · intro he x t hx
          refine hpin he x t (hx.imp id ?_)
          rintro ⟨hv, p, hp, hpt⟩
          exact ⟨hv, p, by simpa using hp, hpt⟩
      | _ => exact hanno.elim
    by_cases hpat : ∃ p, c = .pattern p
    · obtain ⟨p, rfl⟩ := hpat
      obtain ⟨hp0, -⟩ := hok (.pattern p) (by simp) hanno
      have hp0 := hp0 p rfl
      rw [applyRun, bind_iff] at h
      obtain ⟨o, ho, h⟩ := h
      have hp' : PatOk L (AMap.get cc.vals) p := by rw [hr.vals]; exact hp0
      cases o with
      | none =>
        obtain rfl := Res.ok.inj h
        refine ⟨StepOk.giveUp hr.inv ?_, fun he => by simp [CC.markEmpty] at he⟩
        rintro E hE ρ hρ hs ⟨-, hrest⟩
        obtain ⟨q, hq, -⟩ := (evolve_sat hd hp' ho hs).mp (hrest _ (by simp) hanno)
        cases hq
      | some q =>
        obtain ⟨hpl, hset, -, he, ha, hv, ht⟩ := evolvePattern_plain hr.inv hp' ho
        have hin : ∀ x, q.Has x → x ∈ (WhereClause.pattern p).vars := fun x hx => has_vars he ha hv ht hx
        have hunp := hun (.pattern p) (by simp) hanno
        obtain ⟨st, hpin⟩ := step_applyRun hk hd cs (pending ++ [q]) hok' h hr (by
          intro q' hq'
          rw [List.mem_append, List.mem_singleton] at hq'
          rcases hq' with hq' | rfl
          · exact hp q' hq'
          · exact ⟨hpl, hset⟩) (by
          intro q' hq' x hx hL
          rw [List.mem_append, List.mem_singleton] at hq'
          rcases hq' with hq' | rfl
          · exact hu q' hq' x hx hL
          · exact (hunp x (hin x (.inr (.inr (.inl hx)))) hL).1) (by
          rw [List.pairwise_append]
          refine ⟨hpw, by simp, ?_⟩
          intro a ha' b hb x hx hL
          rw [List.mem_singleton] at hb
          subst hb
          exact (hunp x (hin x (.inr (.inr (.inl hx)))) hL).2 a ha') (by
          intro d hd' hda x hx hL
          refine ⟨(hun d (by simp [hd']) hda x hx hL).1, ?_⟩
          intro q' hq'
          rw [List.mem_append, List.mem_singleton] at hq'
          rcases hq' with hq' | rfl
          · exact (hun d (by simp [hd']) hda x hx hL).2 q' hq'
          · intro hx'
            rcases hlo.1 d hd' with h' | h' | h'
            · exact hanno h'
            · exact hda h'
            · exact h' x (hin x (.inr (.inr (.inl hx')))) hx hL) hlo.2
        refine ⟨(st.mono ?_).congr ?_, ?_⟩
        · rintro x (⟨q', hq', hx⟩ | ⟨d, hd', hx⟩)
          · rw [List.mem_append, List.mem_singleton] at hq'
            rcases hq' with hq' | rfl
            · exact .inl ⟨q', hq', hx⟩
            · exact .inr ⟨_, by simp, hanno, hin x hx⟩
          · exact .inr ⟨d, by simp [hd'], hx⟩
        · intro E hE ρ hρ hs
          have hsat := evolve_sat hd hp' ho hs
          simp only [Option.some.injEq, exists_eq_left'] at hsat
          simp only [List.mem_append, Rest, List.mem_cons, List.not_mem_nil, or_false]
          constructor
          · rintro ⟨h3, h4⟩
            refine ⟨fun q' hq' => h3 q' (.inl hq'), fun d hd' hda => ?_⟩
            rcases hd' with rfl | hd'
            · exact hsat.mpr (h3 q (.inr rfl))
            · exact h4 d hd' hda
          · rintro ⟨h3, h4⟩
            refine ⟨fun q' hq' => ?_, fun d hd' hda => h4 d (.inr hd') hda⟩
            rcases hq' with hq' | rfl
            · exact h3 q' hq'
            · exact hsat.mp (h4 _ (.inl rfl) hanno)
        · rintro hem x t (⟨q', hq', hx⟩ | ⟨hvx, p', hp', hx⟩)
          · exact hpin hem x t (.inl ⟨q', by simp [hq'], hx⟩)
          · simp only [List.mem_cons, WhereClause.pattern.injEq] at hp'
            rcases hp' with rfl | hp'
            · refine hpin hem x t (.inl ⟨q, by simp, ?_⟩)
              rw [← hr.vals] at hx hvx
              exact evolve_types ho hvx hx
            · exact hpin hem x t (.inr ⟨hvx, p', hp', hx⟩)
    · rw [applyRun_other (fun p e => hpat ⟨p, e⟩) hanno, bind_iff] at h
      obtain ⟨c1, h1, h⟩ := h
      rw [bind_iff] at h
      obtain ⟨c2, h2, h⟩ := h
      have i1 := (hok c (by simp) hanno).2 c1 c2 h2
      have st0 := step_applyEvolved hk hd pending hr.inv hr.typed hp hu hpw h1
      have hnp : ∀ x, L x → (∀ q ∈ pending, q.v ≠ .var x) → ¬ HasAny pending x := by
        rintro x hL hx ⟨q, hq, he | ha | hv | ht⟩
        · exact (hp q hq).1.e x he hL
        · exact ((hp q hq).1.a x ha).1 hL
        · exact hx q hq hv
        · exact (hp q hq).1.tx x ht hL
      have st1 := i1 (hr.step st0) fun x hx hL => by
        obtain ⟨u1, u2⟩ := hun c (by simp) hanno x hx hL
        exact st0.unmet x (hnp x hL u2) u1
      obtain ⟨st2, hpin⟩ := step_applyRun hk hd cs [] hok' h ((hr.step st0).step st1) (by simp) (by simp) (by simp) (by
        intro d hd' hda x hx hL
        refine ⟨?_, by simp⟩
        obtain ⟨u1, u2⟩ := hun d (by simp [hd']) hda x hx hL
        refine st1.unmet x ?_ (st0.unmet x (hnp x hL u2) u1)
        intro hxc
        rcases hlo.1 d hd' with h' | h' | h'
        · exact hanno h'
        · exact hda h'
        · exact h' x hxc hx hL) hlo.2
      refine ⟨((st0.trans (st1.trans st2)).mono ?_).congr ?_, ?_⟩
      · rintro x (hx | hx | ⟨q, hq, -⟩ | ⟨d, hd', hx⟩)
        · exact .inl hx
        · exact .inr ⟨c, by simp, hanno, hx⟩
        · cases hq
        · exact .inr ⟨d, by simp [hd'], hx⟩
      · intro _ _ ρ _ _
        simp only [Rest, List.mem_cons]
        constructor
        · rintro ⟨h3, h4, -, h5⟩
          refine ⟨h3, fun d hd' hda => ?_⟩
          rcases hd' with rfl | hd'
          · exact h4
          · exact h5 d hd' hda
        · rintro ⟨h3, h4⟩
          exact ⟨h3, h4 c (.inl rfl) hanno, by simp, fun d hd' hda => h4 d (.inr hd') hda⟩
      · rintro hem x t (⟨q, hq, hx⟩ | ⟨hvx, p', hp', hx⟩)
        · have e2 := st2.empty hem
          have e1 := st1.empty e2
          exact ((pins_applyEvolved hk hd pending hr.inv hr.typed hp hu hpw h1 e1 q hq x t hx).step st1 e2).step st2 hem
        · rw [List.mem_cons] at hp'
          rcases hp' with rfl | hp'
          · exact absurd ⟨p', rfl⟩ hpat
          · exact hpin hem x t (.inr ⟨hvx, p', hp', hx⟩)

theorem satAll_iff {s : Schema} {facts : Facts} {ρ : Assign} {cs : List WhereClause} :
    SatAll s facts ρ cs ↔ ∀ c ∈ cs, Sat s facts ρ c := by
  induction cs with
  | nil => simp [SatAll]
  | cons c cs ih => simp [SatAll, ih]

/-- The marks and the other clauses together are all the clauses. -/
theorem marks_rest {s : Schema} {facts : Facts} {ρ : Assign} {cs : List WhereClause} :
    Marks cs ρ ∧ Rest s facts ρ cs ↔ SatAll s facts ρ cs := by
  rw [satAll_iff]
  constructor
  · rintro ⟨⟨h1, -⟩, h2⟩ c hc
    cases c with
    | typeAnno x t => exact h1 x t hc
    | _ => exact h2 _ hc (by simp [WhereClause.IsAnno])
  · intro h
    refine ⟨⟨fun x t hx => h _ hx, fun p hp => ?_⟩, fun c hc _ => h c hc⟩
    obtain ⟨r, -, hm⟩ := h _ hp
    exact hm.refs

theorem refVar_vars {p : Pattern} {x : Var} (h : p.RefVar x) : x ∈ p.vars := by
  rcases h with h | h | h <;> simp [Pattern.vars, h, NonValue.vars]

/-- Applying a list of clauses adds the condition that they are all satisfied. -/
theorem step_clauses (hk : k.cache = none) (hd : DbOk k.schema db) {cs : List WhereClause} {cc cc1 cc' : CC}
    (hok : RunOk T k F L db vals cs) (h1 : cc.firstPass cs = .ok cc1) (h2 : applyRun k cc1 [] cs = .ok cc')
    (hr : Ready T F L db vals cc) (hun : ∀ c ∈ cs, ¬ c.IsAnno → ∀ x ∈ c.vars, L x → Unmet cc x) (hlo : LooseOnce L cs) :
    StepOk F L db (fun x => ∃ c ∈ cs, ¬ c.IsAnno ∧ x ∈ c.vars) cc cc' (fun ρ => SatAll k.schema db.facts ρ cs) ∧
      (cc'.empty = false → ∀ x t, vals x = none → (∃ p, .pattern p ∈ cs ∧ p.Types k.schema vals x t) → Pinned cc' x t) := by
  have hL : ∀ p, .pattern p ∈ cs → ∀ x, p.RefVar x → ¬ L x := by
    intro p hp x hx
    have hpo := (hok _ hp (by simp [WhereClause.IsAnno])).1 p rfl
    rcases hx with hx | hx | hx
    · exact hpo.e x hx
    · exact hpo.a x hx
    · exact hpo.tx x hx
  have st0 := step_firstPass cs hr.inv hr.typed hL h1
  obtain ⟨st1, hpin⟩ := step_applyRun hk hd cs [] hok h2 (hr.step st0) (by simp) (by simp) (by simp)
    (fun c hc hca x hx hLx => ⟨st0.unmet x (fun ⟨p, hp, hpx⟩ => hL p hp x hpx hLx) (hun c hc hca x hx hLx), by simp⟩) hlo
  refine ⟨((st0.trans st1).mono ?_).congr ?_, fun he x t hv hx => hpin he x t (.inr ⟨hv, hx⟩)⟩
  · rintro x (⟨p, hp, hx⟩ | ⟨q, hq, -⟩ | hx)
    · exact ⟨_, hp, by simp [WhereClause.IsAnno], refVar_vars hx⟩
    · cases hq
    · exact hx
  · intro _ _ ρ _ _
    rw [← marks_rest]
    simp

end

end CC
end Mentat
