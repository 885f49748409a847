import Verif.Proofs.QueryOr
/-
A simple `or`: patterns of one shape over one table become alternatives for one row of it.
-/
namespace Mentat
namespace CC

/-! ### The counter of aliases does not matter to a pattern applied to a given alias -/

section
variable (cc : CC) (n : Nat)

/-- The clauses with another counter. -/
def count : CC := { cc with counter := n }

theorem constrainType_count (x : Var) (t : ValueType) :
    (cc.count n).constrainType x t = (cc.constrainType x t).count n := by
  unfold constrainType
  simp only [count]
  cases AMap.get cc.known x with
  | none => rfl
  | some s => simp only; split <;> rfl

theorem constrainRef_count (p : ENonValue) : (cc.count n).constrainRef p = (cc.constrainRef p).count n := by
  cases p with
  | var x => exact constrainType_count cc n x .ref
  | _ => rfl

theorem constrainConst_count (q : QA) (v : TypedValue) :
    (cc.count n).constrainConst q v = (cc.constrainConst q v).count n := by
  cases v <;> rfl

theorem bindColumn_count (s : Schema) (q : QA) (x : Var) :
    (cc.count n).bindColumn s q x = (cc.bindColumn s q x).count n := by
  cases hv : AMap.get cc.vals x with
  | none =>
    rw [bindColumn_none (cc := cc) hv, bindColumn_none (cc := cc.count n) hv]
    have : (cc.count n).tagged q x = (cc.tagged q x).count n := by
      unfold tagged
      simp only [show (cc.count n).needsTag x = cc.needsTag x from rfl]
      split
      · cases typeTag q <;> rfl
      · rfl
    rw [this]; rfl
  | some v =>
    unfold bindColumn
    simp only [show (cc.count n).vals = cc.vals from rfl, hv]
    split
    · cases v with
      | keyword k => simp only; cases AMap.get s.identMap k <;> rfl
      | _ => rfl
    · exact constrainConst_count cc n q v

theorem applyRefPlace_count (s : Schema) (al : Alias) (c : Col) (p : ENonValue) :
    (cc.count n).applyRefPlace s al c p = (cc.applyRefPlace s al c p).count n := by
  cases p with
  | var x => exact bindColumn_count cc n s _ x
  | _ => rfl

theorem applyValuePlace_count (s : Schema) (al : Alias) (t : Option ValueType) (p : EValue) :
    (cc.count n).applyValuePlace s al t p = ((cc.applyValuePlace s al t p).1.count n, (cc.applyValuePlace s al t p).2) := by
  cases p with
  | placeholder => rfl
  | var x =>
    simp only [CC.applyValuePlace]
    cases t with
    | none =>
      simp only [Option.isSome_none, Bool.false_and, Bool.false_eq_true, if_false, bindColumn_count]
    | some t =>
      simp only [constrainType_count, show ∀ c : CC, (c.count n).empty = c.empty from fun _ => rfl]
      split
      · rfl
      · simp only [bindColumn_count]
  | entid i => cases t with
    | none => rfl
    | some t => cases t <;> rfl
  | entidOrInteger i => cases t with
    | none => rfl
    | some t => cases t <;> rfl
  | identOrKeyword k => cases t with
    | none => rfl
    | some t =>
      cases t with
      | ref => simp only [CC.applyValuePlace]; cases AMap.get s.identMap k <;> rfl
      | _ => rfl
  | value v =>
    simp only [CC.applyValuePlace, constrainConst_count]
    split
    · split <;> rfl
    · rfl

theorem applyForAlias_count (s : Schema) (p : EPattern) (al : Alias) :
    (cc.count n).applyForAlias s p al = (cc.applyForAlias s p al).count n := by
  rw [applyForAlias_eq, applyForAlias_eq]
  have h1 : (cc.count n).stageRefs p = (cc.stageRefs p).count n := by
    simp only [stageRefs, constrainRef_count]
  have h2 : (cc.count n).stageA s p al = (cc.stageA s p al).count n := by
    simp only [stageA, h1, applyRefPlace_count]
  have h3 : (cc.count n).stageV s p al = ((cc.stageV s p al).1.count n, (cc.stageV s p al).2) := by
    simp only [stageV, h2, show ∀ c : CC, (c.count n).valueTypeOf s p = c.valueTypeOf s p from fun _ => rfl,
      applyValuePlace_count]
  simp only [h1, h3, applyRefPlace_count, show ∀ c : CC, (c.count n).empty = c.empty from fun _ => rfl]
  split
  · rfl
  · split
    · rfl
    · split <;> rfl

end

/-! ### The columns a pattern binds -/

/-- A column more for a variable. -/
def pushCol (m : AMap Var (List QA)) (q : QA) (x : Var) : AMap Var (List QA) :=
  AMap.insert m x ((AMap.get m x).getD [] ++ [q])

def refCols (m : AMap Var (List QA)) (al : Alias) (c : Col) : ENonValue → AMap Var (List QA)
  | .var x => pushCol m (al, c) x
  | _ => m

def valCols (m : AMap Var (List QA)) (al : Alias) : EValue → AMap Var (List QA)
  | .var x => pushCol m (al, .v) x
  | _ => m

/-- The columns bound by the places of a pattern that hold variables. -/
def patCols (m : AMap Var (List QA)) (al : Alias) (q : EPattern) : AMap Var (List QA) :=
  refCols (valCols (refCols (refCols m al .e q.e) al .a q.a) al q.v) al .tx q.tx

/-- The same variables in the same places. -/
structure SamePlaces (p q : EPattern) : Prop where
  e : ∀ x, p.e = .var x ↔ q.e = .var x
  a : ∀ x, p.a = .var x ↔ q.a = .var x
  v : ∀ x, p.v = .var x ↔ q.v = .var x
  tx : ∀ x, p.tx = .var x ↔ q.tx = .var x

theorem refCols_congr {m : AMap Var (List QA)} {al : Alias} {c : Col} {p q : ENonValue}
    (h : ∀ x, p = .var x ↔ q = .var x) : refCols m al c p = refCols m al c q := by
  cases p with
  | var x => rw [(h x).mp rfl]
  | _ => cases q with
    | var x => exact absurd ((h x).mpr rfl) (by simp)
    | _ => rfl

theorem valCols_congr {m : AMap Var (List QA)} {al : Alias} {p q : EValue}
    (h : ∀ x, p = .var x ↔ q = .var x) : valCols m al p = valCols m al q := by
  cases p with
  | var x => rw [(h x).mp rfl]
  | _ => cases q with
    | var x => exact absurd ((h x).mpr rfl) (by simp)
    | _ => rfl

theorem patCols_congr {m : AMap Var (List QA)} {al : Alias} {p q : EPattern} (h : SamePlaces p q) :
    patCols m al p = patCols m al q := by
  unfold patCols
  rw [refCols_congr h.e, refCols_congr h.a, valCols_congr h.v, refCols_congr h.tx]

theorem get_pushCol {m : AMap Var (List QA)} {q : QA} {x y : Var} {qs : List QA}
    (h : AMap.get (pushCol m q x) y = some qs) : x = y ∨ ∃ qs', AMap.get m y = some qs' := by
  unfold pushCol at h
  rw [AMap.get_insert] at h
  split at h
  · rename_i e; exact .inl e
  · exact .inr ⟨qs, h⟩

theorem get_refCols {m : AMap Var (List QA)} {al : Alias} {c : Col} {p : ENonValue} {y : Var} {qs : List QA}
    (h : AMap.get (refCols m al c p) y = some qs) : p = .var y ∨ ∃ qs', AMap.get m y = some qs' := by
  cases p with
  | var x => exact (get_pushCol h).imp (fun e => by rw [e]) id
  | _ => exact .inr ⟨qs, h⟩

theorem get_valCols {m : AMap Var (List QA)} {al : Alias} {p : EValue} {y : Var} {qs : List QA}
    (h : AMap.get (valCols m al p) y = some qs) : p = .var y ∨ ∃ qs', AMap.get m y = some qs' := by
  cases p with
  | var x => exact (get_pushCol h).imp (fun e => by rw [e]) id
  | _ => exact .inr ⟨qs, h⟩

theorem get_patCols {al : Alias} {q : EPattern} {y : Var} {qs : List QA}
    (h : AMap.get (patCols [] al q) y = some qs) : q.Has y := by
  rcases get_refCols h with h | ⟨qs, h⟩
  · exact .inr (.inr (.inr h))
  rcases get_valCols h with h | ⟨qs, h⟩
  · exact .inr (.inr (.inl h))
  rcases get_refCols h with h | ⟨qs, h⟩
  · exact .inr (.inl h)
  rcases get_refCols h with h | ⟨qs, h⟩
  · exact .inl h
  · cases h

theorem colb_refPlace (cc : CC) (s : Schema) (al : Alias) (c : Col) {p : ENonValue}
    (h : ∀ x, p = .var x → AMap.get cc.vals x = none) :
    (cc.applyRefPlace s al c p).colb = refCols cc.colb al c p := by
  cases p with
  | var x =>
    show (cc.bindColumn s (al, c) x).colb = _
    rw [bindColumn_none (h x rfl)]
    simp only [pushColumn, (tagged_fields cc (al, c) x).1]
    rfl
  | _ => rfl

theorem colb_valuePlace (cc : CC) (s : Schema) (al : Alias) (t : Option ValueType) {p : EValue}
    (h : ∀ x, p = .var x → AMap.get cc.vals x = none) (he : (cc.applyValuePlace s al t p).1.empty = false) :
    (cc.applyValuePlace s al t p).1.colb = valCols cc.colb al p := by
  have hb : ∀ (c : CC) x, AMap.get c.vals x = none → (c.bindColumn s (al, .v) x).colb = pushCol c.colb (al, .v) x := by
    intro c x hx
    rw [bindColumn_none hx]
    simp only [pushColumn, (tagged_fields c (al, .v) x).1]
    rfl
  cases p with
  | placeholder => rfl
  | var x =>
    simp only [CC.applyValuePlace] at he ⊢
    cases t with
    | none =>
      simp only [Option.isSome_none, Bool.false_and, Bool.false_eq_true, if_false]
      exact hb cc x (h x rfl)
    | some t =>
      simp only [Option.isSome_some, Bool.true_and] at he ⊢
      split at he
      · rename_i hc; rw [hc] at he; cases he
      · rename_i hc
        rw [if_neg hc]
        simp only
        rw [hb _ x (by rw [(grow_constrainType cc x t).vals]; exact h x rfl), colb_constrainType]
        rfl
  | entid i =>
    simp only [CC.applyValuePlace]
    split <;> rfl
  | entidOrInteger i =>
    simp only [CC.applyValuePlace]
    split <;> rfl
  | identOrKeyword k =>
    simp only [CC.applyValuePlace]
    split
    · cases AMap.get s.identMap k <;> rfl
    · rfl
  | value v =>
    simp only [CC.applyValuePlace]
    split
    · simp only
      split
      · show (cc.constrainConst (al, .v) v).colb = _
        rw [colb_constrainConst]; rfl
      · rw [colb_constrainConst]; rfl
    · rfl

theorem colb_applyForAlias {cc : CC} {s : Schema} {q : EPattern} {al : Alias} (hs : Settled cc.vals q)
    (h : (cc.applyForAlias s q al).empty = false) : (cc.applyForAlias s q al).colb = patCols cc.colb al q := by
  obtain ⟨h0, hb, e⟩ := applyForAlias_live h
  rw [e] at h ⊢
  have hV := (grow_applyRefPlace _ s al .tx q.tx).empty h
  have g1 := grow_stageRefs cc q
  have g2 := g1.trans (grow_applyRefPlace _ s al .e q.e)
  have g3 : Grow cc (cc.stageA s q al) := g2.trans (grow_applyRefPlace _ s al .a q.a)
  have g4 : Grow cc (cc.stageV s q al).1 := g3.trans (grow_applyValuePlace _ s al _ q.v)
  rw [colb_refPlace _ s al .tx (fun x hx => by rw [g4.vals]; exact hs.tx x hx)]
  unfold stageV at hV ⊢
  rw [colb_valuePlace _ s al _ (fun x hx => by rw [g3.vals]; exact hs.v x hx) hV]
  unfold stageA
  rw [colb_refPlace _ s al .a (fun x hx => by rw [g2.vals]; exact hs.a x hx),
    colb_refPlace _ s al .e (fun x hx => by rw [g1.vals]; exact hs.e x hx)]
  unfold stageRefs
  rw [colb_constrainRef, colb_constrainRef, colb_constrainRef]
  rfl

/-! ### Shapes and tables -/

theorem simplyMatches_var {p q : NonValue} (h : simplyMatches p q = true) (x : Var) : p = .var x ↔ q = .var x := by
  cases p <;> cases q <;> simp_all [simplyMatches]

theorem simplyMatchesValue_var {p q : PatValue} (h : simplyMatchesValue p q = true) (x : Var) :
    p = .var x ↔ q = .var x := by
  cases p <;> cases q <;> simp_all [simplyMatchesValue]

theorem evolve_parts {cc : CC} {s : Schema} {p : Pattern} {q : EPattern} (h : cc.evolvePattern s p = .ok (some q)) :
    cc.evolveNonValue s p.e = some q.e ∧ cc.evolveNonValue s p.a = some q.a ∧ cc.evolveNonValue s p.tx = some q.tx ∧
      ∃ t, cc.evolveAttribute s p.a = some (q.a, t) ∧ cc.evolveValue s t p.v = .ok (some q.v) := by
  unfold evolvePattern at h
  cases he : cc.evolveNonValue s p.e with
  | none => rw [he] at h; simp at h
  | some qe =>
    rw [he] at h
    simp only at h
    cases ha : cc.evolveAttribute s p.a with
    | none => rw [ha] at h; simp at h
    | some qt =>
      obtain ⟨qa, t⟩ := qt
      rw [ha] at h
      simp only at h
      rw [bind_iff] at h
      obtain ⟨ov, hv, h⟩ := h
      cases ov with
      | none => simp at h
      | some v =>
        simp only at h
        cases ht : cc.evolveNonValue s p.tx with
        | none => rw [ht] at h; simp at h
        | some tx =>
          rw [ht] at h
          simp only [Res.ok.injEq, Option.some.injEq] at h
          subst h
          exact ⟨rfl, (evolveAttribute_some ha).1, rfl, t, rfl, hv⟩

theorem tableForArm_evolve {cc : CC} {s : Schema} {p : Pattern} {q : EPattern} (h : cc.evolvePattern s p = .ok (some q)) :
    cc.tableForArm s p = .ok (cc.tableFor s q.a q.v) := by
  obtain ⟨-, -, -, t, h1, h2⟩ := evolve_parts h
  unfold tableForArm
  rw [h1]
  simp only [h2]
  rfl

/-- A pattern for which there is no table evolves, and cannot be matched. -/
theorem evolve_of_tableForArm {cc : CC} {s : Schema} {p : Pattern} {o : Option DTable} (h : cc.tableForArm s p = .ok o) :
    ∃ q, cc.evolvePattern s p = .ok q := by
  unfold tableForArm at h
  unfold evolvePattern
  cases he : cc.evolveNonValue s p.e with
  | none => exact ⟨none, rfl⟩
  | some qe =>
    simp only
    cases ha : cc.evolveAttribute s p.a with
    | none => exact ⟨none, rfl⟩
    | some qt =>
      obtain ⟨qa, t⟩ := qt
      rw [ha] at h
      simp only at h ⊢
      rw [bind_iff] at h
      obtain ⟨ov, hv, -⟩ := h
      rw [hv]
      cases ov with
      | none => exact ⟨none, rfl⟩
      | some v =>
        show ∃ q, (match cc.evolveNonValue s p.tx with | none => _ | some tx => _) = Res.ok q
        cases cc.evolveNonValue s p.tx with
        | none => exact ⟨_, rfl⟩
        | some tx => exact ⟨_, rfl⟩

/-- The same variables in the same places, of patterns as they are written. -/
structure SameVars (p q : Pattern) : Prop where
  e : ∀ x, p.e = .var x ↔ q.e = .var x
  a : ∀ x, p.a = .var x ↔ q.a = .var x
  v : ∀ x, p.v = .var x ↔ q.v = .var x
  tx : ∀ x, p.tx = .var x ↔ q.tx = .var x

theorem SameVars.of_shape {p q : Pattern} (hs : sameShape p q = true) : SameVars p q := by
  unfold sameShape at hs
  simp only [Bool.and_eq_true] at hs
  obtain ⟨⟨⟨⟨-, s1⟩, s2⟩, s3⟩, s4⟩ := hs
  exact ⟨simplyMatches_var s1, simplyMatches_var s2, simplyMatchesValue_var s3, simplyMatches_var s4⟩

theorem SameVars.join {p q r : Pattern} (h : SameVars p q) (h' : SameVars p r) : SameVars q r :=
  ⟨fun x => (h.e x).symm.trans (h'.e x), fun x => (h.a x).symm.trans (h'.a x), fun x => (h.v x).symm.trans (h'.v x),
    fun x => (h.tx x).symm.trans (h'.tx x)⟩

theorem samePlaces_evolve {cc : CC} {s : Schema} {p p' : Pattern} {q q' : EPattern} (h : cc.evolvePattern s p = .ok (some q))
    (h' : cc.evolvePattern s p' = .ok (some q')) (hs : SameVars p p') : SamePlaces q q' := by
  obtain ⟨e1, e2, e3, t, -, e4⟩ := evolve_parts h
  obtain ⟨f1, f2, f3, t', -, f4⟩ := evolve_parts h'
  have key : ∀ {a b : NonValue} {x y : ENonValue}, cc.evolveNonValue s a = some x → cc.evolveNonValue s b = some y →
      (∀ z, a = .var z ↔ b = .var z) → ∀ z, x = .var z ↔ y = .var z := by
    intro a b x y hx hy hm z
    constructor
    · rintro rfl
      obtain ⟨h1, h2⟩ := evolveNonValue_var hx
      exact evolveNonValue_open hy h2 ((hm z).mp h1)
    · rintro rfl
      obtain ⟨h1, h2⟩ := evolveNonValue_var hy
      exact evolveNonValue_open hx h2 ((hm z).mpr h1)
  refine ⟨key e1 f1 hs.e, key e2 f2 hs.a, fun z => ?_, key e3 f3 hs.tx⟩
  obtain ⟨v1, -, -, -, -, v2, -⟩ := evolveValue_shape e4
  obtain ⟨w1, -, -, -, -, w2, -⟩ := evolveValue_shape f4
  constructor
  · intro hz
    obtain ⟨h1, h2⟩ := v1 z hz
    exact w2 z ((hs.v z).mp h1) h2
  · intro hz
    obtain ⟨h1, h2⟩ := w1 z hz
    exact v2 z ((hs.v z).mpr h1) h2

theorem evolveAll_ok {cc : CC} {s : Schema} : ∀ (ps : List Pattern) {eps : List EPattern}, cc.evolveAll s ps = .ok eps →
    (∀ q ∈ eps, ∃ p ∈ ps, cc.evolvePattern s p = .ok (some q)) ∧
    ∀ p ∈ ps, ∃ o, cc.evolvePattern s p = .ok o ∧ ∀ q, o = some q → q ∈ eps
  | [], eps, h => by obtain rfl := Res.ok.inj h; simp
  | p :: ps, eps, h => by
    rw [evolveAll, bind_iff] at h
    obtain ⟨o, ho, h⟩ := h
    rw [bind_iff] at h
    obtain ⟨r, hr, h⟩ := h
    obtain ⟨h1, h2⟩ := evolveAll_ok ps hr
    have h := Res.ok.inj h
    cases o with
    | none =>
      simp only at h
      subst h
      refine ⟨fun q hq => ?_, fun p' hp' => ?_⟩
      · obtain ⟨p', hp', e⟩ := h1 q hq; exact ⟨p', List.mem_cons_of_mem _ hp', e⟩
      · rcases List.mem_cons.mp hp' with rfl | hp'
        · exact ⟨none, ho, fun q hq => by cases hq⟩
        · exact h2 p' hp'
    | some q0 =>
      simp only at h
      subst h
      refine ⟨fun q hq => ?_, fun p' hp' => ?_⟩
      · rcases List.mem_cons.mp hq with rfl | hq
        · exact ⟨p, by simp, ho⟩
        · obtain ⟨p', hp', e⟩ := h1 q hq; exact ⟨p', List.mem_cons_of_mem _ hp', e⟩
      · rcases List.mem_cons.mp hp' with rfl | hp'
        · exact ⟨some q0, ho, fun q hq => by cases hq; simp⟩
        · obtain ⟨o, e, ho'⟩ := h2 p' hp'
          exact ⟨o, e, fun q hq => List.mem_cons_of_mem _ (ho' q hq)⟩

theorem get_mergeColumns : ∀ (l : List (Var × List QA)) {m : AMap Var (List QA)}, (l.map Prod.fst).Nodup → ∀ x,
    AMap.get (mergeColumns m l) x = match AMap.get (l : AMap Var (List QA)) x with
      | none => AMap.get m x
      | some cols => some ((AMap.get m x).getD [] ++ cols)
  | [], m, _, x => rfl
  | (y, cols) :: r, m, hn, x => by
    simp only [List.map_cons, List.nodup_cons] at hn
    rw [mergeColumns, get_mergeColumns r hn.2 x, AMap.get_cons, AMap.get_insert]
    by_cases e : y = x
    · subst e
      have hnone : AMap.get (r : AMap Var (List QA)) y = none := by
        cases hg : AMap.get (r : AMap Var (List QA)) y with
        | none => rfl
        | some v => exact absurd (List.mem_map.mpr ⟨_, AMap.get_some_mem hg, rfl⟩) hn.1
      simp [hnone]
    · simp [e]

theorem wf_mergeColumns : ∀ (l : List (Var × List QA)) {m : AMap Var (List QA)}, AMap.WF m → AMap.WF (mergeColumns m l)
  | [], _, h => h
  | (y, cols) :: r, m, h => wf_mergeColumns r (AMap.wf_insert h y _)

theorem wf_pushCol {m : AMap Var (List QA)} (h : AMap.WF m) (q : QA) (x : Var) : AMap.WF (pushCol m q x) :=
  AMap.wf_insert h x _

/-! ### The arms of a simple disjunction -/

/-- An arm of a simple disjunction that has not been found to be empty. -/
structure SimpleArm (L : Var → Prop) (db : Tables) (cc : CC) (U : List Var) (τ : Var → ValueType) (al : Alias)
    (first : AMap Var (List QA)) (c : CC) : Prop where
  live : c.empty = false
  types : Types U τ c.known
  vals : ∀ x v, AMap.get c.vals x = some v → AMap.get cc.vals x = some v
  req : ∀ x ts, AMap.get c.required x = some ts → AMap.get cc.required x = some ts
  tags : ∀ x, AMap.get c.extracted x = none
  within : Within (· = al) c
  colb : c.colb = first
  fits : ColsKnown L c

section
variable {T : Prop} {F : Env → Prop} {L : Var → Prop} {db : Tables} {vals : Var → Option TypedValue} {cc : CC}
  {U : List Var} {n : Nat} {s : Schema} {q : EPattern} {al : Alias} {τ : Var → ValueType}

theorem plain_start (hr : Ready T F L db vals cc) (hp : Plain L s cc q) : Plain L s (start cc U n) q := by
  refine ⟨hp.e, hp.tx, fun x hx => ⟨(hp.a x hx).1, ?_⟩, hp.known, hp.unknown, hp.proper⟩
  rw [start_vals hr, ← hr.vals]
  simp [only, (hp.a x hx).2]

theorem settled_start (hr : Ready T F L db vals cc) (hs : Settled cc.vals q) : Settled (start cc U n).vals q := by
  have : ∀ x, AMap.get cc.vals x = none → AMap.get (start cc U n).vals x = none := by
    intro x hx
    rw [start_vals hr, ← hr.vals]
    simp [only, hx]
  exact ⟨fun x hx => this x (hs.e x hx), fun x hx => this x (hs.a x hx), fun x hx => this x (hs.v x hx),
    fun x hx => this x (hs.tx x hx)⟩

theorem tableFor_start (hr : Ready T F L db vals cc) (hp : Plain L s cc q) (hU : ∀ x, q.Has x → ¬ L x) :
    (start cc U n).tableFor s q.a q.v = cc.tableFor s q.a q.v := by
  by_cases h : ∃ a, q.a = .entid a
  · obtain ⟨a, ha⟩ := h
    obtain ⟨⟨at_, hat⟩, -⟩ := hp.known a ha
    rw [tableFor_known ha hat, tableFor_known ha hat]
  · have h' : ∀ a, q.a ≠ .entid a := fun a ha => h ⟨a, ha⟩
    rw [tableFor_unknown hp h', tableFor_unknown (plain_start (n := n) hr hp) h']
    rcases hp.unknown h' with e | ⟨x, e, hL⟩ | ⟨w, e, -⟩
    · rw [e]; rfl
    · exact absurd hL (hU x (.inr (.inr (.inl e))))
    · rw [e]; cases w <;> rfl

theorem simpleArm_at (hr : Ready T F L db vals cc) (hU : ∀ x ∈ U, ¬ L x) (hd : DbOk s db) (hp : Plain L s cc q)
    (hq : ∀ x, q.Has x → x ∈ U) (ht : cc.tableFor s q.a q.v = some al.table) {r : Row} (hrow : r ∈ db.rows) {env : Env}
    (hh : HoldsRow db env al r) :
    (∀ ρ : Assign, ρ.Proper → (At db ((start cc U n).applyForAlias s q al) env ρ ↔ Shared cc U ρ ∧ q.Matches s ρ r)) ∧
      JAt L db ((start cc U n).applyForAlias s q al) env := by
  have hL : ∀ x, q.Has x → ¬ L x := fun x hx => hU x (hq x hx)
  have hp' : Plain L s (start cc U n) q := plain_start hr hp
  have ht' : (start cc U n).tableFor s q.a q.v = some al.table := by rw [tableFor_start hr hp hL]; exact ht
  have hl : ∀ x, q.v = .var x → L x → Unmet (start cc U n) x := fun x hx h => absurd h (hL x (.inr (.inr (.inl hx))))
  refine ⟨fun ρ hρ => ?_, ?_⟩
  · rw [at_applyForAlias hd hp' hl ht' hrow hh hρ, at_start hr hU]
  · refine JAt.applyForAlias ?_ hd hp' hl ht' hrow hh
    intro _ _ x qs h; simp [start, receptacle, AMap.get] at h

theorem simpleArm_of (hr : Ready T F L db vals cc) (hU : ∀ x ∈ U, ¬ L x) (hp : Plain L s cc q) (hst : Settled cc.vals q)
    (hq : ∀ x, q.Has x → x ∈ U) (hty : ∀ x ∈ U, vals x = none → q.Types s x (τ x))
    (hτ : ∀ x ∈ U, ∀ v, vals x = some v → τ x = v.valueType) (hn : Old n al)
    (he : ((start cc U n).applyForAlias s q al).empty = false) :
    SimpleArm L db cc U τ al (patCols [] al q) ((start cc U n).applyForAlias s q al) ∧ cc.empty = false ∧
      ∀ x ∈ U, ∀ s, AMap.get cc.known x = some s → s = TypeSet.one (τ x) := by
  have hr0 : Ready T F L db (only U vals) (start cc U n) := start_ready hr hU
  have hp' : Plain L s (start cc U n) q := plain_start hr hp
  have g := grow_applyForAlias (start cc U n) s q al
  have hlive : cc.empty = false := g.empty he
  have hi := hr0.inv.applyForAlias hp' (al := al) hn
  have hTy : Types U τ ((start cc U n).applyForAlias s q al).known := by
    refine ⟨hi.wfKnown, fun x => ?_⟩
    by_cases hx : x ∈ U
    · rw [if_pos hx]
      cases hvx : vals x with
      | none => exact (pins_applyForAlias he (hty x hx hvx)).2
      | some v =>
        rw [hi.valsKnown he x v (by rw [g.vals, start_vals hr]; simp [only, hx, hvx]), hτ x hx v hvx]
    · rw [if_neg hx]
      exact ((start_unmet hx).applyForAlias (fun h => hx (hq x h)) s al).known
  refine ⟨⟨he, hTy, ?_, ?_, ?_, ?_, ?_, hr0.cols.applyForAlias hp' al⟩, hlive, ?_⟩
  · intro x v h
    rw [g.vals, start_vals hr] at h
    unfold only at h
    rw [hr.vals]; exact (ite_some h).2
  · intro x ts h
    rw [g.required] at h
    simp only [start, receptacle, template, get_withKeys] at h
    exact (ite_some h).2
  · intro x
    cases hg : AMap.get ((start cc U n).applyForAlias s q al).extracted x with
    | none => rfl
    | some q0 =>
      have hL := hi.tags x q0 hg
      by_cases hx : x ∈ U
      · exact absurd hL (hU x hx)
      · rw [((start_unmet hx).applyForAlias (fun h => hx (hq x h)) s al).tags] at hg; cases hg
  · refine Within.applyForAlias ⟨?_, ?_, ?_⟩ s q rfl
    · intro c hc; simp [start, receptacle] at hc
    · intro x qs h; simp [start, receptacle, AMap.get] at h
    · intro x q h; rw [start_extracted hr hU] at h; cases h
  · exact colb_applyForAlias (settled_start hr hst) he
  · intro x hx ts hk
    obtain ⟨t, rfl⟩ := hr.inv.unit hlive x ts hk
    have := known_applyForAlias_keep (s := s) (p := q) (al := al) he (y := x) (u := t)
      (by simp [start, receptacle, template, get_withKeys, hx, hk])
    rw [hTy.get, if_pos hx] at this
    exact (Option.some.inj this).symm

/-- The clauses after a simple disjunction. -/
def simpleOut (cc : CC) (al : Alias) (first : AMap Var (List QA)) (wh : List Constraint) (K : AMap Var TypeSet) : CC :=
  { cc with
    counter := cc.counter + 1, colb := mergeColumns cc.colb first, tables := cc.tables ++ [al],
    wheres := cc.wheres ++ wh, known := K }

/-- The variable's columns after a simple disjunction. -/
theorem mem_merged {m first : AMap Var (List QA)} (hw : AMap.WF first) {x : Var} {qs : List QA}
    (h : AMap.get (mergeColumns m first) x = some qs) :
    (AMap.get first x = none ∧ AMap.get m x = some qs) ∨
      ∃ cols, AMap.get first x = some cols ∧ qs = (AMap.get m x).getD [] ++ cols := by
  rw [get_mergeColumns first hw] at h
  cases hf : AMap.get first x with
  | none => rw [hf] at h; exact .inl ⟨rfl, h⟩
  | some cols => rw [hf] at h; exact .inr ⟨cols, rfl, (Option.some.inj h).symm⟩

theorem merged_left {m first : AMap Var (List QA)} (hw : AMap.WF first) {x : Var} {qs : List QA}
    (h : AMap.get m x = some qs) : ∃ qs', AMap.get (mergeColumns m first) x = some qs' ∧ ∀ q ∈ qs, q ∈ qs' := by
  rw [get_mergeColumns first hw]
  cases AMap.get first x with
  | none => exact ⟨qs, h, fun _ h => h⟩
  | some cols => exact ⟨_, rfl, fun q hq => by rw [h]; simp [hq]⟩

theorem merged_right {m first : AMap Var (List QA)} (hw : AMap.WF first) {x : Var} {qs : List QA}
    (h : AMap.get first x = some qs) : ∃ qs', AMap.get (mergeColumns m first) x = some qs' ∧ ∀ q ∈ qs, q ∈ qs' := by
  rw [get_mergeColumns first hw, h]
  exact ⟨_, rfl, fun q hq => by simp [hq]⟩

section
variable {first : AMap Var (List QA)} {wh : List Constraint} {K : AMap Var TypeSet} {arms : List CC}

theorem at_simpleOut (hw : AMap.WF first) (hK : ∀ x, AMap.get K x = if x ∈ U then some (TypeSet.one (τ x)) else AMap.get cc.known x)
    (hag : ∀ x ∈ U, ∀ s, AMap.get cc.known x = some s → s = TypeSet.one (τ x))
    (harm : ∀ c ∈ arms, SimpleArm L db cc U τ al first c) {env : Env} {ρ : Assign}
    (hwh : evalAll db env wh = true ↔ ∃ c ∈ arms, evalAll db env c.wheres = true) :
    At db (simpleOut cc al first wh K) env ρ ↔ At db cc env ρ ∧ ∃ c ∈ arms, At db c env ρ := by
  constructor
  · intro h
    have hwh' := h.wh
    simp only [simpleOut, evalAll_append, Bool.and_eq_true] at hwh'
    obtain ⟨c, hc, hcw⟩ := hwh.mp hwh'.2
    have ha := harm c hc
    refine ⟨⟨h.live, h.vals, fun x ts hx => ?_, h.req, hwh'.1, fun x qs hx q hq => ?_, h.tags⟩, c, hc,
      ⟨ha.live, fun x v hx => h.vals x v (ha.vals x v hx), fun x ts hx => ?_, fun x ts hx => h.req x ts (ha.req x ts hx),
        hcw, fun x qs hx q hq => ?_, fun x q hx => by rw [ha.tags] at hx; cases hx⟩⟩
    · by_cases hU : x ∈ U
      · rw [hag x hU ts hx]; exact h.known x _ (by show AMap.get K x = _; rw [hK, if_pos hU])
      · exact h.known x ts (by show AMap.get K x = _; rw [hK, if_neg hU]; exact hx)
    · obtain ⟨qs', h1, h2⟩ := merged_left hw hx
      exact h.cols x qs' h1 q (h2 q hq)
    · rw [ha.types.get] at hx
      obtain ⟨h1, h2⟩ := ite_some hx
      exact h.known x ts (by show AMap.get K x = _; rw [hK, if_pos h1]; exact h2)
    · rw [ha.colb] at hx
      obtain ⟨qs', h1, h2⟩ := merged_right (m := cc.colb) hw hx
      exact h.cols x qs' h1 q (h2 q hq)
  · rintro ⟨h, c, hc, hat⟩
    have ha := harm c hc
    refine ⟨h.live, h.vals, fun x ts hx => ?_, h.req, ?_, fun x qs hx q hq => ?_, h.tags⟩
    · have hx' : AMap.get K x = some ts := hx
      rw [hK] at hx'
      split at hx'
      · rename_i hU
        exact hat.known x ts (by rw [ha.types.get, if_pos hU]; exact hx')
      · exact h.known x ts hx'
    · simp only [simpleOut, evalAll_append, Bool.and_eq_true]
      exact ⟨h.wh, hwh.mpr ⟨c, hc, hat.wh⟩⟩
    · rcases mem_merged hw hx with ⟨-, h1⟩ | ⟨cols, h1, rfl⟩
      · exact h.cols x qs h1 q hq
      · rcases List.mem_append.mp hq with hq | hq
        · cases hm : AMap.get cc.colb x with
          | none => rw [hm] at hq; cases hq
          | some qs0 => rw [hm] at hq; exact h.cols x qs0 hm q hq
        · exact hat.cols x cols (by rw [ha.colb]; exact h1) q hq

theorem jat_simpleOut (hw : AMap.WF first) (hK : ∀ x, AMap.get K x = if x ∈ U then some (TypeSet.one (τ x)) else AMap.get cc.known x)
    (hag : ∀ x ∈ U, ∀ s, AMap.get cc.known x = some s → s = TypeSet.one (τ x)) (hU : ∀ x ∈ U, ¬ L x)
    (hfU : ∀ x qs, AMap.get first x = some qs → x ∈ U ∧ AMap.get cc.vals x = none)
    (harm : ∀ c ∈ arms, SimpleArm L db cc U τ al first c) {env : Env}
    (hwh : evalAll db env wh = true → ∃ c ∈ arms, evalAll db env c.wheres = true)
    (h0 : JAt L db cc env) (hj : ∀ c ∈ arms, JAt L db c env) : JAt L db (simpleOut cc al first wh K) env := by
  intro he hev x qs hx
  simp only [simpleOut, evalAll_append, Bool.and_eq_true] at hev
  obtain ⟨c, hc, hcw⟩ := hwh hev.2
  have ha := harm c hc
  have hKx : ∀ t, AMap.get cc.known x = some (TypeSet.one t) → AMap.get K x = some (TypeSet.one t) := by
    intro t ht
    rw [hK]
    split
    · rename_i hxU; rw [hag x hxU _ ht]
    · exact ht
  rcases mem_merged hw hx with ⟨-, h1⟩ | ⟨cols, h1, rfl⟩
  · have hcell := h0 he hev.1 x qs h1
    refine ⟨fun hL => ?_, hcell.loose⟩
    obtain ⟨t, ht, h2, h3⟩ := hcell.typed hL
    exact ⟨t, hKx t ht, h2, h3⟩
  · obtain ⟨hxU, hxv⟩ := hfU x cols h1
    refine ⟨fun hL => ?_, fun hL => absurd hL (hU x hxU)⟩
    obtain ⟨t, ht, h2, -⟩ := (hj c hc ha.live hcw x cols (by rw [ha.colb]; exact h1)).typed hL
    rw [ha.types.get, if_pos hxU] at ht
    obtain rfl := one_inj (Option.some.inj ht)
    refine ⟨τ x, by show AMap.get K x = _; rw [hK, if_pos hxU], fun q hq => ?_, fun v hv => ?_⟩
    · rcases List.mem_append.mp hq with hq | hq
      · cases hm : AMap.get cc.colb x with
        | none => rw [hm] at hq; cases hq
        | some qs0 =>
          rw [hm] at hq
          obtain ⟨t, ht, h2, -⟩ := (h0 he hev.1 x qs0 hm).typed hL
          obtain rfl := one_inj (hag x hxU _ ht)
          exact h2 q hq
      · exact h2 q hq
    · have : AMap.get cc.vals x = some v := hv
      rw [hxv] at this; cases this

end

end

/-! ### The disjunction -/

theorem evalAll_arms {db : Tables} {env : Env} (first : CC) (rest : List CC) :
    evalAll db env (match rest with
      | [] => first.wheres
      | _ => [Constraint.or ((first :: rest).map fun c : CC => .and c.wheres)]) = true ↔
      ∃ c ∈ first :: rest, evalAll db env c.wheres = true := by
  cases rest with
  | nil => simp
  | cons c rest =>
    simp only [evalAll, evalC, Bool.and_true]
    rw [evalAny_iff]
    simp only [List.mem_map, exists_exists_and_eq_and, evalC]

theorem refs_arms {K : Alias → Prop} {first : CC} {rest : List CC}
    (h : ∀ c ∈ first :: rest, ∀ w ∈ c.wheres, ∀ al ∈ w.refs, K al) :
    ∀ w ∈ (match rest with
      | [] => first.wheres
      | _ => [Constraint.or ((first :: rest).map fun c : CC => .and c.wheres)]), ∀ al ∈ w.refs, K al := by
  cases rest with
  | nil => exact h first (by simp)
  | cons c rest =>
    intro w hw al hal
    simp only [List.mem_singleton] at hw
    subst hw
    simp only [Constraint.refs] at hal
    rw [mem_refsAll] at hal
    obtain ⟨d, hd, hal⟩ := hal
    obtain ⟨c', hc', rfl⟩ := List.mem_map.mp hd
    simp only [Constraint.refs] at hal
    rw [mem_refsAll] at hal
    obtain ⟨w, hw, hal⟩ := hal
    exact h c' hc' w hw al hal

/-- A disjunction of patterns of one shape, on one table, asks that one of them is matched. -/
theorem step_simpleOr {T : Prop} {F : Env → Prop} {L : Var → Prop} {db : Tables} {vals : Var → Option TypedValue}
    {cc cc' : CC} {U : List Var} {τ : Var → ValueType} {k : Known} (hd : DbOk k.schema db) (hr : Ready T F L db vals cc)
    (hU : ∀ x ∈ U, ¬ L x) (hτ : ∀ x ∈ U, ∀ v, vals x = some v → τ x = v.valueType) {ps : List Pattern}
    (hpat : ∀ p ∈ ps, PatOk L vals p) (hvars : ∀ p ∈ ps, ∀ x ∈ p.vars, x ∈ U)
    (hty : ∀ p ∈ ps, ∀ x ∈ U, vals x = none → p.Types k.schema vals x (τ x))
    {p0 : Pattern} (hshape : ∀ p ∈ ps, SameVars p0 p) {t : DTable}
    (htab : ∀ p ∈ ps, cc.tableForArm k.schema p = .ok (some t)) (h : cc.applySimpleOr k.schema ps U = .ok cc') :
    StepOk F L db (· ∈ U) cc cc' (fun ρ => ∃ p ∈ ps, Sat k.schema db.facts ρ (.pattern p)) := by
  have hi := hr.inv
  unfold applySimpleOr at h
  split at h
  · rename_i he
    obtain rfl := Res.ok.inj h
    exact (StepOk.refl hi hr.typed).congr fun E _ ρ _ hs => by
      have := sem_live hs; rw [he] at this; cases this
  rename_i he
  have he : cc.empty = false := by simpa using he
  rw [bind_iff] at h
  obtain ⟨eps, hev, h⟩ := h
  obtain ⟨hev1, hev2⟩ := evolveAll_ok ps hev
  cases eps with
  | nil => cases h
  | cons q0 eps' =>
  simp only at h
  -- what is known of the evolved patterns
  have hq : ∀ q ∈ q0 :: eps', Plain L k.schema cc q ∧ Settled cc.vals q ∧ (∀ x, q.Has x → x ∈ U) ∧
      (∀ x ∈ U, vals x = none → q.Types k.schema x (τ x)) ∧ cc.tableFor k.schema q.a q.v = some t ∧ SamePlaces q q0 := by
    intro q hq
    obtain ⟨p, hp, e⟩ := hev1 q hq
    obtain ⟨p', hp', e'⟩ := hev1 q0 (by simp)
    obtain ⟨h1, h2, -, h3, h4, h5, h6⟩ := evolvePattern_plain hi (by rw [hr.vals]; exact hpat p hp) e
    refine ⟨h1, h2, fun x hx => hvars p hp x (has_vars h3 h4 h5 h6 hx), fun x hx hv => ?_, ?_, ?_⟩
    · exact evolve_types e (by rw [hr.vals]; exact hv) (by rw [hr.vals]; exact hty p hp x hx hv)
    · have := htab p hp
      rw [tableForArm_evolve e] at this
      exact Res.ok.inj this
    · exact samePlaces_evolve e e' ((hshape p hp).join (hshape p' hp'))
  obtain ⟨hp0, hs0, hh0, -, ht0, -⟩ := hq q0 (by simp)
  rw [ht0] at h
  simp only at h
  have htbl := tableFor_plain hp0 ht0
  generalize hal : (⟨t, cc.counter⟩ : Alias) = al at h
  have hal' : al.table = t := by rw [← hal]
  have hnc : al.table ≠ .computed := by rw [hal']; rcases htbl with h | h | h <;> rw [h] <;> simp
  have hnew : ¬ Old cc.counter al := by
    intro ho; have := ho hnc; rw [← hal] at this; exact Nat.lt_irrefl _ this
  have ho1 : Old (cc.counter + 1) al := by intro _; rw [← hal]; exact Nat.lt_succ_self _
  -- the arms
  have harmq : ∀ q, (cc.template U).receptacle.applyForAlias k.schema q al =
      ((start cc U (cc.counter + 1)).applyForAlias k.schema q al).count (cc.template U).receptacle.counter := by
    intro q
    rw [← applyForAlias_count]
    rfl
  have hsame : ∀ (c : CC) m, Same (c.count m) c := fun _ _ => ⟨rfl, rfl, rfl, rfl, rfl, rfl, rfl⟩
  have hfirst : ∀ q ∈ q0 :: eps', patCols [] al q = patCols [] al q0 := fun q hq' => patCols_congr (hq q hq').2.2.2.2.2
  have harms : ∀ c, c ∈ simpleArms (cc.template U) k.schema al (q0 :: eps') ↔
      ∃ q ∈ q0 :: eps', c = ((start cc U (cc.counter + 1)).applyForAlias k.schema q al).count
        (cc.template U).receptacle.counter ∧ ((start cc U (cc.counter + 1)).applyForAlias k.schema q al).empty = false := by
    intro c
    unfold simpleArms
    simp only [List.mem_filter, List.mem_map, Bool.not_eq_true', harmq]
    constructor
    · rintro ⟨⟨q, hq, rfl⟩, he⟩; exact ⟨q, hq, rfl, he⟩
    · rintro ⟨q, hq, rfl, he⟩; exact ⟨⟨q, hq, rfl⟩, he⟩
  have hlive : ∀ c ∈ simpleArms (cc.template U) k.schema al (q0 :: eps'),
      SimpleArm L db cc U τ al (patCols [] al q0) c ∧
        ∀ x ∈ U, ∀ s, AMap.get cc.known x = some s → s = TypeSet.one (τ x) := by
    intro c hc
    obtain ⟨q, hq', rfl, he'⟩ := (harms c).mp hc
    obtain ⟨h1, h2, h3, h4, h5, h6⟩ := hq q hq'
    obtain ⟨ha, -, hag⟩ := simpleArm_of (db := db) hr hU h1 h2 h3 h4 hτ ho1 he'
    refine ⟨⟨ha.live, ha.types, ha.vals, ha.req, ha.tags, ⟨ha.within.wh, ha.within.cols, ha.within.tags⟩, ?_,
      ⟨ha.fits.known, ha.fits.tagged⟩⟩, hag⟩
    exact ha.colb.trans (hfirst q hq')
  -- environments
  have env_old : ∀ (l1 : Env) row E a, Old cc.counter a →
      Env.get (l1 ++ E) a = Env.get (l1 ++ [(al, row)] ++ E) a := by
    intro l1 row E a ha
    have hne : al ≠ a := fun e => hnew (e ▸ ha)
    rw [List.append_assoc, Env.get_append, Env.get_append]
    split
    · rfl
    · simp only [List.cons_append, List.nil_append, Env.get, AMap.get_cons, if_neg hne]
  have env_new : ∀ (l1 : Env) row E, l1 ∈ evalFrom db E cc.stables →
      Env.get (l1 ++ [(al, row)] ++ E) al = row := by
    intro l1 row E hl1
    rw [List.append_assoc, Env.get_append, if_neg (fun h => hnew (hi.keys hl1 h))]
    simp [Env.get, AMap.get_cons]
  -- an arm in an environment that shows a row
  have hatq : ∀ q ∈ q0 :: eps', ∀ {r : Row}, r ∈ db.rows → ∀ {env : Env}, HoldsRow db env al r →
      (∀ ρ : Assign, ρ.Proper → (At db (((start cc U (cc.counter + 1)).applyForAlias k.schema q al).count
        (cc.template U).receptacle.counter) env ρ ↔ Shared cc U ρ ∧ q.Matches k.schema ρ r)) ∧
      JAt L db (((start cc U (cc.counter + 1)).applyForAlias k.schema q al).count
        (cc.template U).receptacle.counter) env := by
    intro q hq' r hrow env hh
    obtain ⟨h1, h2, h3, h4, h5, h6⟩ := hq q hq'
    obtain ⟨ha, hj⟩ := simpleArm_at (n := cc.counter + 1) hr hU hd h1 h3 (by rw [hal']; exact h5) hrow hh
    refine ⟨fun ρ hρ => by rw [(hsame _ _).at]; exact ha ρ hρ, ?_⟩
    have hsame' : Same ((start cc U (cc.counter + 1)).applyForAlias k.schema q al)
        (((start cc U (cc.counter + 1)).applyForAlias k.schema q al).count (cc.template U).receptacle.counter) :=
      ⟨rfl, rfl, rfl, rfl, rfl, rfl, rfl⟩
    exact hsame'.jat hj
  -- the meaning of the patterns
  have hsat : ∀ E, ∀ ρ : Assign, Sem db E cc ρ → ((∃ p ∈ ps, Sat k.schema db.facts ρ (.pattern p)) ↔
      ∃ q ∈ q0 :: eps', ∃ r ∈ db.rows, q.Matches k.schema ρ r) := by
    intro E ρ hs
    constructor
    · rintro ⟨p, hp, hsat⟩
      obtain ⟨o, ho, hmem⟩ := hev2 p hp
      obtain ⟨q, hoq, hm⟩ := (evolve_sat hd (by rw [hr.vals]; exact hpat p hp) ho hs).mp hsat
      exact ⟨q, hmem q hoq, hm⟩
    · rintro ⟨q, hq', hm⟩
      obtain ⟨p, hp, e⟩ := hev1 q hq'
      exact ⟨p, hp, (evolve_sat hd (by rw [hr.vals]; exact hpat p hp) e hs).mpr ⟨q, rfl, hm⟩⟩
  cases hsa : simpleArms (cc.template U) k.schema al (q0 :: eps') with
  | nil =>
    rw [hsa] at h
    obtain rfl := Res.ok.inj h
    have st0 : StepOk F L db (· ∈ U) cc { cc with counter := cc.counter + 1 } (fun _ => True) := by
      have := step_conditions (F := F) (X := (· ∈ U)) (P := fun _ => True) hi hr.typed (Nat.le_succ cc.counter) (ws := [])
        (by simp) (by simp) (fun _ _ _ _ _ _ _ => by simp [evalAll])
      simpa using this
    have st1 := st0.trans (StepOk.giveUp (F := F) (db := db) (X := (· ∈ U))
      (P := fun ρ => ∃ p ∈ ps, Sat k.schema db.facts ρ (.pattern p)) st0.inv (by
      intro E hE ρ hρ hs hQρ
      have hs' := ((st0.sem E hE ρ hρ).mp hs).1
      obtain ⟨q, hq', r, hrow, hm⟩ := (hsat E ρ hs').mp hQρ
      have hh : HoldsRow db [(al, db.showRow al.table r)] al r := holdsRow_show (by simp [Env.get, AMap.get_cons])
      have hat := ((hatq q hq' hrow hh).1 ρ hρ).mpr ⟨hs'.shared fun _ _ => rfl, hm⟩
      have : ((start cc U (cc.counter + 1)).applyForAlias k.schema q al).count
        (cc.template U).receptacle.counter ∈ simpleArms (cc.template U) k.schema al (q0 :: eps') :=
        (harms _).mpr ⟨q, hq', rfl, hat.live⟩
      rw [hsa] at this; cases this))
    exact (st1.mono fun x hx => hx.elim id id).congr fun E _ ρ _ _ => by simp
  | cons first rest =>
    rw [hsa] at h harms hlive
    simp only at h
    obtain ⟨hf, hag⟩ := hlive first (by simp)
    have harm : ∀ c ∈ first :: rest, SimpleArm L db cc U τ al (patCols [] al q0) c := fun c hc => (hlive c hc).1
    obtain ⟨r, hfold, hrT⟩ := fold_types (U := U) (τ := τ) (first :: rest) (acc := {}) (fun c hc => (harm c hc).types)
      (fun x s hs => by simp [AMap.get] at hs) (fun x => rfl) AMap.wf_nil (.inl (by simp))
    rw [hfold] at h
    simp only [Res.bind] at h
    have h := Res.ok.inj h
    obtain ⟨wh, hwhe⟩ : ∃ wh, wh = (match rest with
      | [] => first.wheres
      | _ => [Constraint.or ((first :: rest).map fun c : CC => .and c.wheres)]) := ⟨_, rfl⟩
    obtain ⟨K, hnar, hKw, hK⟩ := narrow_types (U := U) (τ := τ) r.known
      (cc := { cc with
        counter := cc.counter + 1, colb := mergeColumns cc.colb first.colb, tables := cc.tables ++ [al],
        wheres := cc.wheres ++ wh }) (fun p hp => hrT.mem hp) hag
    simp only [hrT.key] at hK
    have hcc' : cc' = simpleOut cc al (patCols [] al q0) wh K := by
      rw [← hf.colb, ← h]; subst hwhe; exact hnar
    have hwh : ∀ env, evalAll db env wh = true ↔ ∃ c ∈ first :: rest, evalAll db env c.wheres = true := by
      intro env; rw [hwhe]; exact evalAll_arms first rest
    have hwr : ∀ w ∈ wh, ∀ a ∈ w.refs, a = al := by
      rw [hwhe]; exact refs_arms fun c hc => (harm c hc).within.wh
    have hwf : AMap.WF (patCols [] al q0) := by
      obtain ⟨q, hq', rfl, he'⟩ := (harms first).mp (by simp)
      have hi0 := (start_ready (T' := T) (F' := F) (n := cc.counter + 1) hr hU).inv.applyForAlias
        (plain_start hr (hq q hq').1) (al := al) ho1
      have := hi0.wfCols
      rw [← hf.colb]; exact this
    have hne : ∀ x qs, AMap.get (patCols [] al q0) x = some qs → qs ≠ [] := by
      obtain ⟨q, hq', rfl, he'⟩ := (harms first).mp (by simp)
      have hi0 := (start_ready (T' := T) (F' := F) (n := cc.counter + 1) hr hU).inv.applyForAlias
        (plain_start hr (hq q hq').1) (al := al) ho1
      rw [← hf.colb]; exact hi0.colsNe
    have hfU : ∀ x qs, AMap.get (patCols [] al q0) x = some qs → x ∈ U ∧ AMap.get cc.vals x = none := by
      intro x qs hx
      have := get_patCols hx
      refine ⟨hh0 x this, ?_⟩
      rcases this with h | h | h | h
      · exact hs0.e x h
      · exact hs0.a x h
      · exact hs0.v x h
      · exact hs0.tx x h
    have hcolal : ∀ x qs, AMap.get (patCols [] al q0) x = some qs → ∀ q ∈ qs, q.1 = al := by
      rw [← hf.colb]; exact hf.within.cols
    have hcols : ∀ {P : QA → Prop} x qs, AMap.get (mergeColumns cc.colb (patCols [] al q0)) x = some qs →
        (∀ qs0, AMap.get cc.colb x = some qs0 → ∀ q ∈ qs0, P q) → (∀ q : QA, q.1 = al → P q) → ∀ q ∈ qs, P q := by
      intro P x qs hx h1 h2 q hq
      rcases mem_merged hwf hx with ⟨-, hy⟩ | ⟨cols, hy, rfl⟩
      · exact h1 qs hy q hq
      · rcases List.mem_append.mp hq with hq | hq
        · cases hm : AMap.get cc.colb x with
          | none => rw [hm] at hq; cases hq
          | some qs0 => rw [hm] at hq; exact h1 qs0 hm q hq
        · exact h2 q (hcolal x cols hy q hq)
    have hst : (simpleOut cc al (patCols [] al q0) wh K).stables = cc.stables ++ [.table al] :=
      stables_push (cc := { cc with
        counter := cc.counter + 1, colb := mergeColumns cc.colb (patCols [] al q0),
        wheres := cc.wheres ++ wh, known := K }) hnc
    subst hcc'
    refine ⟨?_, ?_, ?_, ?_, rfl, rfl, id, rfl, Nat.le_succ _, ?_, ⟨wh, rfl⟩, ?_, ?_⟩
    · refine ⟨fun _ x ts hx => ?_, fun he' x v hv => ?_, hi.valsProper, fun x hL => ?_, hi.tags,
        wf_mergeColumns _ hi.wfCols, hi.wfReq, fun x qs hx => ?_, ⟨fun c hc a ha => ?_, fun x qs hx q hq => ?_, fun x q hx => ?_⟩,
        fun a ha => ?_, hi.computed, hKw hi.wfKnown⟩
      · have hx : AMap.get K x = some ts := hx
        rw [hK] at hx
        split at hx
        · exact ⟨τ x, (Option.some.inj hx).symm⟩
        · exact hi.unit he x ts hx
      · show AMap.get K x = _
        rw [hK]
        split
        · rename_i hxU
          rw [hτ x hxU v (by rw [← hr.vals]; exact hv)]
        · exact hi.valsKnown he x v hv
      · obtain ⟨h1, h2, h3⟩ := hi.loose x hL
        refine ⟨?_, h2, h3⟩
        show AMap.get K x = _
        rw [hK, if_neg (fun hx => hU x hx hL)]
        exact h1
      · rcases mem_merged hwf hx with ⟨-, hy⟩ | ⟨cols, hy, rfl⟩
        · exact hi.colsNe x qs hy
        · have := hne x cols hy
          simp [this]
      · rcases List.mem_append.mp hc with hc | hc
        · exact (hi.fresh.wh c hc a ha).mono (Nat.le_succ _)
        · rw [hwr c hc a ha]; exact ho1
      · exact hcols x qs hx (fun qs0 h0 q hq => (hi.fresh.cols x qs0 h0 q hq).mono (Nat.le_succ _))
          (fun q hq => by rw [hq]; exact ho1) q hq
      · exact (hi.fresh.tags x q hx).mono (Nat.le_succ _)
      · rcases List.mem_append.mp ha with ha | ha
        · exact (hi.tables a ha).mono (Nat.le_succ _)
        · rw [List.mem_singleton.mp ha]; exact ho1
    · intro E hE loc hloc
      rw [hst, mem_evalFrom_append] at hloc
      obtain ⟨l1, hl1', l2, hl2, rfl⟩ := hloc
      rw [mem_evalFrom_one] at hl2
      obtain ⟨row, hrow, rfl⟩ := hl2
      simp only [evalTable] at hrow
      rw [hal', mem_tableRows htbl] at hrow
      obtain ⟨r', hr', -, hrow⟩ := hrow
      have hh : HoldsRow db (l1 ++ [(STable.alias (.table al), row)] ++ E) al r' :=
        holdsRow_show (by rw [hal', ← hrow]; exact env_new l1 row E hl1')
      have hj := hi.fresh.jat_congr (env_old l1 row E) (hr.typed E hE l1 hl1')
      refine jat_simpleOut hwf hK hag hU hfU harm (hwh _).mp hj fun c hc => ?_
      obtain ⟨q, hq', rfl, he'⟩ := (harms c).mp hc
      exact (hatq q hq' hr' hh).2
    · intro E hE ρ hρ
      have hat : ∀ (l1 : Env) row (r : Row), l1 ∈ evalFrom db E cc.stables → r ∈ db.rows → row = db.showRow al.table r →
          (At db (simpleOut cc al (patCols [] al q0) wh K) (l1 ++ [(al, row)] ++ E) ρ ↔
            At db cc (l1 ++ E) ρ ∧ ∃ q ∈ q0 :: eps', q.Matches k.schema ρ r) := by
        intro l1 row r' hl1' hr' hrow
        have hh : HoldsRow db (l1 ++ [(al, row)] ++ E) al r' := holdsRow_show (by rw [env_new l1 row E hl1', hrow])
        rw [at_simpleOut hwf hK hag harm (hwh _), ← hi.fresh.at_congr (env_old l1 row E)]
        refine and_congr_right fun h0 => ?_
        constructor
        · rintro ⟨c, hc, hat⟩
          obtain ⟨q, hq', rfl, he'⟩ := (harms c).mp hc
          exact ⟨q, hq', (((hatq q hq' hr' hh).1 ρ hρ).mp hat).2⟩
        · rintro ⟨q, hq', hm⟩
          have := ((hatq q hq' hr' hh).1 ρ hρ).mpr ⟨Sem.shared ⟨l1, hl1', h0⟩ fun _ _ => rfl, hm⟩
          exact ⟨_, (harms _).mpr ⟨q, hq', rfl, this.live⟩, this⟩
      constructor
      · rintro ⟨loc, hloc, h⟩
        rw [hst, mem_evalFrom_append] at hloc
        obtain ⟨l1, hl1', l2, hl2, rfl⟩ := hloc
        rw [mem_evalFrom_one] at hl2
        obtain ⟨row, hrow, rfl⟩ := hl2
        simp only [evalTable] at hrow
        rw [hal', mem_tableRows htbl] at hrow
        obtain ⟨r', hr', -, hrow⟩ := hrow
        obtain ⟨h1, q, hq', hm⟩ := (hat l1 row r' hl1' hr' (by rw [hal']; exact hrow)).mp h
        have hs : Sem db E cc ρ := ⟨l1, hl1', h1⟩
        exact ⟨hs, (hsat E ρ hs).mpr ⟨q, hq', r', hr', hm⟩⟩
      · rintro ⟨hs, hQ⟩
        obtain ⟨q, hq', r', hr', hm⟩ := (hsat E ρ hs).mp hQ
        obtain ⟨l1, hl1', h1⟩ := hs
        refine ⟨l1 ++ [(al, db.showRow al.table r')], ?_, (hat l1 _ r' hl1' hr' rfl).mpr ⟨h1, q, hq', hm⟩⟩
        rw [hst, mem_evalFrom_append]
        refine ⟨l1, hl1', _, ?_, rfl⟩
        rw [mem_evalFrom_one]
        refine ⟨_, ?_, rfl⟩
        simp only [evalTable]
        rw [hal', mem_tableRows htbl]
        refine ⟨r', hr', ?_, rfl⟩
        rintro rfl
        obtain ⟨h1, -, -, -, h5, -⟩ := hq q hq'
        obtain ⟨a, at_, ha, hat', hf⟩ := tableFor_fulltext h1 h5
        have hra : r'.a = a := by have := hm.2.1; rw [ha] at this; exact this
        rw [hra, hd.ft a at_ hat', hf]
    · intro _ x u hx
      show AMap.get K x = _
      rw [hK]
      split
      · rename_i hxU; rw [hag x hxU _ hx]
      · exact hx
    · intro x hx hu
      refine ⟨hu.vals, ?_, ?_, hu.tags, hu.inputs⟩
      · show AMap.get K x = none
        rw [hK, if_neg hx]; exact hu.known
      · show AMap.get (mergeColumns cc.colb (patCols [] al q0)) x = none
        rw [get_mergeColumns _ hwf]
        cases hg : AMap.get (patCols [] al q0) x with
        | none => exact hu.cols
        | some qs => exact absurd (hfU x qs hg).1 hx
    · intro hck
      refine ⟨fun _ x qs hx hL => ?_, fun _ x q hx => ?_⟩
      · have hKx : ∀ t, AMap.get cc.known x = some (TypeSet.one t) → AMap.get K x = some (TypeSet.one t) := by
          intro t ht
          rw [hK]
          split
          · rename_i hxU; rw [hag x hxU _ ht]
          · exact ht
        rcases mem_merged hwf hx with ⟨-, hy⟩ | ⟨cols, hy, rfl⟩
        · obtain ⟨t, h1, h2⟩ := hck.known he x qs hy hL
          exact ⟨t, hKx t h1, h2⟩
        · have hxU := (hfU x cols hy).1
          refine ⟨τ x, by show AMap.get K x = _; rw [hK, if_pos hxU], fun q hq => ?_⟩
          rcases List.mem_append.mp hq with hq | hq
          · cases hm : AMap.get cc.colb x with
            | none => rw [hm] at hq; cases hq
            | some qs0 =>
              rw [hm] at hq
              obtain ⟨t, h1, h2⟩ := hck.known he x qs0 hm hL
              obtain rfl := one_inj (hag x hxU _ h1)
              exact h2 q hq
          · obtain ⟨t, h1, h2⟩ := hf.fits.known hf.live x cols (by rw [hf.colb]; exact hy) hL
            rw [hf.types.get, if_pos hxU] at h1
            obtain rfl := one_inj (Option.some.inj h1)
            exact h2 q hq
      · obtain ⟨qs, h1⟩ := hck.tagged he x q hx
        obtain ⟨qs', h2, -⟩ := merged_left hwf h1
        exact ⟨qs', h2⟩
    · refine ⟨fun N _ hl => ⟨⟨fun c hc a ha => ?_, fun x qs hx q hq => ?_, hl.within.tags⟩, fun a ha => ?_⟩, Nat.le_refl _,
        fun x hx => ?_⟩
      · rcases List.mem_append.mp hc with hc | hc
        · exact hl.within.wh c hc a ha
        · rw [hwr c hc a ha]; exact .of_ne hnc
      · exact hcols x qs hx (hl.within.cols x) (fun q hq => by rw [hq]; exact .of_ne hnc) q hq
      · rcases List.mem_append.mp ha with ha | ha
        · exact hl.tables a ha
        · rw [List.mem_singleton.mp ha]; exact .of_ne hnc
      · rcases hx with ⟨v, hv⟩ | ⟨qs, hq⟩
        · exact .inl ⟨v, hv⟩
        · obtain ⟨qs', h2, -⟩ := merged_left hwf hq
          exact .inr ⟨qs', h2⟩

end CC
end Mentat
