import Verif.Proofs.QueryAnswers
import Verif.Proofs.SqlOrder
/-
`ORDER BY`: the rows of a statement are in order.
-/
namespace Mentat

/-- The order of values: by tag, then by value. -/
def TypedValue.Before (v w : TypedValue) : Prop :=
  v.toSql.2 < w.toSql.2 ∨ v.toSql.2 = w.toSql.2 ∧ v.toSql.1.lt w.toSql.1 = true

/-- The order of assignments that a list of variables gives, each ascending or not: by the first, then by
the others. -/
def Assign.Before : List (Bool × Var) → Assign → Assign → Prop
  | [], _, _ => False
  | (true, x) :: o, ρ, σ => (ρ x).Before (σ x) ∨ ¬ (σ x).Before (ρ x) ∧ Assign.Before o ρ σ
  | (false, x) :: o, ρ, σ => (σ x).Before (ρ x) ∨ ¬ (ρ x).Before (σ x) ∧ Assign.Before o ρ σ

namespace CC

/-! ### Sorting -/

theorem orderLt_asymm (names : List Col) : ∀ (o : List (Bool × Col)) {r s : List SqlValue},
    orderLt names o r s = true → orderLt names o s r = false
  | [], r, s, h => by cases h
  | (d, c) :: o, r, s, h => by
    simp only [orderLt] at h ⊢
    have ih := @orderLt_asymm names o r s
    cases d
    all_goals
      simp only [if_true, Bool.false_eq_true, if_false, Bool.or_eq_true, Bool.and_eq_true, Bool.not_eq_true'] at h
      simp only [if_true, Bool.false_eq_true, if_false, Bool.or_eq_false_iff, Bool.and_eq_false_iff, Bool.not_eq_false']
      rcases h with h | ⟨h1, h2⟩
      · exact ⟨SqlValue.lt_asymm h, .inl h⟩
      · exact ⟨h1, .inr (ih h2)⟩

theorem orderLt_neg (names : List Col) : ∀ (o : List (Bool × Col)) {r s t : List SqlValue},
    orderLt names o r s = false → orderLt names o s t = false → orderLt names o r t = false
  | [], r, s, t, _, _ => rfl
  | (d, c) :: o, r, s, t, h, h' => by
    simp only [orderLt] at h h' ⊢
    cases d
    · simp only [Bool.false_eq_true, if_false, Bool.or_eq_false_iff, Bool.and_eq_false_iff, Bool.not_eq_false'] at h h' ⊢
      refine ⟨SqlValue.lt_neg h'.1 h.1, ?_⟩
      cases h1 : (namedRow names r c).lt (namedRow names t c) with
      | true => exact .inl rfl
      | false =>
        right
        refine orderLt_neg names o (h.2.resolve_left ?_) (h'.2.resolve_left ?_)
        · intro h2
          rw [SqlValue.lt_neg h1 h'.1] at h2; cases h2
        · intro h2
          rw [SqlValue.lt_neg h.1 h1] at h2; cases h2
    · simp only [if_true, Bool.or_eq_false_iff, Bool.and_eq_false_iff, Bool.not_eq_false'] at h h' ⊢
      refine ⟨SqlValue.lt_neg h.1 h'.1, ?_⟩
      cases h1 : (namedRow names t c).lt (namedRow names r c) with
      | true => exact .inl rfl
      | false =>
        right
        refine orderLt_neg names o (h.2.resolve_left ?_) (h'.2.resolve_left ?_)
        · intro h2
          rw [SqlValue.lt_neg h'.1 h1] at h2; cases h2
        · intro h2
          rw [SqlValue.lt_neg h1 h.1] at h2; cases h2

theorem insertRow_sorted {names : List Col} {o : List (Bool × Col)} {x : List SqlValue} : ∀ {l : List (List SqlValue)},
    l.Pairwise (fun r s => orderLt names o s r = false) →
    (insertRow (orderLt names o) x l).Pairwise (fun r s => orderLt names o s r = false)
  | [], _ => by simp [insertRow]
  | y :: l, h => by
    rw [List.pairwise_cons] at h
    unfold insertRow
    split
    · rename_i hlt
      rw [List.pairwise_cons]
      refine ⟨?_, insertRow_sorted h.2⟩
      intro z hz
      have := (insertRow_perm _ x l).mem_iff.mp hz
      rw [List.mem_cons] at this
      rcases this with rfl | hz
      · exact orderLt_asymm names o hlt
      · exact h.1 z hz
    · rename_i hlt
      rw [Bool.not_eq_true] at hlt
      rw [List.pairwise_cons, List.pairwise_cons]
      refine ⟨?_, h⟩
      intro z hz
      rw [List.mem_cons] at hz
      rcases hz with rfl | hz
      · exact hlt
      · exact orderLt_neg names o (h.1 z hz) hlt

theorem sortRows_sorted {names : List Col} {o : List (Bool × Col)} : ∀ {l : List (List SqlValue)},
    (sortRows (orderLt names o) l).Pairwise (fun r s => orderLt names o s r = false)
  | [] => by simp [sortRows]
  | x :: l => insertRow_sorted sortRows_sorted

theorem get_zip_same {names : List Col} : ∀ {r s : List SqlValue}, rowSame r s = true → ∀ c,
    ((AMap.get (names.zip r) c).getD .null).same ((AMap.get (names.zip s) c).getD .null) = true := by
  induction names with
  | nil => intro r s _ c; exact same_refl
  | cons n names ih =>
    intro r s h c
    cases r with
    | nil =>
      cases s with
      | nil => exact same_refl
      | cons b s => simp [rowSame] at h
    | cons a r =>
      cases s with
      | nil => simp [rowSame] at h
      | cons b s =>
        simp only [rowSame, List.length_cons, List.zip_cons_cons, List.all_cons, Bool.and_eq_true, beq_iff_eq,
          Nat.add_right_cancel_iff] at h
        simp only [List.zip_cons_cons, AMap.get_cons]
        split
        · exact h.2.1
        · exact ih (by simp only [rowSame, Bool.and_eq_true, beq_iff_eq]; exact ⟨h.1, h.2.2⟩) c

/-- Rows that are the same are in the same place. -/
theorem orderLt_same {names : List Col} : ∀ (o : List (Bool × Col)) {r s : List SqlValue}, rowSame r s = true →
    orderLt names o r s = false
  | [], r, s, _ => rfl
  | (d, c) :: o, r, s, h => by
    have hs := SqlValue.lt_same (get_zip_same (names := names) h c)
    have ih := orderLt_same (names := names) o h
    simp only [orderLt, namedRow]
    cases d <;> simp [hs, ih]

/-- The rows of a statement are in order, and those left out by the limit do not come before them. -/
theorem finishRows_sorted {distinct : Bool} {names : List Col} {o : List (Bool × Col)} {lim : Option Nat}
    {l : List (List SqlValue)} :
    (finishRows distinct names o lim l).Pairwise (fun r s => orderLt names o s r = false) ∧
    ∀ r ∈ l, (∃ s ∈ finishRows distinct names o lim l, r = s ∨ rowSame r s = true) ∨
      ∃ n, lim = some n ∧ (finishRows distinct names o lim l).length = n ∧
        ∀ s ∈ finishRows distinct names o lim l, orderLt names o r s = false := by
  have hs : ∀ l' : List (List SqlValue), (if o.isEmpty then l' else sortRows (orderLt names o) l').Pairwise
      (fun r s => orderLt names o s r = false) := by
    intro l'
    split
    · rename_i ho
      have : o = [] := by simpa using ho
      subst this
      exact List.pairwise_of_forall fun _ _ => rfl
    · exact sortRows_sorted
  have hall := finishRows_all (distinct := distinct) (names := names) (order := o) (l := l)
  have hsort := hs (if distinct then distinctRows l else l)
  unfold finishRows at hall ⊢
  simp only at hall ⊢
  generalize (if o.isEmpty then (if distinct then distinctRows l else l) else
    sortRows (orderLt names o) (if distinct then distinctRows l else l)) = m at hall hsort ⊢
  cases lim with
  | none => exact ⟨hsort, fun r hr => .inl (hall r hr)⟩
  | some n =>
    refine ⟨hsort.sublist (List.take_sublist n m), fun r hr => ?_⟩
    obtain ⟨s, hs, hrs⟩ := hall r hr
    rw [← List.take_append_drop n m, List.mem_append] at hs
    rcases hs with hs | hs
    · exact .inl ⟨s, hs, hrs⟩
    · right
      refine ⟨n, rfl, ?_, ?_⟩
      · have := List.length_pos_of_mem hs
        simp only [List.length_drop, List.length_take] at this ⊢
        omega
      · intro t ht
        have hst : orderLt names o s t = false := by
          rw [← List.take_append_drop n m, List.pairwise_append] at hsort
          exact hsort.2.2 t ht s hs
        rcases hrs with rfl | hrs
        · exact hst
        · exact orderLt_neg names o (orderLt_same o hrs) hst

/-! ### The columns by name -/

/-- A column named after a variable is that of its value, or of its tag. -/
def Named (cc : CC) (c : SExpr × Col) : Prop := ∀ env ρ, Reads cc env ρ →
  (∀ x, c.2 = .var x → c.1.eval env = (ρ x).toSql.1) ∧ ∀ x, c.2 = .varTag x → c.1.eval env = .integer (ρ x).toSql.2

theorem named_var {cc : CC} {x : Var} {r : SExpr × TypeSet} (h : cc.projectedColumn x = .ok r) : Named cc (r.1, .var x) := by
  intro env ρ hr
  refine ⟨?_, by simp⟩
  rintro y e
  cases e
  exact (projectedColumn_reads h hr).1

theorem named_tag {cc : CC} {x : Var} {tc : SExpr × Col} (h : cc.typeColumn x = .ok tc) : Named cc tc := by
  unfold typeColumn at h
  cases hx : AMap.get cc.extracted x with
  | none => rw [hx] at h; cases h
  | some q =>
    rw [hx] at h
    obtain rfl := Res.ok.inj h
    intro env ρ hr
    refine ⟨by simp, ?_⟩
    rintro y e
    cases e
    rw [eval_col]; exact hr.tags x q hx

theorem projectVar_named {cc : CC} {p p' : Proj} {x : Var} (hp : ∀ c ∈ p.inner, Named cc c) (h : cc.projectVar p x = .ok p') :
    ∀ c ∈ p'.inner, Named cc c := by
  unfold projectVar at h
  obtain ⟨r, hr, h⟩ := bind_iff.mp h
  have h0 : ∀ c ∈ p.inner ++ [(r.1, .var x)], Named cc c := by
    intro c hc
    rw [List.mem_append, List.mem_singleton] at hc
    rcases hc with hc | rfl
    · exact hp c hc
    · exact named_var hr
  simp only at h
  split at h
  · obtain rfl := Res.ok.inj h; exact h0
  · obtain ⟨tc, htc, h⟩ := bind_iff.mp h
    obtain rfl := Res.ok.inj h
    intro c hc
    simp only at hc
    rw [List.mem_append, List.mem_singleton] at hc
    rcases hc with hc | rfl
    · exact h0 c hc
    · exact named_tag htc

theorem projectLoop_named {cc : CC} : ∀ (xs : List Var) {p p' : Proj}, (∀ c ∈ p.inner, Named cc c) →
    cc.projectElementsLoop p (xs.map .var) = .ok p' → ∀ c ∈ p'.inner, Named cc c
  | [], p, p', hp, h => by obtain rfl := Res.ok.inj h; exact hp
  | x :: xs, p, p', hp, h => by
    simp only [List.map_cons, projectElementsLoop] at h
    obtain ⟨p1, h1, h2⟩ := bind_iff.mp h
    simp only [projectElement] at h1
    split at h1
    · cases h1
    · have := projectVar_named (p := { p with outerVars := p.outerVars ++ [x] }) hp h1
      exact projectLoop_named xs this h2

theorem projectNamed_named {cc : CC} : ∀ (ys : List Var) {p p' : Proj}, (∀ c ∈ p.inner, Named cc c) →
    cc.projectNamed p ys = .ok p' → ∀ c ∈ p'.inner, Named cc c
  | [], p, p', hp, h => by obtain rfl := Res.ok.inj h; exact hp
  | y :: ys, p, p', hp, h => by
    unfold projectNamed at h
    split at h
    · exact projectNamed_named ys hp h
    · rename_i hno
      have hv : AMap.get cc.vals y = none := by
        cases hv : AMap.get cc.vals y with
        | none => rfl
        | some v => rw [hv] at hno; simp at hno
      split at h
      · rename_i q qs hq
        have h0 : ∀ c ∈ (if y ∈ p.innerVars then p.inner else p.inner ++ [(.col q.1 q.2, .var y)]), Named cc c := by
          intro c hc
          split at hc
          · exact hp c hc
          · rw [List.mem_append, List.mem_singleton] at hc
            rcases hc with hc | rfl
            · exact hp c hc
            · have : cc.projectedColumn y = .ok (.col q.1 q.2, cc.knownTypeSet y) := by
                unfold projectedColumn; rw [hv, hq]
              exact named_var this
        simp only [decide_eq_true_eq] at h
        split at h
        · exact projectNamed_named ys (by simpa using h0) h
        · obtain ⟨tc, htc, h⟩ := bind_iff.mp h
          refine projectNamed_named ys ?_ h
          intro c hc
          simp only at hc
          split at hc
          · rename_i hm
            rw [if_pos hm] at h0
            exact h0 c hc
          · rename_i hm
            rw [if_neg hm] at h0
            rw [List.mem_append, List.mem_singleton] at hc
            rcases hc with hc | rfl
            · exact h0 c hc
            · exact named_tag htc
      · cases h

theorem projectElements_named {a : Algebraic} {xs : List Var} (hf : a.find.elements = xs.map .var) {p : Projected}
    (h : projectElements a = .ok p) : ∀ c ∈ p.cols, Named a.cc c := by
  have ho := (projectElements_spec hf h).1
  unfold projectElements at h
  rw [hf] at h
  obtain ⟨p1, h1, h⟩ := bind_iff.mp h
  split at h
  · cases h
  obtain ⟨p2, h2, h⟩ := bind_iff.mp h
  have g1 := projectLoop_named xs (p := {}) (by simp) h1
  have g2 := projectNamed_named _ g1 h2
  split at h
  · obtain rfl := Res.ok.inj h; exact g2
  · obtain ⟨pg, -, h⟩ := bind_iff.mp h
    obtain ⟨p3, -, h⟩ := bind_iff.mp h
    obtain rfl := Res.ok.inj h
    cases ho

theorem namedRow_eval {env : Env} {cols : List (SExpr × Col)} {c : Col} (hc : c ∈ cols.map (·.2)) :
    ∃ d ∈ cols, d.2 = c ∧ namedRow (cols.map (·.2)) (cols.map fun d => d.1.eval env) c = d.1.eval env := by
  induction cols with
  | nil => cases hc
  | cons d cols ih =>
    unfold namedRow at ih ⊢
    simp only [List.map_cons, List.zip_cons_cons, AMap.get_cons]
    by_cases h : d.2 = c
    · rw [if_pos h]
      exact ⟨d, by simp, h, rfl⟩
    · rw [if_neg h]
      simp only [List.map_cons, List.mem_cons] at hc
      obtain ⟨e, he, h1, h2⟩ := ih (hc.resolve_left fun e => h e.symm)
      exact ⟨e, by simp [he], h1, h2⟩

/-! ### Rows and assignments -/

theorem isUnit_eq {ts : TypeSet} (h : ts.isUnit = true) {t u : ValueType} (ht : ts t = true) (hu : ts u = true) : t = u := by
  have ht' : t ∈ ts.list := by simp [TypeSet.list, ValueType.mem_all, ht]
  have hu' : u ∈ ts.list := by simp [TypeSet.list, ValueType.mem_all, hu]
  unfold TypeSet.isUnit at h
  match hl : ts.list with
  | [] => rw [hl] at ht'; cases ht'
  | [w] =>
    rw [hl, List.mem_singleton] at ht' hu'
    rw [ht', hu']
  | _ :: _ :: _ => rw [hl] at h; simp at h

theorem before_irrefl (v : TypedValue) : ¬ v.Before v := by
  rintro (h | ⟨-, h⟩)
  · omega
  · rw [SqlValue.lt_asymm h] at h; cases h

/-- The order of the rows is that of the assignments. -/
theorem orderLt_before {cc : CC} {cols : List (SExpr × Col)} (hn : ∀ c ∈ cols, Named cc c) {env env' : Env} {ρ σ : Assign}
    (hρ : Reads cc env ρ) (hσ : Reads cc env' σ) :
    ∀ {o : List (Bool × Var)} {p : List (Bool × Col) × List Var}, cc.simplifyOrder o = .ok p →
      (∀ c ∈ p.1, c.2 ∈ cols.map (·.2)) →
      (orderLt (cols.map (·.2)) p.1 (cols.map fun d => d.1.eval env) (cols.map fun d => d.1.eval env') = true ↔
        Assign.Before o ρ σ)
  | [], p, h, _ => by
    obtain rfl := Res.ok.inj h
    simp [orderLt, Assign.Before]
  | (d, x) :: o, p, h, hc => by
    rw [simplifyOrder] at h
    split at h
    · rename_i hv
      obtain ⟨v, hv⟩ := Option.isSome_iff_exists.mp hv
      have e : ρ x = σ x := by rw [hρ.vals x v hv, hσ.vals x v hv]
      rw [orderLt_before hn hρ hσ h hc]
      have := before_irrefl (σ x)
      cases d <;> simp [Assign.Before, e, this]
    · split at h
      · cases h
      · obtain ⟨p', hp', h⟩ := bind_iff.mp h
        obtain rfl := Res.ok.inj h
        have ih := orderLt_before hn hρ hσ hp' (fun c hm => hc c (by simp [hm]))
        have hval : ∀ {d : Bool}, (d, Col.var x) ∈ (if (cc.knownType x).isNone then [(d, Col.varTag x), (d, .var x)] else [(d, .var x)]) ++ p'.1 := by
          intro d; split <;> simp
        have hx : ∀ {env ρ}, Reads cc env ρ →
            namedRow (cols.map (·.2)) (cols.map fun d => d.1.eval env) (.var x) = (ρ x).toSql.1 := by
          intro env ρ hr
          obtain ⟨e, he, h1, h2⟩ := namedRow_eval (env := env) (hc _ hval)
          rw [h2]; exact (hn e he env ρ hr).1 x h1
        cases hk : (cc.knownType x).isNone with
        | true =>
          rw [hk] at hc
          have htag : ∀ {env ρ}, Reads cc env ρ →
              namedRow (cols.map (·.2)) (cols.map fun d => d.1.eval env) (.varTag x) = .integer (ρ x).toSql.2 := by
            intro env ρ hr
            obtain ⟨e, he, h1, h2⟩ := namedRow_eval (env := env) (c := .varTag x) (hc (d, .varTag x) (by simp))
            rw [h2]; exact (hn e he env ρ hr).2 x h1
          cases d
          all_goals
            simp only [if_true, List.cons_append, List.nil_append, orderLt, Bool.false_eq_true, if_false, hx hρ, hx hσ, htag hρ, htag hσ,
              Bool.or_eq_true, Bool.and_eq_true, Bool.not_eq_true', SqlValue.lt, decide_eq_true_eq, decide_eq_false_iff_not,
              ih, Assign.Before, TypedValue.Before]
            generalize (ρ x).toSql.2 = m
            generalize (σ x).toSql.2 = n
            rcases Nat.lt_trichotomy m n with h | h | h
            · simp [h, Nat.lt_asymm h, Nat.ne_of_lt h, Int.ofNat_lt, Nat.ne_of_gt h]
            · subst h
              simp
            · simp [h, Nat.lt_asymm h, Nat.ne_of_lt h, Int.ofNat_lt, Nat.ne_of_gt h]
        | false =>
          have hty : (ρ x).toSql.2 = (σ x).toSql.2 := by
            unfold knownType at hk
            cases hg : AMap.get cc.known x with
            | none => rw [hg] at hk; cases hk
            | some ts =>
              rw [hg] at hk
              simp only at hk
              split at hk
              · rename_i hu
                rw [toSql_tag, toSql_tag, isUnit_eq hu (hρ.known x ts hg) (hσ.known x ts hg)]
              · cases hk
          cases d <;>
            simp [orderLt, hx hρ, hx hσ, ih, Assign.Before, TypedValue.Before, hty]

section
variable {k : Known} {L : Var → Prop} {db : Tables} {q : FindQuery} {inputs : Inputs} {a : Algebraic} {xs : List Var}

/-- The rows of the statement, before `DISTINCT`, ordering and limit. -/
theorem rows_raw (h : Algebrized k db L q inputs a) (hf : q.find.elements = xs.map .var) (he : a.cc.empty = false)
    {p : Projected} (hp : projectElements a = .ok p) {fl : Floats} {rows : List (List SqlValue)}
    (hr : selectRows fl db a p = .ok rows) {lim : Option Nat} (hlim : a.limit.number = .ok lim) :
    ∃ l, rows = finishRows (isDistinct a false) (p.cols.map (·.2)) a.order lim l ∧
      (∀ r ∈ l, ∃ env ρ, IsAnswer k.schema db.facts q inputs.values ρ ∧ Reads a.cc env ρ ∧ r = p.cols.map fun d => d.1.eval env) ∧
      (∀ ρ, IsAnswer k.schema db.facts q inputs.values ρ → ∃ env, Reads a.cc env ρ ∧ (p.cols.map fun d => d.1.eval env) ∈ l) ∧
      ∀ c ∈ a.order, c.2 ∈ p.cols.map (·.2) := by
  have hout := (projectElements_spec (by rw [h.find]; exact hf) hp).1
  unfold selectRows at hr
  rw [hlim, hout] at hr
  obtain ⟨lim', e, hr⟩ := bind_iff.mp hr
  obtain rfl := Res.ok.inj e
  obtain ⟨s, hs, hr⟩ := bind_iff.mp hr
  unfold toSelect at hs
  rw [h.panics, he] at hs
  simp only [Bool.false_eq_true, if_false] at hs
  obtain rfl := Res.ok.inj hs
  unfold runSql at hr
  split at hr
  rotate_left
  · cases hr
  rename_i hsc
  obtain rfl := Res.ok.inj hr
  refine ⟨_, by rw [evalSelect], ?_, ?_, ?_⟩
  · intro r hr
    rw [List.mem_map] at hr
    obtain ⟨loc, hl, rfl⟩ := hr
    rw [List.mem_filter] at hl
    obtain ⟨ρ, hρ, hrd⟩ := h.reads loc hl.1 he hl.2
    exact ⟨loc ++ [], ρ, hρ, hrd, rfl⟩
  · intro ρ hρ
    obtain ⟨loc, hl, hw, hrd⟩ := h.found ρ hρ
    exact ⟨loc ++ [], hrd, List.mem_map.mpr ⟨loc, List.mem_filter.mpr ⟨hl, hw⟩, rfl⟩⟩
  · intro c hc
    simp only [scopedSelect, Bool.and_eq_true, List.all_eq_true, decide_eq_true_eq] at hsc
    exact hsc.2 c hc

theorem length_rowOf : ∀ {vs ws : List TypedValue} {ks : List (Option Nat)}, List.Forall₂ TagOk vs ks →
    List.Forall₂ TagOk ws ks → (rowOf vs ks).length = (rowOf ws ks).length
  | _, _, _, .nil, .nil => rfl
  | _ :: _, _ :: _, _ :: _, .cons _ h, .cons _ h' => by simp [rowOf, length_cellsOf, length_rowOf h h']

theorem exists_forall₂ {α β : Type} {R : α → β → Prop} : ∀ {l : List α}, (∀ a ∈ l, ∃ b, R a b) → ∃ m, List.Forall₂ R l m
  | [], _ => ⟨[], .nil⟩
  | a :: l, h => by
    obtain ⟨b, hb⟩ := h a (by simp)
    obtain ⟨m, hm⟩ := exists_forall₂ (l := l) fun a ha => h a (by simp [ha])
    exact ⟨b :: m, .cons hb hm⟩

theorem forall₂_map {α β γ : Type} {R : α → β → Prop} {S : α → γ → Prop} {f : γ → β} {l : List α} {m : List β} {n : List γ}
    (h : List.Forall₂ R l m) (h' : List.Forall₂ S l n) (hf : ∀ a b c, R a b → S a c → b = f c) : m = n.map f := by
  induction h generalizing n with
  | nil => cases h'; rfl
  | cons h _ ih =>
    cases h' with
    | cons g g' => rw [List.map_cons, ih g', hf _ _ _ h g]

theorem forall₂_pairwise {α β : Type} {R : α → β → Prop} {S : α → α → Prop} {T : β → β → Prop} {l : List α} {m : List β}
    (h : List.Forall₂ R l m) (hs : l.Pairwise S) (hT : ∀ a b x y, R a x → R b y → S a b → T x y) : m.Pairwise T := by
  induction h with
  | nil => exact .nil
  | cons h h' ih =>
    rw [List.pairwise_cons] at hs ⊢
    refine ⟨fun y hy => ?_, ih hs.2⟩
    obtain ⟨b, hb, hby⟩ := forall₂_right h' y hy
    exact hT _ _ _ _ h hby (hs.1 b hb)

end

end CC
end Mentat
