import Verif.Proofs.QueryNot
import Verif.Model.Project
import Mathlib.Data.List.Forall2
/-
The columns a query projects and their decoding; `DISTINCT`.
-/
namespace Mentat
namespace CC

/-! ### `DISTINCT` -/

def rowSame (r s : List SqlValue) : Bool := (r.length == s.length) && (r.zip s).all fun p => p.1.same p.2

theorem distinct_fold (l : List (List SqlValue)) : ∀ (acc : List (List SqlValue)),
    let out := l.foldl (fun acc r => if acc.any fun s => rowSame r s then acc else acc ++ [r]) acc
    (∀ s ∈ out, s ∈ acc ∨ s ∈ l) ∧ (∀ s ∈ acc, s ∈ out) ∧
    (∀ r ∈ l, ∃ s ∈ out, r = s ∨ rowSame r s = true) ∧
    (acc.Pairwise (fun s r => rowSame r s = false) → out.Pairwise (fun s r => rowSame r s = false)) := by
  induction l with
  | nil => intro acc; simp
  | cons r l ih =>
    intro acc
    simp only [List.foldl_cons]
    by_cases h : acc.any (fun s => rowSame r s) = true
    · rw [if_pos h]
      obtain ⟨h1, h2, h3, h4⟩ := ih acc
      refine ⟨fun s hs => (h1 s hs).imp id fun h => by simp [h], h2, ?_, h4⟩
      intro r' hr'
      rw [List.mem_cons] at hr'
      rcases hr' with rfl | hr'
      · obtain ⟨s, hs, hss⟩ := List.any_eq_true.mp h
        exact ⟨s, h2 s hs, .inr hss⟩
      · exact h3 r' hr'
    · rw [if_neg h]
      obtain ⟨h1, h2, h3, h4⟩ := ih (acc ++ [r])
      refine ⟨?_, fun s hs => h2 s (by simp [hs]), ?_, ?_⟩
      · intro s hs
        rcases h1 s hs with h | h
        · rw [List.mem_append, List.mem_singleton] at h
          rcases h with h | rfl
          · exact .inl h
          · exact .inr (by simp)
        · exact .inr (by simp [h])
      · intro r' hr'
        rw [List.mem_cons] at hr'
        rcases hr' with rfl | hr'
        · exact ⟨r', h2 r' (by simp), .inl rfl⟩
        · exact h3 r' hr'
      · intro hp
        apply h4
        rw [List.pairwise_append]
        refine ⟨hp, by simp, ?_⟩
        intro s hs r' hr'
        rw [List.mem_singleton] at hr'
        subst hr'
        have := List.any_eq_false.mp (by simpa using h) s hs
        simpa using this

theorem distinctRows_spec (l : List (List SqlValue)) :
    (∀ s ∈ distinctRows l, s ∈ l) ∧ (∀ r ∈ l, ∃ s ∈ distinctRows l, r = s ∨ rowSame r s = true) ∧
    (distinctRows l).Pairwise (fun s r => rowSame r s = false) := by
  obtain ⟨h1, -, h3, h4⟩ := distinct_fold l []
  exact ⟨fun s hs => (h1 s hs).resolve_left (by simp), h3, h4 List.Pairwise.nil⟩

/-! ### Values alike -/

/-- Equal, or the same number. -/
def _root_.Mentat.TypedValue.Alike (v w : TypedValue) : Prop :=
  v = w ∨ ∃ n, v.number? = some n ∧ w.number? = some n

theorem alike_of_same {v w : TypedValue} (hv : v.Proper) (hw : w.Proper) (ht : v.toSql.2 = w.toSql.2)
    (h : v.toSql.1.same w.toSql.1 = true) : v.Alike w := by
  have h : v.toSql.1.eq w.toSql.1 = true := by
    simpa [SqlValue.same, toSql_ne_null] using h
  by_cases hty : v.valueType = w.valueType
  · exact .inl (toSql_inj hv hw hty ((sqlEq_same hty).mp h))
  · right
    cases v <;> cases w <;> simp [TypedValue.toSql] at ht <;> simp [TypedValue.valueType] at hty <;>
      simp_all [TypedValue.toSql, SqlValue.eq, TypedValue.number?]

theorem same_refl {v : SqlValue} : v.same v = true := by
  cases v <;> simp [SqlValue.same, SqlValue.eq]

theorem rowSame_refl (r : List SqlValue) : rowSame r r = true := by
  simp only [rowSame, beq_self_eq_true, Bool.true_and, List.all_eq_true]
  intro p hp
  have : p.1 = p.2 := by
    rw [List.mem_iff_getElem] at hp
    obtain ⟨i, hi, rfl⟩ := hp
    simp
  rw [this]; exact same_refl

theorem rowSame_append {a b c d : List SqlValue} (hl : a.length = b.length) :
    rowSame (a ++ c) (b ++ d) = true ↔ rowSame a b = true ∧ rowSame c d = true := by
  unfold rowSame
  rw [List.zip_append hl]
  simp only [List.length_append, List.all_append, Bool.and_eq_true, beq_iff_eq, hl, true_and,
    Nat.add_left_cancel_iff]
  constructor
  · rintro ⟨a, b, c⟩; exact ⟨b, a, c⟩
  · rintro ⟨a, b, c⟩; exact ⟨b, a, c⟩

/-! ### The columns of a variable -/

/-- A type set with one tag has the tag of its members. -/
theorem uniqueTag_of {ts : TypeSet} {tag : Nat} (h : ts.uniqueTag = some tag) {t : ValueType} (ht : ts t = true) :
    t.tag = tag := by
  unfold TypeSet.uniqueTag at h
  have hm : t ∈ ts.list := by
    simp [TypeSet.list, ValueType.mem_all, ht]
  cases hl : ts.list with
  | nil => rw [hl] at hm; cases hm
  | cons u r =>
    rw [hl] at h hm
    simp only at h
    split at h
    · rename_i hall
      cases h
      rw [List.mem_cons] at hm
      rcases hm with rfl | hm
      · rfl
      · have := List.all_eq_true.mp hall t hm
        simpa using this
    · cases h

/-- The columns of a value: with the tag, unless the tag is known. -/
def cellsOf (v : TypedValue) : Option Nat → List SqlValue
  | some _ => [v.toSql.1]
  | none => [v.toSql.1, .integer v.toSql.2]

/-- Where to find it. -/
def tmplOf (i : Nat) : Option Nat → TIndex
  | some tag => .known i tag
  | none => .unknown i (i + 1)

def kindWidth : Option Nat → Nat
  | some _ => 1
  | none => 2

def tmplsFrom (i : Nat) : List (Option Nat) → List TIndex
  | [] => []
  | k :: ks => tmplOf i k :: tmplsFrom (i + kindWidth k) ks

def rowOf : List TypedValue → List (Option Nat) → List SqlValue
  | v :: vs, k :: ks => cellsOf v k ++ rowOf vs ks
  | _, _ => []

/-- A known tag is the tag of the value. -/
def TagOk (v : TypedValue) (k : Option Nat) : Prop := ∀ t, k = some t → v.toSql.2 = t

def readAll : List TypedValue → Res (List TypedValue)
  | [] => .ok []
  | v :: vs => (fromSql v.toSql.1 v.toSql.2).bind fun w => (readAll vs).bind fun ws => .ok (w :: ws)

theorem readAll_ok : ∀ {vs : List TypedValue}, (∀ v ∈ vs, fromSql v.toSql.1 v.toSql.2 = .ok v) → readAll vs = .ok vs
  | [], _ => rfl
  | v :: vs, h => by
    have h1 := h v (by simp)
    have h2 := readAll_ok (vs := vs) fun w hw => h w (by simp [hw])
    simp [readAll, h1, h2, Res.bind]

theorem length_cellsOf (v : TypedValue) (k : Option Nat) : (cellsOf v k).length = kindWidth k := by
  cases k <;> rfl

theorem lookup_tmpl {v : TypedValue} {k : Option Nat} (h : TagOk v k) (pre suf : List SqlValue) :
    (tmplOf pre.length k).lookup (pre ++ (cellsOf v k ++ suf)) = fromSql v.toSql.1 v.toSql.2 := by
  cases k with
  | some t =>
    have := h t rfl
    simp [TIndex.lookup, tmplOf, cellsOf, this]
  | none =>
    have h1 : (pre ++ ([v.toSql.1, .integer v.toSql.2] ++ suf))[pre.length]? = some v.toSql.1 := by simp
    have h2 : (pre ++ ([v.toSql.1, .integer v.toSql.2] ++ suf))[pre.length + 1]? = some (.integer v.toSql.2) := by
      rw [List.getElem?_append_right (by omega)]
      simp
    simp only [TIndex.lookup, tmplOf, cellsOf, h1, h2]
    rw [if_neg (by omega)]
    simp

theorem lookupAll_row : ∀ {vs : List TypedValue} {ks : List (Option Nat)} (_ : List.Forall₂ TagOk vs ks)
    (pre suf : List SqlValue), lookupAll (pre ++ (rowOf vs ks ++ suf)) (tmplsFrom pre.length ks) = readAll vs
  | _, _, .nil, pre, suf => rfl
  | v :: vs, k :: ks, .cons h hs, pre, suf => by
    simp only [tmplsFrom, lookupAll, rowOf, readAll, List.append_assoc]
    rw [lookup_tmpl h]
    have := lookupAll_row hs (pre ++ cellsOf v k) suf
    rw [List.length_append, length_cellsOf] at this
    simp only [List.append_assoc] at this
    rw [this]

theorem rowOf_same : ∀ {vs ws : List TypedValue} {ks : List (Option Nat)}, List.Forall₂ TagOk vs ks →
    List.Forall₂ TagOk ws ks → (∀ v ∈ vs, v.Proper) → (∀ w ∈ ws, w.Proper) →
    rowSame (rowOf vs ks) (rowOf ws ks) = true → List.Forall₂ TypedValue.Alike vs ws
  | _, _, _, .nil, .nil, _, _, _ => .nil
  | v :: vs, w :: ws, k :: ks, .cons h1 h2, .cons h1' h2', hv, hw, h => by
    simp only [rowOf] at h
    rw [rowSame_append (by rw [length_cellsOf, length_cellsOf])] at h
    refine .cons ?_ (rowOf_same h2 h2' (fun v hv' => hv v (by simp [hv'])) (fun v hv' => hw v (by simp [hv'])) h.2)
    have h := h.1
    cases k with
    | some t =>
      simp only [cellsOf, rowSame, List.zip_cons_cons, List.all_cons, List.length_cons, Bool.and_eq_true] at h
      exact alike_of_same (hv v (by simp)) (hw w (by simp)) (by rw [h1 t rfl, h1' t rfl]) h.2.1
    | none =>
      simp only [cellsOf, rowSame, List.zip_cons_cons, List.all_cons, List.length_cons, Bool.and_eq_true] at h
      refine alike_of_same (hv v (by simp)) (hw w (by simp)) ?_ h.2.1
      have := h.2.2.1
      simp [SqlValue.same, SqlValue.eq] at this
      omega

/-- The columns and values of the clauses, in an environment, are those of the assignment. -/
structure Reads (cc : CC) (env : Env) (ρ : Assign) : Prop where
  vals : ∀ x v, AMap.get cc.vals x = some v → ρ x = v
  cols : ∀ x q qs, AMap.get cc.colb x = some (q :: qs) → cell env q = (ρ x).toSql.1
  known : ∀ x ts, AMap.get cc.known x = some ts → ts (ρ x).valueType = true
  tags : ∀ x q, AMap.get cc.extracted x = some q → cell env q = .integer (ρ x).toSql.2

theorem projectedColumn_reads {cc : CC} {x : Var} {r : SExpr × TypeSet} (h : cc.projectedColumn x = .ok r)
    {env : Env} {ρ : Assign} (hr : Reads cc env ρ) :
    r.1.eval env = (ρ x).toSql.1 ∧ r.2 (ρ x).valueType = true := by
  unfold projectedColumn at h
  cases hv : AMap.get cc.vals x with
  | some v =>
    rw [hv] at h
    obtain rfl := Res.ok.inj h
    simp [SExpr.eval, hr.vals x v hv, TypeSet.one]
  | none =>
    rw [hv] at h
    cases hc : AMap.get cc.colb x with
    | none => rw [hc] at h; cases h
    | some qs =>
      rw [hc] at h
      cases qs with
      | nil => cases h
      | cons q qs =>
        obtain rfl := Res.ok.inj h
        refine ⟨hr.cols x q qs hc, ?_⟩
        show cc.knownTypeSet x _ = true
        unfold knownTypeSet
        cases hk : AMap.get cc.known x with
        | none => rfl
        | some ts => exact hr.known x ts hk

/-- The locals, between variables. -/
structure ProjOk (p : Proj) : Prop where
  i : p.i = p.inner.length
  agg : p.aggregates = false
  corr : p.corrVars = []

theorem projectVar_spec {cc : CC} {p p' : Proj} {x : Var} (hp : ProjOk p) (h : cc.projectVar p x = .ok p') :
    ProjOk p' ∧ p'.outerVars = p.outerVars ∧ ∃ k new, p'.inner = p.inner ++ new ∧
      p'.templates = p.templates ++ [tmplOf p.i k] ∧ p'.i = p.i + kindWidth k ∧
      ∀ env ρ, Reads cc env ρ → TagOk (ρ x) k ∧ new.map (fun c => c.1.eval env) = cellsOf (ρ x) k := by
  unfold projectVar at h
  obtain ⟨r, hr, h⟩ := bind_iff.mp h
  cases ht : r.2.uniqueTag with
  | some tag =>
    rw [ht] at h
    obtain rfl := Res.ok.inj h
    refine ⟨⟨by simp [hp.i], hp.agg, hp.corr⟩, rfl, some tag, [(r.1, .var x)], rfl, rfl, rfl, ?_⟩
    intro env ρ hρ
    obtain ⟨h1, h2⟩ := projectedColumn_reads hr hρ
    refine ⟨?_, by simp [h1, cellsOf]⟩
    intro t e
    cases e
    rw [toSql_tag]; exact uniqueTag_of ht h2
  | none =>
    rw [ht] at h
    obtain ⟨tc, htc, h⟩ := bind_iff.mp h
    obtain rfl := Res.ok.inj h
    refine ⟨⟨by simp [hp.i], hp.agg, hp.corr⟩, rfl, none, [(r.1, .var x), tc], by simp, rfl, rfl, ?_⟩
    intro env ρ hρ
    obtain ⟨h1, -⟩ := projectedColumn_reads hr hρ
    refine ⟨fun t e => (by cases e), ?_⟩
    unfold typeColumn at htc
    cases hx : AMap.get cc.extracted x with
    | none => rw [hx] at htc; cases htc
    | some q =>
      rw [hx] at htc
      obtain rfl := Res.ok.inj htc
      have := hρ.tags x q hx
      simp only [List.map_cons, List.map_nil, cellsOf, h1]
      rw [eval_col, this]

theorem projectLoop_spec {cc : CC} : ∀ (xs : List Var) {p p' : Proj} (_ : ProjOk p)
    (_ : cc.projectElementsLoop p (xs.map .var) = .ok p'),
    ProjOk p' ∧ p'.outerVars = p.outerVars ++ xs ∧ ∃ ks new, p'.inner = p.inner ++ new ∧
      p'.templates = p.templates ++ tmplsFrom p.i ks ∧ ks.length = xs.length ∧
      ∀ env ρ, Reads cc env ρ → List.Forall₂ TagOk (xs.map ρ) ks ∧
        new.map (fun c => c.1.eval env) = rowOf (xs.map ρ) ks
  | [], p, p', hp, h => by
    obtain rfl := Res.ok.inj h
    exact ⟨hp, by simp, [], [], by simp, by simp [tmplsFrom], rfl, fun env ρ _ => ⟨.nil, rfl⟩⟩
  | x :: xs, p, p', hp, h => by
    simp only [List.map_cons, projectElementsLoop] at h
    obtain ⟨p1, h1, h2⟩ := bind_iff.mp h
    simp only [projectElement] at h1
    split at h1
    · cases h1
    · obtain ⟨hp1, ho1, k, new1, i1, t1, w1, e1⟩ := projectVar_spec (p := { p with outerVars := p.outerVars ++ [x] })
        ⟨hp.i, hp.agg, hp.corr⟩ h1
      obtain ⟨hp2, ho2, ks, new2, i2, t2, l2, e2⟩ := projectLoop_spec xs hp1 h2
      refine ⟨hp2, by rw [ho2, ho1]; simp, k :: ks, new1 ++ new2, by rw [i2, i1]; simp, ?_, by simp [l2], ?_⟩
      · rw [t2, t1, w1]; simp [tmplsFrom]
      · intro env ρ hρ
        obtain ⟨a1, b1⟩ := e1 env ρ hρ
        obtain ⟨a2, b2⟩ := e2 env ρ hρ
        exact ⟨.cons a1 a2, by rw [List.map_append, b1, b2]; rfl⟩

/-- The variables to order by add columns, unless they are among those projected or have values. -/
theorem projectNamed_spec {cc : CC} : ∀ (ys : List Var) {p p' : Proj}, cc.projectNamed p ys = .ok p' →
    p'.aggregates = p.aggregates ∧ p'.templates = p.templates ∧ ∃ new, p'.inner = p.inner ++ new ∧
      ((∀ y ∈ ys, y ∈ p.outerVars) → new = [])
  | [], p, p', h => by
    obtain rfl := Res.ok.inj h
    exact ⟨rfl, rfl, [], by simp, fun _ => rfl⟩
  | y :: ys, p, p', h => by
    unfold projectNamed at h
    split at h
    · obtain ⟨h1, h2, new, h3, h4⟩ := projectNamed_spec ys h
      exact ⟨h1, h2, new, h3, fun hy => h4 fun z hz => hy z (by simp [hz])⟩
    · rename_i hno
      split at h
      · split at h
        · obtain ⟨h1, h2, new, h3, h4⟩ := projectNamed_spec ys h
          refine ⟨h1, h2, ?_⟩
          simp only at h3
          split at h3
          · exact ⟨new, h3, fun hy => absurd (.inl (hy y (by simp))) hno⟩
          · exact ⟨_, by rw [h3, List.append_assoc], fun hy => absurd (.inl (hy y (by simp))) hno⟩
        · obtain ⟨tc, -, h⟩ := bind_iff.mp h
          obtain ⟨h1, h2, new, h3, h4⟩ := projectNamed_spec ys h
          refine ⟨h1, h2, ?_⟩
          simp only at h3
          split at h3
          · exact ⟨new, h3, fun hy => absurd (.inl (hy y (by simp))) hno⟩
          · exact ⟨_, by rw [h3, List.append_assoc, List.append_assoc], fun hy => absurd (.inl (hy y (by simp))) hno⟩
      · cases h

/-- The projection of variables. -/
theorem projectElements_spec {a : Algebraic} {xs : List Var} (hf : a.find.elements = xs.map .var) {p : Projected}
    (h : projectElements a = .ok p) : p.outer = none ∧ ∃ (ks : List (Option Nat)) (new : List (SExpr × Col)), p.templates = tmplsFrom 0 ks ∧ ks.length = xs.length ∧
      ((∀ y ∈ a.named, y ∈ xs) → new = []) ∧
      ∀ env ρ, Reads a.cc env ρ → List.Forall₂ TagOk (xs.map ρ) ks ∧
        p.cols.map (fun c => c.1.eval env) = rowOf (xs.map ρ) ks ++ new.map (fun c => c.1.eval env) := by
  unfold projectElements at h
  rw [hf] at h
  obtain ⟨p1, h1, h⟩ := bind_iff.mp h
  obtain ⟨hp1, ho1, ks, new, i1, t1, l1, e1⟩ := projectLoop_spec xs (p := {}) ⟨rfl, rfl, rfl⟩ h1
  have hcc : checkCorresponding p1 = true := by simp [checkCorresponding, hp1.corr]
  simp only [hcc, Bool.not_true, Bool.false_eq_true, if_false] at h
  obtain ⟨p2, h2, h⟩ := bind_iff.mp h
  obtain ⟨g1, g2, new2, g3, g4⟩ := projectNamed_spec _ h2
  have hag : p2.aggregates = false := by rw [g1, hp1.agg]
  simp only [hag, Bool.not_false, if_true] at h
  obtain rfl := Res.ok.inj h
  refine ⟨rfl, ks, new2, by rw [g2, t1]; simp, l1, fun hy => g4 fun y hy' => ?_, ?_⟩
  · rw [ho1]; simpa using hy y hy'
  · intro env ρ hρ
    obtain ⟨a1, b1⟩ := e1 env ρ hρ
    refine ⟨a1, ?_⟩
    show p2.inner.map _ = _
    rw [g3, i1]
    simp [b1]

/-! ### `ORDER BY` and `LIMIT` -/

theorem insertRow_perm (lt : List SqlValue → List SqlValue → Bool) (x : List SqlValue) :
    ∀ l, (insertRow lt x l).Perm (x :: l)
  | [] => .refl _
  | y :: r => by
    unfold insertRow
    split
    · exact ((insertRow_perm lt x r).cons y).trans (.swap _ _ _)
    · exact .refl _

theorem sortRows_perm (lt : List SqlValue → List SqlValue → Bool) : ∀ l, (sortRows lt l).Perm l
  | [] => .refl _
  | x :: r => (insertRow_perm lt x _).trans ((sortRows_perm lt r).cons x)

/-- Rows come from the rows; all of them do unless there is a limit, up to being the same for
`DISTINCT`. -/
theorem finishRows_mem {distinct : Bool} {names : List Col} {order : List (Bool × Col)} {limit : Option Nat}
    {l : List (List SqlValue)} : ∀ r ∈ finishRows distinct names order limit l, r ∈ l := by
  intro r hr
  unfold finishRows at hr
  have h1 : ∀ l' : List (List SqlValue), r ∈ (if order.isEmpty then l' else sortRows (orderLt names order) l') → r ∈ l' := by
    intro l' h
    split at h
    · exact h
    · exact (sortRows_perm _ l').mem_iff.mp h
  have h2 : r ∈ (if distinct then distinctRows l else l) → r ∈ l := by
    intro h
    split at h
    · exact (distinctRows_spec l).1 r h
    · exact h
  cases limit with
  | none => exact h2 (h1 _ hr)
  | some n => exact h2 (h1 _ (List.mem_of_mem_take hr))

theorem finishRows_all {distinct : Bool} {names : List Col} {order : List (Bool × Col)} {l : List (List SqlValue)} :
    ∀ r ∈ l, ∃ s ∈ finishRows distinct names order none l, r = s ∨ rowSame r s = true := by
  intro r hr
  have h1 : ∀ (l' : List (List SqlValue)) s, s ∈ l' → s ∈ (if order.isEmpty then l' else sortRows (orderLt names order) l') := by
    intro l' s h
    split
    · exact h
    · exact (sortRows_perm _ l').mem_iff.mpr h
  unfold finishRows
  cases distinct with
  | false => exact ⟨r, h1 _ _ hr, .inl rfl⟩
  | true =>
    obtain ⟨s, hs, h⟩ := (distinctRows_spec l).2.1 r hr
    exact ⟨s, h1 _ _ hs, h⟩

theorem rowSame_comm (r s : List SqlValue) : rowSame r s = rowSame s r := by
  unfold rowSame
  have hc : ∀ a b : SqlValue, a.same b = b.same a := by
    intro a b
    cases a <;> cases b <;> simp only [SqlValue.same, SqlValue.eq, eq_comm, Bool.and_comm]
  have : ∀ r s : List SqlValue, ((r.zip s).all fun p => p.1.same p.2) = ((s.zip r).all fun p => p.1.same p.2) := by
    intro r
    induction r with
    | nil => intro s; cases s <;> rfl
    | cons a r ih => intro s; cases s with
      | nil => rfl
      | cons b s => simp [ih s, hc a b]
  rw [this r s]
  congr 1
  exact Bool.eq_iff_iff.mpr (by simp only [beq_iff_eq]; exact eq_comm)

theorem finishRows_distinct {names : List Col} {order : List (Bool × Col)} {limit : Option Nat}
    {l : List (List SqlValue)} :
    (finishRows true names order limit l).Pairwise fun s r => rowSame r s = false := by
  have h := (distinctRows_spec l).2.2
  have h1 : ((if order.isEmpty then distinctRows l else sortRows (orderLt names order) (distinctRows l)) :
      List (List SqlValue)).Pairwise fun s r => rowSame r s = false := by
    split
    · exact h
    · refine (List.Perm.pairwise_iff ?_ (sortRows_perm _ _)).mpr h
      intro a b hab
      rw [rowSame_comm]; exact hab
  unfold finishRows
  cases limit with
  | none => exact h1
  | some n => exact h1.sublist (List.take_sublist n _)

theorem finishRows_length {distinct : Bool} {names : List Col} {order : List (Bool × Col)} {n : Nat}
    {l : List (List SqlValue)} : (finishRows distinct names order (some n) l).length ≤ n := by
  unfold finishRows
  exact List.length_take_le _ _

end CC
end Mentat
