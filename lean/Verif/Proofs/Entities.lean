import Verif.Spec.Entities
import Mathlib.Data.List.Forall2
/- Map notation, vectors and reversed attributes: the deque loop of stage 1. -/
set_option linter.unusedSimpArgs false
namespace Mentat

theorem Res.bind_ok_iff {α β : Type} {x : Res α} {f : α → Res β} {b : β} :
    x.bind f = .ok b ↔ ∃ a, x = .ok a ∧ f a = .ok b := by
  cases x <;> simp [Res.bind]

section
variable {V : Type} [TransactableValue V]

/-! ### The loop does not run out of fuel -/

omit [TransactableValue V] in
theorem sizeAll_append (xs ys : List (TxEntity V)) : sizeAll (xs ++ ys) = sizeAll xs + sizeAll ys := by
  simp [sizeAll]

omit [TransactableValue V] in
theorem sizeAll_cons (x : TxEntity V) (r : List (TxEntity V)) : sizeAll (x :: r) = x.size + sizeAll r := by
  simp [sizeAll]

omit [TransactableValue V] in
theorem sizeMap_filter (m : MapNotation V) (p : EntidOrIdent × ValuePlace V → Bool) :
    ValuePlace.sizeMap (m.filter p) ≤ ValuePlace.sizeMap m := by
  induction m with
  | nil => simp [ValuePlace.sizeMap]
  | cons x r ih =>
    rw [List.filter_cons]
    split
    · simp only [ValuePlace.sizeMap]; omega
    · simp only [ValuePlace.sizeMap]; omega

omit [TransactableValue V] in
theorem sizeAll_foldl_map (e : EntityPlace V) (m : MapNotation V) (acc : List (TxEntity V)) :
    sizeAll (m.foldl (fun front x => .addOrRetract .add e x.1 x.2 :: front) acc) =
      ValuePlace.sizeMap m + sizeAll acc := by
  induction m generalizing acc with
  | nil => simp [ValuePlace.sizeMap]
  | cons x r ih =>
    obtain ⟨a, v⟩ := x
    rw [List.foldl_cons, ih, sizeAll_cons]
    simp only [ValuePlace.sizeMap, ValuePlace.sizePair, TxEntity.size]; omega

omit [TransactableValue V] in
theorem sizeAll_foldl_vec (op : Op) (e : EntityPlace V) (a : EntidOrIdent) (vs : List (ValuePlace V))
    (acc : List (TxEntity V)) :
    sizeAll (vs.foldl (fun front x => .addOrRetract op e a x :: front) acc) =
      ValuePlace.sizeList vs + sizeAll acc := by
  induction vs generalizing acc with
  | nil => simp [ValuePlace.sizeList]
  | cons x r ih =>
    rw [List.foldl_cons, ih, sizeAll_cons]
    simp only [ValuePlace.sizeList, TxEntity.size]; omega

theorem nested_size {env : TxEnv} {dbId : EntityPlace V} {m : MapNotation V} {s s' : Stage1}
    {front front' : List (TxEntity V)} {d d' : Bool}
    (h : env.nested dbId m s front d = .ok (s', front', d')) :
    sizeAll front' ≤ ValuePlace.sizeMap m + sizeAll front := by
  induction m generalizing s front d with
  | nil =>
    simp only [TxEnv.nested, Res.ok.injEq, Prod.mk.injEq] at h
    simp [ValuePlace.sizeMap, h.2.1]
  | cons x r ih =>
    obtain ⟨ia, iv⟩ := x
    simp only [TxEnv.nested, Res.bind_ok_iff] at h
    obtain ⟨u, hu, h⟩ := h
    simp only [ValuePlace.sizeMap, ValuePlace.sizePair]
    cases u with
    | some fa =>
      simp only [Res.bind_ok_iff] at h
      obtain ⟨s1, _, h⟩ := h
      have := ih h
      omega
    | none =>
      simp only [Res.bind_ok_iff] at h
      obtain ⟨a, _, at_, _, h⟩ := h
      have := ih h
      rw [sizeAll_cons] at this
      simp only [TxEntity.size] at this
      omega

omit [TransactableValue V] in
theorem size_pos (v : ValuePlace V) : 0 < v.size := by
  cases v <;> simp [ValuePlace.size]

theorem removeDbId_ok {m m' : MapNotation V} {id} (h : removeDbId m = .ok (id, m')) :
    m' = m.remove dbIdKey := by
  unfold removeDbId at h
  cases hg : m.get dbIdKey with
  | none => simp only [hg, Res.ok.injEq, Prod.mk.injEq] at h; exact h.2.symm
  | some v =>
    simp only [hg, Res.bind_ok_iff, Res.ok.injEq, Prod.mk.injEq] at h
    obtain ⟨_, _, _, h⟩ := h
    exact h.symm

theorem step_size {env : TxEnv} {s s' : Stage1} {x : TxEntity V} {front : List (TxEntity V)}
    (h : env.step s x = .ok (s', front)) : sizeAll front < x.size := by
  cases x with
  | map m =>
    simp only [TxEnv.step, Res.bind_ok_iff, Res.ok.injEq, Prod.mk.injEq] at h
    obtain ⟨⟨id, m'⟩, hm, _, hf⟩ := h
    have := removeDbId_ok hm
    subst this
    rw [← hf, sizeAll_foldl_map]
    have := sizeMap_filter m (fun p => decide (p.1 ≠ dbIdKey))
    simp only [TxEntity.size, sizeAll, MapNotation.remove, List.map_nil, List.sum_nil]
    omega
  | addOrRetract op e a v =>
    have hv := size_pos v
    simp only [TxEnv.step, Res.bind_ok_iff] at h
    obtain ⟨u, hu, h⟩ := h
    simp only [TxEntity.size]
    cases u with
    | some fa =>
      simp only [Res.bind_ok_iff, Res.ok.injEq, Prod.mk.injEq] at h
      obtain ⟨_, _, _, rfl⟩ := h
      simpa [sizeAll] using hv
    | none =>
      simp only [Res.bind_ok_iff] at h
      obtain ⟨a', _, at_, _, h⟩ := h
      cases v with
      | atom v =>
        simp only at h
        split at h <;> simp only [Res.bind_ok_iff, Res.ok.injEq, Prod.mk.injEq] at h
        · obtain ⟨_, _, _, rfl⟩ := h; simpa [sizeAll] using hv
        · obtain ⟨_, _, _, _, _, rfl⟩ := h; simpa [sizeAll] using hv
      | entid x =>
        simp only [Res.bind_ok_iff, Res.ok.injEq, Prod.mk.injEq] at h
        obtain ⟨_, _, _, _, _, rfl⟩ := h; simpa [sizeAll] using hv
      | tempId x =>
        simp only [Res.bind_ok_iff, Res.ok.injEq, Prod.mk.injEq] at h
        obtain ⟨_, _, _, rfl⟩ := h; simpa [sizeAll] using hv
      | lookupRef x y =>
        simp only at h
        split at h
        · cases h
        simp only [Res.bind_ok_iff, Res.ok.injEq, Prod.mk.injEq] at h
        obtain ⟨_, _, _, _, _, rfl⟩ := h; simpa [sizeAll] using hv
      | txFunction f =>
        simp only [Res.bind_ok_iff] at h
        obtain ⟨x, _, h⟩ := h
        split at h
        · cases h
        simp only [Res.bind_ok_iff, Res.ok.injEq, Prod.mk.injEq] at h
        obtain ⟨_, _, _, rfl⟩ := h; simpa [sizeAll] using hv
      | vector vs =>
        simp only at h
        split at h
        · cases h
        simp only [Res.ok.injEq, Prod.mk.injEq] at h
        rw [← h.2, sizeAll_foldl_vec]
        simp [ValuePlace.size, sizeAll]
      | map m =>
        simp only at h
        split at h
        · cases h
        split at h
        · cases h
        simp only [Res.bind_ok_iff] at h
        obtain ⟨⟨id, m'⟩, hm, ⟨s1, fr, d⟩, hn, h⟩ := h
        have := removeDbId_ok hm
        subst this
        have := nested_size hn
        simp only at h
        split at h
        · cases h
        simp only [Res.bind_ok_iff, Res.ok.injEq, Prod.mk.injEq] at h
        obtain ⟨_, _, _, _, _, rfl⟩ := h
        have h2 := sizeMap_filter m (fun p => decide (p.1 ≠ dbIdKey))
        simp only [ValuePlace.size, sizeAll, MapNotation.remove, List.map_nil, List.sum_nil] at *
        omega

theorem loop_fuel {env : TxEnv} (n m : Nat) (es : List (TxEntity V)) (s : Stage1)
    (hn : sizeAll es ≤ n) (hm : sizeAll es ≤ m) : env.loop n es s = env.loop m es s := by
  induction n generalizing m es s with
  | zero =>
    cases es with
    | nil => cases m <;> rfl
    | cons x r =>
      have : 0 < x.size := by cases x <;> simp [TxEntity.size, size_pos]
      rw [sizeAll_cons] at hn; omega
  | succ n ih =>
    cases es with
    | nil => cases m <;> rfl
    | cons x r =>
      cases m with
      | zero =>
        have : 0 < x.size := by cases x <;> simp [TxEntity.size, size_pos]
        rw [sizeAll_cons] at hm; omega
      | succ m =>
        simp only [TxEnv.loop]
        cases hs : env.step s x with
        | err e => rfl
        | panic => rfl
        | ok p =>
          obtain ⟨s', front⟩ := p
          have := step_size hs
          simp only [Res.bind]
          rw [sizeAll_cons] at hn hm
          apply ih <;> rw [sizeAll_append] <;> omega

/-- The loop with enough fuel. -/
def TxEnv.run (env : TxEnv) (es : List (TxEntity V)) (s : Stage1) : Res Stage1 :=
  env.loop (sizeAll es) es s

theorem stage1_eq (env : TxEnv) (es : List (TxEntity V)) : env.stage1 es = env.run es {} := rfl

theorem run_nil (env : TxEnv) (s : Stage1) : env.run ([] : List (TxEntity V)) s = .ok s := rfl

/-- The loop as the code has it, without fuel. -/
theorem run_cons (env : TxEnv) (x : TxEntity V) (r : List (TxEntity V)) (s : Stage1) :
    env.run (x :: r) s = (env.step s x).bind fun p => env.run (p.2 ++ r) p.1 := by
  unfold TxEnv.run
  rw [loop_fuel (sizeAll (x :: r)) (sizeAll (x :: r) + 1) _ _ (Nat.le_refl _) (Nat.le_succ _)]
  simp only [TxEnv.loop]
  cases hs : env.step s x with
  | err e => rfl
  | panic => rfl
  | ok p =>
    obtain ⟨s', front⟩ := p
    have := step_size hs
    simp only [Res.bind]
    apply loop_fuel
    · rw [sizeAll_append, sizeAll_cons]; omega
    · exact Nat.le_refl _

theorem run_append (env : TxEnv) (xs ys : List (TxEntity V)) (s : Stage1) :
    env.run (xs ++ ys) s = (env.run xs s).bind (env.run ys) := by
  generalize hn : sizeAll xs = n
  induction n using Nat.strongRecOn generalizing xs s with
  | ind n ih =>
    cases xs with
    | nil => rfl
    | cons x r =>
      rw [List.cons_append, run_cons, run_cons]
      cases hs : env.step s x with
      | err e => rfl
      | panic => rfl
      | ok p =>
        obtain ⟨s', front⟩ := p
        have := step_size hs
        simp only [Res.bind]
        rw [← List.append_assoc]
        refine ih _ ?_ _ _ rfl
        subst hn
        rw [sizeAll_append, sizeAll_cons]; omega

/-! ### The counter of internal tempids only matters to maps -/

def Stage1.withCount (s : Stage1) (c : Nat) : Stage1 := { s with count := c }

@[simp] theorem withCount_count (s : Stage1) : s.withCount s.count = s := rfl
@[simp] theorem withCount_withCount (s : Stage1) (c d : Nat) : (s.withCount c).withCount d = s.withCount d := rfl
@[simp] theorem count_withCount (s : Stage1) (c : Nat) : (s.withCount c).count = c := rfl

theorem lookupRef_count {env : TxEnv} {s s' : Stage1} {a} {v : V} {r}
    (h : env.lookupRef s a v = .ok (r, s')) (c : Nat) :
    s'.count = s.count ∧ env.lookupRef (s.withCount c) a v = .ok (r, s'.withCount c) := by
  simp only [TxEnv.lookupRef, Res.bind_ok_iff] at h ⊢
  obtain ⟨a', ha, at_, hat, v', hv, h⟩ := h
  split at h
  · cases h
  · rename_i hu
    cases h
    exact ⟨rfl, a', ha, at_, hat, v', hv, by rw [if_neg hu]; rfl⟩

theorem termE_count {env : TxEnv} {s s' : Stage1} {x : EntityPlace V} {r}
    (h : env.termE s x = .ok (r, s')) (c : Nat) :
    s'.count = s.count ∧ env.termE (s.withCount c) x = .ok (r, s'.withCount c) := by
  cases x with
  | entid e =>
    cases e with
    | entid e =>
      simp only [TxEnv.termE] at h ⊢
      split at h
      · rename_i he; cases h; rw [if_pos he]; exact ⟨rfl, rfl⟩
      · cases h
    | ident k =>
      simp only [TxEnv.termE, Res.bind_ok_iff] at h ⊢
      obtain ⟨e, he, h⟩ := h; cases h
      exact ⟨rfl, e, he, rfl⟩
  | tempId t => cases h; exact ⟨rfl, rfl⟩
  | lookupRef a v =>
    simp only [TxEnv.termE, Res.bind_ok_iff] at h ⊢
    obtain ⟨⟨r', s1⟩, h1, h⟩ := h; cases h
    have := lookupRef_count h1 c
    exact ⟨this.1, _, this.2, rfl⟩
  | txFunction f =>
    simp only [TxEnv.termE, Res.bind_ok_iff] at h ⊢
    obtain ⟨e, he, h⟩ := h; cases h
    exact ⟨rfl, e, he, rfl⟩

theorem termEOfV_count {env : TxEnv} {s s' : Stage1} {x : ValuePlace V} {fa} {r}
    (h : env.termEOfV s x fa = .ok (r, s')) (c : Nat) :
    s'.count = s.count ∧ env.termEOfV (s.withCount c) x fa = .ok (r, s'.withCount c) := by
  simp only [TxEnv.termEOfV, Res.bind_ok_iff] at h ⊢
  obtain ⟨a, ha, at_, hat, h⟩ := h
  suffices s'.count = s.count ∧ _ = Res.ok (r, s'.withCount c) from
    ⟨this.1, a, ha, at_, hat, this.2⟩
  split at h
  · cases h
  rename_i href
  rw [if_neg href]
  cases x with
  | atom v =>
    simp only at h ⊢
    cases ht : TransactableValue.asTempid v with
    | some t => simp only [ht] at h ⊢; cases h; exact ⟨rfl, rfl⟩
    | none =>
      simp only [ht, Res.bind_ok_iff] at h ⊢
      obtain ⟨v', hv, h⟩ := h
      cases v' <;> cases h
      exact ⟨rfl, _, hv, rfl⟩
  | entid e =>
    simp only [Res.bind_ok_iff] at h ⊢
    obtain ⟨e', he, h⟩ := h; cases h
    exact ⟨rfl, _, he, rfl⟩
  | tempId t => cases h; exact ⟨rfl, rfl⟩
  | lookupRef a v =>
    simp only [Res.bind_ok_iff] at h ⊢
    obtain ⟨⟨r', s1⟩, h1, h⟩ := h; cases h
    have := lookupRef_count h1 c
    exact ⟨this.1, _, this.2, rfl⟩
  | txFunction f =>
    simp only [Res.bind_ok_iff] at h ⊢
    obtain ⟨e', he, h⟩ := h; cases h
    exact ⟨rfl, _, he, rfl⟩
  | vector vs => cases h
  | map m => cases h

theorem reversedTerm_count {env : TxEnv} {s s' : Stage1} {e : EntityPlace V} {fa} {v}
    (h : env.reversedTerm s e fa v = .ok s') (c : Nat) :
    s'.count = s.count ∧ env.reversedTerm (s.withCount c) e fa v = .ok (s'.withCount c) := by
  simp only [TxEnv.reversedTerm, TxEnv.termVOfE, Res.bind_ok_iff] at h ⊢
  obtain ⟨⟨e', s1⟩, h1, a', ha, ⟨v', s2⟩, ⟨⟨w, s3⟩, h2, h3⟩, h⟩ := h
  cases h3; cases h
  have g1 := termEOfV_count h1 c
  have g2 := termE_count h2 c
  exact ⟨g2.1.trans g1.1, _, g1.2, a', ha, _, ⟨_, g2.2, rfl⟩, rfl⟩

theorem finish_count {env : TxEnv} {s s' : Stage1} {op a v} {e : EntityPlace V}
    (h : env.finish s op e a v = .ok s') (c : Nat) :
    s'.count = s.count ∧ env.finish (s.withCount c) op e a v = .ok (s'.withCount c) := by
  simp only [TxEnv.finish, Res.bind_ok_iff] at h ⊢
  obtain ⟨⟨e', s1⟩, h1, h⟩ := h
  cases h
  have g1 := termE_count h1 c
  exact ⟨g1.1, _, g1.2, rfl⟩

theorem backward_iff {a : EntidOrIdent} : Backward a = false ↔ a.unreversed = .ok none := by
  cases a with
  | entid e => simp [Backward, EntidOrIdent.unreversed]
  | ident k =>
    obtain ⟨ns, name⟩ := k
    simp only [Backward, EntidOrIdent.unreversed, Keyword.unreversed]
    cases name with
    | nil => simp
    | cons ch r =>
      by_cases hc : ch = '_'
      · subst hc
        by_cases hr : r = [] <;> simp [hr]
      · simp [hc]

theorem step_flat {env : TxEnv} {s s' : Stage1} {x : TxEntity V} {front} (hx : Flat x)
    (h : env.step s x = .ok (s', front)) (c : Nat) :
    front = [] ∧ s'.count = s.count ∧ env.step (s.withCount c) x = .ok (s'.withCount c, []) := by
  cases x with
  | map m => exact hx.elim
  | addOrRetract op e a v =>
    simp only [TxEnv.step, Res.bind_ok_iff] at h ⊢
    obtain ⟨u, hu, h⟩ := h
    suffices front = [] ∧ s'.count = s.count ∧ _ = Res.ok (s'.withCount c, []) from
      ⟨this.1, this.2.1, u, hu, this.2.2⟩
    cases u with
    | some fa =>
      simp only [Res.bind_ok_iff] at h ⊢
      obtain ⟨s1, h1, h⟩ := h; cases h
      have := reversedTerm_count h1 c
      exact ⟨rfl, this.1, _, this.2, rfl⟩
    | none =>
      have hb := backward_iff.2 hu
      simp only [Res.bind_ok_iff] at h ⊢
      obtain ⟨a', ha, at_, hat, h⟩ := h
      suffices front = [] ∧ s'.count = s.count ∧ _ = Res.ok (s'.withCount c, []) from
        ⟨this.1, this.2.1, _, ha, _, hat, this.2.2⟩
      cases v with
      | atom v =>
        simp only at h ⊢
        cases hm : (if at_.valueType = .ref then TransactableValue.asTempid v else none) with
        | some t =>
          simp only [hm, Res.bind_ok_iff] at h ⊢
          obtain ⟨s1, h1, h⟩ := h; cases h
          have := finish_count h1 c
          exact ⟨rfl, this.1, _, this.2, rfl⟩
        | none =>
          simp only [hm, Res.bind_ok_iff] at h ⊢
          obtain ⟨v', hv, s1, h1, h⟩ := h; cases h
          have := finish_count h1 c
          exact ⟨rfl, this.1, _, hv, _, this.2, rfl⟩
      | entid x =>
        simp only [Res.bind_ok_iff] at h ⊢
        obtain ⟨v', hv, s1, h1, h⟩ := h; cases h
        have := finish_count h1 c
        exact ⟨rfl, this.1, _, hv, _, this.2, rfl⟩
      | tempId t =>
        simp only [Res.bind_ok_iff] at h ⊢
        obtain ⟨s1, h1, h⟩ := h; cases h
        have := finish_count h1 c
        exact ⟨rfl, this.1, _, this.2, rfl⟩
      | lookupRef x y =>
        simp only at h ⊢
        split at h
        · cases h
        rename_i href
        rw [if_neg href]
        simp only [Res.bind_ok_iff] at h ⊢
        obtain ⟨⟨r, s1⟩, h1, s2, h2, h⟩ := h; cases h
        have g1 := lookupRef_count h1 c
        have g2 := finish_count h2 c
        exact ⟨rfl, g2.1.trans g1.1, _, g1.2, _, g2.2, rfl⟩
      | txFunction f =>
        simp only [Res.bind_ok_iff] at h ⊢
        obtain ⟨x, hx, h⟩ := h
        split at h
        · cases h
        rename_i href
        simp only [Res.bind_ok_iff] at h
        obtain ⟨s1, h1, h⟩ := h; cases h
        have := finish_count h1 c
        refine ⟨rfl, this.1, _, hx, ?_⟩
        rw [if_neg href]
        simp only [Res.bind_ok_iff]
        exact ⟨_, this.2, rfl⟩
      | vector vs => simp [Flat, hb] at hx
      | map m => simp [Flat, hb] at hx

theorem run_flat {env : TxEnv} {xs : List (TxEntity V)} {s s' : Stage1} (hx : ∀ x ∈ xs, Flat x)
    (h : env.run xs s = .ok s') (c : Nat) :
    s'.count = s.count ∧ env.run xs (s.withCount c) = .ok (s'.withCount c) := by
  induction xs generalizing s with
  | nil => cases h; exact ⟨rfl, rfl⟩
  | cons x r ih =>
    rw [run_cons] at h ⊢
    simp only [Res.bind_ok_iff] at h ⊢
    obtain ⟨⟨s1, front⟩, h1, h⟩ := h
    obtain ⟨hf, hc, hs⟩ := step_flat (hx x (by simp)) h1 c
    subst hf
    have := ih (fun y hy => hx y (List.mem_cons_of_mem _ hy)) h
    exact ⟨this.1.trans hc, _, hs, this.2⟩

/-- Running flat entities from states that differ in the counter. -/
theorem run_flat_iff {env : TxEnv} {xs : List (TxEntity V)} {s t : Stage1} (hx : ∀ x ∈ xs, Flat x)
    {c d : Nat} : (∃ u, env.run xs s = .ok u ∧ t = u.withCount c) ↔
      (∃ u, env.run xs (s.withCount d) = .ok u ∧ t = u.withCount c) := by
  constructor
  · rintro ⟨u, hu, rfl⟩
    exact ⟨_, (run_flat hx hu d).2, rfl⟩
  · rintro ⟨u, hu, rfl⟩
    have := (run_flat hx hu s.count).2
    exact ⟨_, this, rfl⟩

/-! ### Flattening -/

theorem flattenAll_append (k : Nat) (xs ys : List (TxEntity V)) :
    flattenAll k (xs ++ ys) =
      ((flattenAll k xs).1 ++ (flattenAll (flattenAll k xs).2 ys).1,
       (flattenAll (flattenAll k xs).2 ys).2) := by
  induction xs generalizing k with
  | nil => simp [flattenAll]
  | cons x r ih => simp [flattenAll, ih]

theorem foldl_push {α β : Type} (f : α → β) (l : List α) (acc : List β) :
    l.foldl (fun front x => f x :: front) acc = (l.map f).reverse ++ acc := by
  induction l generalizing acc with
  | nil => rfl
  | cons x r ih => simp [ih]

theorem flattenAll_single (k : Nat) (x : TxEntity V) : flattenAll k [x] = flattenEntity k x := by
  simp [flattenAll]

theorem flattenVec_eq (op : Op) (e : EntityPlace V) (a : EntidOrIdent) (k : Nat)
    (vs : List (ValuePlace V)) :
    flattenVec op e a k vs = flattenAll k (vs.map (TxEntity.addOrRetract op e a)).reverse := by
  induction vs with
  | nil => simp [flattenVec, flattenAll]
  | cons v r ih =>
    rw [List.map_cons, List.reverse_cons, flattenAll_append, flattenAll_single, ← ih]
    simp [flattenVec, flattenEntity]

/-- An entry of a map as an assertion. -/
def entryOf (e : EntityPlace V) (x : EntidOrIdent × ValuePlace V) : TxEntity V :=
  .addOrRetract .add e x.1 x.2

theorem flattenMap_eq (e : EntityPlace V) (k : Nat) (m : MapNotation V) :
    flattenMap e k m = flattenAll k ((m.remove dbIdKey).map (entryOf e)).reverse := by
  induction m with
  | nil => simp [flattenMap, flattenAll, MapNotation.remove]
  | cons x r ih =>
    simp only [MapNotation.remove] at ih
    by_cases hx : x.1 = dbIdKey
    · simp [flattenMap, MapNotation.remove, hx, ih]
    · simp only [flattenMap, MapNotation.remove, List.filter_cons, hx, ne_eq, not_false_eq_true,
        decide_true, if_true, if_false, List.map_cons, List.reverse_cons]
      rw [flattenAll_append, flattenAll_single, ← ih]
      rfl

/-- The forward entries. -/
def forwardEntries (m : MapNotation V) : MapNotation V := m.filter fun p => !Backward p.1

theorem flattenFwd_eq (e : EntityPlace V) (k : Nat) (m : MapNotation V) :
    flattenFwd e k m = flattenAll k ((forwardEntries (m.remove dbIdKey)).map (entryOf e)).reverse := by
  induction m with
  | nil => simp [flattenFwd, flattenAll, MapNotation.remove, forwardEntries]
  | cons x r ih =>
    simp only [MapNotation.remove, forwardEntries] at ih
    by_cases hx : x.1 = dbIdKey
    · simp [flattenFwd, MapNotation.remove, forwardEntries, hx, ih]
    · by_cases hb : Backward x.1 = true
      · simp [flattenFwd, MapNotation.remove, forwardEntries, hx, hb, ih]
      · have he : flattenEntry e (flattenFwd e k r).2 x =
            flattenEntity (flattenFwd e k r).2 (entryOf e x) := by
          obtain ⟨a, v⟩ := x; simp [flattenEntry, entryOf, flattenEntity]
        simp only [flattenFwd, he, MapNotation.remove, forwardEntries, List.filter_cons, hx, ne_eq,
          not_false_eq_true, decide_true, if_true]
        simp only [hb, Bool.false_eq_true, or_self, if_false, Bool.not_false, if_true, List.map_cons,
          List.reverse_cons]
        rw [flattenAll_append, flattenAll_single, ← ih]

omit [TransactableValue V] in
theorem find_get (m : MapNotation V) :
    (m.find? fun p => decide (p.1 = dbIdKey)).map (·.2) = m.get dbIdKey := by
  induction m with
  | nil => rfl
  | cons x r ih =>
    obtain ⟨k, v⟩ := x
    simp only [List.find?_cons, MapNotation.get]
    by_cases hk : k = dbIdKey <;> simp [hk, ih]

theorem dbId_asEntity (v : ValuePlace V) {e} : v.dbId = .ok e ↔ v.asEntity = some e := by
  cases v with
  | atom v =>
    simp only [ValuePlace.dbId, ValuePlace.asEntity]
    cases TransactableValue.intoEntityPlace v <;> simp
  | _ => simp [ValuePlace.dbId, ValuePlace.asEntity]

theorem removeDbId_iff {m : MapNotation V} :
    (∃ id, removeDbId m = .ok (id, m.remove dbIdKey)) ↔ IdGiven m := by
  unfold removeDbId IdGiven
  rw [← find_get]
  cases hf : m.find? fun p => decide (p.1 = dbIdKey) with
  | none => simp
  | some p =>
    simp only [Option.map_some, Option.some.injEq, Res.bind_ok_iff, dbId_asEntity]
    constructor
    · rintro ⟨id, a, ha, _⟩ q rfl; simp [ha]
    · intro h
      have := h p rfl
      cases ha : p.2.asEntity with
      | none => exact absurd ha this
      | some e => exact ⟨some e, e, rfl, rfl⟩

theorem removeDbId_spec {m m' : MapNotation V} {id} (h : removeDbId m = .ok (id, m')) (s : Stage1) :
    m' = m.remove dbIdKey ∧ IdGiven m ∧
    s.placeOr id = ((aboutPlace s.count m).1, s.withCount (aboutPlace s.count m).2) ∧
    (id.isNone = true ↔ ¬ ∃ p ∈ m, p.1 = dbIdKey) := by
  have hm := removeDbId_ok h
  subst hm
  refine ⟨rfl, removeDbId_iff.1 ⟨_, h⟩, ?_, ?_⟩
  · unfold removeDbId at h
    unfold aboutPlace
    rw [← find_get] at h
    cases hf : m.find? fun p => decide (p.1 = dbIdKey) with
    | none =>
      simp only [hf, Option.map_none, Res.ok.injEq, Prod.mk.injEq] at h
      rw [← h.1]; rfl
    | some p =>
      simp only [hf, Option.map_some, Res.bind_ok_iff, dbId_asEntity, Res.ok.injEq, Prod.mk.injEq] at h
      obtain ⟨e, he, hid, _⟩ := h
      rw [← hid]
      simp only [he]; rfl
  · unfold removeDbId at h
    rw [← find_get] at h
    cases hf : m.find? fun p => decide (p.1 = dbIdKey) with
    | none =>
      simp only [hf, Option.map_none, Res.ok.injEq, Prod.mk.injEq] at h
      rw [← h.1]
      simp only [Option.isNone_none, true_iff]
      rintro ⟨p, hp, hk⟩
      have := List.find?_eq_none.1 hf p hp
      simp [hk] at this
    | some p =>
      simp only [hf, Option.map_some, Res.bind_ok_iff, dbId_asEntity, Res.ok.injEq, Prod.mk.injEq] at h
      obtain ⟨e, he, hid, _⟩ := h
      rw [← hid]
      have h1 := List.find?_some hf
      have h2 := List.mem_of_find?_eq_some hf
      simp only [Option.isNone_some, Bool.false_eq_true, false_iff, Classical.not_not]
      exact ⟨p, h2, of_decide_eq_true h1⟩

/-! ### Naming attributes by entid -/

def named (env : TxEnv) (a : EntidOrIdent) : EntidOrIdent :=
  match env.attribute a with
  | .ok a' => .entid a'
  | _ => a

def nameE (env : TxEnv) : TxEntity V → TxEntity V
  | .addOrRetract op e a v => .addOrRetract op e (if Backward a then a else named env a) v
  | .map m => .map m

theorem step_nameE (env : TxEnv) (s : Stage1) (x : TxEntity V) :
    env.step s (nameE env x) = env.step s x := by
  cases x with
  | map m => rfl
  | addOrRetract op e a v =>
    simp only [nameE]
    cases hb : Backward a with
    | true => simp
    | false =>
      simp only [Bool.false_eq_true, if_false, named]
      have hu := backward_iff.1 hb
      cases ha : env.attribute a with
      | err er => rfl
      | panic => rfl
      | ok a' =>
        simp only [TxEnv.step]
        rw [hu, ha]
        rfl

theorem run_nameE (env : TxEnv) (xs r : List (TxEntity V)) (s : Stage1) :
    env.run (xs.map (nameE env) ++ r) s = env.run (xs ++ r) s := by
  induction xs generalizing s with
  | nil => rfl
  | cons x t ih =>
    rw [List.map_cons, List.cons_append, List.cons_append, run_cons, run_cons, step_nameE]
    cases hs : env.step s x with
    | err e => rfl
    | panic => rfl
    | ok p =>
      simp only [Res.bind]
      rw [run_append, run_append env p.2]
      congr 1
      funext s'
      exact ih s'

theorem attribute_iff {env : TxEnv} {a : EntidOrIdent} {a' : Entid} :
    env.attribute a = .ok a' ↔ Names env.schema a a' := by
  cases a with
  | entid e => simp [TxEnv.attribute, Names, eq_comm]
  | ident k =>
    simp only [TxEnv.attribute, Names, Schema.requireEntid]
    cases AMap.get env.schema.identMap k <;> simp

theorem requireAttr_iff {s : Schema} {a : Entid} {at_ : Attribute} :
    s.requireAttr a = .ok at_ ↔ s.attr a = some at_ := by
  unfold Schema.requireAttr
  cases s.attr a <;> simp

theorem namesAttr_iff {env : TxEnv} {a : EntidOrIdent} {at_ : Attribute} :
    NamesAttr env.schema a at_ ↔
      ∃ a', env.attribute a = .ok a' ∧ env.schema.requireAttr a' = .ok at_ := by
  simp only [NamesAttr, attribute_iff, requireAttr_iff]

/-! ### Nested maps -/

def identityName (env : TxEnv) (a : EntidOrIdent) : Bool :=
  match (env.attribute a).bind env.schema.requireAttr with
  | .ok at_ => decide (at_.unique = some .identity)
  | _ => false

theorem identityName_iff {env : TxEnv} {a : EntidOrIdent} :
    identityName env a = true ↔ ∃ ia, NamesAttr env.schema a ia ∧ ia.unique = some .identity := by
  simp only [identityName, namesAttr_iff]
  cases ha : env.attribute a with
  | err e => simp [Res.bind]
  | panic => simp [Res.bind]
  | ok a' =>
    simp only [Res.bind]
    cases hr : env.schema.requireAttr a' with
    | err e => simp [hr]
    | panic => simp [hr]
    | ok at_ => simp [hr]

theorem nested_iff {env : TxEnv} {dbId : EntityPlace V} {m : MapNotation V} {s s1 : Stage1}
    {front front' : List (TxEntity V)} {d d' : Bool} :
    env.nested dbId m s front d = .ok (s1, front', d') ↔
      env.run (reversedEntries dbId m) s = .ok s1 ∧
      (∀ p ∈ m, Backward p.1 = false → ∃ at_, NamesAttr env.schema p.1 at_) ∧
      front' = (((forwardEntries m).map (entryOf dbId)).map (nameE env)).reverse ++ front ∧
      d' = (d && !(m.any fun p => Backward p.1 || identityName env p.1)) := by
  induction m generalizing s front d with
  | nil =>
    simp only [TxEnv.nested, reversedEntries, List.filter_nil, List.map_nil, run_nil, forwardEntries,
      List.reverse_nil, List.nil_append, List.any_nil, Bool.not_false, Bool.and_true, Res.ok.injEq,
      Prod.mk.injEq, List.not_mem_nil, false_implies, implies_true, true_and]
    simp only [@eq_comm _ front, @eq_comm _ d]
  | cons x r ih =>
    obtain ⟨ia, iv⟩ := x
    simp only [TxEnv.nested]
    cases hb : Backward ia with
    | false =>
      have hu := backward_iff.1 hb
      have hrev : reversedEntries dbId ((ia, iv) :: r) = reversedEntries dbId r := by
        simp [reversedEntries, hb]
      have hfw : forwardEntries ((ia, iv) :: r) = (ia, iv) :: forwardEntries r := by
        simp [forwardEntries, hb]
      rw [hu, hrev, hfw]
      simp only [Res.bind, List.mem_cons, forall_eq_or_imp, hb, true_implies, List.any_cons,
        Bool.false_or, namesAttr_iff (a := ia)]
      cases ha : env.attribute ia with
      | err e => simp
      | panic => simp
      | ok a' =>
        simp only [Res.ok.injEq, exists_eq_left']
        cases hr : env.schema.requireAttr a' with
        | err e => simp
        | panic => simp
        | ok at_ =>
          simp only [ih]
          have hn : nameE env (entryOf dbId (ia, iv)) = .addOrRetract .add dbId (.entid a') iv := by
            simp [nameE, entryOf, hb, named, ha]
          have hi : identityName env ia = decide (at_.unique = some .identity) := by
            simp [identityName, ha, hr, Res.bind]
          simp [hn, hi, Bool.and_assoc]
    | true =>
      have hrev : reversedEntries dbId ((ia, iv) :: r) =
          .addOrRetract .add dbId ia iv :: reversedEntries dbId r := by
        simp [reversedEntries, hb]
      have hfw : forwardEntries ((ia, iv) :: r) = forwardEntries r := by
        simp [forwardEntries, hb]
      rw [hrev, hfw, run_cons]
      simp only [TxEnv.step, List.mem_cons, forall_eq_or_imp, hb, Bool.true_eq_false, false_implies,
        true_and, List.any_cons, Bool.true_or, Bool.not_true, Bool.and_false]
      cases hu : ia.unreversed with
      | err e => simp [Res.bind]
      | panic => simp [Res.bind]
      | ok u =>
        cases u with
        | none => rw [backward_iff.2 hu] at hb; cases hb
        | some fa =>
          simp only [Res.bind]
          cases hs : env.reversedTerm s dbId fa iv with
          | err e => simp
          | panic => simp
          | ok s2 => simp only [ih, List.nil_append, Bool.false_and]

theorem ok_exists_iff {α β γ : Type} {f : α → β → Res γ} {x : α} {y : β} {z t : γ} (h : f x y = .ok t) :
    t = z ↔ ∃ x' y', (x = x' ∧ y = y') ∧ f x' y' = .ok z := by
  constructor
  · rintro rfl; exact ⟨_, _, ⟨rfl, rfl⟩, h⟩
  · rintro ⟨_, _, ⟨rfl, rfl⟩, h'⟩; rw [h] at h'; exact Res.ok.inj h'

/-- A place as a value is checked as the place itself, but for whether an entid exists. -/
theorem step_asValue {env : TxEnv} {s s3 : Stage1} {op : Op} {e p : EntityPlace V} {a : EntidOrIdent}
    {a' : Entid} {at_ : Attribute} (hb : Backward a = false) (ha : env.attribute a = .ok a')
    (hat : env.schema.requireAttr a' = .ok at_) (href : at_.valueType = .ref) :
    (env.step s (.addOrRetract op e a p.asValue) = .ok (s3, []) ∧
      ∀ n, p = .entid (.entid n) → env.parts.containsEntid n = true) ↔
    ∃ v' s2, env.termVOfE s p = .ok (v', s2) ∧ env.finish s2 op e a' v' = .ok s3 := by
  have hu := backward_iff.1 hb
  simp only [TxEnv.step]
  rw [hu]
  simp only [Res.bind, ha, hat, TxEnv.termVOfE]
  cases p with
  | entid x =>
    cases x with
    | entid n =>
      simp only [EntityPlace.asValue, TxEnv.attribute, TxEnv.termE]
      by_cases hc : env.parts.containsEntid n = true
      · simp only [hc, if_true, refLeft, Res.ok.injEq, Prod.mk.injEq]
        cases hf : env.finish s op e a' (.inl (.ref n)) with
        | err er => simp [hf]
        | panic => simp [hf]
        | ok t =>
        simp only [Res.ok.injEq, Prod.mk.injEq, and_true, true_and, reduceCtorEq, false_implies, implies_true, EntityPlace.entid.injEq, EntidOrIdent.entid.injEq, forall_eq', hc, true_iff]
        exact ok_exists_iff (f := fun v s => env.finish s op e a' v) hf
      · have : ¬ ∀ m, EntityPlace.entid (EntidOrIdent.entid n) =
            (EntityPlace.entid (EntidOrIdent.entid m) : EntityPlace V) → env.parts.containsEntid m = true :=
          fun h => hc (h n rfl)
        simp [hc]
    | ident k =>
      simp only [EntityPlace.asValue, TxEnv.attribute, TxEnv.termE]
      cases hk : env.schema.requireEntid k with
      | err er => simp [Res.bind]
      | panic => simp [Res.bind]
      | ok n =>
        simp only [Res.bind, refLeft]
        cases hf : env.finish s op e a' (.inl (.ref n)) with
        | err er => simp [hf]
        | panic => simp [hf]
        | ok t =>
        simp only [Res.ok.injEq, Prod.mk.injEq, and_true, true_and, reduceCtorEq, false_implies, implies_true, EntityPlace.entid.injEq]
        exact ok_exists_iff (f := fun v s => env.finish s op e a' v) hf
  | tempId t =>
    simp only [EntityPlace.asValue, TxEnv.termE, refLeft]
    cases hf : env.finish (s.internTempId t) op e a' (.inr (.tempId t)) with
    | err er => simp [hf]
    | panic => simp [hf]
    | ok t =>
        simp only [Res.ok.injEq, Prod.mk.injEq, and_true, true_and, reduceCtorEq, false_implies, implies_true, EntityPlace.entid.injEq]
        exact ok_exists_iff (f := fun v s => env.finish s op e a' v) hf
  | lookupRef la lv =>
    simp only [EntityPlace.asValue, TxEnv.termE, href, ne_eq, not_true_eq_false, if_false]
    cases hl : env.lookupRef s la lv with
    | err er => simp [Res.bind]
    | panic => simp [Res.bind]
    | ok q =>
      simp only [Res.bind, refLeft]
      cases hf : env.finish q.2 op e a' (.inr q.1) with
      | err er => simp [hf]
      | panic => simp [hf]
      | ok t =>
        simp only [Res.ok.injEq, Prod.mk.injEq, and_true, true_and, reduceCtorEq, false_implies, implies_true, EntityPlace.entid.injEq]
        exact ok_exists_iff (f := fun v s => env.finish s op e a' v) hf
  | txFunction f =>
    simp only [EntityPlace.asValue, TxEnv.termE, href, ne_eq, not_true_eq_false, if_false]
    cases hl : env.txFunction f with
    | err er => simp [Res.bind]
    | panic => simp [Res.bind]
    | ok n =>
      simp only [Res.bind, refLeft]
      cases hf : env.finish s op e a' (.inl (.ref n)) with
      | err er => simp [hf]
      | panic => simp [hf]
      | ok t =>
        simp only [Res.ok.injEq, Prod.mk.injEq, and_true, true_and, reduceCtorEq, false_implies, implies_true, EntityPlace.entid.injEq]
        exact ok_exists_iff (f := fun v s => env.finish s op e a' v) hf

/-! ### The loop and its flat expansion -/

omit [TransactableValue V] in
theorem size_entries_le (e : EntityPlace V) (m : MapNotation V) :
    sizeAll (m.map (entryOf e)).reverse = ValuePlace.sizeMap m := by
  have h := sizeAll_foldl_map e m []
  have h2 := foldl_push (entryOf e) m []
  simp only [entryOf] at h2
  rw [h2] at h
  simpa [sizeAll, entryOf] using h

theorem flattenAll_cons (k : Nat) (x : TxEntity V) (r : List (TxEntity V)) :
    flattenAll k (x :: r) = ((flattenEntity k x).1 ++ (flattenAll (flattenEntity k x).2 r).1,
      (flattenAll (flattenEntity k x).2 r).2) := rfl

theorem flattenAll_vector {op : Op} {e : EntityPlace V} {a : EntidOrIdent} {vs} (hb : Backward a = false)
    (k : Nat) (r : List (TxEntity V)) :
    flattenAll k (.addOrRetract op e a (.vector vs) :: r) =
      flattenAll k ((vs.map (TxEntity.addOrRetract op e a)).reverse ++ r) := by
  rw [flattenAll_cons, flattenAll_append, ← flattenVec_eq]
  simp [flattenEntity, flatten, hb]

theorem flattenAll_map {m : MapNotation V} (k : Nat) (r : List (TxEntity V)) :
    flattenAll k (.map m :: r) =
      flattenAll (aboutPlace k m).2
        (((m.remove dbIdKey).map (entryOf (aboutPlace k m).1)).reverse ++ r) := by
  rw [flattenAll_cons, flattenAll_append, ← flattenMap_eq]
  simp [flattenEntity]

theorem flattenAll_nested {op : Op} {e : EntityPlace V} {a : EntidOrIdent} {m : MapNotation V} (hb : Backward a = false)
    (k : Nat) (r : List (TxEntity V)) :
    flattenAll k (.addOrRetract op e a (.map m) :: r) =
      (reversedEntries (aboutPlace k m).1 m ++ .addOrRetract op e a (aboutPlace k m).1.asValue ::
        (flattenAll (aboutPlace k m).2
          (((forwardEntries (m.remove dbIdKey)).map (entryOf (aboutPlace k m).1)).reverse ++ r)).1,
       (flattenAll (aboutPlace k m).2
          (((forwardEntries (m.remove dbIdKey)).map (entryOf (aboutPlace k m).1)).reverse ++ r)).2) := by
  rw [flattenAll_cons, flattenAll_append, ← flattenFwd_eq]
  simp [flattenEntity, flatten, hb]

/-- A flat entity stands for itself. -/
theorem flattenEntity_flat {x : TxEntity V} (hx : Flat x) (k : Nat) : flattenEntity k x = ([x], k) := by
  cases x with
  | map m => exact hx.elim
  | addOrRetract op e a v =>
    cases v <;> simp_all [flattenEntity, flatten, Flat]

omit [TransactableValue V] in
theorem asValue_flat (op : Op) (e : EntityPlace V) (a : EntidOrIdent) (p : EntityPlace V) :
    Flat (.addOrRetract op e a p.asValue) := by
  cases p <;> simp [Flat, EntityPlace.asValue]

omit [TransactableValue V] in
theorem reversedEntries_flat {e : EntityPlace V} {m : MapNotation V} :
    ∀ x ∈ reversedEntries e m, Flat x := by
  intro x hx
  simp only [reversedEntries, List.mem_map, List.mem_filter] at hx
  obtain ⟨p, ⟨_, hb⟩, rfl⟩ := hx
  obtain ⟨a, v⟩ := p
  cases v <;> simp_all [Flat]

omit [TransactableValue V] in
/-- The three ways to be exploded, or flat. -/
theorem entity_cases (x : TxEntity V) : Flat x ∨
    (∃ op e a vs, x = .addOrRetract op e a (.vector vs) ∧ Backward a = false) ∨
    (∃ m, x = .map m) ∨
    (∃ op e a, ∃ m : MapNotation V, x = .addOrRetract op e a (.map m) ∧ Backward a = false) := by
  cases x with
  | map m => exact Or.inr (Or.inr (Or.inl ⟨m, rfl⟩))
  | addOrRetract op e a v =>
    cases v with
    | vector vs =>
      cases hb : Backward a with
      | true => exact Or.inl hb
      | false => exact Or.inr (Or.inl ⟨op, e, a, vs, rfl, hb⟩)
    | map m =>
      cases hb : Backward a with
      | true => exact Or.inl hb
      | false => exact Or.inr (Or.inr (Or.inr ⟨op, e, a, m, rfl, hb⟩))
    | _ => exact Or.inl trivial

omit [TransactableValue V] in
theorem size_vec (op : Op) (e : EntityPlace V) (a : EntidOrIdent) (vs : List (ValuePlace V)) :
    sizeAll (vs.map (TxEntity.addOrRetract op e a)).reverse = ValuePlace.sizeList vs := by
  have h := sizeAll_foldl_vec op e a vs []
  have h2 := foldl_push (TxEntity.addOrRetract op e a) vs []
  rw [h2] at h
  simpa [sizeAll] using h

theorem flattenAll_flat (k : Nat) (es : List (TxEntity V)) : ∀ x ∈ (flattenAll k es).1, Flat x := by
  generalize hn : sizeAll es = n
  induction n using Nat.strongRecOn generalizing es k with
  | ind n ih =>
    subst hn
    cases es with
    | nil => simp [flattenAll]
    | cons x r =>
      rcases entity_cases x with hx | ⟨op, e, a, vs, rfl, hb⟩ | ⟨m, rfl⟩ | ⟨op, e, a, m, rfl, hb⟩
      · have hp : 0 < x.size := by cases x <;> simp [TxEntity.size, size_pos]
        rw [flattenAll_cons, flattenEntity_flat hx]
        intro y hy
        simp only [List.cons_append, List.nil_append, List.mem_cons] at hy
        rcases hy with rfl | hy
        · exact hx
        · refine ih (sizeAll r) ?_ _ r rfl y hy
          rw [sizeAll_cons]; omega
      · rw [flattenAll_vector hb]
        refine ih _ ?_ _ _ rfl
        rw [sizeAll_append, size_vec, sizeAll_cons]
        simp [TxEntity.size, ValuePlace.size]
      · rw [flattenAll_map]
        refine ih _ ?_ _ _ rfl
        have := sizeMap_filter m (fun p => decide (p.1 ≠ dbIdKey))
        rw [sizeAll_append, size_entries_le, sizeAll_cons]
        simp only [TxEntity.size, MapNotation.remove]; omega
      · rw [flattenAll_nested hb]
        intro y hy
        simp only [List.mem_append, List.mem_cons] at hy
        rcases hy with hy | rfl | hy
        · exact reversedEntries_flat y hy
        · exact asValue_flat ..
        · refine ih _ ?_ _ _ rfl y hy
          have := sizeMap_filter m (fun p => decide (p.1 ≠ dbIdKey))
          have h2 := sizeMap_filter (m.remove dbIdKey) (fun p => !Backward p.1)
          rw [sizeAll_append, size_entries_le, sizeAll_cons]
          simp only [TxEntity.size, MapNotation.remove, forwardEntries, ValuePlace.size] at *; omega

theorem placedVec_iff (env : TxEnv) (op : Op) (e : EntityPlace V) (a : EntidOrIdent)
    (vs : List (ValuePlace V)) : PlacedVec env op a vs ↔
      ∀ x ∈ (vs.map (TxEntity.addOrRetract op e a)).reverse, PlacedEntity env x := by
  induction vs with
  | nil => simp [PlacedVec]
  | cons v r ih =>
    rw [List.map_cons, List.reverse_cons]
    simp only [PlacedVec, ih, List.mem_append, List.mem_singleton]
    constructor
    · rintro ⟨h1, h2⟩ x (hx | rfl)
      · exact h2 x hx
      · exact h1
    · intro h
      exact ⟨h _ (Or.inr rfl), fun x hx => h x (Or.inl hx)⟩

theorem placedEntries_iff (env : TxEnv) (e : EntityPlace V) (m : MapNotation V) :
    PlacedEntries env m ↔
      ∀ x ∈ ((m.remove dbIdKey).map (entryOf e)).reverse, PlacedEntity env x := by
  induction m with
  | nil => simp [PlacedEntries, MapNotation.remove]
  | cons p r ih =>
    obtain ⟨a, v⟩ := p
    simp only [PlacedEntries, PlacedEntry, ih, MapNotation.remove, List.filter_cons]
    by_cases ha : a = dbIdKey
    · simp [ha]
    · simp only [ha, false_or, ne_eq, not_false_eq_true, decide_true, if_true, List.map_cons,
        List.reverse_cons, List.mem_append, List.mem_singleton]
      constructor
      · rintro ⟨h1, h2⟩ x (hx | rfl)
        · exact h2 x hx
        · exact h1
      · intro h
        exact ⟨h _ (Or.inr rfl), fun x hx => h x (Or.inl hx)⟩

theorem placed_of_flat {env : TxEnv} {x : TxEntity V} (hx : Flat x) : PlacedEntity env x := by
  cases x with
  | map m => exact hx.elim
  | addOrRetract op e a v => cases v <;> simp_all [PlacedEntity, Placed, Flat]

theorem placedEntity_ar (env : TxEnv) (op : Op) (e : EntityPlace V) (a : EntidOrIdent) (v : ValuePlace V) :
    PlacedEntity env (.addOrRetract op e a v) ↔ Placed env op a v := Iff.rfl

theorem placedEntity_map (env : TxEnv) (m : MapNotation V) :
    PlacedEntity env (.map m) ↔ IdGiven m ∧ PlacedEntries env m := Iff.rfl

theorem run_mem {env : TxEnv} {xs : List (TxEntity V)} {s s' : Stage1} (h : env.run xs s = .ok s')
    {x} (hx : x ∈ xs) : ∃ t p, env.step t x = .ok p := by
  obtain ⟨l, r, rfl⟩ := List.append_of_mem hx
  rw [run_append, Res.bind_ok_iff] at h
  obtain ⟨t, _, h⟩ := h
  rw [run_cons, Res.bind_ok_iff] at h
  obtain ⟨p, hp, _⟩ := h
  exact ⟨t, p, hp⟩

theorem step_names {env : TxEnv} {t : Stage1} {p} {op : Op} {e : EntityPlace V} {a : EntidOrIdent}
    {v : ValuePlace V} (hb : Backward a = false) (h : env.step t (.addOrRetract op e a v) = .ok p) :
    ∃ at_, NamesAttr env.schema a at_ := by
  simp only [TxEnv.step, Res.bind_ok_iff] at h
  obtain ⟨u, hu, h⟩ := h
  rw [backward_iff.1 hb] at hu
  cases hu
  simp only [Res.bind_ok_iff] at h
  obtain ⟨a', ha, at_, hat, _⟩ := h
  exact ⟨at_, namesAttr_iff.2 ⟨a', ha, hat⟩⟩

omit [TransactableValue V] in
theorem reversedEntries_remove (e : EntityPlace V) (m : MapNotation V) :
    reversedEntries e (m.remove dbIdKey) = reversedEntries e m := by
  unfold reversedEntries MapNotation.remove
  congr 1
  rw [List.filter_filter]
  apply List.filter_congr
  intro x _
  by_cases hx : x.1 = dbIdKey
  · simp [hx]; rfl
  · simp [hx]

omit [TransactableValue V] in
theorem anchored_iff {env : TxEnv} {at_ : Attribute} {m : MapNotation V} {none : Bool}
    (hn : none = true ↔ ¬ ∃ p ∈ m, p.1 = dbIdKey) :
    (none && !at_.component &&
      !((m.remove dbIdKey).any fun p => Backward p.1 || identityName env p.1)) = false ↔
      Anchored env.schema at_ m := by
  unfold Anchored
  by_cases hc : at_.component = true
  · simp [hc]
  · by_cases hm : ∃ p ∈ m, p.1 = dbIdKey
    · have : none = false := by
        cases none with
        | false => rfl
        | true => exact absurd hm (hn.1 rfl)
      obtain ⟨p, hp, hk⟩ := hm
      simp only [this, Bool.false_and, true_iff]
      exact Or.inr ⟨p, hp, Or.inl hk⟩
    · have : none = true := hn.2 hm
      have hrem : m.remove dbIdKey = m := by
        unfold MapNotation.remove
        rw [List.filter_eq_self]
        intro p hp
        simp only [ne_eq, decide_not, Bool.not_eq_eq_eq_not, Bool.not_true, decide_eq_false_iff_not]
        exact fun h => hm ⟨p, hp, h⟩
      simp only [this, hc, Bool.not_false, Bool.true_and, Bool.not_eq_eq_eq_not, Bool.not_false, hrem,
        List.any_eq_true, Bool.or_eq_true, identityName_iff, Bool.false_eq_true, false_or]
      constructor
      · rintro ⟨p, hp, h⟩; exact ⟨p, hp, Or.inr h⟩
      · rintro ⟨p, hp, h | h⟩
        · exact absurd ⟨p, hp, h⟩ hm
        · exact ⟨p, hp, h⟩

/-- The entity a map is about does not depend on the counter, if it is given. -/
theorem aboutPlace_entid {k l : Nat} {m : MapNotation V} {e : EntidOrIdent}
    (h : (aboutPlace k m).1 = .entid e) : (aboutPlace l m).1 = .entid e := by
  unfold aboutPlace at h ⊢
  cases hf : m.find? fun p => decide (p.1 = dbIdKey) with
  | none => simp [hf] at h
  | some p =>
    simp only [hf] at h ⊢
    cases ha : p.2.asEntity with
    | none => simp [ha] at h
    | some x => simpa [ha] using h

theorem run_iff (env : TxEnv) (es : List (TxEntity V)) (s s' : Stage1) :
    env.run es s = .ok s' ↔ (∀ x ∈ es, PlacedEntity env x) ∧
      ∃ u, env.run (flattenAll s.count es).1 s = .ok u ∧ s' = u.withCount (flattenAll s.count es).2 := by
  generalize hn : sizeAll es = n
  induction n using Nat.strongRecOn generalizing es s with
  | ind n ih =>
    subst hn
    cases es with
    | nil =>
      simp only [flattenAll, run_nil, List.not_mem_nil, false_implies, implies_true, true_and,
        Res.ok.injEq, exists_eq_left', withCount_count, eq_comm]
    | cons x r =>
      rcases entity_cases x with hx | ⟨op, e, a, vs, rfl, hb⟩ | ⟨m, rfl⟩ | ⟨op, e, a, m, rfl, hb⟩
      · have hp : 0 < x.size := by cases x <;> simp [TxEntity.size, size_pos]
        rw [flattenAll_cons, flattenEntity_flat hx]
        simp only [List.cons_append, List.nil_append, List.mem_cons, forall_eq_or_imp,
          placed_of_flat hx, true_and]
        rw [run_cons, run_cons]
        cases hs : env.step s x with
        | err er => simp [Res.bind]
        | panic => simp [Res.bind]
        | ok p =>
          obtain ⟨s1, front⟩ := p
          obtain ⟨rfl, hc, _⟩ := step_flat hx hs 0
          simp only [Res.bind, List.nil_append]
          rw [ih (sizeAll r) (by rw [sizeAll_cons]; omega) r s1 rfl, hc]
      · rw [run_cons, flattenAll_vector hb]
        have hu := backward_iff.1 hb
        simp only [TxEnv.step, List.mem_cons, forall_eq_or_imp, placedEntity_ar, Placed, hb,
          Bool.false_eq_true, false_or, namesAttr_iff, placedVec_iff env op e a vs]
        rw [hu]
        simp only [Res.bind]
        cases ha : env.attribute a with
        | err er => simp
        | panic => simp
        | ok a' =>
          simp only [Res.ok.injEq, exists_eq_left']
          cases hat : env.schema.requireAttr a' with
          | err er => simp
          | panic => simp
          | ok at_ =>
            simp only [Res.ok.injEq, exists_eq_left']
            cases hm : at_.multival with
            | false => simp
            | true =>
              simp only [Bool.true_eq_false, if_false, true_and]
              have hfront : vs.foldl (fun front x => TxEntity.addOrRetract op e (.entid a') x :: front) [] =
                  ((vs.map (TxEntity.addOrRetract op e a)).reverse).map (nameE env) := by
                rw [foldl_push (TxEntity.addOrRetract op e (.entid a')) vs [], List.append_nil,
                  List.map_reverse, List.map_map]
                congr 1
                apply List.map_congr_left
                intro v _
                simp [nameE, hb, named, ha]
              rw [hfront, run_nameE]
              rw [ih _ (by rw [sizeAll_append, size_vec, sizeAll_cons]
                           simp [TxEntity.size, ValuePlace.size]) _ s rfl]
              simp only [List.mem_append, or_imp, forall_and]
      · rw [run_cons, flattenAll_map]
        simp only [List.mem_cons, forall_eq_or_imp, placedEntity_map, TxEnv.step]
        by_cases hid : IdGiven m
        · obtain ⟨id, hrm⟩ := removeDbId_iff.2 hid
          obtain ⟨_, _, hpl, _⟩ := removeDbId_spec hrm s
          simp only [hrm, Res.bind, hpl, hid, true_and]
          have hfront : (m.remove dbIdKey).foldl
              (fun front x => TxEntity.addOrRetract .add (aboutPlace s.count m).1 x.1 x.2 :: front) [] =
              ((m.remove dbIdKey).map (entryOf (aboutPlace s.count m).1)).reverse := by
            have := foldl_push (entryOf (aboutPlace s.count m).1) (m.remove dbIdKey) []
            simpa only [entryOf, List.append_nil] using this
          rw [hfront]
          have hsz : sizeAll (((m.remove dbIdKey).map (entryOf (aboutPlace s.count m).1)).reverse ++ r) <
              sizeAll (TxEntity.map m :: r) := by
            have := sizeMap_filter m (fun p => decide (p.1 ≠ dbIdKey))
            rw [sizeAll_append, size_entries_le, sizeAll_cons]
            simp only [TxEntity.size, MapNotation.remove]; omega
          rw [ih _ hsz _ _ rfl, count_withCount,
            placedEntries_iff env (aboutPlace s.count m).1 m]
          simp only [List.mem_append, or_imp, forall_and]
          rw [run_flat_iff (s := s) (flattenAll_flat _ _) (d := (aboutPlace s.count m).2)]
        · simp only [hid, false_and, iff_false]
          intro h
          simp only [Res.bind_ok_iff] at h
          obtain ⟨_, ⟨⟨id, m'⟩, h1, _⟩, _⟩ := h
          exact hid (removeDbId_spec h1 s).2.1
      · have hsz : sizeAll (((forwardEntries (m.remove dbIdKey)).map
            (entryOf (aboutPlace s.count m).1)).reverse ++ r) <
            sizeAll (TxEntity.addOrRetract op e a (.map m) :: r) := by
          have := sizeMap_filter m (fun p => decide (p.1 ≠ dbIdKey))
          have h2 := sizeMap_filter (m.remove dbIdKey) (fun p => !Backward p.1)
          rw [sizeAll_append, size_entries_le, sizeAll_cons]
          simp only [TxEntity.size, MapNotation.remove, forwardEntries, ValuePlace.size] at *; omega
        have hu := backward_iff.1 hb
        have hall : ∀ y ∈ reversedEntries (aboutPlace s.count m).1 m ++
            .addOrRetract op e a (aboutPlace s.count m).1.asValue ::
            (flattenAll (aboutPlace s.count m).2 (((forwardEntries (m.remove dbIdKey)).map
              (entryOf (aboutPlace s.count m).1)).reverse ++ r)).1, Flat y := by
          have := flattenAll_flat s.count (TxEntity.addOrRetract op e a (.map m) :: r)
          rwa [flattenAll_nested hb] at this
        rw [flattenAll_nested hb]
        simp only
        rw [run_flat_iff hall (d := (aboutPlace s.count m).2)]
        simp only [List.mem_cons, forall_eq_or_imp, placedEntity_ar, Placed, hb, Bool.false_eq_true,
          false_or]
        constructor
        · intro h
          rw [run_cons, Res.bind_ok_iff] at h
          obtain ⟨⟨s3, front⟩, hstep, hrun⟩ := h
          simp only [TxEnv.step, Res.bind_ok_iff] at hstep
          obtain ⟨u, hu', hstep⟩ := hstep
          rw [hu] at hu'
          cases hu'
          simp only [Res.bind_ok_iff] at hstep
          obtain ⟨a', ha, at_, hat, hstep⟩ := hstep
          split at hstep
          · cases hstep
          rename_i hop
          split at hstep
          · cases hstep
          rename_i href
          simp only [Res.bind_ok_iff] at hstep
          obtain ⟨⟨id, m'⟩, hrm, ⟨s1, fr, d⟩, hnest, hstep⟩ := hstep
          obtain ⟨rfl, hid, hpl, hnone⟩ := removeDbId_spec hrm s
          simp only [hpl] at hnest hstep
          rw [nested_iff, reversedEntries_remove, List.append_nil] at hnest
          obtain ⟨hrev, hnames, hfr, hd⟩ := hnest
          split at hstep
          · cases hstep
          rename_i hdang
          simp only [Res.bind_ok_iff] at hstep
          obtain ⟨⟨v', s2⟩, hv, s3', hfin, hstep⟩ := hstep
          cases hstep
          have hop' : op = .add := by simpa using hop
          have href' : at_.valueType = .ref := by simpa using href
          have hanch : Anchored env.schema at_ m := by
            rw [← anchored_iff hnone, ← hd]; simpa using hdang
          obtain ⟨hstepv, hknown⟩ := (step_asValue hb ha hat href').2 ⟨v', s2, hv, hfin⟩
          simp only [hfr] at hrun
          rw [← List.map_reverse, run_nameE] at hrun
          have hc1 := (run_flat reversedEntries_flat hrev 0).1
          have hc2 := (step_flat (asValue_flat ..) hstepv 0).2.1
          have hc : s3.count = (aboutPlace s.count m).2 := by rw [hc2, hc1]; rfl
          rw [ih _ hsz _ s3 rfl, hc] at hrun
          obtain ⟨hplaced, w, hw, hs'⟩ := hrun
          simp only [List.mem_append, or_imp, forall_and] at hplaced
          refine ⟨⟨⟨hop', ⟨at_, namesAttr_iff.2 ⟨a', ha, hat⟩, href', hanch⟩, hid,
            fun n hn => hknown n (aboutPlace_entid hn), ?_⟩, hplaced.2⟩, w, ?_, hs'⟩
          · rw [placedEntries_iff env (aboutPlace s.count m).1 m]
            intro x hx
            rw [List.mem_reverse, List.mem_map] at hx
            obtain ⟨q, hq, rfl⟩ := hx
            cases hbq : Backward q.1 with
            | true =>
              apply placed_of_flat
              obtain ⟨qa, qv⟩ := q
              cases qv <;> simp_all [Flat, entryOf]
            | false =>
              apply hplaced.1
              rw [List.mem_reverse, List.mem_map]
              exact ⟨q, List.mem_filter.2 ⟨hq, by simp [hbq]⟩, rfl⟩
          · rw [run_append, hrev]
            simp only [Res.bind]
            rw [run_cons, hstepv]
            simp only [Res.bind, List.nil_append]
            exact hw
        · rintro ⟨⟨⟨hop, ⟨at_, hna, href, hanch⟩, hid, hknown, hpe⟩, hpr⟩, w, hw, hs'⟩
          obtain ⟨a', ha, hat⟩ := namesAttr_iff.1 hna
          obtain ⟨id, hrm⟩ := removeDbId_iff.2 hid
          obtain ⟨_, _, hpl, hnone⟩ := removeDbId_spec hrm s
          rw [run_append, Res.bind_ok_iff] at hw
          obtain ⟨s1, hrev, hw⟩ := hw
          rw [run_cons, Res.bind_ok_iff] at hw
          obtain ⟨⟨s3, front⟩, hstepv, hw⟩ := hw
          obtain ⟨hfr, hc2, _⟩ := step_flat (asValue_flat ..) hstepv 0
          subst hfr
          have hc1 := (run_flat reversedEntries_flat hrev 0).1
          have hc : s3.count = (aboutPlace s.count m).2 := by rw [hc2, hc1]; rfl
          have hrun : env.run (((forwardEntries (m.remove dbIdKey)).map
              (entryOf (aboutPlace s.count m).1)).reverse ++ r) s3 = .ok s' := by
            rw [ih _ hsz _ s3 rfl, hc]
            refine ⟨?_, w, hw, hs'⟩
            intro x hx
            rw [List.mem_append] at hx
            rcases hx with hx | hx
            · rw [placedEntries_iff env (aboutPlace s.count m).1 m] at hpe
              apply hpe
              rw [List.mem_reverse, List.mem_map] at hx ⊢
              obtain ⟨q, hq, rfl⟩ := hx
              exact ⟨q, (List.mem_filter.1 hq).1, rfl⟩
            · exact hpr x hx
          obtain ⟨v', s2, hv, hfin⟩ := (step_asValue hb ha hat href).1
            ⟨hstepv, fun n hn => hknown n (aboutPlace_entid hn)⟩
          have hnest : env.nested (aboutPlace s.count m).1 (m.remove dbIdKey)
              (s.withCount (aboutPlace s.count m).2) [] (id.isNone && !at_.component) =
              .ok (s1, (((forwardEntries (m.remove dbIdKey)).map
                (entryOf (aboutPlace s.count m).1)).map (nameE env)).reverse, false) := by
            rw [nested_iff, reversedEntries_remove, List.append_nil]
            refine ⟨hrev, ?_, rfl, ((anchored_iff hnone).2 hanch).symm⟩
            intro q hq hbq
            obtain ⟨t, p, hp⟩ := run_mem hrun (x := entryOf (aboutPlace s.count m).1 q) (by
              rw [List.mem_append, List.mem_reverse, List.mem_map]
              exact Or.inl ⟨q, List.mem_filter.2 ⟨hq, by simp [hbq]⟩, rfl⟩)
            exact step_names hbq hp
          rw [run_cons]
          simp only [TxEnv.step]
          rw [hu]
          simp only [Res.bind, ha, hat, hop, href, ne_eq, not_true_eq_false, if_false, hrm, hpl, hnest,
            hv, Bool.false_eq_true]
          rw [hop] at hfin
          simp only [hfin]
          rw [← List.map_reverse, run_nameE]
          exact hrun

/-! ### The meaning of flat assertions -/

theorem mem_internIn {α : Type} [DecidableEq α] {l : List α} {x y : α} :
    y ∈ internIn l x ↔ y ∈ l ∨ y = x := by
  unfold internIn
  split
  · rename_i h
    exact ⟨Or.inl, fun h' => h'.elim id (fun h' => h' ▸ h)⟩
  · simp

theorem nodup_internIn {α : Type} [DecidableEq α] {l : List α} {x : α} (h : l.Nodup) :
    (internIn l x).Nodup := by
  unfold internIn
  split
  · exact h
  · rename_i hx
    rw [List.nodup_append]
    refine ⟨h, by simp, ?_⟩
    intro a ha b hb
    simp only [List.mem_singleton] at hb
    subst hb
    rintro rfl
    exact hx ha

/-- Going from `s` to `s'` interns exactly the tempids `P`, and adds `ts`. -/
structure Adds (s : Stage1) (P : TempId → Prop) (ts : List LTerm) (s' : Stage1) : Prop where
  count : s'.count = s.count
  terms : s'.terms = s.terms ++ ts
  ids : ∀ i, i ∈ s'.tempIds ↔ i ∈ s.tempIds ∨ P i
  nodup : s.tempIds.Nodup → s'.tempIds.Nodup

theorem Adds.trans {s s1 s2 : Stage1} {P Q ts us} (h : Adds s P ts s1) (h' : Adds s1 Q us s2) :
    Adds s (fun i => P i ∨ Q i) (ts ++ us) s2 where
  count := h'.count.trans h.count
  terms := by rw [h'.terms, h.terms, List.append_assoc]
  ids := fun i => by rw [h'.ids, h.ids, or_assoc]
  nodup := fun hn => h'.nodup (h.nodup hn)

theorem Adds.mono {s s1 : Stage1} {P Q : TempId → Prop} {ts} (h : Adds s P ts s1) (hp : ∀ i, P i ↔ Q i) :
    Adds s Q ts s1 := { h with ids := fun i => by rw [h.ids, hp] }

theorem Adds.refl (s : Stage1) : Adds s (fun _ => False) [] s where
  count := rfl
  terms := by simp
  ids := by simp
  nodup := id

theorem adds_intern (s : Stage1) (t : TempId) : Adds s (fun i => i = t) [] (s.internTempId t) where
  count := rfl
  terms := by simp [Stage1.internTempId]
  ids := fun i => mem_internIn
  nodup := nodup_internIn

theorem adds_push (s : Stage1) (t : LTerm) : Adds s (fun _ => False) [t] (s.push t) where
  count := rfl
  terms := rfl
  ids := fun i => by simp [Stage1.push]
  nodup := id

theorem requireEntid_iff {s : Schema} {k : Keyword} {n : Entid} :
    s.requireEntid k = .ok n ↔ AMap.get s.identMap k = some n := by
  unfold Schema.requireEntid
  cases AMap.get s.identMap k <;> simp

theorem lookupRef_iff {env : TxEnv} {s : Stage1} {a : EntidOrIdent} {v : V} {r} :
    (∃ s', env.lookupRef s a v = .ok (r, s')) ↔ LookupMeans env a v r := by
  simp only [TxEnv.lookupRef, Res.bind_ok_iff, LookupMeans, attribute_iff, requireAttr_iff]
  constructor
  · rintro ⟨s', a', ha, at_, hat, w, hw, h⟩
    split at h
    · cases h
    · rename_i hu; cases h; exact ⟨a', at_, w, ha, hat, hu, hw, rfl⟩
  · rintro ⟨a', at_, w, ha, hat, hu, hw, rfl⟩
    exact ⟨_, a', ha, at_, hat, w, hw, by rw [if_neg hu]⟩

theorem lookupRef_adds {env : TxEnv} {s s' : Stage1} {a : EntidOrIdent} {v : V} {r}
    (h : env.lookupRef s a v = .ok (r, s')) : Adds s (fun _ => False) [] s' := by
  simp only [TxEnv.lookupRef, Res.bind_ok_iff] at h
  obtain ⟨_, _, _, _, _, _, h⟩ := h
  split at h
  · cases h
  · cases h; exact ⟨rfl, by simp, by simp, id⟩

theorem lookupMeans_ne {env : TxEnv} {a : EntidOrIdent} {v : V} {r} (h : LookupMeans env a v r) (i) :
    r ≠ .tempId i := by
  obtain ⟨_, _, _, _, _, _, _, rfl⟩ := h
  simp

theorem termE_ok {env : TxEnv} {s s' : Stage1} {x : EntityPlace V} {r}
    (h : env.termE s x = .ok (r, s')) :
    PlaceMeans env x r ∧ Adds s (fun i => r = .inr (.tempId i)) [] s' := by
  cases x with
  | entid e =>
    cases e with
    | entid e =>
      simp only [TxEnv.termE] at h
      split at h
      · rename_i he; cases h
        exact ⟨⟨he, rfl⟩, (Adds.refl _).mono (by simp)⟩
      · cases h
    | ident k =>
      simp only [TxEnv.termE, Res.bind_ok_iff, requireEntid_iff] at h
      obtain ⟨e, he, h⟩ := h; cases h
      exact ⟨⟨e, he, rfl⟩, (Adds.refl _).mono (by simp)⟩
  | tempId t => cases h; exact ⟨rfl, (adds_intern s t).mono (by simp [eq_comm])⟩
  | lookupRef a v =>
    simp only [TxEnv.termE, Res.bind_ok_iff] at h
    obtain ⟨⟨r', s1⟩, h1, h⟩ := h; cases h
    have hm := lookupRef_iff.1 ⟨_, h1⟩
    exact ⟨⟨r', hm, rfl⟩, (lookupRef_adds h1).mono
      (fun i => by simp [lookupMeans_ne hm i])⟩
  | txFunction f =>
    simp only [TxEnv.termE, Res.bind_ok_iff, TxEnv.txFunction] at h
    obtain ⟨e, he, h⟩ := h
    split at he
    · rename_i hf; cases he; cases h
      exact ⟨⟨hf, rfl⟩, (Adds.refl _).mono (by simp)⟩
    · cases he

theorem termE_of_means {env : TxEnv} {x : EntityPlace V} {r} (h : PlaceMeans env x r) (s : Stage1) :
    ∃ s', env.termE s x = .ok (r, s') := by
  cases x with
  | entid e =>
    cases e with
    | entid e =>
      obtain ⟨h1, rfl⟩ := h
      exact ⟨s, by simp only [TxEnv.termE]; rw [if_pos h1]⟩
    | ident k =>
      obtain ⟨n, h1, rfl⟩ := h
      exact ⟨s, by simp only [TxEnv.termE, Res.bind_ok_iff]; exact ⟨n, requireEntid_iff.2 h1, rfl⟩⟩
  | tempId t => cases h; exact ⟨_, rfl⟩
  | lookupRef a v =>
    obtain ⟨l, hl, rfl⟩ := h
    obtain ⟨s', h'⟩ := (lookupRef_iff (s := s)).2 hl
    exact ⟨s', by simp only [TxEnv.termE, Res.bind_ok_iff]; exact ⟨_, h', rfl⟩⟩
  | txFunction f =>
    obtain ⟨rfl, rfl⟩ := h
    exact ⟨s, rfl⟩

theorem refLeft_eq (r : Sum Entid LookupRefOrTempId) : refLeft r = asRef r := by cases r <;> rfl

theorem unreversed_some {a fa : EntidOrIdent} : a.unreversed = .ok (some fa) ↔ Unreversed a fa := by
  unfold Unreversed
  cases a with
  | entid e => simp [EntidOrIdent.unreversed]
  | ident k =>
    obtain ⟨ns, name⟩ := k
    simp only [EntidOrIdent.unreversed, Keyword.unreversed]
    cases name with
    | nil => simp
    | cons ch r =>
      by_cases hc : ch = '_'
      · subst hc
        by_cases hr : r = []
        · simp [hr]
        · simp only [hr, if_false, Res.ok.injEq, Option.some.injEq, EntidOrIdent.ident.injEq,
            Keyword.mk.injEq, List.cons.injEq, true_and]
          constructor
          · rintro rfl; exact ⟨ns, r, ⟨rfl, rfl⟩, hr, rfl⟩
          · rintro ⟨ns', n, ⟨rfl, rfl⟩, _, rfl⟩; rfl
      · simp [hc]

theorem termEOfV_ok {env : TxEnv} {s s' : Stage1} {x : ValuePlace V} {fa} {r}
    (h : env.termEOfV s x fa = .ok (r, s')) :
    ∃ a at_, Names env.schema fa a ∧ env.schema.attr a = some at_ ∧ at_.valueType = .ref ∧
      ValueMeans env at_ x (asRef r) ∧ Adds s (fun i => r = .inr (.tempId i)) [] s' := by
  simp only [TxEnv.termEOfV, Res.bind_ok_iff] at h
  obtain ⟨a, ha, at_, hat, h⟩ := h
  split at h
  · cases h
  rename_i href
  simp only [ne_eq, Classical.not_not] at href
  suffices ValueMeans env at_ x (asRef r) ∧ Adds s (fun i => r = .inr (.tempId i)) [] s' from
    ⟨a, at_, attribute_iff.1 ha, requireAttr_iff.1 hat, href, this⟩
  cases x with
  | atom v =>
    simp only at h
    cases ht : TransactableValue.asTempid v with
    | some t =>
      simp only [ht] at h; cases h
      exact ⟨Or.inl ⟨href, t, ht, rfl⟩, (adds_intern s t).mono (by simp [eq_comm])⟩
    | none =>
      simp only [ht, Res.bind_ok_iff] at h
      obtain ⟨v', hv, h⟩ := h
      cases v' <;> cases h
      exact ⟨Or.inr ⟨fun _ => ht, _, by rw [href]; exact hv, rfl⟩, (Adds.refl _).mono (by simp)⟩
  | entid e =>
    simp only [Res.bind_ok_iff] at h
    obtain ⟨e', he, h⟩ := h; cases h
    exact ⟨⟨_, attribute_iff.1 he, rfl⟩, (Adds.refl _).mono (by simp)⟩
  | tempId t => cases h; exact ⟨rfl, (adds_intern s t).mono (by simp [eq_comm])⟩
  | lookupRef a v =>
    simp only [Res.bind_ok_iff] at h
    obtain ⟨⟨r', s1⟩, h1, h⟩ := h; cases h
    have hm := lookupRef_iff.1 ⟨_, h1⟩
    exact ⟨⟨href, r', hm, rfl⟩, (lookupRef_adds h1).mono (fun i => by simp [lookupMeans_ne hm i])⟩
  | txFunction f =>
    simp only [Res.bind_ok_iff, TxEnv.txFunction] at h
    obtain ⟨e', he, h⟩ := h
    split at he
    · rename_i hf; cases he; cases h
      exact ⟨⟨href, hf, rfl⟩, (Adds.refl _).mono (by simp)⟩
    · cases he
  | vector vs => cases h
  | map m => cases h

theorem asRef_inl {r : Sum Entid LookupRefOrTempId} {n} (h : asRef r = .inl (.ref n)) : r = .inl n := by
  cases r <;> simp_all [asRef]

theorem asRef_inr {r : Sum Entid LookupRefOrTempId} {l} (h : asRef r = .inr l) : r = .inr l := by
  cases r <;> simp_all [asRef]

theorem termEOfV_of_means {env : TxEnv} {x : ValuePlace V} {fa a at_} {r}
    (ha : Names env.schema fa a) (hat : env.schema.attr a = some at_) (href : at_.valueType = .ref)
    (h : ValueMeans env at_ x (asRef r)) (s : Stage1) : ∃ s', env.termEOfV s x fa = .ok (r, s') := by
  simp only [TxEnv.termEOfV, attribute_iff.2 ha, requireAttr_iff.2 hat, Res.bind, href, ne_eq,
    not_true_eq_false, if_false]
  cases x with
  | atom v =>
    rcases h with ⟨_, t, ht, hr⟩ | ⟨ht, w, hw, hr⟩
    · rw [asRef_inr hr]; simp only [ht]; exact ⟨_, rfl⟩
    · rw [href] at hw
      simp only [ht href, hw]
      cases r with
      | inl n => simp only [asRef, Sum.inl.injEq] at hr; subst hr; exact ⟨_, rfl⟩
      | inr l => simp [asRef] at hr
  | entid e =>
    obtain ⟨n, hn, hr⟩ := h
    rw [asRef_inl hr]; simp only [attribute_iff.2 hn]; exact ⟨_, rfl⟩
  | tempId t => rw [asRef_inr h]; exact ⟨_, rfl⟩
  | lookupRef a v =>
    obtain ⟨_, l, hl, hr⟩ := h
    obtain ⟨s', h'⟩ := (lookupRef_iff (s := s)).2 hl
    rw [asRef_inr hr]; simp only [h']; exact ⟨_, rfl⟩
  | txFunction f =>
    obtain ⟨_, rfl, hr⟩ := h
    rw [asRef_inl hr]; exact ⟨_, rfl⟩
  | vector vs => exact h.elim
  | map m => exact h.elim

theorem asRef_tempId {r : Sum Entid LookupRefOrTempId} {i} :
    asRef r = .inr (.tempId i) ↔ r = .inr (.tempId i) := by
  cases r <;> simp [asRef]

theorem names_inj {s : Schema} {x : EntidOrIdent} {a b : Entid} (h : Names s x a) (h' : Names s x b) :
    a = b := by
  cases x with
  | entid e => exact h.trans h'.symm
  | ident k => simp only [Names] at h h'; rw [h] at h'; exact Option.some.inj h'

theorem reversedTerm_ok {env : TxEnv} {s s' : Stage1} {e : EntityPlace V} {a fa} {v : ValuePlace V}
    (ha : Unreversed a fa) (h : env.reversedTerm s e fa v = .ok s') :
    ∃ t, Means env (.addOrRetract .add e a v) t ∧ Adds s (MentionsId [t]) [t] s' := by
  simp only [TxEnv.reversedTerm, TxEnv.termVOfE, Res.bind_ok_iff] at h
  obtain ⟨⟨e', s1⟩, h1, a', ha', ⟨v', s2⟩, ⟨⟨w, s3⟩, h2, h3⟩, h⟩ := h
  cases h3; cases h
  obtain ⟨a2, at_, hn, hat, href, hv, had1⟩ := termEOfV_ok h1
  obtain ⟨hp, had2⟩ := termE_ok h2
  have := names_inj hn (attribute_iff.1 ha')
  subst this
  refine ⟨⟨.add, e', a2, refLeft w⟩, ⟨rfl, Or.inr ⟨fa, at_, w, ha, hn, hat, href, hv, hp, refLeft_eq w⟩⟩, ?_⟩
  have := (had1.trans had2).trans (adds_push s3 ⟨.add, e', a2, refLeft w⟩)
  refine this.mono fun i => ?_
  simp [MentionsId, refLeft_eq, asRef_tempId]

theorem finish_ok {env : TxEnv} {s s' : Stage1} {op a v} {e : EntityPlace V}
    (h : env.finish s op e a v = .ok s') : ∃ e', PlaceMeans env e e' ∧
      Adds s (fun i => e' = .inr (.tempId i)) [⟨op, e', a, v⟩] s' := by
  simp only [TxEnv.finish, Res.bind_ok_iff] at h
  obtain ⟨⟨e', s1⟩, h1, h⟩ := h
  cases h
  obtain ⟨hp, had⟩ := termE_ok h1
  exact ⟨e', hp, (had.trans (adds_push s1 ⟨op, e', a, v⟩)).mono (by simp)⟩

theorem finish_of_means {env : TxEnv} {op a v} {e : EntityPlace V} {e'} (h : PlaceMeans env e e')
    (s : Stage1) : ∃ s', env.finish s op e a v = .ok s' := by
  obtain ⟨s1, h1⟩ := termE_of_means h s
  simp only [TxEnv.finish, h1, Res.bind]
  exact ⟨_, rfl⟩

/-- What the code makes of the operation: a reversed assertion is always an addition. -/
def opOf (a : EntidOrIdent) (op : Op) : Op := if Backward a then .add else op

def codeOp : TxEntity V → TxEntity V
  | .addOrRetract op e a v => .addOrRetract (opOf a op) e a v
  | .map m => .map m

theorem unreversed_backward {a fa : EntidOrIdent} (h : Unreversed a fa) : Backward a = true := by
  obtain ⟨ns, n, rfl, _, _⟩ := h
  simp [Backward]

theorem step_means {env : TxEnv} {s s' : Stage1} {x : TxEntity V} {front} (hx : Flat x)
    (h : env.step s x = .ok (s', front)) :
    ∃ t, Means env (codeOp x) t ∧ Adds s (MentionsId [t]) [t] s' := by
  cases x with
  | map m => exact hx.elim
  | addOrRetract op e a v =>
    simp only [TxEnv.step, Res.bind_ok_iff] at h
    obtain ⟨u, hu, h⟩ := h
    cases u with
    | some fa =>
      have hun := unreversed_some.1 hu
      simp only [Res.bind_ok_iff] at h
      obtain ⟨s1, h1, h⟩ := h; cases h
      have := reversedTerm_ok hun h1
      simpa [codeOp, opOf, unreversed_backward hun] using this
    | none =>
      have hb := backward_iff.2 hu
      simp only [Res.bind_ok_iff] at h
      obtain ⟨a', ha, at_, hat, h⟩ := h
      have ha' := attribute_iff.1 ha
      have hat' := requireAttr_iff.1 hat
      have key : ∀ {s1 : Stage1} {v' : Sum TypedValue LookupRefOrTempId}, ValueMeans env at_ v v' →
          Adds s (fun i => v' = .inr (.tempId i)) [] s1 → env.finish s1 op e a' v' = .ok s' →
          ∃ t, Means env (codeOp (.addOrRetract op e a v)) t ∧ Adds s (MentionsId [t]) [t] s' := by
        intro s1 v' hv had hf
        obtain ⟨e', hp, had2⟩ := finish_ok hf
        refine ⟨⟨op, e', a', v'⟩, ⟨by simp [opOf, hb], Or.inl ⟨hb, at_, ha', hat', hp, hv⟩⟩, ?_⟩
        refine (had.trans had2).mono fun i => ?_
        simp [MentionsId, or_comm]
      cases v with
      | atom v =>
        simp only at h
        cases hm : (if at_.valueType = .ref then TransactableValue.asTempid v else none) with
        | some t =>
          simp only [hm, Res.bind_ok_iff] at h
          obtain ⟨s1, h1, h⟩ := h; cases h
          by_cases hr : at_.valueType = .ref
          · rw [if_pos hr] at hm
            exact key (Or.inl ⟨hr, t, hm, rfl⟩) ((adds_intern s t).mono (by simp [eq_comm])) h1
          · rw [if_neg hr] at hm; cases hm
        | none =>
          simp only [hm, Res.bind_ok_iff] at h
          obtain ⟨v', hv, s1, h1, h⟩ := h; cases h
          refine key (Or.inr ⟨fun hr => ?_, v', hv, rfl⟩) ((Adds.refl s).mono (by simp)) h1
          rwa [if_pos hr] at hm
      | entid x =>
        simp only [Res.bind_ok_iff] at h
        obtain ⟨v', hv, s1, h1, h⟩ := h; cases h
        exact key ⟨v', attribute_iff.1 hv, rfl⟩ ((Adds.refl s).mono (by simp)) h1
      | tempId t =>
        simp only [Res.bind_ok_iff] at h
        obtain ⟨s1, h1, h⟩ := h; cases h
        exact key (v' := .inr (.tempId t)) rfl ((adds_intern s t).mono (by simp [eq_comm])) h1
      | lookupRef x y =>
        simp only at h
        split at h
        · cases h
        rename_i href
        simp only [Res.bind_ok_iff] at h
        obtain ⟨⟨r, s1⟩, h1, s2, h2, h⟩ := h; cases h
        have hm := lookupRef_iff.1 ⟨_, h1⟩
        exact key ⟨by simpa using href, r, hm, rfl⟩
          ((lookupRef_adds h1).mono (fun i => by simp [lookupMeans_ne hm i])) h2
      | txFunction f =>
        simp only [Res.bind_ok_iff] at h
        obtain ⟨x, hx, h⟩ := h
        split at h
        · cases h
        rename_i href
        simp only [Res.bind_ok_iff] at h
        obtain ⟨s1, h1, h⟩ := h; cases h
        simp only [TxEnv.txFunction] at hx
        split at hx
        · rename_i hf; cases hx
          exact key ⟨by simpa using href, hf, rfl⟩ ((Adds.refl s).mono (by simp)) h1
        · cases hx
      | vector vs => simp [Flat, hb] at hx
      | map m => simp [Flat, hb] at hx

theorem step_of_means {env : TxEnv} {x : TxEntity V} {t} (h : Means env (codeOp x) t) (s : Stage1) :
    ∃ s', env.step s x = .ok (s', []) := by
  cases x with
  | map m => exact h.elim
  | addOrRetract op e a v =>
    obtain ⟨hop, ⟨hb, at_, ha, hat, hp, hv⟩ | ⟨fa, at_, y, hun, ha, hat, href, hv, hp, hy⟩⟩ := h
    · simp only [TxEnv.step, backward_iff.1 hb, attribute_iff.2 ha, requireAttr_iff.2 hat, Res.bind]
      cases v with
      | atom v =>
        simp only
        rcases hv with ⟨hr, i, hi, _⟩ | ⟨hr, w, hw, _⟩
        · rw [if_pos hr, hi]
          obtain ⟨s', h'⟩ := finish_of_means (op := op) (a := t.a) (v := .inr (.tempId i)) hp (s.internTempId i)
          simp only [h']; exact ⟨_, rfl⟩
        · have hm : (if at_.valueType = .ref then TransactableValue.asTempid v else none) = none := by
            split
            · exact hr ‹_›
            · rfl
          obtain ⟨s', h'⟩ := finish_of_means (op := op) (a := t.a) (v := .inl w) hp s
          simp only [hm, hw, h']; exact ⟨_, rfl⟩
      | entid x =>
        obtain ⟨n, hn, _⟩ := hv
        obtain ⟨s', h'⟩ := finish_of_means (op := op) (a := t.a) (v := .inl (.ref n)) hp s
        simp only [attribute_iff.2 hn, h']; exact ⟨_, rfl⟩
      | tempId i =>
        obtain ⟨s', h'⟩ := finish_of_means (op := op) (a := t.a) (v := .inr (.tempId i)) hp (s.internTempId i)
        simp only [h']; exact ⟨_, rfl⟩
      | lookupRef x y =>
        obtain ⟨href, l, hl, _⟩ := hv
        obtain ⟨s1, h1⟩ := (lookupRef_iff (s := s)).2 hl
        obtain ⟨s', h'⟩ := finish_of_means (op := op) (a := t.a) (v := .inr l) hp s1
        simp only [href, ne_eq, not_true_eq_false, if_false, h1, h']; exact ⟨_, rfl⟩
      | txFunction f =>
        obtain ⟨href, rfl, _⟩ := hv
        obtain ⟨s', h'⟩ := finish_of_means (op := op) (a := t.a) (v := .inl (.ref env.txId)) hp s
        have hf : env.txFunction "transaction-tx".toList = .ok env.txId := if_pos rfl
        simp only [hf, href, ne_eq, not_true_eq_false, if_false, h']; exact ⟨_, rfl⟩
      | vector vs => exact hv.elim
      | map m => exact hv.elim
    · obtain ⟨s1, h1⟩ := termEOfV_of_means ha hat href hv s
      obtain ⟨s2, h2⟩ := termE_of_means hp s1
      simp only [TxEnv.step, unreversed_some.2 hun, Res.bind, TxEnv.reversedTerm, h1,
        attribute_iff.2 ha, TxEnv.termVOfE, h2]
      exact ⟨_, rfl⟩

theorem run_means {env : TxEnv} {xs : List (TxEntity V)} {s s' : Stage1} (hx : ∀ x ∈ xs, Flat x)
    (h : env.run xs s = .ok s') :
    ∃ ts, List.Forall₂ (Means env) (xs.map codeOp) ts ∧ Adds s (MentionsId ts) ts s' := by
  induction xs generalizing s with
  | nil => cases h; exact ⟨[], .nil, (Adds.refl _).mono (by simp [MentionsId])⟩
  | cons x r ih =>
    rw [run_cons, Res.bind_ok_iff] at h
    obtain ⟨⟨s1, front⟩, h1, h⟩ := h
    obtain ⟨hf, _, _⟩ := step_flat (hx x (by simp)) h1 0
    subst hf
    obtain ⟨t, ht, had⟩ := step_means (hx x (by simp)) h1
    obtain ⟨ts, hts, had2⟩ := ih (fun y hy => hx y (List.mem_cons_of_mem _ hy)) h
    refine ⟨t :: ts, .cons ht hts, (had.trans had2).mono fun i => ?_⟩
    simp [MentionsId]

theorem run_of_means {env : TxEnv} {xs : List (TxEntity V)} {ts}
    (h : List.Forall₂ (Means env) (xs.map codeOp) ts) (s : Stage1) : ∃ s', env.run xs s = .ok s' := by
  induction xs generalizing s ts with
  | nil => exact ⟨s, rfl⟩
  | cons x r ih =>
    rw [List.map_cons] at h
    cases h with
    | cons hd tl =>
      obtain ⟨s1, h1⟩ := step_of_means hd s
      obtain ⟨s', h'⟩ := ih tl s1
      refine ⟨s', ?_⟩
      rw [run_cons, h1]
      exact h'

end
end Mentat
