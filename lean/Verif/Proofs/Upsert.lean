import Verif.Proofs.Trie
import Verif.Model.Upsert
/- Lemmas about tempid resolution. -/
namespace Mentat

/-- `m'` extends `m`. -/
def AMap.Sub {K V : Type} [DecidableEq K] (m m' : AMap K V) : Prop :=
  ∀ k v, AMap.get m k = some v → AMap.get m' k = some v

theorem AMap.Sub.refl {K V : Type} [DecidableEq K] (m : AMap K V) : AMap.Sub m m := fun _ _ h => h
theorem AMap.Sub.trans {K V : Type} [DecidableEq K] {m m' m'' : AMap K V}
    (h : AMap.Sub m m') (h' : AMap.Sub m' m'') : AMap.Sub m m'' := fun k v hk => h' k v (h k v hk)

def PartE (m : TempIdMap) (e e' : Sum Entid TempId) : Prop :=
  e' = e ∨ ∃ t n, e = .inr t ∧ AMap.get m t = some n ∧ e' = .inl n

def PartV (m : TempIdMap) (e e' : Sum TypedValue TempId) : Prop :=
  e' = e ∨ ∃ t n, e = .inr t ∧ AMap.get m t = some n ∧ e' = .inl (.ref n)

/-- `y` is `x` with some tempids replaced. -/
def Part (m : TempIdMap) (x y : TTerm) : Prop :=
  y.op = x.op ∧ y.a = x.a ∧ PartE m x.e y.e ∧ PartV m x.v y.v

theorem DenotesE.mono {m m'} (h : AMap.Sub m m') {e n} (hd : DenotesE m e n) : DenotesE m' e n := by
  cases e with
  | inl e => exact hd
  | inr t => exact h _ _ hd

theorem DenotesV.mono {m m'} (h : AMap.Sub m m') {e n} (hd : DenotesV m e n) : DenotesV m' e n := by
  cases e with
  | inl e => exact hd
  | inr t => obtain ⟨n, h1, h2⟩ := hd; exact ⟨n, h _ _ h1, h2⟩

theorem Denotes.mono {m m'} (h : AMap.Sub m m') {x y} (hd : Denotes m x y) : Denotes m' x y :=
  ⟨hd.1, hd.2.1, hd.2.2.1.mono h, hd.2.2.2.mono h⟩

theorem Part.mono {m m'} (h : AMap.Sub m m') {x y} (hd : Part m x y) : Part m' x y := by
  obtain ⟨h1, h2, h3, h4⟩ := hd
  refine ⟨h1, h2, ?_, ?_⟩
  · rcases h3 with h3 | ⟨t, n, h3, h5, h6⟩
    · exact Or.inl h3
    · exact Or.inr ⟨t, n, h3, h _ _ h5, h6⟩
  · rcases h4 with h3 | ⟨t, n, h3, h5, h6⟩
    · exact Or.inl h3
    · exact Or.inr ⟨t, n, h3, h _ _ h5, h6⟩

theorem Part.refl (m : TempIdMap) (x : TTerm) : Part m x x := ⟨rfl, rfl, Or.inl rfl, Or.inl rfl⟩

theorem Part.trans {m} {x y z : TTerm} (h : Part m x y) (h' : Part m y z) : Part m x z := by
  obtain ⟨h1, h2, h3, h4⟩ := h
  obtain ⟨k1, k2, k3, k4⟩ := h'
  refine ⟨k1.trans h1, k2.trans h2, ?_, ?_⟩
  · rcases h3 with h3 | ⟨t, n, h3, h5, h6⟩
    · rw [h3] at k3; exact k3
    · rcases k3 with k3 | ⟨t', n', k3, _⟩
      · exact Or.inr ⟨t, n, h3, h5, k3.trans h6⟩
      · rw [h6] at k3; simp at k3
  · rcases h4 with h3 | ⟨t, n, h3, h5, h6⟩
    · rw [h3] at k4; exact k4
    · rcases k4 with k3 | ⟨t', n', k3, _⟩
      · exact Or.inr ⟨t, n, h3, h5, k3.trans h6⟩
      · rw [h6] at k3; simp at k3

theorem Part.denotes {m} {x y : TTerm} {z : RTerm} (h : Part m x y) (h' : Denotes m y z) :
    Denotes m x z := by
  obtain ⟨h1, h2, h3, h4⟩ := h
  obtain ⟨k1, k2, k3, k4⟩ := h'
  refine ⟨k1.trans h1, k2.trans h2, ?_, ?_⟩
  · rcases h3 with h3 | ⟨t, n, h3, h5, h6⟩
    · rw [h3] at k3; exact k3
    · rw [h6] at k3; rw [h3]; simp only [DenotesE] at k3 ⊢; rw [h5, k3]
  · rcases h4 with h3 | ⟨t, n, h3, h5, h6⟩
    · rw [h3] at k4; exact k4
    · rw [h6] at k4; rw [h3]; exact ⟨n, h5, k4⟩

theorem DenotesE.unique {m e n n'} (h : DenotesE m e n) (h' : DenotesE m e n') : n = n' := by
  cases e with
  | inl e => exact h.trans h'.symm
  | inr t => exact Option.some.inj (h.symm.trans h')

theorem DenotesV.unique {m e n n'} (h : DenotesV m e n) (h' : DenotesV m e n') : n = n' := by
  cases e with
  | inl e => exact h.trans h'.symm
  | inr t =>
    obtain ⟨k, h1, h2⟩ := h; obtain ⟨k', h1', h2'⟩ := h'
    rw [h1] at h1'; rw [h2, h2', Option.some.inj h1']

/-! ### resolve_temp_id_avs and recording -/

/-- `resolveTempIdAvs`, without a conflict, extends the accumulator with exactly the lookups. -/
theorem resolveTempIdAvs_ok {st : Store} {avs : List (TempId × Entid × TypedValue)} :
    ∀ {m0 : TempIdMap} {c : Bool} {m : TempIdMap}, resolveTempIdAvs st avs m0 c = .ok m →
      c = false ∧ AMap.Sub m0 m ∧
      (∀ t a v n, (t, a, v) ∈ avs → st.lookupAV a v = some n → AMap.get m t = some n) ∧
      (∀ t n, AMap.get m t = some n → AMap.get m0 t = some n ∨
        ∃ a v, (t, a, v) ∈ avs ∧ st.lookupAV a v = some n) := by
  induction avs with
  | nil =>
    intro m0 c m h
    unfold resolveTempIdAvs at h
    cases c <;> simp at h
    subst h
    exact ⟨rfl, AMap.Sub.refl _, by simp, fun t n h => Or.inl h⟩
  | cons x r ih =>
    obtain ⟨t, a, v⟩ := x
    intro m0 c m h
    unfold resolveTempIdAvs at h
    cases hl : st.lookupAV a v with
    | none =>
      rw [hl] at h
      obtain ⟨h1, h2, h3, h4⟩ := ih h
      refine ⟨h1, h2, ?_, ?_⟩
      · intro t' a' v' n hm hn
        simp only [List.mem_cons, Prod.mk.injEq] at hm
        rcases hm with ⟨rfl, rfl, rfl⟩ | hm
        · rw [hl] at hn; simp at hn
        · exact h3 t' a' v' n hm hn
      · intro t' n hn
        rcases h4 t' n hn with h | ⟨a', v', h, h'⟩
        · exact Or.inl h
        · exact Or.inr ⟨a', v', List.mem_cons_of_mem _ h, h'⟩
    | some n0 =>
      rw [hl] at h
      have key : ∀ c', resolveTempIdAvs st r (AMap.insert m0 t n0) c' = .ok m →
          (∀ p, AMap.get m0 t = some p → p = n0) →
          AMap.Sub m0 m ∧
          (∀ t' a' v' n, (t', a', v') ∈ (t, a, v) :: r → st.lookupAV a' v' = some n →
            AMap.get m t' = some n) ∧
          (∀ t' n, AMap.get m t' = some n → AMap.get m0 t' = some n ∨
            ∃ a' v', (t', a', v') ∈ (t, a, v) :: r ∧ st.lookupAV a' v' = some n) := by
        intro c' h hp
        obtain ⟨h1, h2, h3, h4⟩ := ih h
        refine ⟨?_, ?_, ?_⟩
        · intro k w hk
          by_cases hkt : t = k
          · subst hkt
            rw [hp w hk]
            exact h2 _ _ (by simp)
          · exact h2 _ _ (by rw [AMap.get_insert_ne _ _ hkt]; exact hk)
        · intro t' a' v' n hm hn
          simp only [List.mem_cons, Prod.mk.injEq] at hm
          rcases hm with ⟨rfl, rfl, rfl⟩ | hm
          · rw [hl] at hn
            rw [← Option.some.inj hn]
            exact h2 _ _ (by simp)
          · exact h3 t' a' v' n hm hn
        · intro t' n hn
          rcases h4 t' n hn with h | ⟨a', v', h, h'⟩
          · rw [AMap.get_insert] at h
            split at h
            · rename_i htt; subst htt
              exact Or.inr ⟨a, v, by simp, by rw [hl, ← Option.some.inj h]⟩
            · exact Or.inl h
          · exact Or.inr ⟨a', v', List.mem_cons_of_mem _ h, h'⟩
      simp only at h
      cases hg : AMap.get m0 t with
      | none =>
        rw [hg] at h
        exact ⟨(ih h).1, key _ h (by simp [hg])⟩
      | some prev =>
        rw [hg] at h
        have := (ih h).1
        simp only [Bool.or_eq_false_iff, decide_eq_false_iff_not, ne_eq, Decidable.not_not] at this
        refine ⟨this.1, key _ h ?_⟩
        intro p hp
        rw [hg] at hp
        rw [← Option.some.inj hp, this.2]

theorem recordTempIds_ok {m : TempIdMap} : ∀ {acc : TempIdMap} {c : Bool} {T : TempIdMap},
    recordTempIds m acc c = .ok T → c = false ∧ AMap.Sub acc T ∧
      (∀ p ∈ m, AMap.get T p.1 = some p.2) ∧
      (∀ t n, AMap.get T t = some n → AMap.get acc t = some n ∨ (t, n) ∈ m) := by
  induction m with
  | nil =>
    intro acc c T h
    unfold recordTempIds at h
    cases c <;> simp at h
    subst h
    exact ⟨rfl, AMap.Sub.refl _, by simp, fun t n h => Or.inl h⟩
  | cons x r ih =>
    obtain ⟨t, n0⟩ := x
    intro acc c T h
    unfold recordTempIds at h
    have key : ∀ c', recordTempIds r (AMap.insert acc t n0) c' = .ok T →
        (∀ p, AMap.get acc t = some p → p = n0) →
        AMap.Sub acc T ∧ (∀ p ∈ (t, n0) :: r, AMap.get T p.1 = some p.2) ∧
        (∀ t' n, AMap.get T t' = some n → AMap.get acc t' = some n ∨ (t', n) ∈ (t, n0) :: r) := by
      intro c' h hp
      obtain ⟨-, h2, h3, h4⟩ := ih h
      refine ⟨?_, ?_, ?_⟩
      · intro k w hk
        by_cases hkt : t = k
        · subst hkt; rw [hp w hk]; exact h2 _ _ (by simp)
        · exact h2 _ _ (by rw [AMap.get_insert_ne _ _ hkt]; exact hk)
      · intro p hp
        simp only [List.mem_cons] at hp
        rcases hp with rfl | hp
        · exact h2 _ _ (by simp)
        · exact h3 p hp
      · intro t' n hn
        rcases h4 t' n hn with h | h
        · rw [AMap.get_insert] at h
          split at h
          · rename_i htt; subst htt; simp at h; subst h; exact Or.inr (by simp)
          · exact Or.inl h
        · exact Or.inr (List.mem_cons_of_mem _ h)
    cases hg : AMap.get acc t with
    | none =>
      rw [hg] at h
      exact ⟨(ih h).1, key _ h (by simp [hg])⟩
    | some prev =>
      rw [hg] at h
      have := (ih h).1
      simp only [Bool.or_eq_false_iff, decide_eq_false_iff_not, ne_eq, Decidable.not_not] at this
      refine ⟨this.1, key _ h ?_⟩
      intro p hp
      rw [hg] at hp
      rw [← Option.some.inj hp, this.2]

/-! ### One evolution step -/

def UpsertE.term (u : UpsertE) : TTerm := ⟨.add, .inr u.t, u.a, .inl u.v⟩
def UpsertEV.term (u : UpsertEV) : TTerm := ⟨.add, .inr u.t1, u.a, .inr u.t2⟩

/-- `y` replaces exactly the tempids of `x` that `m` knows. -/
def Rewrites (m : TempIdMap) (x y : TTerm) : Prop :=
  y.op = x.op ∧ y.a = x.a ∧
  (match x.e with
    | .inl e => y.e = .inl e
    | .inr t => match AMap.get m t with | some n => y.e = .inl n | none => y.e = .inr t) ∧
  (match x.v with
    | .inl v => y.v = .inl v
    | .inr t => match AMap.get m t with | some n => y.v = .inl (.ref n) | none => y.v = .inr t)

theorem Rewrites.part {m x y} (h : Rewrites m x y) : Part m x y := by
  obtain ⟨h1, h2, h3, h4⟩ := h
  refine ⟨h1, h2, ?_, ?_⟩
  · cases he : x.e with
    | inl e => rw [he] at h3; exact Or.inl h3
    | inr t =>
      rw [he] at h3
      cases hg : AMap.get m t with
      | none => simp only [hg] at h3; exact Or.inl h3
      | some n => simp only [hg] at h3; exact Or.inr ⟨t, n, rfl, hg, h3⟩
  · cases he : x.v with
    | inl e => rw [he] at h4; exact Or.inl h4
    | inr t =>
      rw [he] at h4
      cases hg : AMap.get m t with
      | none => simp only [hg] at h4; exact Or.inl h4
      | some n => simp only [hg] at h4; exact Or.inr ⟨t, n, rfl, hg, h4⟩

/-- A term that still mentions a tempid. -/
def TTerm.open_ (y : TTerm) : Prop := (∃ t, y.e = .inr t) ∨ ∃ t, y.v = .inr t

structure StepSpec (g g' : Generation) (m : TempIdMap) : Prop where
  resolved : ∀ y, y ∈ g'.resolved ↔ y ∈ g.resolved ∨ ∃ x ∈ g.allocations, Denotes m x y
  upserted : ∀ y, y ∈ g'.upserted ↔ ∃ u ∈ g.upsertsE, Denotes m u.term y
  upsertsE : ∀ u, u ∈ g'.upsertsE ↔ ∃ w ∈ g.upsertsEV, ∃ n, AMap.get m w.t2 = some n ∧
    u = ⟨w.t1, w.a, .ref n⟩
  upsertsEV : ∀ u, u ∈ g'.upsertsEV ↔ u ∈ g.upsertsEV ∧ AMap.get m u.t1 = none ∧
    AMap.get m u.t2 = none
  allocations : ∀ y, y ∈ g'.allocations ↔
    (∃ u ∈ g.upsertsE, AMap.get m u.t = none ∧ y = u.term) ∨
    (∃ u ∈ g.upsertsEV, ∃ n, AMap.get m u.t1 = some n ∧ AMap.get m u.t2 = none ∧
      y = ⟨.add, .inl n, u.a, .inr u.t2⟩) ∨
    (∃ x ∈ g.allocations, Rewrites m x y ∧ y.open_)
  lenE : g'.upsertsE.length + g'.upsertsEV.length ≤ g.upsertsEV.length
  wasOpen : ∀ x ∈ g.allocations, x.open_

theorem foldE {m : TempIdMap} {us : List UpsertE} : ∀ {g : Generation},
    (us.foldl (Generation.stepE m) g).resolved = g.resolved ∧
    (us.foldl (Generation.stepE m) g).upsertsE = g.upsertsE ∧
    (us.foldl (Generation.stepE m) g).upsertsEV = g.upsertsEV ∧
    (∀ y, y ∈ (us.foldl (Generation.stepE m) g).upserted ↔ y ∈ g.upserted ∨
      ∃ u ∈ us, Denotes m u.term y) ∧
    (∀ y, y ∈ (us.foldl (Generation.stepE m) g).allocations ↔ y ∈ g.allocations ∨
      ∃ u ∈ us, AMap.get m u.t = none ∧ y = u.term) := by
  induction us with
  | nil => intro g; simp
  | cons u r ih =>
    intro g
    simp only [List.foldl_cons]
    obtain ⟨h1, h2, h3, h4, h5⟩ := ih (g := Generation.stepE m g u)
    have hd : ∀ y, Denotes m u.term y ↔ ∃ n, AMap.get m u.t = some n ∧ y = ⟨.add, n, u.a, u.v⟩ := by
      rintro ⟨op, e, a, v⟩
      simp only [Denotes, UpsertE.term, DenotesE, DenotesV]
      constructor
      · rintro ⟨rfl, rfl, h, rfl⟩; exact ⟨_, h, rfl⟩
      · rintro ⟨n, h, h'⟩; cases h'; exact ⟨rfl, rfl, h, rfl⟩
    cases hg : AMap.get m u.t with
    | none =>
      have hs : Generation.stepE m g u = { g with allocations := g.allocations ++ [u.term] } := by
        simp [Generation.stepE, hg, UpsertE.term]
      rw [hs] at h1 h2 h3 h4 h5 ⊢
      refine ⟨h1, h2, h3, ?_, ?_⟩
      · intro y; rw [h4]
        simp only [List.mem_cons, exists_eq_or_imp, hd y, hg]; simp
      · intro y; rw [h5]
        simp only [List.mem_cons, exists_eq_or_imp, hg, List.mem_append, List.not_mem_nil,
          or_false, true_and, or_assoc]
    | some n =>
      have hs : Generation.stepE m g u =
          { g with upserted := g.upserted ++ [⟨.add, n, u.a, u.v⟩] } := by
        simp [Generation.stepE, hg]
      rw [hs] at h1 h2 h3 h4 h5 ⊢
      refine ⟨h1, h2, h3, ?_, ?_⟩
      · intro y; rw [h4]
        simp only [List.mem_cons, exists_eq_or_imp, hd y, hg, List.mem_append, List.not_mem_nil,
          or_false, Option.some.injEq, exists_eq_left', or_assoc]
      · intro y; rw [h5]
        simp only [List.mem_cons, exists_eq_or_imp, hg]; simp

theorem foldEV {m : TempIdMap} {us : List UpsertEV} : ∀ {g : Generation},
    (us.foldl (Generation.stepEV m) g).resolved = g.resolved ∧
    (us.foldl (Generation.stepEV m) g).upserted = g.upserted ∧
    (∀ u, u ∈ (us.foldl (Generation.stepEV m) g).upsertsE ↔ u ∈ g.upsertsE ∨
      ∃ w ∈ us, ∃ n, AMap.get m w.t2 = some n ∧ u = ⟨w.t1, w.a, .ref n⟩) ∧
    (∀ u, u ∈ (us.foldl (Generation.stepEV m) g).upsertsEV ↔ u ∈ g.upsertsEV ∨
      (u ∈ us ∧ AMap.get m u.t1 = none ∧ AMap.get m u.t2 = none)) ∧
    (∀ y, y ∈ (us.foldl (Generation.stepEV m) g).allocations ↔ y ∈ g.allocations ∨
      ∃ u ∈ us, ∃ n, AMap.get m u.t1 = some n ∧ AMap.get m u.t2 = none ∧
        y = ⟨.add, .inl n, u.a, .inr u.t2⟩) ∧
    (us.foldl (Generation.stepEV m) g).upsertsE.length +
      (us.foldl (Generation.stepEV m) g).upsertsEV.length ≤
      g.upsertsE.length + g.upsertsEV.length + us.length := by
  induction us with
  | nil => intro g; simp
  | cons u r ih =>
    intro g
    simp only [List.foldl_cons]
    obtain ⟨h1, h2, h3, h4, h5, h6⟩ := ih (g := Generation.stepEV m g u)
    have hs1 : (Generation.stepEV m g u).resolved = g.resolved ∧
        (Generation.stepEV m g u).upserted = g.upserted ∧
        (∀ y, y ∈ (Generation.stepEV m g u).upsertsE ↔ y ∈ g.upsertsE ∨
          ∃ n, AMap.get m u.t2 = some n ∧ y = ⟨u.t1, u.a, .ref n⟩) ∧
        (∀ y, y ∈ (Generation.stepEV m g u).upsertsEV ↔ y ∈ g.upsertsEV ∨
          (y = u ∧ AMap.get m u.t1 = none ∧ AMap.get m u.t2 = none)) ∧
        (∀ y, y ∈ (Generation.stepEV m g u).allocations ↔ y ∈ g.allocations ∨
          ∃ n, AMap.get m u.t1 = some n ∧ AMap.get m u.t2 = none ∧
            y = ⟨.add, .inl n, u.a, .inr u.t2⟩) ∧
        (Generation.stepEV m g u).upsertsE.length + (Generation.stepEV m g u).upsertsEV.length ≤
          g.upsertsE.length + g.upsertsEV.length + 1 := by
      unfold Generation.stepEV
      cases hg : AMap.get m u.t1 <;> cases hg2 : AMap.get m u.t2 <;> simp <;> omega
    obtain ⟨s1, s2, s3, s4, s5, s6⟩ := hs1
    refine ⟨h1.trans s1, h2.trans s2, ?_, ?_, ?_, ?_⟩
    · intro y; rw [h3, s3]; simp only [List.mem_cons, exists_eq_or_imp, or_assoc]
    · intro y; rw [h4, s4]; simp only [List.mem_cons, or_assoc]
      grind
    · intro y; rw [h5, s5]; simp only [List.mem_cons, exists_eq_or_imp, or_assoc]
    · simp only [List.length_cons]; omega

theorem stepA_ok {m : TempIdMap} {x : TTerm} {g g' : Generation}
    (h : Generation.stepA m g x = .ok g') :
    x.open_ ∧ g'.upserted = g.upserted ∧ g'.upsertsE = g.upsertsE ∧ g'.upsertsEV = g.upsertsEV ∧
    (∀ y, y ∈ g'.resolved ↔ y ∈ g.resolved ∨ Denotes m x y) ∧
    (∀ y, y ∈ g'.allocations ↔ y ∈ g.allocations ∨ (Rewrites m x y ∧ y.open_)) := by
  obtain ⟨op, e, a, v⟩ := x
  unfold Generation.stepA at h
  cases e with
  | inl e =>
    cases v with
    | inl v => simp at h
    | inr t =>
      simp only at h
      cases hg : AMap.get m t <;> simp only [hg, Res.ok.injEq] at h <;> subst h <;>
        refine ⟨Or.inr ⟨t, rfl⟩, rfl, rfl, rfl, ?_, ?_⟩ <;> rintro ⟨op', e', a', v'⟩ <;>
        simp only [List.mem_append, List.mem_cons, List.not_mem_nil, or_false, Denotes, Rewrites,
          DenotesE, DenotesV, TTerm.open_, hg] <;> grind
  | inr t1 =>
    cases v with
    | inl v =>
      simp only at h
      cases hg : AMap.get m t1 <;> simp only [hg, Res.ok.injEq] at h <;> subst h <;>
        refine ⟨Or.inl ⟨t1, rfl⟩, rfl, rfl, rfl, ?_, ?_⟩ <;> rintro ⟨op', e', a', v'⟩ <;>
        simp only [List.mem_append, List.mem_cons, List.not_mem_nil, or_false, Denotes, Rewrites,
          DenotesE, DenotesV, TTerm.open_, hg] <;> grind
    | inr t =>
      simp only at h
      cases hg : AMap.get m t1 <;> cases hg2 : AMap.get m t <;>
        simp only [hg, hg2, Res.ok.injEq] at h <;> subst h <;>
        refine ⟨Or.inl ⟨t1, rfl⟩, rfl, rfl, rfl, ?_, ?_⟩ <;> rintro ⟨op', e', a', v'⟩ <;>
        simp only [List.mem_append, List.mem_cons, List.not_mem_nil, or_false, Denotes, Rewrites,
          DenotesE, DenotesV, TTerm.open_, hg, hg2] <;> grind

theorem stepAs_ok {m : TempIdMap} {xs : List TTerm} : ∀ {g g' : Generation},
    Generation.stepAs m xs g = .ok g' →
    (∀ x ∈ xs, x.open_) ∧ g'.upserted = g.upserted ∧ g'.upsertsE = g.upsertsE ∧
    g'.upsertsEV = g.upsertsEV ∧
    (∀ y, y ∈ g'.resolved ↔ y ∈ g.resolved ∨ ∃ x ∈ xs, Denotes m x y) ∧
    (∀ y, y ∈ g'.allocations ↔ y ∈ g.allocations ∨ ∃ x ∈ xs, Rewrites m x y ∧ y.open_) := by
  induction xs with
  | nil => intro g g' h; simp only [Generation.stepAs, Res.ok.injEq] at h; subst h; simp
  | cons x r ih =>
    intro g g' h
    unfold Generation.stepAs at h
    cases hs : Generation.stepA m g x with
    | err e => rw [hs] at h; simp at h
    | panic => rw [hs] at h; simp at h
    | ok g1 =>
      rw [hs] at h
      obtain ⟨a0, a1, a2, a3, a4, a5⟩ := stepA_ok hs
      obtain ⟨b0, b1, b2, b3, b4, b5⟩ := ih h
      refine ⟨?_, b1.trans a1, b2.trans a2, b3.trans a3, ?_, ?_⟩
      · intro y hy
        simp only [List.mem_cons] at hy
        rcases hy with rfl | hy
        · exact a0
        · exact b0 y hy
      · intro y; rw [b4, a4]; simp only [List.mem_cons]; grind
      · intro y; rw [b5, a5]; simp only [List.mem_cons]; grind

theorem evolveOneStep_ok {g g' : Generation} {m : TempIdMap} (h : g.evolveOneStep m = .ok g') :
    StepSpec g g' m := by
  unfold Generation.evolveOneStep at h
  obtain ⟨c0, c1, c2, c3, c4, c5⟩ := stepAs_ok h
  obtain ⟨b1, b2, b3, b4, b5, b6⟩ := foldEV (m := m) (us := g.upsertsEV)
    (g := g.upsertsE.foldl (Generation.stepE m) { resolved := g.resolved })
  obtain ⟨a1, a2, a3, a4, a5⟩ := foldE (m := m) (us := g.upsertsE)
    (g := ({ resolved := g.resolved } : Generation))
  refine ⟨?_, ?_, ?_, ?_, ?_, ?_, c0⟩
  · intro y; rw [c4, b1, a1]
  · intro y; rw [c1, b2, a4]; simp
  · intro u; rw [c2, b3, a2]; simp
  · intro u; rw [c3, b4, a3]; simp
  · intro y; rw [c5, b5, a5]; simp [or_assoc]
  · rw [c2, c3]; rw [a2, a3] at b6; simpa using b6

theorem stepA_ne_err {m g x e} : Generation.stepA m g x ≠ .err e := by
  unfold Generation.stepA
  repeat' split
  all_goals simp

end Mentat
