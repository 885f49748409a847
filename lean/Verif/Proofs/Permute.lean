import Verif.Proofs.Resolve
import Verif.Proofs.Trace
/-
The order in which the terms of a transaction are written: resolving tempids.
-/
namespace Mentat

/-- The same elements, whatever their order and number. -/
def SameMem {α : Type} (l l' : List α) : Prop := ∀ x, x ∈ l ↔ x ∈ l'

theorem SameMem.symm {α : Type} {l l' : List α} (h : SameMem l l') : SameMem l' l := fun x => (h x).symm

theorem SameMem.nil {α : Type} {l : List α} (h : SameMem [] l) : l = [] := by
  cases l with
  | nil => rfl
  | cons x r => exact absurd ((h x).2 (by simp)) (by simp)

theorem SameMem.eq_nil {α : Type} {l l' : List α} (h : SameMem l l') (e : l = []) : l' = [] := by
  subst e; exact h.nil

/-- Equal as maps. -/
def SameMap {K V : Type} [DecidableEq K] (m m' : AMap K V) : Prop := ∀ k, AMap.get m k = AMap.get m' k

theorem SameMap.symm {K V : Type} [DecidableEq K] {m m' : AMap K V} (h : SameMap m m') : SameMap m' m :=
  fun k => (h k).symm

theorem SameMap.sub {K V : Type} [DecidableEq K] {m m' : AMap K V} (h : SameMap m m') : AMap.Sub m m' :=
  fun k v hk => by rw [← h k]; exact hk

/-! ### Sorting the terms into populations -/

theorem isUniqueIdentity_isOk {s a} : (∃ b, isUniqueIdentity s a = .ok b) ↔ (s.attr a).isSome := by
  unfold isUniqueIdentity
  cases s.attr a <;> simp

theorem from_isOk {s : Schema} {l : List TTerm} : ∀ {g i},
    (∃ p, Generation.from s l g i = .ok p) ↔
      ∀ x ∈ l, x.op = .add → (∃ t, x.e = .inr t) → (s.attr x.a).isSome := by
  induction l with
  | nil => intro g i; simp [Generation.from]
  | cons x r ih =>
    intro g i
    obtain ⟨op, e, a, v⟩ := x
    unfold Generation.from
    rw [List.forall_mem_cons]
    cases e with
    | inl e => cases v <;> simp [ih]
    | inr t =>
      cases op with
      | retract => cases v <;> simp [ih, addAndUnique]
      | add =>
        cases ha : s.attr a with
        | none => cases v <;> simp [addAndUnique, isUniqueIdentity, ha]
        | some at_ =>
          cases v <;> cases hu : decide (at_.unique = some .identity) <;>
            simp [addAndUnique, isUniqueIdentity, ha, ih, hu]

structure SameGen (g g' : Generation) : Prop where
  upsertsE : SameMem g.upsertsE g'.upsertsE
  upsertsEV : SameMem g.upsertsEV g'.upsertsEV
  allocations : SameMem g.allocations g'.allocations
  upserted : SameMem g.upserted g'.upserted
  resolved : SameMem g.resolved g'.resolved

theorem from_follows {s : Schema} {l l' : List TTerm} (hl : SameMem l l') {g i}
    (h : Generation.from s l {} [] = .ok (g, i)) :
    ∃ g' i', Generation.from s l' {} [] = .ok (g', i') ∧ SameGen g g' ∧ SameMem i i' := by
  have ok : ∃ p, Generation.from s l' {} [] = .ok p := by
    rw [from_isOk]
    intro x hx
    exact from_isOk.1 ⟨_, h⟩ x ((hl x).2 hx)
  obtain ⟨⟨g', i'⟩, h'⟩ := ok
  have a := from_spec h
  have b := from_spec h'
  refine ⟨g', i', h', ⟨?_, ?_, ?_, ?_, ?_⟩, ?_⟩
  · intro u; rw [a.upsertsE, b.upsertsE, hl]
  · intro u; rw [a.upsertsEV, b.upsertsEV, hl]
  · intro u; rw [a.allocations, b.allocations, hl]
  · rw [a.upserted, b.upserted]; exact fun _ => Iff.rfl
  · rw [a.resolved, b.resolved]; exact fun _ => Iff.rfl
  · intro u; rw [a.inert, b.inert, hl]

/-! ### Upserting -/

theorem resolveTempIdAvs_of {st : Store} {f : TempId → Entid} {l : List (TempId × Entid × TypedValue)} :
    ∀ {m0 : TempIdMap}, (∀ t n, AMap.get m0 t = some n → n = f t) →
    (∀ t a v n, (t, a, v) ∈ l → st.lookupAV a v = some n → n = f t) →
    ∃ m, resolveTempIdAvs st l m0 false = .ok m := by
  induction l with
  | nil => intro m0 _ _; exact ⟨m0, by simp [resolveTempIdAvs]⟩
  | cons x r ih =>
    obtain ⟨t, a, v⟩ := x
    intro m0 h0 h
    have hr : ∀ t a v n, (t, a, v) ∈ r → st.lookupAV a v = some n → n = f t :=
      fun t a v n hm => h t a v n (List.mem_cons_of_mem _ hm)
    unfold resolveTempIdAvs
    cases hv : st.lookupAV a v with
    | none => exact ih h0 hr
    | some n =>
      have hn := h t a v n (by simp) hv
      have h1 : ∀ u k, AMap.get (AMap.insert m0 t n) u = some k → k = f u := by
        intro u k hu
        rw [AMap.get_insert] at hu
        split at hu
        · rename_i e; subst e; cases hu; exact hn
        · exact h0 u k hu
      cases hg : AMap.get m0 t with
      | none => exact ih h1 hr
      | some p =>
        have hp := h0 t p hg
        simp only [hn, hp, ne_eq, not_true_eq_false, decide_false, Bool.or_self]
        rw [hn] at h1
        exact ih h1 hr

theorem resolveTempIdAvs_wf {st : Store} {l : List (TempId × Entid × TypedValue)} : ∀ {m0 c m},
    AMap.WF m0 → resolveTempIdAvs st l m0 c = .ok m → AMap.WF m := by
  induction l with
  | nil =>
    intro m0 c m hw h
    unfold resolveTempIdAvs at h
    split at h
    · cases h
    · cases h; exact hw
  | cons x r ih =>
    obtain ⟨t, a, v⟩ := x
    intro m0 c m hw h
    unfold resolveTempIdAvs at h
    cases hv : st.lookupAV a v with
    | none => rw [hv] at h; exact ih hw h
    | some n =>
      rw [hv] at h
      simp only at h
      cases hg : AMap.get m0 t with
      | none => rw [hg] at h; exact ih (AMap.wf_insert hw _ _) h
      | some p => rw [hg] at h; exact ih (AMap.wf_insert hw _ _) h

theorem resolveTempIdAvs_follows {st : Store} {l l' : List (TempId × Entid × TypedValue)}
    (hl : SameMem l l') {m} (h : resolveTempIdAvs st l [] false = .ok m) :
    ∃ m', resolveTempIdAvs st l' [] false = .ok m' ∧ SameMap m m' := by
  obtain ⟨-, -, h1, h2⟩ := resolveTempIdAvs_ok h
  obtain ⟨m', h'⟩ := resolveTempIdAvs_of (st := st) (f := fun t => (AMap.get m t).getD 0) (l := l')
    (m0 := []) (by simp) (by
      intro t a v n hm hv
      simp [h1 t a v n ((hl _).2 hm) hv])
  obtain ⟨-, -, k1, k2⟩ := resolveTempIdAvs_ok h'
  refine ⟨m', h', fun t => ?_⟩
  cases hg : AMap.get m t with
  | some n =>
    rcases h2 t n hg with h | ⟨a, v, hm, hv⟩
    · simp at h
    · exact (k1 t a v n ((hl _).1 hm) hv).symm
  | none =>
    cases hg' : AMap.get m' t with
    | none => rfl
    | some n =>
      rcases k2 t n hg' with h | ⟨a, v, hm, hv⟩
      · simp at h
      · rw [h1 t a v n ((hl _).2 hm) hv] at hg; cases hg

theorem recordTempIds_of {f : TempId → Entid} {m : TempIdMap} : ∀ {acc : TempIdMap},
    (∀ t n, AMap.get acc t = some n → n = f t) → (∀ p ∈ m, p.2 = f p.1) →
    ∃ T, recordTempIds m acc false = .ok T := by
  induction m with
  | nil => intro acc _ _; exact ⟨acc, by simp [recordTempIds]⟩
  | cons x r ih =>
    obtain ⟨t, n⟩ := x
    intro acc h0 h
    have hn : n = f t := h (t, n) (by simp)
    have h1 : ∀ u k, AMap.get (AMap.insert acc t n) u = some k → k = f u := by
      intro u k hu
      rw [AMap.get_insert] at hu
      split at hu
      · rename_i e; subst e; cases hu; exact hn
      · exact h0 u k hu
    have hr : ∀ p ∈ r, p.2 = f p.1 := fun p hp => h p (List.mem_cons_of_mem _ hp)
    unfold recordTempIds
    cases hg : AMap.get acc t with
    | none => exact ih h1 hr
    | some p =>
      have hp := h0 t p hg
      simp only [hn, hp, ne_eq, not_true_eq_false, decide_false, Bool.or_self]
      rw [hn] at h1
      exact ih h1 hr

theorem recordTempIds_wf {m : TempIdMap} : ∀ {acc : TempIdMap} {c T}, AMap.WF acc →
    recordTempIds m acc c = .ok T → AMap.WF T := by
  induction m with
  | nil =>
    intro acc c T hw h
    unfold recordTempIds at h
    split at h
    · cases h
    · cases h; exact hw
  | cons x r ih =>
    obtain ⟨t, n⟩ := x
    intro acc c T hw h
    unfold recordTempIds at h
    cases hg : AMap.get acc t with
    | none => rw [hg] at h; exact ih (AMap.wf_insert hw _ _) h
    | some p => rw [hg] at h; exact ih (AMap.wf_insert hw _ _) h

theorem recordTempIds_follows {m m' acc acc' : TempIdMap} (hm : SameMap m m') (hw : AMap.WF m)
    (hw' : AMap.WF m') (ha : SameMap acc acc') {T} (h : recordTempIds m acc false = .ok T) :
    ∃ T', recordTempIds m' acc' false = .ok T' ∧ SameMap T T' := by
  obtain ⟨-, hs, h1, h2⟩ := recordTempIds_ok h
  obtain ⟨T', h'⟩ := recordTempIds_of (f := fun t => (AMap.get T t).getD 0) (m := m') (acc := acc')
    (by intro t n ht; rw [← ha] at ht; simp [hs t n ht])
    (by
      rintro ⟨t, n⟩ hp
      have := AMap.mem_get hw' hp
      rw [← hm] at this
      simp [h1 _ (AMap.get_some_mem this)])
  obtain ⟨-, ks, k1, k2⟩ := recordTempIds_ok h'
  refine ⟨T', h', fun t => ?_⟩
  cases hg : AMap.get T t with
  | some n =>
    rcases h2 t n hg with h | h
    · rw [ha] at h; exact (ks t n h).symm
    · have := AMap.mem_get hw h
      rw [hm] at this
      exact (k1 _ (AMap.get_some_mem this)).symm
  | none =>
    cases hg' : AMap.get T' t with
    | none => rfl
    | some n =>
      rcases k2 t n hg' with h | h
      · rw [← ha] at h; rw [hs t n h] at hg; cases hg
      · have := AMap.mem_get hw' h
        rw [← hm] at this
        rw [h1 _ (AMap.get_some_mem this)] at hg; cases hg

theorem stepA_isOk {m : TempIdMap} {g : Generation} {x : TTerm} (h : x.open_) :
    ∃ g', Generation.stepA m g x = .ok g' := by
  obtain ⟨op, e, a, v⟩ := x
  unfold Generation.stepA
  cases e with
  | inl e =>
    cases v with
    | inl v => rcases h with ⟨t, h⟩ | ⟨t, h⟩ <;> cases h
    | inr t => simp only; cases AMap.get m t <;> exact ⟨_, rfl⟩
  | inr t =>
    cases v with
    | inl v => simp only; cases AMap.get m t <;> exact ⟨_, rfl⟩
    | inr u => simp only; cases AMap.get m t <;> cases AMap.get m u <;> exact ⟨_, rfl⟩

theorem stepAs_isOk {m : TempIdMap} {xs : List TTerm} : ∀ {g : Generation}, (∀ x ∈ xs, x.open_) →
    ∃ g', Generation.stepAs m xs g = .ok g' := by
  induction xs with
  | nil => intro g _; exact ⟨g, rfl⟩
  | cons x r ih =>
    intro g h
    obtain ⟨g1, h1⟩ := stepA_isOk (m := m) (g := g) (h x (by simp))
    unfold Generation.stepAs
    rw [h1]
    exact ih fun y hy => h y (List.mem_cons_of_mem _ hy)

theorem SameMap.denotes {m m' : TempIdMap} (h : SameMap m m') (x : TTerm) (y : RTerm) :
    Denotes m x y ↔ Denotes m' x y := ⟨.mono h.sub, .mono h.symm.sub⟩

theorem SameMap.rewrites {m m' : TempIdMap} (h : SameMap m m') (x y : TTerm) :
    Rewrites m x y ↔ Rewrites m' x y := by
  unfold Rewrites
  simp only [show ∀ t, AMap.get m t = AMap.get m' t from h]

theorem evolveOneStep_follows {g g' : Generation} (hg : SameGen g g') {m m' : TempIdMap}
    (hm : SameMap m m') {k} (h : g.evolveOneStep m = .ok k) :
    ∃ k', g'.evolveOneStep m' = .ok k' ∧ SameGen k k' := by
  have a := evolveOneStep_ok h
  obtain ⟨k', h'⟩ : ∃ k', g'.evolveOneStep m' = .ok k' :=
    stepAs_isOk fun x hx => a.wasOpen x ((hg.allocations x).2 hx)
  have b := evolveOneStep_ok h'
  have hget : ∀ t, AMap.get m t = AMap.get m' t := hm
  refine ⟨k', h', ⟨?_, ?_, ?_, ?_, ?_⟩⟩
  · intro u; rw [a.upsertsE, b.upsertsE]; simp only [hg.upsertsEV _, hget]
  · intro u; rw [a.upsertsEV, b.upsertsEV, hg.upsertsEV, hget, hget]
  · intro y
    rw [a.allocations, b.allocations]
    simp only [hg.upsertsE _, hg.upsertsEV _, hg.allocations _, hget, hm.rewrites]
  · intro y; rw [a.upserted, b.upserted]; simp only [hg.upsertsE _, hm.denotes]
  · intro y; rw [a.resolved, b.resolved]; simp only [hg.resolved _, hg.allocations _, hm.denotes]

theorem evolveStep_follows {st : Store} {g g' : Generation} (hg : SameGen g g') {T T' : TempIdMap}
    (hT : SameMap T T') (hw : AMap.WF T) (hw' : AMap.WF T') {k U} (h : evolveStep st g T = .ok (k, U)) :
    ∃ k' U', evolveStep st g' T' = .ok (k', U') ∧ SameGen k k' ∧ SameMap U U' ∧ AMap.WF U ∧ AMap.WF U' := by
  unfold evolveStep at h
  rw [Res.bind_eq_ok] at h
  obtain ⟨m, h1, h⟩ := h
  rw [Res.bind_eq_ok] at h
  obtain ⟨k1, h2, h⟩ := h
  rw [Res.bind_eq_ok] at h
  obtain ⟨U1, h3, h⟩ := h
  simp only [Res.pure_eq, Res.ok.injEq, Prod.mk.injEq] at h
  obtain ⟨rfl, rfl⟩ := h
  have hav : SameMem g.tempIdAvs g'.tempIdAvs := by
    intro p; simp only [Generation.tempIdAvs, List.mem_map, hg.upsertsE _]
  obtain ⟨m', h1', hm⟩ := resolveTempIdAvs_follows hav h1
  have wm := resolveTempIdAvs_wf AMap.wf_nil h1
  have wm' := resolveTempIdAvs_wf AMap.wf_nil h1'
  obtain ⟨k', h2', hk⟩ := evolveOneStep_follows hg hm h2
  obtain ⟨U', h3', hU⟩ := recordTempIds_follows hm wm wm' hT h3
  refine ⟨k', U', ?_, hk, hU, recordTempIds_wf hw h3, recordTempIds_wf hw' h3'⟩
  unfold evolveStep
  rw [h1']
  simp only [Res.ok_bind, h2', h3', Res.pure_eq]

theorem SameGen.canEvolve {g g' : Generation} (h : SameGen g g') : g.canEvolve = g'.canEvolve := by
  unfold Generation.canEvolve
  have := h.upsertsE
  cases e : g.upsertsE with
  | nil => rw [e] at this; rw [this.nil]
  | cons x r =>
    cases e' : g'.upsertsE with
    | nil => rw [e, e'] at this; exact absurd this.symm.nil (by simp)
    | cons => rfl

theorem evolveLoop_follows {st : Store} : ∀ {fuel fuel' g g' T T'}, SameGen g g' → SameMap T T' →
    AMap.WF T → AMap.WF T' → ∀ {k U}, evolveLoop st fuel g T = some (.ok (k, U)) →
    ∀ {r}, evolveLoop st fuel' g' T' = some r →
    ∃ k' U', r = .ok (k', U') ∧ SameGen k k' ∧ SameMap U U' ∧ AMap.WF U ∧ AMap.WF U' := by
  intro fuel
  induction fuel with
  | zero =>
    intro fuel' g g' T T' hg hT hw hw' k U h r h'
    unfold evolveLoop at h h'
    rw [← hg.canEvolve] at h'
    split at h
    · simp at h
    · rename_i hc
      simp only [hc, Bool.false_eq_true, if_false] at h'
      simp only [Option.some.injEq, Res.ok.injEq, Prod.mk.injEq] at h h'
      obtain ⟨rfl, rfl⟩ := h
      exact ⟨_, _, h'.symm, hg, hT, hw, hw'⟩
  | succ n ih =>
    intro fuel' g g' T T' hg hT hw hw' k U h r h'
    unfold evolveLoop at h h'
    rw [← hg.canEvolve] at h'
    split at h
    · rename_i hc
      simp only [hc, if_true] at h'
      simp only at h
      cases fuel' with
      | zero => simp at h'
      | succ n' =>
        simp only at h'
        cases he : evolveStep st g T with
        | ok p =>
          obtain ⟨g1, T1⟩ := p
          rw [he] at h
          obtain ⟨g1', T1', he', h1, h2, h3, h4⟩ := evolveStep_follows hg hT hw hw' he
          rw [he'] at h'
          exact ih h1 h2 h3 h4 h h'
        | err e => rw [he] at h; simp at h
        | panic => rw [he] at h; simp at h
    · rename_i hc
      simp only [hc, Bool.false_eq_true, if_false] at h'
      simp only [Option.some.injEq, Res.ok.injEq, Prod.mk.injEq] at h h'
      obtain ⟨rfl, rfl⟩ := h
      exact ⟨_, _, h'.symm, hg, hT, hw, hw'⟩

theorem evolve_follows {st : Store} {g g' : Generation} (hg : SameGen g g') {k U}
    (h : evolve st g = .ok (k, U)) :
    ∃ k' U', evolve st g' = .ok (k', U') ∧ SameGen k k' ∧ SameMap U U' ∧ AMap.WF U ∧ AMap.WF U' := by
  unfold evolve at *
  cases h1 : evolveLoop st g.measure g [] with
  | none => rw [h1] at h; cases h
  | some r =>
    rw [h1] at h
    simp only at h
    subst h
    cases h2 : evolveLoop st g'.measure g' [] with
    | none => exact absurd h2 (evolveLoop_terminates (Nat.le_refl _))
    | some r' =>
      obtain ⟨k', U', rfl, h3⟩ := evolveLoop_follows hg (fun _ => rfl) AMap.wf_nil AMap.wf_nil h1 h2
      exact ⟨k', U', rfl, h3⟩

/-! ### Allocating -/

theorem Text.le_antisymm : ∀ {s t : Text}, Text.le s t = true → Text.le t s = true → s = t
  | [], [], _, _ => rfl
  | [], _ :: _, _, h => by simp [Text.le] at h
  | _ :: _, [], h, _ => by simp [Text.le] at h
  | c :: r, d :: s, h, h' => by
    unfold Text.le at h h'
    by_cases e : c = d
    · subst e
      simp only [if_true] at h h'
      rw [Text.le_antisymm h h']
    · have e' : ¬ d = c := fun x => e x.symm
      simp only [e, e', if_false, decide_eq_true_eq] at h h'
      omega

theorem Text.le_total : ∀ (s t : Text), Text.le s t = true ∨ Text.le t s = true
  | [], _ => .inl rfl
  | _ :: _, [] => .inr rfl
  | c :: r, d :: s => by
    unfold Text.le
    by_cases e : c = d
    · subst e
      simp only [if_true]
      exact Text.le_total r s
    · have e' : ¬ d = c := fun x => e x.symm
      simp only [e, e', if_false, decide_eq_true_eq]
      have : c.toNat ≠ d.toNat := fun h => e (Char.toNat_inj.1 h)
      omega

theorem Text.le_trans : ∀ {s t u : Text}, Text.le s t = true → Text.le t u = true → Text.le s u = true
  | [], _, _, _, _ => rfl
  | _ :: _, [], _, h, _ => by simp [Text.le] at h
  | _ :: _, _ :: _, [], _, h => by simp [Text.le] at h
  | c :: r, d :: s, b :: t, h, h' => by
    unfold Text.le at h h' ⊢
    by_cases e : c = d
    · subst e
      by_cases e2 : c = b
      · subst e2
        simp only [if_true] at h h' ⊢
        exact Text.le_trans h h'
      · simp only [e2, if_true, if_false] at h h' ⊢
        exact h'
    · by_cases e2 : d = b
      · subst e2
        simp only [e, if_false] at h ⊢
        exact h
      · simp only [e, e2, if_false, decide_eq_true_eq] at h h'
        have : c ≠ b := by rintro rfl; omega
        simp only [this, if_false, decide_eq_true_eq]
        omega

theorem TempId.le_antisymm {s t : TempId} (h : TempId.le s t = true) (h' : TempId.le t s = true) : s = t := by
  cases s <;> cases t <;> simp only [TempId.le, decide_eq_true_eq] at h h'
  · rw [Text.le_antisymm h h']
  · cases h'
  · cases h
  · congr 1; omega

theorem TempId.le_total (s t : TempId) : TempId.le s t = true ∨ TempId.le t s = true := by
  cases s <;> cases t <;> simp only [TempId.le, decide_eq_true_eq]
  · exact Text.le_total _ _
  · simp
  · simp
  · omega

theorem TempId.le_trans {s t u : TempId} (h : TempId.le s t = true) (h' : TempId.le t u = true) :
    TempId.le s u = true := by
  cases s <;> cases t <;> cases u <;> simp only [TempId.le, decide_eq_true_eq] at h h' ⊢
  · exact Text.le_trans h h'
  · cases h'
  · cases h
  · cases h
  · cases h'
  · omega

def TempId.Lt (s t : TempId) : Prop := TempId.le s t = true ∧ s ≠ t

theorem insertTempId_sorted {t : TempId} : ∀ {l : List TempId}, l.Pairwise TempId.Lt →
    (insertTempId t l).Pairwise TempId.Lt
  | [], _ => by simp [insertTempId]
  | u :: r, h => by
    unfold insertTempId
    rw [List.pairwise_cons] at h
    split
    · exact List.pairwise_cons.2 h
    · rename_i hne
      split
      · rename_i hle
        refine List.pairwise_cons.2 ⟨?_, List.pairwise_cons.2 h⟩
        intro x hx
        rcases List.mem_cons.1 hx with rfl | hx
        · exact ⟨hle, hne⟩
        · refine ⟨TempId.le_trans hle (h.1 x hx).1, ?_⟩
          rintro rfl
          exact (h.1 t hx).2 (TempId.le_antisymm (h.1 t hx).1 hle)
      · rename_i hle
        refine List.pairwise_cons.2 ⟨?_, insertTempId_sorted h.2⟩
        intro x hx
        rcases mem_insertTempId.1 hx with rfl | hx
        · exact ⟨(TempId.le_total x u).resolve_left hle, fun e => hne e.symm⟩
        · exact h.1 x hx

theorem sorted_unique : ∀ {l l' : List TempId}, l.Pairwise TempId.Lt → l'.Pairwise TempId.Lt →
    SameMem l l' → l = l'
  | [], _, _, _, h => h.nil.symm
  | _ :: _, [], _, _, h => absurd h.symm.nil (by simp)
  | x :: r, y :: s, h, h', hm => by
    rw [List.pairwise_cons] at h h'
    have e : x = y := by
      rcases List.mem_cons.1 ((hm x).1 (by simp)) with e | hx
      · exact e
      rcases List.mem_cons.1 ((hm y).2 (by simp)) with e | hy
      · exact e.symm
      exact TempId.le_antisymm (h.1 y hy).1 (h'.1 x hx).1
    subst e
    congr 1
    refine sorted_unique h.2 h'.2 fun z => ?_
    constructor
    · intro hz
      rcases List.mem_cons.1 ((hm z).1 (List.mem_cons_of_mem _ hz)) with e | hz'
      · exact absurd e.symm (h.1 z hz).2
      · exact hz'
    · intro hz
      rcases List.mem_cons.1 ((hm z).2 (List.mem_cons_of_mem _ hz)) with e | hz'
      · exact absurd e.symm (h'.1 z hz).2
      · exact hz'

theorem scan_sorted {s : Schema} {A : List TTerm} : ∀ {ids0 avs0 ids avs}, ids0.Pairwise TempId.Lt →
    allocationsScan s A ids0 avs0 = .ok (ids, avs) → ids.Pairwise TempId.Lt := by
  induction A with
  | nil =>
    intro ids0 avs0 ids avs h0 h
    simp only [allocationsScan, Res.ok.injEq, Prod.mk.injEq] at h
    obtain ⟨rfl, -⟩ := h
    exact h0
  | cons x r ih =>
    obtain ⟨op, e, a, v⟩ := x
    intro ids0 avs0 ids avs h0 h
    unfold allocationsScan at h
    cases op with
    | retract => exact ih h0 h
    | add =>
      cases e with
      | inl e =>
        cases v with
        | inl v => simp at h
        | inr t => exact ih (insertTempId_sorted h0) h
      | inr t =>
        cases v with
        | inl v =>
          simp only at h
          cases hu : isUniqueIdentity s a with
          | ok u => rw [hu] at h; exact ih (insertTempId_sorted h0) h
          | err e => rw [hu] at h; simp at h
          | panic => rw [hu] at h; simp at h
        | inr t' =>
          simp only at h
          cases hu : isUniqueIdentity s a with
          | ok u => rw [hu] at h; exact ih (insertTempId_sorted (insertTempId_sorted h0)) h
          | err e => rw [hu] at h; simp at h
          | panic => rw [hu] at h; simp at h

/-- The terms for which the scan goes through. -/
def Scannable (s : Schema) (x : TTerm) : Prop :=
  x.op = .add → x.open_ ∧ ((∃ t, x.e = .inr t) → (s.attr x.a).isSome)

theorem scan_isOk {s : Schema} {A : List TTerm} : ∀ {ids avs},
    (∃ p, allocationsScan s A ids avs = .ok p) ↔ ∀ x ∈ A, Scannable s x := by
  induction A with
  | nil => intro ids avs; simp [allocationsScan]
  | cons x r ih =>
    intro ids avs
    obtain ⟨op, e, a, v⟩ := x
    unfold allocationsScan
    rw [List.forall_mem_cons]
    cases op with
    | retract => simp [ih, Scannable]
    | add =>
      cases e with
      | inl e => cases v <;> simp [ih, Scannable, TTerm.open_]
      | inr t =>
        cases ha : s.attr a with
        | none => cases v <;> simp [Scannable, TTerm.open_, isUniqueIdentity, ha]
        | some at_ => cases v <;> simp [Scannable, TTerm.open_, isUniqueIdentity, ha, ih]

theorem Mentions.congr {A A' : List TTerm} (h : SameMem A A') (t : TempId) : Mentions A t ↔ Mentions A' t := by
  simp only [Mentions, h _]

theorem Share.congr {s : Schema} {A A' : List TTerm} (h : SameMem A A') : Share s A = Share s A' := by
  funext t t'
  simp only [Share, h _]

theorem indexOf?_mem {r : TempId} {l : List TempId} : (indexOf? r l).isSome ↔ r ∈ l := by
  induction l with
  | nil => simp [indexOf?]
  | cons x xs ih =>
    unfold indexOf?
    split
    · rename_i h; simp [h]
    · rename_i h
      simp only [Option.isSome_map, ih, List.mem_cons]
      constructor
      · exact Or.inr
      · rintro (e | h')
        · exact absurd e.symm h
        · exact h'

theorem indexOf?_concat {x r : TempId} {l : List TempId} :
    indexOf? x (l ++ [r]) =
      match indexOf? x l with
      | some i => some i
      | none => if r = x then some l.length else none := by
  induction l with
  | nil => simp only [List.nil_append, indexOf?]; split <;> simp
  | cons y ys ih =>
    simp only [List.cons_append, indexOf?]
    split
    · rfl
    · rw [ih]
      cases indexOf? x ys with
      | some i => simp
      | none => simp only [Option.map_none]; split <;> simp

theorem denseLabels_congr {uf uf' : UF} : ∀ {ids reps reps' acc}, reps.length = reps'.length →
    (∀ t ∈ ids, indexOf? (UF.find uf t) reps = indexOf? (UF.find uf' t) reps') →
    (∀ t ∈ ids, ∀ t' ∈ ids, UF.find uf t = UF.find uf t' ↔ UF.find uf' t = UF.find uf' t') →
    denseLabels uf ids reps acc = denseLabels uf' ids reps' acc := by
  intro ids
  induction ids with
  | nil => intros; rfl
  | cons t ts ih =>
    intro reps reps' acc hlen hidx hsame
    have ht := hidx t (by simp)
    have key : (setInsert reps (UF.find uf t)).length = (setInsert reps' (UF.find uf' t)).length ∧
        ∀ u ∈ t :: ts, indexOf? (UF.find uf u) (setInsert reps (UF.find uf t)) =
          indexOf? (UF.find uf' u) (setInsert reps' (UF.find uf' t)) := by
      unfold setInsert
      by_cases hm : UF.find uf t ∈ reps
      · have hm' : UF.find uf' t ∈ reps' := by rw [← indexOf?_mem, ← ht, indexOf?_mem]; exact hm
        simp only [hm, hm', if_true]
        exact ⟨hlen, hidx⟩
      · have hm' : UF.find uf' t ∉ reps' := by rw [← indexOf?_mem, ← ht, indexOf?_mem]; exact hm
        simp only [hm, hm', if_false, List.length_append, hlen, List.length_cons, List.length_nil,
          true_and]
        intro u hu
        rw [indexOf?_concat, indexOf?_concat, hidx u hu, hlen]
        simp only [hsame t (by simp) u hu]
    unfold denseLabels
    simp only
    rw [key.2 t (by simp)]
    have go := fun acc => ih (acc := acc) key.1 (fun u hu => key.2 u (List.mem_cons_of_mem _ hu))
      (fun u hu u' hu' => hsame u (List.mem_cons_of_mem _ hu) u' (List.mem_cons_of_mem _ hu'))
    cases indexOf? (UF.find uf' t) (setInsert reps' (UF.find uf' t)) with
    | some i => exact go _
    | none => exact go _

theorem labels_follow {s : Schema} {g g' : Generation} (hg : SameGen g g') {labels}
    (h : g.tempIdsInAllocations s = .ok labels) : g'.tempIdsInAllocations s = .ok labels := by
  unfold Generation.tempIdsInAllocations at h ⊢
  rw [Res.bind_eq_ok] at h
  obtain ⟨_, h1, h⟩ := h
  rw [Res.bind_eq_ok] at h
  obtain ⟨_, h2, h⟩ := h
  rw [Res.bind_eq_ok] at h
  obtain ⟨⟨ids, avs⟩, h3, h⟩ := h
  simp only [Res.pure_eq, Res.ok.injEq] at h
  simp only [Res.assert_eq_ok] at h1 h2
  obtain ⟨⟨ids', avs'⟩, h3'⟩ : ∃ p, allocationsScan s g'.allocations [] [] = .ok p := by
    rw [scan_isOk]
    exact fun x hx => scan_isOk.1 ⟨_, h3⟩ x ((hg.allocations x).2 hx)
  have hids : ids' = ids := by
    refine sorted_unique (scan_sorted .nil h3') (scan_sorted .nil h3) fun t => ?_
    rw [(scan_spec h3').ids, (scan_spec h3).ids, Mentions.congr hg.allocations]
  subst hids
  rw [hg.upsertsE.eq_nil h1, hg.upsertsEV.eq_nil h2]
  simp only [Res.assert, if_true, Res.ok_bind, h3', Res.pure_eq, Res.ok.injEq]
  rw [← h]
  refine denseLabels_congr rfl (fun _ _ => by simp [indexOf?]) ?_
  intro t ht t' ht'
  rw [scan_classes h3 t ht t' ht', scan_classes h3' t ht t' ht', Share.congr hg.allocations]

theorem finalTerms_iff {m : TempIdMap} {xs : List TTerm} :
    (∃ ys, finalTerms m xs = .ok ys) ↔ ∀ x ∈ xs, ∃ y, finalTerm m x = .ok y := by
  induction xs with
  | nil => simp [finalTerms]
  | cons x r ih =>
    rw [List.forall_mem_cons, ← ih, finalTerms]
    cases finalTerm m x with
    | ok y => cases finalTerms m r <;> simp
    | err e => simp
    | panic => simp

theorem finalTerms_mem {m : TempIdMap} {xs : List TTerm} : ∀ {ys}, finalTerms m xs = .ok ys →
    ∀ y, y ∈ ys ↔ ∃ x ∈ xs, finalTerm m x = .ok y := by
  induction xs with
  | nil => intro ys h; simp [finalTerms] at h; subst h; simp
  | cons x r ih =>
    intro ys h y
    unfold finalTerms at h
    cases hx : finalTerm m x with
    | err e => rw [hx] at h; simp at h
    | panic => rw [hx] at h; simp at h
    | ok z =>
      rw [hx] at h
      simp only at h
      cases hr : finalTerms m r with
      | err e => rw [hr] at h; simp at h
      | panic => rw [hr] at h; simp at h
      | ok zs =>
        rw [hr] at h
        simp only [Res.ok.injEq] at h
        subst h
        simp only [List.mem_cons, exists_eq_or_imp, hx, Res.ok.injEq, ih hr]
        constructor
        · rintro (e | h)
          · exact .inl e.symm
          · exact .inr h
        · rintro (e | h)
          · exact .inl e.symm
          · exact .inr h

structure SamePops (p p' : FinalPopulations) : Prop where
  upserted : SameMem p.upserted p'.upserted
  resolved : SameMem p.resolved p'.resolved
  allocated : SameMem p.allocated p'.allocated

theorem intoFinal_follows {g g' : Generation} (hg : SameGen g g') {m p} (h : g.intoFinal m = .ok p) :
    ∃ p', g'.intoFinal m = .ok p' ∧ SamePops p p' := by
  unfold Generation.intoFinal at h ⊢
  rw [Res.bind_eq_ok] at h
  obtain ⟨_, h1, h⟩ := h
  rw [Res.bind_eq_ok] at h
  obtain ⟨_, h2, h⟩ := h
  rw [Res.bind_eq_ok] at h
  obtain ⟨ys, h3, h⟩ := h
  simp only [Res.pure_eq, Res.ok.injEq] at h
  simp only [Res.assert_eq_ok] at h1 h2
  subst h
  obtain ⟨ys', h3'⟩ : ∃ ys, finalTerms m g'.allocations = .ok ys := by
    rw [finalTerms_iff]
    exact fun x hx => finalTerms_iff.1 ⟨_, h3⟩ x ((hg.allocations x).2 hx)
  rw [hg.upsertsE.eq_nil h1, hg.upsertsEV.eq_nil h2]
  simp only [Res.assert, if_true, Res.ok_bind, h3', Res.pure_eq, Res.ok.injEq,
    exists_eq_left']
  refine ⟨hg.upserted, hg.resolved, fun y => ?_⟩
  simp only [finalTerms_mem h3, finalTerms_mem h3', hg.allocations _]

theorem SameMap.insert {K V : Type} [DecidableEq K] {m m' : AMap K V} (h : SameMap m m') (k : K) (v : V) :
    SameMap (AMap.insert m k v) (AMap.insert m' k v) := by
  intro j; rw [AMap.get_insert, AMap.get_insert, h]

theorem recordAllocated_follows {al : TempIdMap} : ∀ {T T' : TempIdMap}, SameMap T T' → AMap.WF T →
    AMap.WF T' → ∀ {M}, recordAllocated al T = .ok M →
    ∃ M', recordAllocated al T' = .ok M' ∧ SameMap M M' ∧ AMap.WF M ∧ AMap.WF M' := by
  induction al with
  | nil =>
    intro T T' hT hw hw' M h
    simp only [recordAllocated, Res.ok.injEq] at h
    subst h
    exact ⟨T', rfl, hT, hw, hw'⟩
  | cons x r ih =>
    obtain ⟨t, n⟩ := x
    intro T T' hT hw hw' M h
    unfold recordAllocated at h ⊢
    have hc : AMap.contains T t = AMap.contains T' t := by unfold AMap.contains; rw [hT]
    rw [← hc]
    split at h
    · cases h
    · rename_i hn
      rw [if_neg hn]
      exact ih (hT.insert t n) (AMap.wf_insert hw _ _) (AMap.wf_insert hw' _ _) h

theorem SameMap.keys_perm {K V : Type} [DecidableEq K] {m m' : AMap K V} (h : SameMap m m') (hw : AMap.WF m)
    (hw' : AMap.WF m') : (AMap.keys m).Perm (AMap.keys m') := by
  rw [List.perm_ext_iff_of_nodup hw hw']
  intro k
  rw [← AMap.get_isSome_iff, ← AMap.get_isSome_iff, h]

theorem SameMap.length {K V : Type} [DecidableEq K] {m m' : AMap K V} (h : SameMap m m') (hw : AMap.WF m)
    (hw' : AMap.WF m') : m.length = m'.length := by
  have := (h.keys_perm hw hw').length_eq
  simpa [AMap.keys] using this

theorem SameMap.perm {K V : Type} [DecidableEq K] [DecidableEq V] {m m' : AMap K V} (h : SameMap m m') (hw : AMap.WF m)
    (hw' : AMap.WF m') : List.Perm m m' := by
  have nd : ∀ {m : AMap K V}, AMap.WF m → List.Nodup m := by
    intro m hw
    refine List.Pairwise.imp ?_ (List.pairwise_map.1 hw)
    rintro a b h rfl; exact h rfl
  rw [List.perm_ext_iff_of_nodup (nd hw) (nd hw')]
  rintro ⟨k, v⟩
  constructor
  · intro hm
    have := AMap.mem_get hw hm
    rw [h] at this
    exact AMap.get_some_mem this
  · intro hm
    have := AMap.mem_get hw' hm
    rw [← h] at this
    exact AMap.get_some_mem this

structure SameStage (s s' : Stage3) : Prop where
  pops : SamePops s.pops s'.pops
  inert : SameMem s.inert s'.inert
  tempids : List.Perm s.tempids s'.tempids
  user : s.user = s'.user

theorem SameGen.allocateUnresolved {g g' : Generation} (h : SameGen g g') :
    SameGen g.allocateUnresolved g'.allocateUnresolved := by
  refine ⟨h.upsertsE, fun _ => Iff.rfl, ?_, h.upserted, h.resolved⟩
  intro y
  simp only [Generation.allocateUnresolved, List.mem_append, List.mem_map, h.allocations _, h.upsertsEV _]

theorem resolveTempIds_follows {s : Schema} {st : Store} {user : Partition} {l l' : List TTerm}
    {ids ids' : List TempId} (hl : SameMem l l') (hi : ids.Perm ids') {s3}
    (h : resolveTempIds s st user l ids = .ok s3) :
    ∃ s3', resolveTempIds s st user l' ids' = .ok s3' ∧ SameStage s3 s3' := by
  unfold resolveTempIds at h ⊢
  rw [Res.bind_eq_ok] at h
  obtain ⟨⟨g, i⟩, h1, h⟩ := h
  simp only at h
  rw [Res.bind_eq_ok] at h
  obtain ⟨⟨k, U⟩, h2, h⟩ := h
  simp only at h
  rw [Res.bind_eq_ok] at h
  obtain ⟨labels, h3, h⟩ := h
  rw [Res.bind_eq_ok] at h
  obtain ⟨⟨start, user'⟩, h4, h⟩ := h
  simp only at h
  rw [Res.bind_eq_ok] at h
  obtain ⟨pops, h5, h⟩ := h
  rw [Res.bind_eq_ok] at h
  obtain ⟨M, h6, h⟩ := h
  rw [Res.bind_eq_ok] at h
  obtain ⟨_, h7, h⟩ := h
  rw [Res.bind_eq_ok] at h
  obtain ⟨_, h8, h⟩ := h
  simp only [Res.pure_eq, Res.ok.injEq] at h
  simp only [Res.assert_eq_ok] at h7 h8
  subst h
  obtain ⟨g', i', h1', hg, hin⟩ := from_follows hl h1
  obtain ⟨k', U', h2', hk, hU, wU, wU'⟩ := evolve_follows hg h2
  have h3' := labels_follow hk.allocateUnresolved h3
  obtain ⟨pops', h5', hp⟩ := intoFinal_follows hk.allocateUnresolved h5
  obtain ⟨M', h6', hM, wM, wM'⟩ := recordAllocated_follows hU wU wU' h6
  rw [h1']
  simp only [Res.ok_bind]
  rw [h2']
  simp only [Res.ok_bind]
  rw [h3']
  simp only [Res.ok_bind]
  rw [h4]
  simp only [Res.ok_bind]
  rw [h5']
  simp only [Res.ok_bind]
  rw [h6']
  simp only [Res.ok_bind]
  have e7 : M'.length = ids'.length := by rw [← hM.length wM wM', h7, hi.length_eq]
  have e8 : ∀ t ∈ ids', AMap.contains M' t := by
    intro t ht
    have := h8 t (hi.mem_iff.2 ht)
    unfold AMap.contains at *
    rw [← hM]; exact this
  refine ⟨{ pops := pops', inert := i', tempids := M', user := user' }, ?_, ⟨hp, hin, hM.perm wM wM', rfl⟩⟩
  rw [Res.bind_eq_ok]
  refine ⟨(), Res.assert_eq_ok.2 e7, ?_⟩
  rw [Res.bind_eq_ok]
  exact ⟨(), Res.assert_eq_ok.2 e8, rfl⟩

end Mentat
