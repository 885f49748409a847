import Verif.Proofs.Resolve
import Verif.Proofs.HistoryRows
/- When the transactor cannot panic. -/
namespace Mentat

theorem Res.bind_panic {α β : Type u} {x : Res α} {f : α → Res β} :
    (x >>= f) = .panic ↔ x = .panic ∨ ∃ a, x = .ok a ∧ f a = .panic := by
  cases x <;> simp

theorem Res.assert_panic {c : Prop} [Decidable c] : Res.assert c = .panic ↔ ¬ c := by
  unfold Res.assert; split <;> simp_all

theorem Res.require_panic {c : Prop} [Decidable c] {e : Err} : Res.require c e ≠ .panic := by
  unfold Res.require; split <;> simp

/-! ### Stage 3 -/

theorem isUniqueIdentity_np {s a} : isUniqueIdentity s a ≠ .panic := by
  unfold isUniqueIdentity; split <;> simp

theorem addAndUnique_np {s op a} : addAndUnique s op a ≠ .panic := by
  unfold addAndUnique; split
  · exact isUniqueIdentity_np
  · simp

theorem from_np {s : Schema} : ∀ {terms : List TTerm} {g i}, Generation.from s terms g i ≠ .panic := by
  intro terms
  induction terms with
  | nil => intro g i; simp [Generation.from]
  | cons x r ih =>
    intro g i
    unfold Generation.from
    split
    · split
      · exact ih
      · exact ih
      · simp
      · rename_i h; exact absurd h addAndUnique_np
    · split
      · exact ih
      · exact ih
      · simp
      · rename_i h; exact absurd h addAndUnique_np
    · exact ih
    · exact ih

theorem resolveTempIdAvs_np {st : Store} : ∀ {avs m c}, resolveTempIdAvs st avs m c ≠ .panic := by
  intro avs
  induction avs with
  | nil => intro m c; unfold resolveTempIdAvs; split <;> simp
  | cons x r ih =>
    intro m c
    obtain ⟨t, a, v⟩ := x
    unfold resolveTempIdAvs
    split
    · split <;> exact ih
    · exact ih

theorem recordTempIds_np : ∀ {m acc : TempIdMap} {c}, recordTempIds m acc c ≠ .panic := by
  intro m
  induction m with
  | nil => intro acc c; unfold recordTempIds; split <;> simp
  | cons x r ih =>
    intro acc c
    obtain ⟨t, n⟩ := x
    unfold recordTempIds
    split <;> exact ih

theorem recordTempIds_wf : ∀ {m acc : TempIdMap} {c T}, AMap.WF acc →
    recordTempIds m acc c = .ok T → AMap.WF T := by
  intro m
  induction m with
  | nil =>
    intro acc c T hw h
    unfold recordTempIds at h
    split at h
    · simp at h
    · simp only [Res.ok.injEq] at h; subst h; exact hw
  | cons x r ih =>
    intro acc c T hw h
    obtain ⟨t, n⟩ := x
    unfold recordTempIds at h
    split at h <;> exact ih (AMap.wf_insert hw _ _) h

theorem stepA_np {m g x} (h : TTerm.open_ x) : Generation.stepA m g x ≠ .panic := by
  obtain ⟨op, e, a, v⟩ := x
  unfold Generation.stepA
  cases e with
  | inl e =>
    cases v with
    | inl v => rcases h with ⟨t, h⟩ | ⟨t, h⟩ <;> simp at h
    | inr t => simp only; split <;> simp
  | inr t1 =>
    cases v with
    | inl v => simp only; split <;> simp
    | inr t => simp only; split <;> simp

theorem stepAs_np {m} : ∀ {xs : List TTerm} {g}, (∀ x ∈ xs, TTerm.open_ x) →
    Generation.stepAs m xs g ≠ .panic := by
  intro xs
  induction xs with
  | nil => intro g _; simp [Generation.stepAs]
  | cons x r ih =>
    intro g h
    unfold Generation.stepAs
    split
    · exact ih fun y hy => h y (List.mem_cons_of_mem _ hy)
    · simp
    · rename_i hp; exact absurd hp (stepA_np (h x (by simp)))

theorem evolveStep_np {st : Store} {g : Generation} {T} (h : ∀ x ∈ g.allocations, TTerm.open_ x) :
    evolveStep st g T ≠ .panic := by
  intro hp
  unfold evolveStep at hp
  rw [Res.bind_panic] at hp
  rcases hp with hp | ⟨m, -, hp⟩
  · exact resolveTempIdAvs_np hp
  rw [Res.bind_panic] at hp
  rcases hp with hp | ⟨g', -, hp⟩
  · exact stepAs_np h hp
  rw [Res.bind_panic] at hp
  rcases hp with hp | ⟨T', -, hp⟩
  · exact recordTempIds_np hp
  · simp at hp

theorem evolveLoop_np {s st terms inert} : ∀ {fuel g T}, GenInv s st terms inert g T →
    evolveLoop st fuel g T ≠ some .panic := by
  intro fuel
  induction fuel with
  | zero => intro g T hi; unfold evolveLoop; split <;> simp
  | succ fuel ih =>
    intro g T hi
    unfold evolveLoop
    split
    · simp only
      cases hs : evolveStep st g T with
      | err e => simp
      | panic => exact absurd hs (evolveStep_np hi.isOpen)
      | ok p =>
        obtain ⟨g1, T1⟩ := p
        exact ih (genInv_step hi hs)
    · simp

/-- The resolved tempids are no longer mentioned, except by identities that exist. -/
structure PInv (st : Store) (g : Generation) (T : TempIdMap) : Prop where
  wf : AMap.WF T
  e : ∀ u ∈ g.upsertsE, (∃ n, AMap.get T u.t = some n) → ∃ n, st.lookupAV u.a u.v = some n
  ev : ∀ u ∈ g.upsertsEV, AMap.get T u.t1 = none ∧ AMap.get T u.t2 = none
  al : ∀ x ∈ g.allocations, ∀ t, x.e = .inr t ∨ x.v = .inr t → AMap.get T t = none

/-- No identity assertion between two upserting tempids is new: excluded by `C28_fails`. -/
def KnownLinks (s : Schema) (st : Store) (terms : List TTerm) : Prop :=
  ∀ t1 a t2 n1 n2, (⟨.add, .inr t1, a, .inr t2⟩ : TTerm) ∈ terms → IsIdentity s a →
    Upserts s st.rows terms t1 n1 → Upserts s st.rows terms t2 n2 →
    ∃ n, st.lookupAV a (.ref n2) = some n

theorem evolveStep_wf {st : Store} {g g' : Generation} {T T'} (hw : AMap.WF T)
    (h : evolveStep st g T = .ok (g', T')) : AMap.WF T' := by
  unfold evolveStep at h
  rw [Res.bind_eq_ok] at h
  obtain ⟨m, h1, h⟩ := h
  rw [Res.bind_eq_ok] at h
  obtain ⟨g1, h2, h⟩ := h
  rw [Res.bind_eq_ok] at h
  obtain ⟨T1, h3, h⟩ := h
  simp only [Res.pure_eq, Res.ok.injEq, Prod.mk.injEq] at h
  obtain ⟨rfl, rfl⟩ := h
  exact recordTempIds_wf hw h3

theorem pinv_step {s st terms inert g T g' T'} (hk : KnownLinks s st terms)
    (hi : GenInv s st terms inert g T) (hp : PInv st g T)
    (h : evolveStep st g T = .ok (g', T')) : PInv st g' T' := by
  have hi' := genInv_step hi h
  obtain ⟨m, sp, hT, hm, hl, hl', hT'⟩ := evolveStep_ok h
  have none' : ∀ t, AMap.get T t = none → AMap.get m t = none → AMap.get T' t = none := by
    intro t h1 h2
    cases hg : AMap.get T' t with
    | none => rfl
    | some n => rcases hT' t n hg with h | h
                · rw [h1] at h; simp at h
                · rw [h2] at h; simp at h
  refine ⟨evolveStep_wf hp.wf h, ?_, ?_, ?_⟩
  · rintro u hu ⟨n1, hn1⟩
    obtain ⟨w, hw, n2, hn2, rfl⟩ := (sp.upsertsE u).mp hu
    simp only at hn1 ⊢
    obtain ⟨⟨op, e, a, v⟩, hx, ho, ha, he, hv⟩ :=
      hi.sound w.term (mem_pending.mpr (Or.inr (Or.inl ⟨w, hw, rfl⟩)))
    simp only [UpsertEV.term] at ho ha he hv
    subst ho; subst ha
    have he' : e = .inr w.t1 := by
      rcases he with he | ⟨_, _, _, _, he⟩
      · exact he.symm
      · simp at he
    have hv' : v = .inr w.t2 := by
      rcases hv with hv | ⟨_, _, _, _, hv⟩
      · exact hv.symm
      · simp at hv
    subst he'; subst hv'
    exact hk _ _ _ _ _ hx (hi.idEV w hw) (hi'.why _ _ hn1) (hi'.why _ _ (hm _ _ hn2))
  · intro u hu
    obtain ⟨hu, h1, h2⟩ := (sp.upsertsEV u).mp hu
    exact ⟨none' _ (hp.ev u hu).1 h1, none' _ (hp.ev u hu).2 h2⟩
  · intro y hy t ht
    rcases (sp.allocations y).mp hy with ⟨u, hu, hn, rfl⟩ | ⟨u, hu, n, hn, hn2, rfl⟩ | ⟨x, hx, hr, ho⟩
    · have : t = u.t := by
        rcases ht with ht | ht
        · simpa [UpsertE.term] using ht.symm
        · simp [UpsertE.term] at ht
      subst this
      refine none' _ ?_ hn
      cases hg : AMap.get T u.t with
      | none => rfl
      | some k =>
        obtain ⟨n, hn'⟩ := hp.e u hu ⟨k, hg⟩
        have := hl u hu n hn'
        rw [hn] at this; simp at this
    · have : t = u.t2 := by
        rcases ht with ht | ht
        · simp at ht
        · simpa using ht.symm
      subst this
      exact none' _ (hp.ev u hu).2 hn2
    · obtain ⟨-, -, r3, r4⟩ := hr
      rcases ht with ht | ht
      · cases he : x.e with
        | inl e => rw [he] at r3; simp only at r3; rw [r3] at ht; simp at ht
        | inr t' =>
          rw [he] at r3
          cases hg : AMap.get m t' with
          | some n => simp only [hg] at r3; rw [r3] at ht; simp at ht
          | none =>
            simp only [hg] at r3; rw [r3] at ht
            simp only [Sum.inr.injEq] at ht; subst ht
            exact none' _ (hp.al x hx _ (Or.inl he)) hg
      · cases he : x.v with
        | inl e => rw [he] at r4; simp only at r4; rw [r4] at ht; simp at ht
        | inr t' =>
          rw [he] at r4
          cases hg : AMap.get m t' with
          | some n => simp only [hg] at r4; rw [r4] at ht; simp at ht
          | none =>
            simp only [hg] at r4; rw [r4] at ht
            simp only [Sum.inr.injEq] at ht; subst ht
            exact none' _ (hp.al x hx _ (Or.inr he)) hg

theorem pinv_loop {s st terms inert} (hk : KnownLinks s st terms) : ∀ {fuel g T g' T'},
    GenInv s st terms inert g T → PInv st g T →
    evolveLoop st fuel g T = some (.ok (g', T')) → PInv st g' T' := by
  intro fuel
  induction fuel with
  | zero =>
    intro g T g' T' hi hp h
    unfold evolveLoop at h
    split at h
    · simp at h
    · simp only [Option.some.injEq, Res.ok.injEq, Prod.mk.injEq] at h
      obtain ⟨rfl, rfl⟩ := h
      exact hp
  | succ fuel ih =>
    intro g T g' T' hi hp h
    unfold evolveLoop at h
    split at h
    · simp only at h
      cases hs : evolveStep st g T with
      | err e => rw [hs] at h; simp at h
      | panic => rw [hs] at h; simp at h
      | ok p =>
        obtain ⟨g1, T1⟩ := p
        rw [hs] at h
        exact ih (genInv_step hi hs) (pinv_step hk hi hp hs) h
    · simp only [Option.some.injEq, Res.ok.injEq, Prod.mk.injEq] at h
      obtain ⟨rfl, rfl⟩ := h
      exact hp

theorem pinv_init {st : Store} {g : Generation} : PInv st g [] :=
  ⟨AMap.wf_nil, by simp, by simp, by simp⟩

theorem allocationsScan_np {s : Schema} : ∀ {A : List TTerm} {ids avs}, (∀ x ∈ A, TTerm.open_ x) →
    allocationsScan s A ids avs ≠ .panic := by
  intro A
  induction A with
  | nil => intro ids avs _; simp [allocationsScan]
  | cons x r ih =>
    intro ids avs h
    have hr : ∀ y ∈ r, TTerm.open_ y := fun y hy => h y (List.mem_cons_of_mem _ hy)
    have hx := h x (by simp)
    obtain ⟨op, e, a, v⟩ := x
    unfold allocationsScan
    cases op with
    | retract => exact ih hr
    | add =>
      cases e with
      | inl e =>
        cases v with
        | inl v => rcases hx with ⟨t, h⟩ | ⟨t, h⟩ <;> simp at h
        | inr t => exact ih hr
      | inr t =>
        cases v with
        | inl v =>
          simp only
          cases hu : isUniqueIdentity s a with
          | ok u => exact ih hr
          | err _ => simp
          | panic => exact absurd hu isUniqueIdentity_np
        | inr t =>
          simp only
          cases hu : isUniqueIdentity s a with
          | ok u => exact ih hr
          | err _ => simp
          | panic => exact absurd hu isUniqueIdentity_np

theorem denseLabels_wf {uf : UF} : ∀ {ids reps acc}, AMap.WF acc →
    AMap.WF (denseLabels uf ids reps acc) := by
  intro ids
  induction ids with
  | nil => intro reps acc h; exact h
  | cons t ts ih =>
    intro reps acc h
    unfold denseLabels
    simp only
    split
    · exact ih (AMap.wf_insert h _ _)
    · exact ih h

theorem tempIdsInAllocations_wf {s : Schema} {g : Generation} {labels}
    (h : g.tempIdsInAllocations s = .ok labels) : AMap.WF labels := by
  unfold Generation.tempIdsInAllocations at h
  rw [Res.bind_eq_ok] at h
  obtain ⟨_, h1, h⟩ := h
  rw [Res.bind_eq_ok] at h
  obtain ⟨_, h2, h⟩ := h
  rw [Res.bind_eq_ok] at h
  obtain ⟨⟨ids, avs⟩, h3, h⟩ := h
  simp only [Res.pure_eq, Res.ok.injEq] at h
  rw [← h]
  exact denseLabels_wf AMap.wf_nil

theorem tempIdsInAllocations_np {s : Schema} {g : Generation} (h1 : g.upsertsE = [])
    (h2 : g.upsertsEV = []) (h : ∀ x ∈ g.allocations, TTerm.open_ x) :
    g.tempIdsInAllocations s ≠ .panic := by
  intro hp
  unfold Generation.tempIdsInAllocations at hp
  rw [Res.bind_panic, Res.assert_panic] at hp
  rcases hp with hp | ⟨_, -, hp⟩
  · exact hp h1
  rw [Res.bind_panic, Res.assert_panic] at hp
  rcases hp with hp | ⟨_, -, hp⟩
  · exact hp h2
  rw [Res.bind_panic] at hp
  rcases hp with hp | ⟨⟨_, _⟩, -, hp⟩
  · exact allocationsScan_np h hp
  · simp at hp

theorem finalTerm_np {m : TempIdMap} {x : TTerm} (ho : TTerm.open_ x)
    (h : x.op = .add → ∀ t, x.e = .inr t ∨ x.v = .inr t → ∃ n, AMap.get m t = some n) :
    finalTerm m x ≠ .panic := by
  obtain ⟨op, e, a, v⟩ := x
  have miss : ∀ t, (e = .inr t ∨ v = .inr t) → AMap.get m t = none → op = .retract := by
    intro t ht hn
    cases op with
    | retract => rfl
    | add => obtain ⟨n, h'⟩ := h rfl t ht; rw [hn] at h'; simp at h'
  unfold finalTerm
  cases e with
  | inl e =>
    cases v with
    | inl v => rcases ho with ⟨t, h⟩ | ⟨t, h⟩ <;> simp at h
    | inr t =>
      simp only
      cases hg : AMap.get m t with
      | some n => simp
      | none => rw [miss t (Or.inr rfl) hg]; simp
  | inr t1 =>
    cases v with
    | inl v =>
      simp only
      cases hg : AMap.get m t1 with
      | some n => simp
      | none => rw [miss t1 (Or.inl rfl) hg]; simp
    | inr t =>
      simp only
      cases hg : AMap.get m t1 with
      | none => rw [miss t1 (Or.inl rfl) hg]; simp
      | some n =>
        cases hg2 : AMap.get m t with
        | some n => simp
        | none => rw [miss t (Or.inr rfl) hg2]; simp

theorem finalTerms_np {m : TempIdMap} : ∀ {xs : List TTerm}, (∀ x ∈ xs, TTerm.open_ x) →
    (∀ x ∈ xs, x.op = .add → ∀ t, x.e = .inr t ∨ x.v = .inr t → ∃ n, AMap.get m t = some n) →
    finalTerms m xs ≠ .panic := by
  intro xs
  induction xs with
  | nil => intro _ _; simp [finalTerms]
  | cons x r ih =>
    intro h1 h2
    have := ih (fun y hy => h1 y (List.mem_cons_of_mem _ hy)) (fun y hy => h2 y (List.mem_cons_of_mem _ hy))
    unfold finalTerms
    split
    · split
      · simp
      · simp
      · rename_i hp; exact absurd hp this
    · simp
    · rename_i hp; exact absurd hp (finalTerm_np (h1 x (by simp)) (h2 x (by simp)))

theorem recordAllocated_np : ∀ {al T : TempIdMap}, AMap.WF al → (∀ t ∈ AMap.keys al, AMap.get T t = none) →
    recordAllocated al T ≠ .panic := by
  intro al
  induction al with
  | nil => intro T _ _; simp [recordAllocated]
  | cons x r ih =>
    intro T hw hd
    obtain ⟨t, n⟩ := x
    simp only [AMap.WF, AMap.keys, List.map_cons, List.nodup_cons] at hw
    unfold recordAllocated
    have ht := hd t (by simp [AMap.keys])
    rw [if_neg (by simp [AMap.contains, ht])]
    refine ih hw.2 ?_
    intro t' ht'
    rw [AMap.get_insert_ne]
    · exact hd t' (by simp only [AMap.keys, List.map_cons, List.mem_cons]; exact Or.inr ht')
    · rintro rfl; exact hw.1 ht'

theorem recordAllocated_wf : ∀ {al T M : TempIdMap}, AMap.WF T → recordAllocated al T = .ok M →
    AMap.WF M := by
  intro al
  induction al with
  | nil => intro T M hw h; simp only [recordAllocated, Res.ok.injEq] at h; subst h; exact hw
  | cons x r ih =>
    intro T M hw h
    obtain ⟨t, n⟩ := x
    unfold recordAllocated at h
    split at h
    · simp at h
    · exact ih (AMap.wf_insert hw _ _) h

theorem nodup_length_le {α : Type} [DecidableEq α] : ∀ {l l' : List α}, l.Nodup → (∀ x ∈ l, x ∈ l') →
    l.length ≤ l'.length := by
  intro l
  induction l with
  | nil => intro l' _ _; simp
  | cons x r ih =>
    intro l' hn hs
    simp only [List.nodup_cons] at hn
    have hx : x ∈ l' := hs x (by simp)
    have := ih (l' := l'.erase x) hn.2 (by
      intro y hy
      have : y ≠ x := by rintro rfl; exact hn.1 hy
      exact (List.mem_erase_of_ne this).mpr (hs y (List.mem_cons_of_mem _ hy)))
    rw [List.length_erase_of_mem hx] at this
    have := List.length_pos_of_mem hx
    simp only [List.length_cons]
    omega

theorem upserts_mentioned {s rows terms t n} (h : Upserts s rows terms t n) :
    ∃ x ∈ terms, x.e = .inr t ∨ x.v = .inr t := by
  cases h with
  | direct h _ _ => exact ⟨_, h, Or.inl rfl⟩
  | via h _ _ _ => exact ⟨_, h, Or.inl rfl⟩

/-- Tempid resolution does not panic. -/
theorem resolveTempIds_np {s st user terms ids} (hk : KnownLinks s st terms)
    (hids : ids.Nodup) (hmen : ∀ t, t ∈ ids ↔ ∃ x ∈ terms, x.e = .inr t ∨ x.v = .inr t)
    (hu : user.start ≤ user.next) (hroom : user.next + (ids.length : Int) ≤ user.fin) :
    resolveTempIds s st user terms ids ≠ .panic := by
  intro h
  unfold resolveTempIds at h
  rw [Res.bind_panic] at h
  rcases h with h | ⟨⟨g0, inert⟩, h1, h⟩
  · exact from_np h
  have hi0 := genInv_init (st := st) h1
  simp only at h
  rw [Res.bind_panic] at h
  rcases h with h | ⟨⟨g1, U⟩, h2, h⟩
  · unfold evolve at h
    cases hl : evolveLoop st g0.measure g0 [] with
    | none => exact evolveLoop_terminates (Nat.le_refl _) hl
    | some r =>
      simp only [hl] at h
      subst h
      exact evolveLoop_np hi0 hl
  have h2' : evolveLoop st g0.measure g0 [] = some (.ok (g1, U)) := by
    unfold evolve at h2
    cases hl : evolveLoop st g0.measure g0 [] with
    | none => simp [hl] at h2
    | some r => simp only [hl] at h2; rw [h2]
  obtain ⟨hi, -, hE, -⟩ := evolveLoop_ok h2' hi0
  have hpi := pinv_loop hk hi0 pinv_init h2'
  have hA : ∀ y, y ∈ g1.allocateUnresolved.allocations ↔ y ∈ g1.pending := by
    intro y
    simp only [Generation.allocateUnresolved, Generation.pending, hE, List.map_nil, List.nil_append,
      List.mem_append]
    exact or_comm
  have hopen : ∀ y ∈ g1.allocateUnresolved.allocations, TTerm.open_ y := by
    intro y hy
    rcases mem_pending.mp ((hA y).mp hy) with ⟨u, hu, rfl⟩ | ⟨u, hu, rfl⟩ | hy
    · rw [hE] at hu; simp at hu
    · exact Or.inl ⟨_, rfl⟩
    · exact hi.isOpen y hy
  have hun : ∀ y ∈ g1.pending, ∀ t, y.e = .inr t ∨ y.v = .inr t → AMap.get U t = none := by
    intro y hy t ht
    rcases mem_pending.mp hy with ⟨u, hu, rfl⟩ | ⟨u, hu, rfl⟩ | hy
    · rw [hE] at hu; simp at hu
    · simp only [UpsertEV.term, Sum.inr.injEq] at ht
      rcases ht with rfl | rfl
      · exact (hpi.ev u hu).1
      · exact (hpi.ev u hu).2
    · exact hpi.al y hy t ht
  have hpm : ∀ y ∈ g1.pending, ∀ t, y.e = .inr t ∨ y.v = .inr t → t ∈ ids := by
    intro y hy t ht
    obtain ⟨x, hx, -, -, he, hv⟩ := hi.sound y hy
    refine (hmen t).mpr ⟨x, hx, ?_⟩
    rcases ht with ht | ht
    · rcases he with he | ⟨_, _, _, _, he⟩
      · exact Or.inl (he ▸ ht)
      · rw [he] at ht; simp at ht
    · rcases hv with he | ⟨_, _, _, _, he⟩
      · exact Or.inr (he ▸ ht)
      · rw [he] at ht; simp at ht
  have hE' : g1.allocateUnresolved.upsertsE = [] := hE
  have hEV' : g1.allocateUnresolved.upsertsEV = [] := rfl
  simp only at h
  rw [Res.bind_panic] at h
  rcases h with h | ⟨labels, h3, h⟩
  · exact tempIdsInAllocations_np hE' hEV' hopen h
  have hlw := tempIdsInAllocations_wf h3
  obtain ⟨-, -, hlab⟩ := tempIdsInAllocations_spec h3
  have hkey : ∀ t ∈ AMap.keys labels, AMap.get U t = none ∧ t ∈ ids := by
    intro t ht
    obtain ⟨y, hy, -, hm⟩ := (hlab.keys t).mp (AMap.get_isSome_iff.mpr ht)
    exact ⟨hun y ((hA y).mp hy) t hm, hpm y ((hA y).mp hy) t hm⟩
  have hlen : labels.length ≤ ids.length := by
    have := nodup_length_le hlw fun t ht => (hkey t ht).2
    simpa [AMap.keys] using this
  rw [Res.bind_panic] at h
  rcases h with h | ⟨⟨start, user'⟩, h4, h⟩
  · unfold Partition.allocate Partition.setNext Partition.allowsEntid at h
    rw [if_pos (by simp only [decide_eq_true_eq]; omega)] at h
    simp at h
  generalize hal : (labels.map fun (p : TempId × Nat) => (p.1, start + (p.2 : Int))) = allocs at h
  simp only at h
  rw [Res.bind_panic] at h
  have hak : AMap.keys allocs = AMap.keys labels := by
    rw [← hal]; simp [AMap.keys, Function.comp_def]
  rcases h with h | ⟨pops, h5, h⟩
  · unfold Generation.intoFinal at h
    rw [Res.bind_panic, Res.assert_panic] at h
    rcases h with h | ⟨_, -, h⟩
    · exact h hE'
    rw [Res.bind_panic, Res.assert_panic] at h
    rcases h with h | ⟨_, -, h⟩
    · exact h hEV'
    rw [Res.bind_panic] at h
    rcases h with h | ⟨_, -, h⟩
    · refine finalTerms_np hopen ?_ h
      intro x hx ho t ht
      have : (AMap.get labels t).isSome := (hlab.keys t).mpr ⟨x, hx, ho, ht⟩
      rw [AMap.get_isSome_iff, ← hak, ← AMap.get_isSome_iff] at this
      exact Option.isSome_iff_exists.mp this
    · simp at h
  unfold Generation.intoFinal at h5
  rw [Res.bind_eq_ok] at h5
  obtain ⟨_, h9, h5⟩ := h5
  rw [Res.bind_eq_ok] at h5
  obtain ⟨_, h10, h5⟩ := h5
  rw [Res.bind_eq_ok] at h5
  obtain ⟨allocated, h11, h5⟩ := h5
  obtain ⟨f1, -⟩ := finalTerms_ok h11
  rw [Res.bind_panic] at h
  rcases h with h | ⟨M, h6, h⟩
  · refine recordAllocated_np ?_ ?_ h
    · unfold AMap.WF; rw [hak]; exact hlw
    · intro t ht; rw [hak] at ht; exact (hkey t ht).1
  obtain ⟨r1, r2, r3, r4⟩ := recordAllocated_ok h6
  have hMw := recordAllocated_wf hpi.wf h6
  have hMk : ∀ t, t ∈ AMap.keys M → t ∈ ids := by
    intro t ht
    obtain ⟨n, hn⟩ := Option.isSome_iff_exists.mp (AMap.get_isSome_iff.mpr ht)
    rcases r3 t n hn with h | h
    · exact (hmen t).mpr (upserts_mentioned (hi.why t n h))
    · have : t ∈ AMap.keys allocs := List.mem_map.mpr ⟨_, h, rfl⟩
      rw [hak] at this
      exact (hkey t this).2
  have hkM : ∀ t ∈ ids, ∃ n, AMap.get M t = some n := by
    intro t ht
    obtain ⟨x, hx, hm⟩ := (hmen t).mp ht
    have ofDen : ∀ {T : TempIdMap} {x : TTerm} {y : RTerm}, Denotes T x y →
        x.e = .inr t ∨ x.v = .inr t → ∃ n, AMap.get T t = some n := by
      rintro T x y ⟨-, -, he, hv⟩ (h | h)
      · rw [h] at he; exact ⟨_, he⟩
      · rw [h] at hv; obtain ⟨n, hn, -⟩ := hv; exact ⟨n, hn⟩
    have up : (∃ n, AMap.get U t = some n) → ∃ n, AMap.get M t = some n := by
      rintro ⟨n, hn⟩; exact ⟨n, r1 _ _ hn⟩
    rcases hi.complete x hx with ⟨y, hy, hd⟩ | ⟨z, hz, hp⟩ | ⟨y, hy, hd⟩ | hd
    · obtain ⟨n, hn⟩ := ofDen hd hm; simp at hn
    · obtain ⟨-, -, he, hv⟩ := hp
      have : (z.e = .inr t ∨ z.v = .inr t) ∨ ∃ n, AMap.get U t = some n := by
        rcases hm with hm | hm
        · rcases he with he | ⟨t', n, h1, h2, _⟩
          · exact Or.inl (Or.inl (he.trans hm))
          · rw [hm] at h1; simp only [Sum.inr.injEq] at h1; subst h1; exact Or.inr ⟨n, h2⟩
        · rcases hv with he | ⟨t', n, h1, h2, _⟩
          · exact Or.inl (Or.inr (he.trans hm))
          · rw [hm] at h1; simp only [Sum.inr.injEq] at h1; subst h1; exact Or.inr ⟨n, h2⟩
      rcases this with hm' | h
      · obtain ⟨y, -, hd⟩ := f1 z ((hA z).mpr hz)
        obtain ⟨n, hn⟩ := ofDen hd hm'
        exact ⟨n, r2 (t, n) (AMap.get_some_mem hn)⟩
      · exact up h
    · exact up (ofDen hd hm)
    · obtain ⟨-, -, t', n, v, he, hg, hv, -⟩ := hd
      rcases hm with hm | hm
      · rw [hm] at he; simp only [Sum.inr.injEq] at he; subst he; exact up ⟨n, hg⟩
      · rw [hm] at hv; obtain ⟨n, hn, -⟩ := hv; exact up ⟨n, hn⟩
  rw [Res.bind_panic, Res.assert_panic] at h
  rcases h with h | ⟨_, -, h⟩
  · apply h
    apply Nat.le_antisymm
    · have := nodup_length_le hMw hMk
      simpa [AMap.keys] using this
    · have := nodup_length_le (l' := AMap.keys M) hids (by
        intro t ht
        obtain ⟨n, hn⟩ := hkM t ht
        exact AMap.get_isSome_iff.mp (by simp [hn]))
      simpa [AMap.keys] using this
  rw [Res.bind_panic, Res.assert_panic] at h
  rcases h with h | ⟨_, -, h⟩
  · apply h
    intro t ht
    obtain ⟨n, hn⟩ := hkM t ht
    simp [AMap.contains, hn]
  · simp at h

/-! ### Checking, writing and metadata -/

theorem extendTrie_np {s : Schema} : ∀ {xs : List RTerm} {t}, extendTrie s xs t ≠ .panic := by
  intro xs
  induction xs with
  | nil => intro t; simp [extendTrie]
  | cons x r ih => intro t; unfold extendTrie; split
                   · simp
                   · exact ih

theorem intoTrie_np {s pops inert} : intoTrie s pops inert ≠ .panic := by
  intro h
  unfold intoTrie at h
  rw [Res.bind_panic] at h
  rcases h with h | ⟨_, -, h⟩
  · exact extendTrie_np h
  rw [Res.bind_panic] at h
  rcases h with h | ⟨_, -, h⟩
  · exact extendTrie_np h
  · exact extendTrie_np h

theorem apply_np {st : Store} {tx qs act} : st.apply tx qs act ≠ .panic := by
  unfold Store.apply updateDatoms
  simp only
  split
  · simp
  · split
    · cases act <;> simp
    · simp
    · rename_i h; split at h <;> simp at h

theorem collectMeta_np : ∀ {q as_ is}, (∀ e v b, (e, DB_IDENT, v, b) ∈ q → v.valueType = .keyword) →
    collectMeta q as_ is ≠ .panic := by
  intro q
  induction q with
  | nil => intro as_ is _; simp [collectMeta]
  | cons x r ih =>
    intro as_ is h
    obtain ⟨e, a, v, b⟩ := x
    have hr : ∀ e v b, (e, DB_IDENT, v, b) ∈ r → v.valueType = .keyword :=
      fun e v b hm => h e v b (List.mem_cons_of_mem _ hm)
    unfold collectMeta
    split
    · rename_i ha; subst ha
      split
      · exact ih hr
      · rename_i hv
        have := h e v b (by simp)
        cases v <;> simp [TypedValue.valueType] at this
        exact absurd rfl (hv _)
    · exact ih hr

theorem schemaRetractions_go_np {ir suspects} : ∀ {l am f},
    schemaRetractions.go ir suspects l am f ≠ .panic := by
  intro l
  induction l with
  | nil => intro am f; simp [schemaRetractions.go]
  | cons x r ih =>
    intro am f
    obtain ⟨e, a, v⟩ := x
    unfold schemaRetractions.go
    simp only
    split
    · split
      · exact ih
      · simp
    · exact ih

theorem retractBuilder_np {b a v} : retractBuilder b a v ≠ .panic := by
  unfold retractBuilder
  repeat' split
  all_goals simp

theorem assertBuilder_np {b a v} : assertBuilder b a v ≠ .panic := by
  unfold assertBuilder
  repeat' split
  all_goals simp

theorem retractAll_np {am} : ∀ {l bs}, retractAll am l bs ≠ .panic := by
  intro l
  induction l with
  | nil => intro bs; simp [retractAll]
  | cons x r ih =>
    intro bs
    obtain ⟨e, a, v⟩ := x
    unfold retractAll
    simp only
    split
    · exact ih
    · simp
    · rename_i h; exact absurd h retractBuilder_np

theorem assertAll_np : ∀ {l bs}, assertAll l bs ≠ .panic := by
  intro l
  induction l with
  | nil => intro bs; simp [assertAll]
  | cons x r ih =>
    intro bs
    obtain ⟨e, a, v⟩ := x
    unfold assertAll
    simp only
    split
    · exact ih
    · simp
    · rename_i h; exact absurd h assertBuilder_np

theorem applyBuilders_np : ∀ {l am rep}, applyBuilders l am rep ≠ .panic := by
  intro l
  induction l with
  | nil => intro am rep; simp [applyBuilders]
  | cons x r ih =>
    intro am rep
    obtain ⟨e, b⟩ := x
    unfold applyBuilders
    split
    · split
      · exact ih
      · simp
    · split
      · simp
      · exact ih

theorem updateSchema_np {s q} (h : ∀ e v b, (e, DB_IDENT, v, b) ∈ q → v.valueType = .keyword) :
    updateSchema s q ≠ .panic := by
  intro hp
  unfold updateSchema at hp
  rw [Res.bind_panic] at hp
  rcases hp with hp | ⟨⟨as_, is⟩, -, hp⟩
  · exact collectMeta_np h hp
  simp only at hp
  rw [Res.bind_panic] at hp
  rcases hp with hp | ⟨⟨am, retr⟩, -, hp⟩
  · exact schemaRetractions_go_np hp
  simp only at hp
  rw [Res.bind_panic] at hp
  rcases hp with hp | ⟨⟨am, rep⟩, -, hp⟩
  · unfold updateAttributeMap at hp
    rw [Res.bind_panic] at hp
    rcases hp with hp | ⟨_, -, hp⟩
    · exact retractAll_np hp
    rw [Res.bind_panic] at hp
    rcases hp with hp | ⟨_, -, hp⟩
    · exact assertAll_np hp
    · exact applyBuilders_np hp
  · simp at hp

theorem uniqueOk_unflag {rows : List Row} {e : Entid} (h : uniqueOk rows = true) :
    uniqueOk (rows.map fun r => if r.a = e then { r with uniq := false } else r) = true := by
  rw [uniqueOk_iff] at *
  rw [List.pairwise_map]
  refine h.imp ?_
  intro a b hab
  grind

theorem applyAlterations_np {at_ e} : ∀ {xs rows}, uniqueOk rows = true →
    applyAlterations at_ e xs rows ≠ .panic := by
  intro xs
  induction xs with
  | nil => intro rows _; simp [applyAlterations]
  | cons x r ih =>
    intro rows hu
    unfold applyAlterations
    split
    · rename_i rows' h
      have h1 : applyAlterations at_ e [x] rows = .ok rows' := by simp [applyAlterations, h]
      exact ih ((applyAlterations_ok h1).2.1 hu)
    · simp
    · rename_i h
      exfalso
      cases x with
      | unique =>
        simp only [applyAlteration] at h
        split at h
        · simp at h
        · rename_i hn
          split at h
          · simp at h
          · rename_i hnone
            rw [hnone] at hn
            exact hn (uniqueOk_unflag hu)
      | cardinality => simp only [applyAlteration] at h; split at h <;> simp at h
      | _ => simp [applyAlteration] at h

theorem applyAllAlterations_np {s} : ∀ {alt rows}, uniqueOk rows = true →
    applyAllAlterations s alt rows ≠ .panic := by
  intro alt
  induction alt with
  | nil => intro rows _; simp [applyAllAlterations]
  | cons x r ih =>
    intro rows hu
    obtain ⟨e, xs⟩ := x
    unfold applyAllAlterations
    split
    · simp
    · split
      · rename_i h; exact ih ((applyAlterations_ok h).2.1 hu)
      · simp
      · rename_i h; exact absurd h (applyAlterations_np hu)

theorem applyMetadata_np {s rows views lr} (hu : uniqueOk rows = true)
    (h : ∀ l ∈ lr, l.a = DB_IDENT → l.v.valueType = .keyword) :
    applyMetadata s rows views lr ≠ .panic := by
  intro hp
  unfold applyMetadata at hp
  rw [Res.bind_panic] at hp
  rcases hp with hp | ⟨⟨s', rep⟩, -, hp⟩
  · refine updateSchema_np ?_ hp
    intro e v b hm
    unfold metadataAssertions at hm
    simp only [mem_sortQuads, List.mem_map, List.mem_filter, Prod.mk.injEq] at hm
    obtain ⟨l, ⟨hl, -⟩, -, ha, hv, -⟩ := hm
    rw [← hv]; exact h l hl ha
  · simp only at hp
    split at hp
    · rw [Res.bind_panic] at hp
      rcases hp with hp | ⟨_, -, hp⟩
      · unfold updateMetadata at hp
        simp only at hp
        split at hp
        · simp at hp
        · simp at hp
        · rename_i hx; exact applyAllAlterations_np hu hx
      · simp at hp
    · simp at hp

theorem getOrInsertTxInstant_np {s : Schema} {t : Trie} {tx now} (hw : TrieWF t)
    (ht : typeDisagreements s t = []) (hc : cardinalityConflicts s t = [])
    (hti : ∀ at_, s.attr DB_TX_INSTANT = some at_ → at_.valueType = .instant ∧ at_.multival = false) :
    getOrInsertTxInstant s t tx now ≠ .panic := by
  unfold getOrInsertTxInstant
  split
  · simp
  · rename_i at_ hat
    simp only
    have hone := (cardinalityConflicts_nil hw).mp hc
    have hnd := hw.addNodup DB_TX_INSTANT tx
    have htyp : ∀ v ∈ (Trie.entry t DB_TX_INSTANT tx).add, v.valueType = .instant := by
      intro v hv
      by_cases hne : v.valueType = .instant
      · exact hne
      · have : (tx, DB_TX_INSTANT, v) ∈ typeDisagreements s t :=
          (typeDisagreements_mem hw).mpr ⟨Or.inl hv, at_, hat, by rw [(hti _ hat).1]; exact fun h => hne h.symm⟩
        rw [ht] at this; simp at this
    have hall := hone.1 DB_TX_INSTANT tx at_ hat (hti _ hat).2
    generalize Trie.entry t DB_TX_INSTANT tx = ar at *
    cases hadd : ar.add with
    | nil => simp
    | cons v r =>
      rw [hadd] at htyp hall hnd
      cases r with
      | cons w r' =>
        have := hall v (by simp) w (by simp)
        subst this; simp at hnd
      | nil =>
        have := htyp v (by simp)
        cases v <;> simp [TypedValue.valueType] at this
        simp

/-- The attributes the transactor itself relies on have their bootstrap types. -/
def CoreAttributes (s : Schema) : Prop :=
  (∀ at_, s.attr DB_TX_INSTANT = some at_ → at_.valueType = .instant ∧ at_.multival = false) ∧
  (∀ at_, s.attr DB_IDENT = some at_ → at_.valueType = .keyword)

theorem qok_instant {s : Schema} {t t' : Trie} {tx i} (hw : TrieWF t) (sp : InstantSpec s t t' tx i)
    (ht : typeDisagreements s t = []) :
    ∀ q ∈ reducedOf s t', q.a ≠ DB_TX_INSTANT → q.attr.valueType = q.v.valueType ∧
      s.attr q.a = some q.attr := by
  intro q hq hne
  rw [mem_reducedOf sp.wf, sp.add, sp.ret] at hq
  obtain ⟨h1, h2⟩ := hq
  refine ⟨?_, h1⟩
  by_cases hty : q.attr.valueType = q.v.valueType
  · exact hty
  · have : (q.e, q.a, q.v) ∈ typeDisagreements s t := by
      refine (typeDisagreements_mem hw).mpr ⟨?_, q.attr, h1, hty⟩
      rcases h2 with ⟨-, h | h⟩ | ⟨-, h⟩
      · exact Or.inl h
      · exact absurd h.1 hne
      · exact Or.inr h
    rw [ht] at this; simp at this

theorem transactTermsWith_np {db sfm now terms ids act}
    (hk : KnownLinks db.schema db.store terms)
    (hids : ids.Nodup) (hmen : ∀ t, t ∈ ids ↔ ∃ x ∈ terms, x.e = .inr t ∨ x.v = .inr t)
    (hp1 : db.parts.user.start ≤ db.parts.user.next)
    (hp2 : db.parts.tx.start ≤ db.parts.tx.next)
    (hroom : db.parts.user.next + (ids.length : Int) ≤ db.parts.user.fin)
    (hroom2 : db.parts.tx.next < db.parts.tx.fin)
    (hcore : CoreAttributes db.schema)
    (hident : ∀ r ∈ db.store.rows, r.a = DB_IDENT → r.v.valueType = .keyword) :
    transactTermsWith db sfm now terms ids act ≠ .panic := by
  intro h
  unfold transactTermsWith at h
  rw [Res.bind_panic] at h
  rcases h with h | ⟨⟨tx, txPart⟩, -, h⟩
  · unfold Partition.allocate Partition.setNext Partition.allowsEntid at h
    rw [if_pos (by simp only [decide_eq_true_eq]; omega)] at h
    simp at h
  simp only at h
  rw [Res.bind_panic] at h
  rcases h with h | ⟨s3, -, h⟩
  · exact resolveTempIds_np hk hids hmen hp1 hroom h
  rw [Res.bind_panic] at h
  rcases h with h | ⟨t, h3, h⟩
  · exact intoTrie_np h
  have sp := intoTrie_spec h3
  rw [Res.bind_panic] at h
  rcases h with h | ⟨⟨_, _, _, _⟩, -, h⟩
  · unfold applyTrie at h
    rw [Res.bind_panic] at h
    rcases h with h | ⟨_, c1, h⟩
    · exact Res.require_panic h
    rw [Res.bind_panic] at h
    rcases h with h | ⟨_, c2, h⟩
    · exact Res.require_panic h
    simp only [Res.require_eq_ok] at c1 c2
    rw [Res.bind_panic] at h
    rcases h with h | ⟨⟨instant, t'⟩, h4, h⟩
    · exact getOrInsertTxInstant_np sp.wf c1 c2 hcore.1 h
    have isp := getOrInsertTxInstant_spec sp.wf h4
    simp only at h
    rw [Res.bind_panic] at h
    rcases h with h | ⟨⟨store, lr⟩, h5, h⟩
    · exact apply_np h
    simp only at h
    split at h
    · rw [Res.bind_panic] at h
      rcases h with h | ⟨⟨_, _, _⟩, -, h⟩
      · obtain ⟨hrows, hu, hlr, -⟩ := apply_ok h5
        refine applyMetadata_np hu ?_ h
        intro l hl ha
        rw [hlr, mem_logRowsOf] at hl
        rcases hl with ⟨q, hq, -, rfl⟩ | ⟨r, hr, -, rfl⟩
        · simp only at ha ⊢
          obtain ⟨q1, q2⟩ := qok_instant sp.wf isp c1 q hq (by rw [ha]; decide)
          rw [ha] at q2
          rw [← q1, hcore.2 _ q2]
        · exact hident r hr ha
      · simp at h
    · simp at h
  · simp at h

end Mentat
