import Verif.Proofs.Upsert
/- The evolution loop: invariant, termination, and what resolution does to each term. -/
namespace Mentat

theorem lookupAV_some {st : Store} {a v n} (h : st.lookupAV a v = some n) :
    ∃ r ∈ st.rows, r.e = n ∧ r.a = a ∧ r.v = v := by
  unfold Store.lookupAV at h
  rw [Option.map_eq_some_iff] at h
  obtain ⟨r, hf, rfl⟩ := h
  have := List.find?_some hf
  simp at this
  exact ⟨r, List.mem_of_find?_eq_some hf, rfl, this.2.1, this.2.2⟩

/-- Terms of a generation that still have to be resolved. -/
def Generation.pending (g : Generation) : List TTerm :=
  g.upsertsE.map UpsertE.term ++ g.upsertsEV.map UpsertEV.term ++ g.allocations

theorem mem_pending {g : Generation} {y : TTerm} :
    y ∈ g.pending ↔ (∃ u ∈ g.upsertsE, y = u.term) ∨ (∃ u ∈ g.upsertsEV, y = u.term) ∨
      y ∈ g.allocations := by
  simp only [Generation.pending, List.mem_append, List.mem_map, or_assoc]
  constructor
  · rintro (⟨u, h, rfl⟩ | ⟨u, h, rfl⟩ | h)
    · exact Or.inl ⟨u, h, rfl⟩
    · exact Or.inr (Or.inl ⟨u, h, rfl⟩)
    · exact Or.inr (Or.inr h)
  · rintro (⟨u, h, rfl⟩ | ⟨u, h, rfl⟩ | h)
    · exact Or.inl ⟨u, h, rfl⟩
    · exact Or.inr (Or.inl ⟨u, h, rfl⟩)
    · exact Or.inr (Or.inr h)

/-- An identity assertion whose tempid upserted; it is dropped. -/
def Dropped (s : Schema) (st : Store) (T : TempIdMap) (x : TTerm) : Prop :=
  x.op = .add ∧ IsIdentity s x.a ∧ ∃ t n v, x.e = .inr t ∧ AMap.get T t = some n ∧
    DenotesV T x.v v ∧ (st.lookupAV x.a v = some n ∨ st.lookupAV x.a v = none) ∧
    ∃ a' v', st.lookupAV a' v' = some n

theorem Dropped.mono {s st T T' x} (h : AMap.Sub T T') (hd : Dropped s st T x) :
    Dropped s st T' x := by
  obtain ⟨h1, h2, t, n, v, h3, h4, h5, h6⟩ := hd
  exact ⟨h1, h2, t, n, v, h3, h _ _ h4, h5.mono h, h6⟩

/-- `T` only maps tempids to entities found by looking up an identity. -/
def FromStore (st : Store) (T : TempIdMap) : Prop :=
  ∀ t n, AMap.get T t = some n → ∃ a v, st.lookupAV a v = some n

structure GenInv (s : Schema) (st : Store) (terms : List TTerm) (inert : List RTerm)
    (g : Generation) (T : TempIdMap) : Prop where
  sound : ∀ y ∈ g.pending, ∃ x ∈ terms, Part T x y
  soundR : ∀ y ∈ g.resolved, ∃ x ∈ terms, Denotes T x y
  complete : ∀ x ∈ terms, (∃ y ∈ inert, Denotes [] x y) ∨ (∃ y ∈ g.pending, Part T x y) ∨
    (∃ y ∈ g.resolved, Denotes T x y) ∨ Dropped s st T x
  idE : ∀ u ∈ g.upsertsE, IsIdentity s u.a
  idEV : ∀ u ∈ g.upsertsEV, IsIdentity s u.a
  isOpen : ∀ x ∈ g.allocations, x.open_
  fromStore : FromStore st T
  why : ∀ t n, AMap.get T t = some n → Upserts s st.rows terms t n
  evs : ∀ t a t2, (⟨.add, .inr t, a, .inr t2⟩ : TTerm) ∈ terms → IsIdentity s a →
    (⟨t, a, t2⟩ : UpsertEV) ∈ g.upsertsEV ∨ (∃ n, AMap.get T t = some n) ∨ (∃ n, AMap.get T t2 = some n)
  closed : ∀ t a t2 n2 n, (⟨.add, .inr t, a, .inr t2⟩ : TTerm) ∈ terms → IsIdentity s a →
    AMap.get T t2 = some n2 → st.lookupAV a (.ref n2) = some n →
    (∃ n', AMap.get T t = some n') ∨ (⟨t, a, .ref n2⟩ : UpsertE) ∈ g.upsertsE

/-- What one iteration does to the map. -/
theorem evolveStep_ok {st : Store} {g g' : Generation} {T T' : TempIdMap}
    (h : evolveStep st g T = .ok (g', T')) :
    ∃ m, StepSpec g g' m ∧ AMap.Sub T T' ∧ AMap.Sub m T' ∧
      (∀ u ∈ g.upsertsE, ∀ n, st.lookupAV u.a u.v = some n → AMap.get m u.t = some n) ∧
      (∀ t n, AMap.get m t = some n → ∃ u ∈ g.upsertsE, u.t = t ∧ st.lookupAV u.a u.v = some n) ∧
      (∀ t n, AMap.get T' t = some n → AMap.get T t = some n ∨ AMap.get m t = some n) := by
  unfold evolveStep at h
  rw [Res.bind_eq_ok] at h
  obtain ⟨m, h1, h⟩ := h
  rw [Res.bind_eq_ok] at h
  obtain ⟨g1, h2, h⟩ := h
  rw [Res.bind_eq_ok] at h
  obtain ⟨T1, h3, h⟩ := h
  simp only [Res.pure_eq, Res.ok.injEq, Prod.mk.injEq] at h
  obtain ⟨rfl, rfl⟩ := h
  obtain ⟨-, -, a3, a4⟩ := resolveTempIdAvs_ok h1
  obtain ⟨-, b2, b3, b4⟩ := recordTempIds_ok h3
  have hm : ∀ t n, AMap.get m t = some n → AMap.get T1 t = some n :=
    fun t n hg => b3 (t, n) (AMap.get_some_mem hg)
  refine ⟨m, evolveOneStep_ok h2, b2, hm, ?_, ?_, ?_⟩
  · intro u hu n hn
    exact a3 u.t u.a u.v n (List.mem_map.mpr ⟨u, hu, rfl⟩) hn
  · intro t n hg
    rcases a4 t n hg with h | ⟨a, v, hav, hl⟩
    · simp at h
    · obtain ⟨u, hu, he⟩ := List.mem_map.mp hav
      simp only [Prod.mk.injEq] at he
      obtain ⟨rfl, rfl, rfl⟩ := he
      exact ⟨u, hu, rfl, hl⟩
  · intro t n hg
    rcases b4 t n hg with h | h
    · exact Or.inl h
    · right
      cases hgm : AMap.get m t with
      | none =>
        have := AMap.get_eq_none_iff.mp hgm
        exact absurd (List.mem_map.mpr ⟨(t, n), h, rfl⟩) this
      | some n' => rw [hm t n' hgm] at hg; exact hg

theorem rewrites_total (m : TempIdMap) (x : TTerm) : (∃ y, Rewrites m x y ∧ y.open_) ∨
    (∃ y, Denotes m x y) := by
  obtain ⟨op, e, a, v⟩ := x
  cases e with
  | inl e =>
    cases v with
    | inl v => exact Or.inr ⟨⟨op, e, a, v⟩, rfl, rfl, rfl, rfl⟩
    | inr t =>
      cases hg : AMap.get m t with
      | none => exact Or.inl ⟨⟨op, .inl e, a, .inr t⟩, by simp [Rewrites, hg], Or.inr ⟨t, rfl⟩⟩
      | some n => exact Or.inr ⟨⟨op, e, a, .ref n⟩, rfl, rfl, rfl, n, hg, rfl⟩
  | inr t1 =>
    cases hg1 : AMap.get m t1 with
    | none =>
      left
      cases v with
      | inl v => exact ⟨⟨op, .inr t1, a, .inl v⟩, by simp [Rewrites, hg1], Or.inl ⟨t1, rfl⟩⟩
      | inr t =>
        cases hg : AMap.get m t with
        | none => exact ⟨⟨op, .inr t1, a, .inr t⟩, by simp [Rewrites, hg, hg1], Or.inl ⟨t1, rfl⟩⟩
        | some n =>
          exact ⟨⟨op, .inr t1, a, .inl (.ref n)⟩, by simp [Rewrites, hg, hg1], Or.inl ⟨t1, rfl⟩⟩
    | some n1 =>
      cases v with
      | inl v => exact Or.inr ⟨⟨op, n1, a, v⟩, rfl, rfl, hg1, rfl⟩
      | inr t =>
        cases hg : AMap.get m t with
        | none => exact Or.inl ⟨⟨op, .inl n1, a, .inr t⟩, by simp [Rewrites, hg, hg1], Or.inr ⟨t, rfl⟩⟩
        | some n => exact Or.inr ⟨⟨op, n1, a, .ref n⟩, rfl, rfl, hg1, n, hg, rfl⟩

theorem genInv_step {s st terms inert g T g' T'} (hi : GenInv s st terms inert g T)
    (h : evolveStep st g T = .ok (g', T')) : GenInv s st terms inert g' T' := by
  obtain ⟨m, sp, hT, hm, hl, hl', hT'⟩ := evolveStep_ok h
  refine ⟨?_, ?_, ?_, ?_, ?_, ?_, ?_, ?_, ?_, ?_⟩
  · intro y hy
    have lift : ∀ z, z ∈ g.pending → Part T' z y → ∃ x ∈ terms, Part T' x y := by
      intro z hz hp
      obtain ⟨x, hx, hxz⟩ := hi.sound z hz
      exact ⟨x, hx, (hxz.mono hT).trans hp⟩
    rcases mem_pending.mp hy with ⟨u, hu, rfl⟩ | ⟨u, hu, rfl⟩ | hy
    · obtain ⟨w, hw, n, hn, rfl⟩ := (sp.upsertsE u).mp hu
      refine lift w.term (mem_pending.mpr (Or.inr (Or.inl ⟨w, hw, rfl⟩))) ?_
      exact ⟨rfl, rfl, Or.inl rfl, Or.inr ⟨w.t2, n, rfl, hm _ _ hn, rfl⟩⟩
    · obtain ⟨hw, -⟩ := (sp.upsertsEV u).mp hu
      exact lift u.term (mem_pending.mpr (Or.inr (Or.inl ⟨u, hw, rfl⟩))) (Part.refl _ _)
    · rcases (sp.allocations y).mp hy with ⟨u, hu, -, rfl⟩ | ⟨u, hu, n, hn, -, rfl⟩ | ⟨x, hx, hr, -⟩
      · exact lift u.term (mem_pending.mpr (Or.inl ⟨u, hu, rfl⟩)) (Part.refl _ _)
      · refine lift u.term (mem_pending.mpr (Or.inr (Or.inl ⟨u, hu, rfl⟩))) ?_
        exact ⟨rfl, rfl, Or.inr ⟨u.t1, n, rfl, hm _ _ hn, rfl⟩, Or.inl rfl⟩
      · exact lift x (mem_pending.mpr (Or.inr (Or.inr hx))) (hr.part.mono hm)
  · intro y hy
    rcases (sp.resolved y).mp hy with hy | ⟨z, hz, hd⟩
    · obtain ⟨x, hx, hxy⟩ := hi.soundR y hy
      exact ⟨x, hx, hxy.mono hT⟩
    · obtain ⟨x, hx, hxz⟩ := hi.sound z (mem_pending.mpr (Or.inr (Or.inr hz)))
      exact ⟨x, hx, (hxz.mono hT).denotes (hd.mono hm)⟩
  · intro x hx
    rcases hi.complete x hx with h | ⟨z, hz, hxz⟩ | ⟨y, hy, hd⟩ | hd
    · exact Or.inl h
    · right
      have hxz' := hxz.mono hT
      rcases mem_pending.mp hz with ⟨u, hu, rfl⟩ | ⟨u, hu, rfl⟩ | hz
      · cases hg : AMap.get m u.t with
        | none =>
          exact Or.inl ⟨u.term, mem_pending.mpr (Or.inr (Or.inr
            ((sp.allocations _).mpr (Or.inl ⟨u, hu, hg, rfl⟩)))), hxz'⟩
        | some n =>
          right; right
          obtain ⟨o, ha, he, hv⟩ := hxz'
          have hxe : x.e = .inr u.t := by
            rcases he with he | ⟨t, k, _, _, he⟩
            · exact he.symm
            · simp [UpsertE.term] at he
          have hdv : DenotesV T' x.v u.v := by
            rcases hv with hv | ⟨t, k, hv, hk, hv'⟩
            · rw [← hv]; rfl
            · rw [hv]; simp only [UpsertE.term, Sum.inl.injEq] at hv'
              exact ⟨k, hk, hv'⟩
          simp only [UpsertE.term] at o ha
          refine ⟨o.symm, ha ▸ hi.idE u hu, u.t, n, u.v, hxe, hm _ _ hg, hdv, ?_, ?_⟩
          · rw [← ha]
            cases hlk : st.lookupAV u.a u.v with
            | none => exact Or.inr rfl
            | some n' =>
              have := hl u hu n' hlk
              rw [hg] at this
              exact Or.inl this.symm
          · obtain ⟨u', -, -, hl''⟩ := hl' _ _ hg
            exact ⟨_, _, hl''⟩
      · left
        cases hg1 : AMap.get m u.t1 with
        | none =>
          cases hg2 : AMap.get m u.t2 with
          | none =>
            exact ⟨u.term, mem_pending.mpr (Or.inr (Or.inl
              ⟨u, (sp.upsertsEV u).mpr ⟨hu, hg1, hg2⟩, rfl⟩)), hxz'⟩
          | some n2 =>
            refine ⟨UpsertE.term ⟨u.t1, u.a, .ref n2⟩, mem_pending.mpr (Or.inl
              ⟨_, (sp.upsertsE _).mpr ⟨u, hu, n2, hg2, rfl⟩, rfl⟩), hxz'.trans ?_⟩
            exact ⟨rfl, rfl, Or.inl rfl, Or.inr ⟨u.t2, n2, rfl, hm _ _ hg2, rfl⟩⟩
        | some n1 =>
          cases hg2 : AMap.get m u.t2 with
          | none =>
            refine ⟨⟨.add, .inl n1, u.a, .inr u.t2⟩, mem_pending.mpr (Or.inr (Or.inr
              ((sp.allocations _).mpr (Or.inr (Or.inl ⟨u, hu, n1, hg1, hg2, rfl⟩))))), hxz'.trans ?_⟩
            exact ⟨rfl, rfl, Or.inr ⟨u.t1, n1, rfl, hm _ _ hg1, rfl⟩, Or.inl rfl⟩
          | some n2 =>
            refine ⟨UpsertE.term ⟨u.t1, u.a, .ref n2⟩, mem_pending.mpr (Or.inl
              ⟨_, (sp.upsertsE _).mpr ⟨u, hu, n2, hg2, rfl⟩, rfl⟩), hxz'.trans ?_⟩
            exact ⟨rfl, rfl, Or.inl rfl, Or.inr ⟨u.t2, n2, rfl, hm _ _ hg2, rfl⟩⟩
      · rcases rewrites_total m z with ⟨y, hr, ho⟩ | ⟨y, hd⟩
        · exact Or.inl ⟨y, mem_pending.mpr (Or.inr (Or.inr ((sp.allocations _).mpr
            (Or.inr (Or.inr ⟨z, hz, hr, ho⟩))))), hxz'.trans (hr.part.mono hm)⟩
        · exact Or.inr (Or.inl ⟨y, (sp.resolved y).mpr (Or.inr ⟨z, hz, hd⟩),
            hxz'.denotes (hd.mono hm)⟩)
    · exact Or.inr (Or.inr (Or.inl ⟨y, (sp.resolved y).mpr (Or.inl hy), hd.mono hT⟩))
    · exact Or.inr (Or.inr (Or.inr (hd.mono hT)))
  · intro u hu
    obtain ⟨w, hw, n, -, rfl⟩ := (sp.upsertsE u).mp hu
    exact hi.idEV w hw
  · intro u hu
    exact hi.idEV u ((sp.upsertsEV u).mp hu).1
  · intro y hy
    rcases (sp.allocations y).mp hy with ⟨u, hu, -, rfl⟩ | ⟨u, hu, n, hn, -, rfl⟩ | ⟨x, hx, -, ho⟩
    · exact Or.inl ⟨u.t, rfl⟩
    · exact Or.inr ⟨u.t2, rfl⟩
    · exact ho
  · intro t n hg
    rcases hT' t n hg with h | h
    · exact hi.fromStore t n h
    · obtain ⟨u, -, -, hlk⟩ := hl' t n h
      exact ⟨_, _, hlk⟩
  · intro t n hg
    rcases hT' t n hg with h | h
    · exact hi.why t n h
    · obtain ⟨u, hu, rfl, hlk⟩ := hl' t n h
      obtain ⟨⟨op, e, a, v⟩, hx, ho, ha, he, hv⟩ :=
        hi.sound u.term (mem_pending.mpr (Or.inl ⟨u, hu, rfl⟩))
      have hid := hi.idE u hu
      obtain ⟨r, hr, re, ra, rv⟩ := lookupAV_some hlk
      simp only [UpsertE.term] at ho ha he hv
      subst ho; subst ha
      have he' : e = .inr u.t := by
        rcases he with he | ⟨_, _, _, _, he⟩
        · exact he.symm
        · simp at he
      subst he'
      rcases hv with hv | ⟨t2, n2, rfl, hn2, hv⟩
      · subst hv; exact .direct hx hid ⟨r, hr, re, ra, rv⟩
      · simp only [Sum.inl.injEq] at hv
        exact .via hx hid (hi.why _ _ hn2) ⟨r, hr, re, ra, rv.trans hv⟩
  · intro t a t2 hx hid
    rcases hi.evs t a t2 hx hid with h | ⟨n, h⟩ | ⟨n, h⟩
    · cases hg1 : AMap.get m t with
      | some n => exact Or.inr (Or.inl ⟨n, hm _ _ hg1⟩)
      | none =>
        cases hg2 : AMap.get m t2 with
        | some n => exact Or.inr (Or.inr ⟨n, hm _ _ hg2⟩)
        | none => exact Or.inl ((sp.upsertsEV _).mpr ⟨h, hg1, hg2⟩)
    · exact Or.inr (Or.inl ⟨n, hT _ _ h⟩)
    · exact Or.inr (Or.inr ⟨n, hT _ _ h⟩)
  · intro t a t2 n2 n hx hid hg hlk
    have old : AMap.get T t2 = some n2 → ∃ n', AMap.get T' t = some n' := by
      intro h
      rcases hi.closed t a t2 n2 n hx hid h hlk with ⟨n', h⟩ | h
      · exact ⟨n', hT _ _ h⟩
      · exact ⟨n, hm _ _ (hl _ h n hlk)⟩
    rcases hT' t2 n2 hg with h | h
    · exact Or.inl (old h)
    · rcases hi.evs t a t2 hx hid with h' | ⟨n', h'⟩ | ⟨n', h'⟩
      · exact Or.inr ((sp.upsertsE _).mpr ⟨_, h', n2, h, rfl⟩)
      · exact Or.inl ⟨n', hT _ _ h'⟩
      · have := hT _ _ h'
        rw [hg] at this
        exact Or.inl (old (this ▸ h'))

theorem evolveLoop_ok {s st terms inert} : ∀ {fuel g T g' T'},
    evolveLoop st fuel g T = some (.ok (g', T')) → GenInv s st terms inert g T →
    GenInv s st terms inert g' T' ∧ AMap.Sub T T' ∧ g'.upsertsE = [] ∧
    (∀ u ∈ g.upsertsE, ∀ n, st.lookupAV u.a u.v = some n → AMap.get T' u.t = some n) := by
  intro fuel
  induction fuel with
  | zero =>
    intro g T g' T' h hi
    unfold evolveLoop at h
    split at h
    · simp at h
    · rename_i hc
      simp only [Option.some.injEq, Res.ok.injEq, Prod.mk.injEq] at h
      obtain ⟨rfl, rfl⟩ := h
      have : g.upsertsE = [] := by simpa [Generation.canEvolve] using hc
      exact ⟨hi, AMap.Sub.refl _, this, by simp [this]⟩
  | succ fuel ih =>
    intro g T g' T' h hi
    unfold evolveLoop at h
    split at h
    · simp only at h
      cases hs : evolveStep st g T with
      | err e => rw [hs] at h; simp at h
      | panic => rw [hs] at h; simp at h
      | ok p =>
        obtain ⟨g1, T1⟩ := p
        rw [hs] at h
        obtain ⟨a1, a2, a3, a4⟩ := ih h (genInv_step hi hs)
        obtain ⟨m, sp, hT, hm, hl, hl', hT'⟩ := evolveStep_ok hs
        exact ⟨a1, hT.trans a2, a3, fun u hu n hn => a2 _ _ (hm _ _ (hl u hu n hn))⟩
    · rename_i hc
      simp only [Option.some.injEq, Res.ok.injEq, Prod.mk.injEq] at h
      obtain ⟨rfl, rfl⟩ := h
      have : g.upsertsE = [] := by simpa [Generation.canEvolve] using hc
      exact ⟨hi, AMap.Sub.refl _, this, by simp [this]⟩

theorem evolveLoop_ne_none {st : Store} : ∀ {fuel : Nat} {g : Generation} {T : TempIdMap},
    g.upsertsE = [] ∨ g.upsertsEV.length + 1 ≤ fuel → evolveLoop st fuel g T ≠ none := by
  intro fuel
  induction fuel with
  | zero =>
    intro g T hm h
    have : g.upsertsE = [] := by
      rcases hm with hm | hm
      · exact hm
      · omega
    unfold evolveLoop at h
    simp [Generation.canEvolve, this] at h
  | succ fuel ih =>
    intro g T hm h
    unfold evolveLoop at h
    split at h
    · rename_i hc
      simp only at h
      cases hs : evolveStep st g T with
      | err e => rw [hs] at h; simp at h
      | panic => rw [hs] at h; simp at h
      | ok p =>
        obtain ⟨g1, T1⟩ := p
        rw [hs] at h
        obtain ⟨m, sp, -⟩ := evolveStep_ok hs
        refine ih (g := g1) (T := T1) ?_ h
        have := sp.lenE
        have hne : g.upsertsE ≠ [] := by
          intro hg; simp [Generation.canEvolve, hg] at hc
        have hm : g.upsertsEV.length + 1 ≤ fuel + 1 := by
          rcases hm with hm | hm
          · exact absurd hm hne
          · exact hm
        by_cases h1 : g1.upsertsE = []
        · exact Or.inl h1
        · right
          have := List.length_pos_iff.mpr h1
          omega
    · simp at h

/-- The loop stops within `measure` iterations. -/
theorem evolveLoop_terminates {st : Store} {fuel : Nat} {g : Generation} {T : TempIdMap}
    (h : g.measure ≤ fuel) : evolveLoop st fuel g T ≠ none :=
  evolveLoop_ne_none (Or.inr h)

/-! ### The initial generation -/

theorem addAndUnique_true {s op a} (h : addAndUnique s op a = .ok true) :
    op = .add ∧ IsIdentity s a := by
  unfold addAndUnique isUniqueIdentity at h
  cases op with
  | retract => simp at h
  | add =>
    simp only at h
    cases ha : s.attr a with
    | none => simp [ha] at h
    | some at_ =>
      simp [ha] at h
      exact ⟨rfl, at_, ha, h⟩

theorem addAndUnique_false {s a} (h : addAndUnique s .add a = .ok false) : ¬ IsIdentity s a := by
  unfold addAndUnique isUniqueIdentity at h
  simp only at h
  rintro ⟨at_, ha, hu⟩
  simp [ha, hu] at h

structure FromSpec (s : Schema) (terms : List TTerm) (g0 : Generation) (i0 : List RTerm)
    (g : Generation) (inert : List RTerm) : Prop where
  resolved : g.resolved = g0.resolved
  upserted : g.upserted = g0.upserted
  upsertsE : ∀ u, u ∈ g.upsertsE ↔ u ∈ g0.upsertsE ∨ (u.term ∈ terms ∧ IsIdentity s u.a)
  upsertsEV : ∀ u, u ∈ g.upsertsEV ↔ u ∈ g0.upsertsEV ∨ (u.term ∈ terms ∧ IsIdentity s u.a)
  allocations : ∀ y, y ∈ g.allocations ↔ y ∈ g0.allocations ∨ (y ∈ terms ∧ y.open_ ∧
    ¬ (y.op = .add ∧ (∃ t, y.e = .inr t) ∧ IsIdentity s y.a))
  inert : ∀ y, y ∈ inert ↔ y ∈ i0 ∨ (⟨y.op, .inl y.e, y.a, .inl y.v⟩ : TTerm) ∈ terms

theorem from_spec {s : Schema} {terms : List TTerm} : ∀ {g0 : Generation} {i0 : List RTerm}
    {g : Generation} {inert : List RTerm},
    Generation.from s terms g0 i0 = .ok (g, inert) → FromSpec s terms g0 i0 g inert := by
  induction terms with
  | nil =>
    intro g0 i0 g inert h
    simp only [Generation.from, Res.ok.injEq, Prod.mk.injEq] at h
    obtain ⟨rfl, rfl⟩ := h
    constructor <;> simp
  | cons x r ih =>
    intro g0 i0 g inert h
    obtain ⟨op, e, a, v⟩ := x
    unfold Generation.from at h
    have allocCase : (TTerm.open_ ⟨op, e, a, v⟩) →
        ¬ (op = .add ∧ (∃ t, e = .inr t) ∧ IsIdentity s a) →
        Generation.from s r { g0 with allocations := g0.allocations ++ [⟨op, e, a, v⟩] } i0
          = .ok (g, inert) → FromSpec s (⟨op, e, a, v⟩ :: r) g0 i0 g inert := by
      intro ho hn h
      obtain ⟨a1, a2, a3, a4, a5, a6⟩ := ih h
      refine ⟨a1, a2, ?_, ?_, ?_, ?_⟩
      · intro u; rw [a3]; simp only [List.mem_cons]
        constructor
        · rintro (h | h)
          · exact Or.inl h
          · exact Or.inr ⟨Or.inr h.1, h.2⟩
        · rintro (h | ⟨h | h, h'⟩)
          · exact Or.inl h
          · unfold UpsertE.term at h; cases h; exact absurd ⟨rfl, ⟨_, rfl⟩, h'⟩ hn
          · exact Or.inr ⟨h, h'⟩
      · intro u; rw [a4]; simp only [List.mem_cons]
        constructor
        · rintro (h | h)
          · exact Or.inl h
          · exact Or.inr ⟨Or.inr h.1, h.2⟩
        · rintro (h | ⟨h | h, h'⟩)
          · exact Or.inl h
          · unfold UpsertEV.term at h; cases h; exact absurd ⟨rfl, ⟨_, rfl⟩, h'⟩ hn
          · exact Or.inr ⟨h, h'⟩
      · intro y; rw [a5]; simp only [List.mem_append, List.mem_cons, List.not_mem_nil, or_false]
        constructor
        · rintro ((h | rfl) | h)
          · exact Or.inl h
          · exact Or.inr ⟨Or.inl rfl, ho, hn⟩
          · exact Or.inr ⟨Or.inr h.1, h.2⟩
        · rintro (h | ⟨h | h, h'⟩)
          · exact Or.inl (Or.inl h)
          · exact Or.inl (Or.inr h)
          · exact Or.inr ⟨h, h'⟩
      · intro y; rw [a6]; simp only [List.mem_cons]
        constructor
        · rintro (h | h)
          · exact Or.inl h
          · exact Or.inr (Or.inr h)
        · rintro (h | h | h)
          · exact Or.inl h
          · cases h; rcases ho with ⟨t, h⟩ | ⟨t, h⟩ <;> simp at h
          · exact Or.inr h
    cases e with
    | inl e =>
      cases v with
      | inr t =>
        simp only at h
        exact allocCase (Or.inr ⟨t, rfl⟩) (by simp) h
      | inl v =>
        simp only at h
        obtain ⟨a1, a2, a3, a4, a5, a6⟩ := ih h
        refine ⟨a1, a2, ?_, ?_, ?_, ?_⟩
        · intro u; rw [a3]; simp [UpsertE.term]
        · intro u; rw [a4]; simp [UpsertEV.term]
        · intro y; rw [a5]; simp only [List.mem_cons]
          constructor
          · rintro (h | h)
            · exact Or.inl h
            · exact Or.inr ⟨Or.inr h.1, h.2⟩
          · rintro (h | ⟨rfl | h, h'⟩)
            · exact Or.inl h
            · rcases h'.1 with ⟨t, h⟩ | ⟨t, h⟩ <;> simp at h
            · exact Or.inr ⟨h, h'⟩
        · rintro ⟨op', e', a', v'⟩; rw [a6]
          simp only [List.mem_append, List.mem_cons, List.not_mem_nil, or_false, Term.mk.injEq,
            Sum.inl.injEq, or_assoc]
    | inr t1 =>
      have upCase : ∀ b, addAndUnique s op a = .ok b → b = true → op = .add ∧ IsIdentity s a := by
        intro b h hb; subst hb; exact addAndUnique_true h
      have allocHyp : addAndUnique s op a = .ok false →
          ¬ (op = .add ∧ (∃ t, (Sum.inr t1 : Sum Entid TempId) = .inr t) ∧ IsIdentity s a) := by
        rintro h ⟨rfl, -, hid⟩
        exact addAndUnique_false h hid
      cases v with
      | inl v =>
        simp only at h
        cases hu : addAndUnique s op a with
        | err _ => rw [hu] at h; simp at h
        | panic => rw [hu] at h; simp at h
        | ok b =>
          rw [hu] at h
          cases b with
          | false => exact allocCase (Or.inl ⟨t1, rfl⟩) (allocHyp hu) h
          | true =>
            obtain ⟨rfl, hid⟩ := addAndUnique_true hu
            simp only at h
            obtain ⟨a1, a2, a3, a4, a5, a6⟩ := ih h
            refine ⟨a1, a2, ?_, ?_, ?_, ?_⟩
            · rintro ⟨t', a', v'⟩; rw [a3]
              simp only [List.mem_append, List.mem_cons, List.not_mem_nil, or_false, UpsertE.term,
                UpsertE.mk.injEq, Term.mk.injEq, Sum.inl.injEq, Sum.inr.injEq, true_and]
              constructor
              · rintro ((h | ⟨rfl, rfl, rfl⟩) | h)
                · exact Or.inl h
                · exact Or.inr ⟨Or.inl ⟨rfl, rfl, rfl⟩, hid⟩
                · exact Or.inr ⟨Or.inr h.1, h.2⟩
              · rintro (h | ⟨h | h, h'⟩)
                · exact Or.inl (Or.inl h)
                · exact Or.inl (Or.inr h)
                · exact Or.inr ⟨h, h'⟩
            · intro u; rw [a4]; simp [UpsertEV.term]
            · intro y; rw [a5]; simp only [List.mem_cons]
              constructor
              · rintro (h | h)
                · exact Or.inl h
                · exact Or.inr ⟨Or.inr h.1, h.2⟩
              · rintro (h | ⟨rfl | h, h'⟩)
                · exact Or.inl h
                · exact absurd ⟨rfl, ⟨_, rfl⟩, hid⟩ h'.2
                · exact Or.inr ⟨h, h'⟩
            · intro y; rw [a6]; simp
      | inr v =>
        simp only at h
        cases hu : addAndUnique s op a with
        | err _ => rw [hu] at h; simp at h
        | panic => rw [hu] at h; simp at h
        | ok b =>
          rw [hu] at h
          cases b with
          | false => exact allocCase (Or.inl ⟨t1, rfl⟩) (allocHyp hu) h
          | true =>
            obtain ⟨rfl, hid⟩ := addAndUnique_true hu
            simp only at h
            obtain ⟨a1, a2, a3, a4, a5, a6⟩ := ih h
            refine ⟨a1, a2, ?_, ?_, ?_, ?_⟩
            · intro u; rw [a3]; simp [UpsertE.term]
            · rintro ⟨t', a', v'⟩; rw [a4]
              simp only [List.mem_append, List.mem_cons, List.not_mem_nil, or_false, UpsertEV.term,
                UpsertEV.mk.injEq, Term.mk.injEq, Sum.inr.injEq, true_and]
              constructor
              · rintro ((h | ⟨rfl, rfl, rfl⟩) | h)
                · exact Or.inl h
                · exact Or.inr ⟨Or.inl ⟨rfl, rfl, rfl⟩, hid⟩
                · exact Or.inr ⟨Or.inr h.1, h.2⟩
              · rintro (h | ⟨h | h, h'⟩)
                · exact Or.inl (Or.inl h)
                · exact Or.inl (Or.inr h)
                · exact Or.inr ⟨h, h'⟩
            · intro y; rw [a5]; simp only [List.mem_cons]
              constructor
              · rintro (h | h)
                · exact Or.inl h
                · exact Or.inr ⟨Or.inr h.1, h.2⟩
              · rintro (h | ⟨rfl | h, h'⟩)
                · exact Or.inl h
                · exact absurd ⟨rfl, ⟨_, rfl⟩, hid⟩ h'.2
                · exact Or.inr ⟨h, h'⟩
            · intro y; rw [a6]; simp

theorem genInv_init {s st terms g inert} (h : Generation.from s terms {} [] = .ok (g, inert)) :
    GenInv s st terms inert g [] := by
  have f := from_spec h
  have hE : ∀ u, u ∈ g.upsertsE ↔ u.term ∈ terms ∧ IsIdentity s u.a := by
    intro u; rw [f.upsertsE]; simp
  have hEV : ∀ u, u ∈ g.upsertsEV ↔ u.term ∈ terms ∧ IsIdentity s u.a := by
    intro u; rw [f.upsertsEV]; simp
  have hA : ∀ y, y ∈ g.allocations ↔ (y ∈ terms ∧ y.open_ ∧
    ¬ (y.op = .add ∧ (∃ t, y.e = .inr t) ∧ IsIdentity s y.a)) := by
    intro y; rw [f.allocations]; simp
  refine ⟨?_, ?_, ?_, ?_, ?_, ?_, ?_, ?_, ?_, ?_⟩
  · intro y hy
    refine ⟨y, ?_, Part.refl _ _⟩
    rcases mem_pending.mp hy with ⟨u, hu, rfl⟩ | ⟨u, hu, rfl⟩ | hy
    · exact ((hE u).mp hu).1
    · exact ((hEV u).mp hu).1
    · exact ((hA y).mp hy).1
  · intro y hy; rw [f.resolved] at hy; simp at hy
  · intro x hx
    obtain ⟨op, e, a, v⟩ := x
    by_cases ho : TTerm.open_ ⟨op, e, a, v⟩
    · right; left
      refine ⟨⟨op, e, a, v⟩, mem_pending.mpr ?_, Part.refl _ _⟩
      by_cases hid : op = .add ∧ (∃ t, e = .inr t) ∧ IsIdentity s a
      · obtain ⟨rfl, ⟨t, rfl⟩, hid⟩ := hid
        cases v with
        | inl v => exact Or.inl ⟨⟨t, a, v⟩, (hE _).mpr ⟨hx, hid⟩, rfl⟩
        | inr t2 => exact Or.inr (Or.inl ⟨⟨t, a, t2⟩, (hEV _).mpr ⟨hx, hid⟩, rfl⟩)
      · exact Or.inr (Or.inr ((hA _).mpr ⟨hx, ho, hid⟩))
    · left
      cases e with
      | inr t => exact absurd (Or.inl ⟨t, rfl⟩) ho
      | inl e =>
        cases v with
        | inr t => exact absurd (Or.inr ⟨t, rfl⟩) ho
        | inl v => exact ⟨⟨op, e, a, v⟩, (f.inert _).mpr (Or.inr hx), rfl, rfl, rfl, rfl⟩
  · intro u hu; exact ((hE u).mp hu).2
  · intro u hu; exact ((hEV u).mp hu).2
  · intro y hy; exact ((hA y).mp hy).2.1
  · intro t n h; simp at h
  · intro t n h; simp at h
  · intro t a t2 hx hid; exact Or.inl ((hEV _).mpr ⟨hx, hid⟩)
  · intro t a t2 n2 n _ _ h; simp at h

end Mentat
