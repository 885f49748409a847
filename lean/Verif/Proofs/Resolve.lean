import Verif.Proofs.Allocate
/- What `resolveTempIds` as a whole does to the terms of a transaction. -/
namespace Mentat

/-- Specification of tempid resolution.  `U` holds the tempids that upserted. -/
structure ResolveSpec (s : Schema) (st : Store) (user : Partition) (terms : List TTerm)
    (ids : List TempId) (s3 : Stage3) (U : TempIdMap) : Prop where
  sound : ∀ y, y ∈ s3.inert ∨ y ∈ s3.pops.resolved ∨ y ∈ s3.pops.allocated →
    ∃ x ∈ terms, Denotes s3.tempids x y
  complete : ∀ x ∈ terms,
    (∃ y, (y ∈ s3.inert ∨ y ∈ s3.pops.resolved ∨ y ∈ s3.pops.allocated) ∧
      Denotes s3.tempids x y) ∨ Dropped s st U x
  upserts : ∀ t a v n, (⟨.add, .inr t, a, .inl v⟩ : TTerm) ∈ terms → IsIdentity s a →
    st.lookupAV a v = some n → AMap.get U t = some n
  why : ∀ t n, AMap.get U t = some n → Upserts s st.rows terms t n
  closed : ∀ t a t2 n2 n, (⟨.add, .inr t, a, .inr t2⟩ : TTerm) ∈ terms → IsIdentity s a →
    AMap.get U t2 = some n2 → st.lookupAV a (.ref n2) = some n → ∃ n', AMap.get U t = some n'
  sub : AMap.Sub U s3.tempids
  fromStore : FromStore st U
  fresh : ∀ t n, AMap.get s3.tempids t = some n → AMap.get U t = none →
    user.next ≤ n ∧ n < s3.user.next
  user : user.start ≤ user.next → s3.user.start = user.start ∧ s3.user.fin = user.fin ∧
    user.next ≤ s3.user.next ∧ s3.user.next ≤ user.fin
  cover : ∀ t ∈ ids, ∃ n, AMap.get s3.tempids t = some n
  merged : ∀ t n t' n', AMap.get s3.tempids t = some n → AMap.get s3.tempids t' = some n' →
    AMap.get U t = none → AMap.get U t' = none →
    (n = n' ↔ Linked (SharesIdentity s terms U) t t')

theorem allocate_ok {p p' : Partition} {n : Nat} {e : Entid} (h : p.allocate n = .ok (e, p')) :
    e = p.next ∧ p' = { p with next := p.next + n } ∧ p.start ≤ p.next + n ∧ p.next + n ≤ p.fin := by
  unfold Partition.allocate Partition.setNext Partition.allowsEntid at h
  split at h
  · rename_i p1 hp
    split at hp
    · rename_i hc
      simp only [decide_eq_true_eq] at hc
      simp only [Res.ok.injEq] at hp
      subst hp
      simp only [Res.ok.injEq, Prod.mk.injEq] at h
      exact ⟨h.1.symm, h.2.symm, hc.1, hc.2⟩
    · simp at hp
  · simp at h
  · simp at h

theorem get_map_pair {α β γ : Type} [DecidableEq α] (f : β → γ) (m : AMap α β) (k : α) :
    AMap.get (m.map fun (p : α × β) => (p.1, f p.2)) k = (AMap.get m k).map f := get_map_val f m k

theorem resolveTempIds_spec {s st user terms ids s3}
    (h : resolveTempIds s st user terms ids = .ok s3) :
    ∃ U, ResolveSpec s st user terms ids s3 U := by
  unfold resolveTempIds at h
  rw [Res.bind_eq_ok] at h
  obtain ⟨⟨g0, inert⟩, h1, h⟩ := h
  simp only at h
  rw [Res.bind_eq_ok] at h
  obtain ⟨⟨g1, U⟩, h2, h⟩ := h
  simp only at h
  rw [Res.bind_eq_ok] at h
  obtain ⟨labels, h3, h⟩ := h
  rw [Res.bind_eq_ok] at h
  obtain ⟨⟨start, user'⟩, h4, h⟩ := h
  simp only at h
  rw [Res.bind_eq_ok] at h
  obtain ⟨pops, h5, h⟩ := h
  rw [Res.bind_eq_ok] at h
  obtain ⟨M, h6, h⟩ := h
  rw [Res.bind_eq_ok] at h
  obtain ⟨_, h7, h⟩ := h
  rw [Res.bind_eq_ok] at h
  obtain ⟨_, h8, h⟩ := h
  simp only [Res.pure_eq, Res.ok.injEq] at h
  subst h
  simp only [Res.assert_eq_ok] at h7 h8
  have h2' : evolveLoop st g0.measure g0 [] = some (.ok (g1, U)) := by
    unfold evolve at h2
    cases hl : evolveLoop st g0.measure g0 [] with
    | none => simp [hl] at h2
    | some r => simp only [hl] at h2; rw [h2]
  have hi0 := genInv_init (st := st) h1
  obtain ⟨hi, -, hE, hlook⟩ := evolveLoop_ok h2' hi0
  obtain ⟨-, -, hlab⟩ := tempIdsInAllocations_spec h3
  obtain ⟨rfl, hu', hb1, hb2⟩ := allocate_ok h4
  -- final populations
  unfold Generation.intoFinal at h5
  rw [Res.bind_eq_ok] at h5
  obtain ⟨_, h9, h5⟩ := h5
  rw [Res.bind_eq_ok] at h5
  obtain ⟨_, h10, h5⟩ := h5
  rw [Res.bind_eq_ok] at h5
  obtain ⟨allocated, h11, h5⟩ := h5
  simp only [Res.pure_eq, Res.ok.injEq] at h5
  subst h5
  obtain ⟨f1, f2⟩ := finalTerms_ok h11
  obtain ⟨r1, r2, r3, r4⟩ := recordAllocated_ok h6
  -- the allocation map
  generalize hal : (labels.map fun (p : TempId × Nat) => (p.1, user.next + (p.2 : Int))) = allocs
    at f1 f2 r2 r3 r4 h6 h11
  have hget : ∀ t, AMap.get allocs t = (AMap.get labels t).map fun (i : Nat) => user.next + (i : Int) := by
    intro t; rw [← hal]; exact get_map_val (fun (i : Nat) => user.next + (i : Int)) labels t
  have hsub : AMap.Sub allocs M := fun t n hg => r2 (t, n) (AMap.get_some_mem hg)
  have hkeys : ∀ t n, (t, n) ∈ allocs → ∃ n', AMap.get allocs t = some n' := by
    intro t n hm
    have : (AMap.get allocs t).isSome := AMap.get_isSome_iff.mpr (List.mem_map.mpr ⟨_, hm, rfl⟩)
    exact Option.isSome_iff_exists.mp this
  -- pending terms after `allocate_unresolved_upserts`
  have hA : ∀ y, y ∈ g1.allocateUnresolved.allocations ↔ y ∈ g1.pending := by
    intro y
    simp only [Generation.allocateUnresolved, Generation.pending, hE, List.map_nil, List.nil_append,
      List.mem_append]
    exact or_comm
  have hU : ∀ t, (∃ n, AMap.get M t = some n) → AMap.get U t = none → ∃ i, AMap.get labels t = some i ∧
      AMap.get M t = some (user.next + (i : Int)) := by
    rintro t ⟨n, hn⟩ hu
    rcases r3 t n hn with h | h
    · rw [hu] at h; simp at h
    · obtain ⟨n', hn'⟩ := hkeys t n h
      have hm := hsub _ _ hn'
      rw [hget] at hn'
      rw [Option.map_eq_some_iff] at hn'
      obtain ⟨i, hi, rfl⟩ := hn'
      exact ⟨i, hi, hm⟩
  have hdisj : ∀ t i, AMap.get labels t = some i → AMap.get U t = none := by
    intro t i hg
    have : AMap.get allocs t = some (user.next + (i : Int)) := by rw [hget, hg]; rfl
    exact r4 _ (AMap.get_some_mem this)
  have hment : ∀ y ∈ g1.pending, y.op = .add → ∀ t, (y.e = .inr t ∨ y.v = .inr t) →
      AMap.get U t = none := by
    intro y hy ho t ht
    have : (AMap.get labels t).isSome :=
      (hlab.keys t).mpr ⟨y, (hA y).mpr hy, ho, ht⟩
    obtain ⟨i, hi'⟩ := Option.isSome_iff_exists.mp this
    exact hdisj t i hi'
  refine ⟨U, ⟨?_, ?_, ?_, hi.why, ?_, r1, hi.fromStore, ?_, ?_, ?_, ?_⟩⟩
  · rintro y (hy | hy | hy)
    · have := ((from_spec h1).inert y).mp hy
      simp only [List.not_mem_nil, false_or] at this
      exact ⟨_, this, rfl, rfl, rfl, rfl⟩
    · obtain ⟨x, hx, hd⟩ := hi.soundR y hy
      exact ⟨x, hx, hd.mono r1⟩
    · obtain ⟨z, hz, hd⟩ := f2 y hy
      obtain ⟨x, hx, hp⟩ := hi.sound z ((hA z).mp hz)
      exact ⟨x, hx, (hp.mono r1).denotes (hd.mono hsub)⟩
  · intro x hx
    rcases hi.complete x hx with ⟨y, hy, hd⟩ | ⟨z, hz, hp⟩ | ⟨y, hy, hd⟩ | hd
    · exact Or.inl ⟨y, Or.inl hy, hd.mono (fun k v hk => by simp at hk)⟩
    · obtain ⟨y, hy, hd⟩ := f1 z ((hA z).mpr hz)
      exact Or.inl ⟨y, Or.inr (Or.inr hy), (hp.mono r1).denotes (hd.mono hsub)⟩
    · exact Or.inl ⟨y, Or.inr (Or.inl hy), hd.mono r1⟩
    · exact Or.inr hd
  · intro t a v n hx hid hl
    have hu : (⟨t, a, v⟩ : UpsertE) ∈ g0.upsertsE :=
      ((from_spec h1).upsertsE _).mpr (Or.inr ⟨hx, hid⟩)
    exact hlook ⟨t, a, v⟩ hu n hl
  · intro t a t2 n2 n hx hid hg hl
    rcases hi.closed t a t2 n2 n hx hid hg hl with h | h
    · exact h
    · rw [hE] at h; simp at h
  · intro t n hg hu
    obtain ⟨i, hi', hm⟩ := hU t ⟨n, hg⟩ hu
    have hb := hlab.bound t i hi'
    rw [hg] at hm
    rw [Option.some.inj hm, hu']
    show user.next ≤ user.next + (i : Int) ∧ user.next + (i : Int) < user.next + (labels.length : Int)
    omega
  · intro hs
    rw [hu']
    show user.start = user.start ∧ user.fin = user.fin ∧ user.next ≤ user.next + (labels.length : Int) ∧
      user.next + (labels.length : Int) ≤ user.fin
    omega
  · intro t ht
    have := h8 t ht
    unfold AMap.contains at this
    exact Option.isSome_iff_exists.mp this
  · intro t n t' n' hg hg' hu hu''
    obtain ⟨i, hi', hm⟩ := hU t ⟨n, hg⟩ hu
    obtain ⟨i', hi'', hm'⟩ := hU t' ⟨n', hg'⟩ hu''
    rw [hg] at hm; rw [hg'] at hm'
    have hiff : n = n' ↔ i = i' := by
      rw [Option.some.inj hm, Option.some.inj hm']; omega
    rw [hiff, hlab.same t i t' i' hi' hi'']
    have memA : ∀ t a w, AMap.get U t = none → IsIdentity s a →
        ((⟨.add, .inr t, a, w⟩ : TTerm) ∈ g1.allocateUnresolved.allocations ↔
          ∃ v, (⟨.add, .inr t, a, v⟩ : TTerm) ∈ terms ∧ valueUnder U v = w) := by
      intro t a w hut hid
      constructor
      · intro hy
        rw [hA] at hy
        obtain ⟨⟨op, e, a', v⟩, hx, ho, ha, he, hv⟩ := hi.sound _ hy
        simp only at ho ha he hv
        subst ho; subst ha
        have he' : e = .inr t := by
          rcases he with he | ⟨_, _, _, _, he⟩
          · exact he.symm
          · simp at he
        subst he'
        refine ⟨v, hx, ?_⟩
        rcases hv with hv | ⟨t2, n2, rfl, hn2, rfl⟩
        · subst hv
          cases w with
          | inl v => rfl
          | inr t2 =>
            have := hment _ hy rfl t2 (Or.inr rfl)
            simp [valueUnder, this]
        · simp [valueUnder, hn2]
      · rintro ⟨v, hx, rfl⟩
        rw [hA]
        rcases hi.complete _ hx with ⟨y, hy, hd⟩ | ⟨z, hz, hp⟩ | ⟨y, hy, hd⟩ | hd
        · have := hd.2.2.1; simp [DenotesE] at this
        · obtain ⟨op, e, a', v'⟩ := z
          obtain ⟨ho, ha, he, hv⟩ := hp
          simp only at ho ha he hv
          subst ho; subst ha
          have he' : e = .inr t := by
            rcases he with he | ⟨t', n', h1, h2, he⟩
            · exact he
            · simp only [Sum.inr.injEq] at h1; subst h1; rw [hut] at h2; simp at h2
          subst he'
          have : v' = valueUnder U v := by
            rcases hv with hv | ⟨t2, n2, rfl, hn2, rfl⟩
            · subst hv
              cases v' with
              | inl v => rfl
              | inr t2 =>
                have := hment _ hz rfl t2 (Or.inr rfl)
                simp [valueUnder, this]
            · simp [valueUnder, hn2]
          rw [← this]; exact hz
        · have := hd.2.2.1; simp only [DenotesE] at this; rw [hut] at this; simp at this
        · obtain ⟨-, -, t', n, v', he, hg, -⟩ := hd
          simp only [Sum.inr.injEq] at he; subst he; rw [hut] at hg; simp at hg
    constructor
    · intro hl
      refine hl.mono ?_
      rintro x y ⟨a, w, hid, hx, hy⟩
      have hxu := hment _ ((hA _).mp hx) rfl x (Or.inl rfl)
      have hyu := hment _ ((hA _).mp hy) rfl y (Or.inl rfl)
      obtain ⟨v, hv, hv'⟩ := (memA x a w hxu hid).mp hx
      obtain ⟨v2, hv2, hv2'⟩ := (memA y a w hyu hid).mp hy
      exact .step ⟨a, v, v2, hid, hv, hv2, hv'.trans hv2'.symm, hxu, hyu⟩
    · intro hl
      refine hl.mono ?_
      rintro x y ⟨a, v, v', hid, hx, hy, hvv, hxu, hyu⟩
      exact .step ⟨a, valueUnder U v, hid, (memA x a _ hxu hid).mpr ⟨v, hx, rfl⟩,
        (memA y a _ hyu hid).mpr ⟨v', hy, hvv.symm⟩⟩

end Mentat
