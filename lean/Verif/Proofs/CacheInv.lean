import Verif.Proofs.CacheAgree
/- The invariant of a cache slot along sessions and connections. -/
namespace Mentat

section
variable {K V : Type} [DecidableEq K] {S : Slot K V} {G : Prop}

/-! ### Well-formedness of the maps -/

theorem Slot.Laws.wfFold (L : S.Laws) (b : Behavior) (l : List (Entid × TypedValue)) (m : AMap K V)
    (hm : AMap.WF m) : AMap.WF (l.foldl (S.op b) m) := by
  induction l generalizing m with
  | nil => exact hm
  | cons x l ih =>
    refine ih _ ?_
    cases b
    · exact L.wfAdd _ _ hm
    · exact L.wfRemove _ _ hm

theorem Slot.Laws.growFold (L : S.Laws) (b : Behavior) (l : List (Entid × TypedValue)) (m : AMap K V) :
    KeysIn m (l.foldl (S.op b) m) := by
  induction l generalizing m with
  | nil => exact keysIn_refl m
  | cons x l ih =>
    refine KeysIn.trans ?_ (ih _)
    cases b
    · exact L.growAdd _ _
    · exact L.growRemove _ _

theorem run_wf (L : S.Laws) {o o' : Caches} {fb : Option Caches} {s b r}
    (h : o.accumulateRun fb s b r = .ok o') (hw : AMap.WF (S.field o)) : AMap.WF (S.field o') := by
  obtain ⟨-, -, at_, -, heq⟩ := L.run h
  rw [heq]
  split
  · exact AMap.wf_insert hw _ _
  · exact hw

theorem accumulateRuns_wf (L : S.Laws) {fb : Option Caches} {s b} :
    ∀ {rs : List (Entid × List (Entid × TypedValue))} {o o' : Caches},
    Caches.accumulateRuns fb s b rs o = .ok o' → AMap.WF (S.field o) → AMap.WF (S.field o')
  | [], o, o', h, hw => by
    rw [Caches.accumulateRuns] at h
    cases h
    exact hw
  | r :: rs, o, o', h, hw => by
    rw [Caches.accumulateRuns] at h
    cases h1 : o.accumulateRun fb s b r with
    | err e => rw [h1] at h; simp [Res.bind] at h
    | panic => rw [h1] at h; simp [Res.bind] at h
    | ok o1 =>
      rw [h1] at h
      exact accumulateRuns_wf L (o := o1) h (run_wf L h1 hw)

theorem watch_wf (L : S.Laws) {p p' : ProgCache} {s shown} (h : p.watch s shown = .ok p')
    (hw : AMap.WF (S.field p.overlay)) : AMap.WF (S.field p'.overlay) := by
  unfold ProgCache.watch ProgCache.update at h
  simp only at h
  generalize (if p.hasCached = true then shown else []) = sh at h
  cases hu : p.overlay.update (some p.inner) s
      (flattenCollected ((sh.filter fun d => !d.added).foldl (collect p) []))
      (flattenCollected ((sh.filter fun d => d.added).foldl (collect p) [])) with
  | err e => rw [hu] at h; simp [Res.bind] at h
  | panic => rw [hu] at h; simp [Res.bind] at h
  | ok o =>
    rw [hu] at h
    have h : Res.ok { p with overlay := o } = Res.ok p' := h
    obtain rfl := Res.ok.inj h
    unfold Caches.update at hu
    cases h1 : p.overlay.accumulate (some p.inner) s
      (flattenCollected ((sh.filter fun d => !d.added).foldl (collect p) [])) .remove with
    | err e => rw [h1] at hu; simp [Res.bind] at hu
    | panic => rw [h1] at hu; simp [Res.bind] at hu
    | ok o1 =>
      rw [h1] at hu
      exact accumulateRuns_wf L (o := o1) hu (accumulateRuns_wf L h1 hw)

/-! ### Repopulating -/

theorem runs_same (a : Entid) (l : List (Entid × TypedValue)) :
    runs (l.map fun ev => (a, ev)) = match l with
      | [] => []
      | _ :: _ => [(a, l)] := by
  induction l with
  | nil => rfl
  | cons x l ih =>
    rw [List.map_cons, runs, ih]
    cases l with
    | nil => rfl
    | cons y l => simp

/-- The datoms of `a` in the table, as pairs. -/
def pairsOf (rows : List Row) (a : Entid) : List (Entid × TypedValue) :=
  (rows.filter fun r => decide (r.a = a)).map fun r => (r.e, r.v)

theorem aevsOf_eq (rows : List Row) (a : Entid) : aevsOf rows a = (pairsOf rows a).map fun ev => (a, ev) := by
  unfold aevsOf pairsOf
  rw [List.map_map]
  apply List.map_congr_left
  intro r hr
  simp only [List.mem_filter, decide_eq_true_eq] at hr
  simp [hr.2]

theorem mem_pairsOf {rows : List Row} {a e v} : (e, v) ∈ pairsOf rows a ↔ Has rows e a v := by
  unfold pairsOf Has
  simp only [List.mem_map, List.mem_filter, decide_eq_true_eq, Prod.mk.injEq]
  constructor
  · rintro ⟨r, ⟨hr, ha⟩, he, hv⟩; exact ⟨r, hr, he, ha, hv⟩
  · rintro ⟨r, hr, he, ha, hv⟩; exact ⟨r, ⟨hr, ha⟩, he, hv⟩

theorem repopulate_get (L : S.Laws) {o o' : Caches} {s rows b} (h : o.repopulate s rows b = .ok o')
    (a : Entid) :
    AMap.get (S.field o') a = if b = a ∧ a ∈ S.cached o ∧ (s.attr a).any S.on = true ∧
        pairsOf rows a ≠ [] then some ((pairsOf rows a).foldl S.add [])
      else AMap.get (S.field o) a := by
  unfold Caches.repopulate Caches.accumulate at h
  rw [aevsOf_eq, runs_same] at h
  cases hp : pairsOf rows b with
  | nil =>
    rw [hp] at h
    simp only [Caches.accumulateRuns] at h
    cases h
    rw [if_neg]
    rintro ⟨rfl, -, -, hne⟩
    exact hne hp
  | cons x l =>
    rw [hp] at h
    simp only [Caches.accumulateRuns] at h
    cases h1 : o.accumulateRun none s (.add true) (b, x :: l) with
    | err e => rw [h1] at h; simp [Res.bind] at h
    | panic => rw [h1] at h; simp [Res.bind] at h
    | ok o1 =>
      rw [h1] at h
      have h : Res.ok o1 = Res.ok o' := h
      obtain rfl := Res.ok.inj h
      rw [run_get L h1 a]
      by_cases hba : b = a
      · subst hba
        by_cases hc : b ∈ S.cached o ∧ (s.attr b).any S.on = true
        · rw [if_pos ⟨rfl, hc.1, hc.2⟩, if_pos ⟨rfl, hc.1, hc.2, by simp [hp]⟩, hp]
          rfl
        · rw [if_neg (fun hh => hc hh.2), if_neg (fun hh => hc ⟨hh.2.1, hh.2.2.1⟩)]
      · rw [if_neg (fun hh => hba hh.1), if_neg (fun hh => hba hh.1)]

theorem repopulate_lists {o o' : Caches} {s rows b} (h : o.repopulate s rows b = .ok o') :
    o'.forward = o.forward ∧ o'.reverse = o.reverse := accumulateRuns_lists h

theorem repopulate_wf (L : S.Laws) {o o' : Caches} {s rows b} (h : o.repopulate s rows b = .ok o')
    (hw : AMap.WF (S.field o)) : AMap.WF (S.field o') := accumulateRuns_wf L h hw

/-! ### Absorbing -/

theorem get_extendAbsorbing {M : Type} (absorb : M → M → M) {m o : AMap Entid M} (hw : AMap.WF o)
    (a : Entid) : AMap.get (extendAbsorbing absorb m o) a = match AMap.get o a with
      | some x => some (match AMap.get m a with
        | some y => absorb y x
        | none => x)
      | none => AMap.get m a := by
  unfold extendAbsorbing
  refine foldl_get _ (fun x old => some (match old with
        | some y => absorb y x
        | none => x)) ?_ o hw m a
  intro m p k
  obtain ⟨pk, pv⟩ := p
  simp only
  cases hm : AMap.get m pk with
  | none =>
    simp only [AMap.get_insert]
    by_cases hk : pk = k
    · subst hk; simp [hm]
    · simp [hk]
  | some y =>
    simp only [AMap.get_insert]
    by_cases hk : pk = k
    · subst hk; simp [hm]
    · simp [hk]

theorem wf_extendAbsorbing {M : Type} (absorb : M → M → M) {m o : AMap Entid M} (hw : AMap.WF m) :
    AMap.WF (extendAbsorbing absorb m o) := by
  unfold extendAbsorbing
  refine wf_foldl _ ?_ _ _ hw
  intro m p hm
  split
  · exact AMap.wf_insert hm _ _
  · exact AMap.wf_insert hm _ _

theorem unregisterAll_get (L : S.Laws) (l : List Entid) (c : Caches) (a : Entid) :
    AMap.get (S.field (l.foldl Caches.unregister c)) a =
      if a ∈ l then none else AMap.get (S.field c) a := by
  induction l generalizing c with
  | nil => simp
  | cons x l ih =>
    rw [List.foldl_cons, ih, L.unregister, AMap.get_erase]
    by_cases h : a ∈ l
    · simp [h]
    · by_cases hx : x = a
      · simp [hx]
      · simp [h, hx, Ne.symm hx]

theorem unregisterAll_wf (L : S.Laws) (l : List Entid) (c : Caches) (hw : AMap.WF (S.field c)) :
    AMap.WF (S.field (l.foldl Caches.unregister c)) := by
  induction l generalizing c with
  | nil => exact hw
  | cons x l ih =>
    rw [List.foldl_cons]
    apply ih
    rw [L.unregister]
    exact AMap.wf_erase hw _

theorem unregisterAll_forward (l : List Entid) (c : Caches) (a : Entid) :
    a ∈ (l.foldl Caches.unregister c).forward ↔ a ∈ c.forward ∧ a ∉ l := by
  induction l generalizing c with
  | nil => simp
  | cons x l ih =>
    rw [List.foldl_cons, ih]
    simp only [Caches.unregister, List.mem_filter, decide_eq_true_eq, List.mem_cons, not_or]
    tauto

theorem unregisterAll_reverse (l : List Entid) (c : Caches) (a : Entid) :
    a ∈ (l.foldl Caches.unregister c).reverse ↔ a ∈ c.reverse ∧ a ∉ l := by
  induction l generalizing c with
  | nil => simp
  | cons x l ih =>
    rw [List.foldl_cons, ih]
    simp only [Caches.unregister, List.mem_filter, decide_eq_true_eq, List.mem_cons, not_or]
    tauto

theorem unregisterAll_cached (L : S.Laws) (l : List Entid) (c : Caches) (a : Entid) :
    a ∈ S.cached (l.foldl Caches.unregister c) ↔ a ∈ S.cached c ∧ a ∉ l := by
  rcases L.cachedOf with h | h
  · rw [h, h]; exact unregisterAll_forward l c a
  · rw [h, h]; exact unregisterAll_reverse l c a

theorem absorb_cached (L : S.Laws) (c o : Caches) (a : Entid) :
    a ∈ S.cached (c.absorb o) ↔ a ∈ S.cached c ∨ a ∈ S.cached o := by
  rcases L.cachedOf with h | h
  · rw [h, h, h]; simp [Caches.absorb]
  · rw [h, h, h]; simp [Caches.absorb]

/-! ### The invariants -/

/-- The entry of `a`, taken to be empty if missing. -/
def Slot.entry (S : Slot K V) (c : Caches) (a : Entid) : AMap K V := (AMap.get (S.field c) a).getD []

structure CachesInv (S : Slot K V) (a : Entid) (c : Caches) : Prop where
  tidy : AMap.get (S.field c) a ≠ none → a ∈ S.cached c
  wf : AMap.WF (S.field c)
  entryWf : AMap.WF (S.entry c a)

structure ConnInv (G : Prop) (S : Slot K V) (a : Entid) (c : Conn) : Prop where
  reach : ReachKept c.db
  caches : CachesInv S a c.cache
  good : G → a ∈ S.cached c.cache → (c.schema.attr a).any S.on = true →
    S.Agree (S.entry c.cache a) c.store.rows a

/-- Where `a` is registered. -/
structure ListsInv (a : Entid) (p : ProgCache) : Prop where
  fwd : a ∈ p.overlay.forward → a ∉ p.unregForward
  rev : a ∈ p.overlay.reverse → a ∉ p.unregReverse
  inner : a ∈ p.inner.forward ∨ a ∈ p.inner.reverse →
    (a ∉ p.unregForward ∧ a ∉ p.unregReverse ∧
      (a ∈ p.overlay.forward ↔ a ∈ p.inner.forward) ∧ (a ∈ p.overlay.reverse ↔ a ∈ p.inner.reverse)) ∨
    (a ∈ p.unregForward ∧ a ∈ p.unregReverse ∧ a ∉ p.overlay.forward ∧ a ∉ p.overlay.reverse)

theorem ListsInv.slot (L : S.Laws) {a : Entid} {p : ProgCache} (h : ListsInv a p)
    (hc : a ∈ S.cached p.inner) :
    (a ∉ p.unregForward ∧ a ∉ p.unregReverse ∧ a ∈ S.cached p.overlay) ∨
    (a ∈ p.unregForward ∧ a ∈ p.unregReverse ∧ a ∉ S.cached p.overlay) := by
  rcases L.cachedOf with hs | hs
  · rw [hs] at hc
    rcases h.inner (Or.inl hc) with ⟨h1, h2, h3, -⟩ | ⟨h1, h2, h3, -⟩
    · exact Or.inl ⟨h1, h2, by rw [hs]; exact h3.mpr hc⟩
    · exact Or.inr ⟨h1, h2, by rw [hs]; exact h3⟩
  · rw [hs] at hc
    rcases h.inner (Or.inr hc) with ⟨h1, h2, -, h3⟩ | ⟨h1, h2, -, h3⟩
    · exact Or.inl ⟨h1, h2, by rw [hs]; exact h3.mpr hc⟩
    · exact Or.inr ⟨h1, h2, by rw [hs]; exact h3⟩

theorem ListsInv.cached (L : S.Laws) {a : Entid} {p : ProgCache} (h : ListsInv a p)
    (hc : a ∈ S.cached p.overlay) : p.cachedForward a = true ∨ p.cachedReverse a = true := by
  rcases L.cachedOf with hs | hs
  · rw [hs] at hc
    left
    simp [ProgCache.cachedForward, hc, h.fwd hc]
  · rw [hs] at hc
    right
    simp [ProgCache.cachedReverse, hc, h.rev hc]

structure ProgInv (G : Prop) (S : Slot K V) (a : Entid) (c : Conn) (p : InProgress) : Prop where
  reach : ReachKept p.db
  inner : p.cache.inner = c.cache
  lists : ListsInv a p.cache
  over : CachesInv S a p.cache.overlay
  keys : ∀ m, AMap.get (S.field p.cache.overlay) a = some m → KeysIn (S.entry c.cache a) m
  good : G → a ∈ S.cached p.cache.overlay → (p.schema.attr a).any S.on = true →
    S.Agree (S.eff p.cache.overlay (some c.cache) a) p.store.rows a

omit [DecidableEq K] in
/-- What an attribute cached in the overlay has there. -/
theorem eff_eq (S : Slot K V) {c o : Caches} {a : Entid} (hi : CachesInv S a c)
    (hc : a ∈ S.cached o) : S.eff o (some c) a = match AMap.get (S.field o) a with
      | some m => m
      | none => S.entry c a := by
  unfold Slot.eff Slot.entry
  cases AMap.get (S.field o) a with
  | some m => rfl
  | none =>
    simp only [Option.filter]
    by_cases h : a ∈ S.cached c
    · simp [hc, h]
    · have : AMap.get (S.field c) a = none := by
        cases hg : AMap.get (S.field c) a with
        | none => rfl
        | some x => exact absurd (hi.tidy (by simp [hg])) h
      simp [h, this]

theorem begin_inv (L : S.Laws) {a : Entid} {c : Conn} (h : ConnInv G S a c) : ProgInv G S a c c.begin := by
  have hget : AMap.get (S.field c.begin.cache.overlay) a = none := by
    show AMap.get (S.field { forward := c.cache.forward, reverse := c.cache.reverse }) a = none
    rw [L.empty]; rfl
  have hcached : S.cached c.begin.cache.overlay = S.cached c.cache := by
    rcases L.cachedOf with hs | hs
    · rw [hs, hs]; rfl
    · rw [hs, hs]; rfl
  refine ⟨h.reach, rfl, ⟨?_, ?_, ?_⟩, ⟨?_, ?_, ?_⟩, ?_, ?_⟩
  · intro _; exact List.not_mem_nil
  · intro _; exact List.not_mem_nil
  · intro _
    exact Or.inl ⟨List.not_mem_nil, List.not_mem_nil, Iff.rfl, Iff.rfl⟩
  · intro hn; exact absurd hget hn
  · show AMap.WF (S.field { forward := c.cache.forward, reverse := c.cache.reverse })
    rw [L.empty]; exact AMap.wf_nil
  · unfold Slot.entry; rw [hget]; exact AMap.wf_nil
  · intro m hm; rw [hget] at hm; simp at hm
  · intro hG hc hon
    rw [eff_eq S h.caches hc, hget]
    rw [hcached] at hc
    exact h.good hG hc hon

/-! ### Transacting -/

theorem InProgress.transact_ok {p p' : InProgress} {now terms ids rep}
    (h : p.transact now terms ids = (.ok rep, p')) :
    ∃ db', transactTerms p.db now terms ids = .ok (db', rep) ∧ p'.db = db' ∧
      p.cache.watch p.schema (transactRun p.db now terms ids).shown = .ok p'.cache ∧
      p'.generation = p.generation := by
  unfold InProgress.transact at h
  simp only at h
  cases ht : transactTerms p.db now terms ids with
  | err e =>
    rw [transactRun_result, ht] at h
    cases hd : (transactRun p.db now terms ids).done with
    | none => rw [hd] at h; simp at h
    | some tx =>
      rw [hd] at h
      cases hw : p.cache.watch p.schema (transactRun p.db now terms ids).shown with
      | ok k => rw [hw] at h; simp [Res.bind] at h
      | err e => rw [hw] at h; simp [Res.bind] at h
      | panic => rw [hw] at h; simp [Res.bind] at h
  | panic =>
    rw [transactRun_result, ht] at h
    cases hd : (transactRun p.db now terms ids).done with
    | none => rw [hd] at h; simp at h
    | some tx =>
      rw [hd] at h
      cases hw : p.cache.watch p.schema (transactRun p.db now terms ids).shown with
      | ok k => rw [hw] at h; simp [Res.bind] at h
      | err e => rw [hw] at h; simp [Res.bind] at h
      | panic => rw [hw] at h; simp [Res.bind] at h
  | ok x =>
    obtain ⟨db', rep'⟩ := x
    obtain ⟨T⟩ := transact_trace ht
    have hr := transactRun_ok T ht
    rw [hr] at h
    rw [hr]
    cases hw : p.cache.watch p.schema (shownOf (reducedOf p.db.schema T.t)) with
    | err e => rw [hw] at h; simp [Res.bind] at h
    | panic => rw [hw] at h; simp [Res.bind] at h
    | ok k =>
      rw [hw] at h
      simp only [Res.bind, Prod.mk.injEq, Res.ok.injEq] at h
      obtain ⟨rfl, rfl⟩ := h
      exact ⟨db', rfl, rfl, rfl, rfl⟩

/-- The updates the watcher makes to the slot follow the store, given `Q`. -/
def Follows (S : Slot K V) (a : Entid) (Q : TxCond) : Prop :=
  ∀ {db : Db} {now terms ids db' rep}
    (T : TxTrace db db.schema now terms ids .materializeAndCommit db' rep),
    ReachKept db → ReachKept db' → (db.schema.attr a).any S.on = true →
    Q db db' (shownOf (reducedOf db.schema T.t)) →
    ∀ m, S.Agree m db.store.rows a →
      S.Agree ((shownPairs (shownOf (reducedOf db.schema T.t)) true a).foldl S.add
        ((shownPairs (shownOf (reducedOf db.schema T.t)) false a).foldl S.remove m)) db'.store.rows a

omit [DecidableEq K] in
theorem onShape {S : Slot K V} {a : Entid} {db db' : Db} {shown : List Shown}
    (hon : ∀ x y : Attribute, x.multival = y.multival → x.unique.isSome = y.unique.isSome → S.on x = S.on y)
    (h : SameShape a db db' shown) : (db.schema.attr a).any S.on = (db'.schema.attr a).any S.on := by
  unfold SameShape at h
  cases h1 : db.schema.attr a with
  | none =>
    cases h2 : db'.schema.attr a with
    | none => rfl
    | some y => rw [h1, h2] at h; simp at h
  | some x =>
    cases h2 : db'.schema.attr a with
    | none => rw [h1, h2] at h; simp at h
    | some y =>
      rw [h1, h2] at h
      simp only [Option.map_some, Option.some.injEq, Prod.mk.injEq] at h
      simp only [Option.any_some]
      exact hon x y h.1 h.2

def Slot.Shaped (S : Slot K V) : Prop :=
  ∀ x y : Attribute, x.multival = y.multival → x.unique.isSome = y.unique.isSome → S.on x = S.on y

theorem transact_inv (L : S.Laws) (hsh : S.Shaped) {a : Entid} {Q : TxCond} (hF : G → Follows S a Q) (hS : G → ∀ db db' shown, Q db db' shown → SameShape a db db' shown) {c : Conn}
    (hc : ConnInv G S a c) {p p' : InProgress} (h : ProgInv G S a c p) {now terms ids rep}
    (hk : KnownTerms p.db terms) (ht : p.transact now terms ids = (.ok rep, p'))
    (hu : KeepsUsedAttributes p.db p'.db)
    (hq : p.cache.cachedForward a = true ∨ p.cache.cachedReverse a = true →
        Q p.db p'.db (transactRun p.db now terms ids).shown) :
    ProgInv G S a c p' := by
  obtain ⟨db', htt, hdb, hw, -⟩ := InProgress.transact_ok ht
  subst hdb
  have hr' : ReachKept p'.db := .step h.reach ⟨now, terms, ids, rep, hk, htt⟩ hu
  obtain ⟨hi, hf, hr, huf, hur⟩ := watch_lists hw
  have hcc : S.cached p'.cache.overlay = S.cached p.cache.overlay := L.lists' hf hr
  by_cases hon : a ∈ S.cached p.cache.overlay ∧ (p.schema.attr a).any S.on = true
  · obtain ⟨hca, hat⟩ := hon
    have hQ := hq (h.lists.cached L hca)
    obtain ⟨at_, hat1, hat2⟩ : ∃ at_, p.schema.attr a = some at_ ∧ S.on at_ = true := by
      cases hx : p.schema.attr a with
      | none => rw [hx] at hat; simp at hat
      | some x => rw [hx] at hat; exact ⟨x, rfl, by simpa using hat⟩
    have heff := watch_eff L hw hat1 hat2 hca (by
      rcases h.lists.cached L hca with hh | hh <;> simp [hh])
    rw [h.inner] at heff
    have hold := eff_eq S hc.caches hca
    have hnew := eff_eq S hc.caches (o := p'.cache.overlay) (by rw [hcc]; exact hca)
    have hkeys0 : KeysIn (S.entry c.cache a) (S.eff p.cache.overlay (some c.cache) a) := by
      rw [hold]
      cases hg : AMap.get (S.field p.cache.overlay) a with
      | none => exact keysIn_refl _
      | some m => exact h.keys m hg
    have hwf0 : AMap.WF (S.eff p.cache.overlay (some c.cache) a) := by
      rw [hold]
      cases hg : AMap.get (S.field p.cache.overlay) a with
      | none => exact hc.caches.entryWf
      | some m =>
        have := h.over.entryWf
        unfold Slot.entry at this
        rw [hg] at this
        exact this
    have hkeys1 : KeysIn (S.entry c.cache a) (S.eff p'.cache.overlay (some c.cache) a) := by
      rw [heff]
      exact (hkeys0.trans (L.growFold .remove _ _)).trans (L.growFold (.add false) _ _)
    have hwf1 : AMap.WF (S.eff p'.cache.overlay (some c.cache) a) := by
      rw [heff]
      exact L.wfFold (.add false) _ _ (L.wfFold .remove _ _ hwf0)
    refine ⟨hr', hi.trans h.inner, ?_, ⟨?_, ?_, ?_⟩, ?_, ?_⟩
    · refine ⟨?_, ?_, ?_⟩
      · rw [hf, huf]; exact h.lists.fwd
      · rw [hr, hur]; exact h.lists.rev
      · rw [hi, hf, hr, huf, hur]; exact h.lists.inner
    · intro _; rw [hcc]; exact hca
    · exact watch_wf L hw h.over.wf
    · unfold Slot.entry
      cases hg : AMap.get (S.field p'.cache.overlay) a with
      | none => exact AMap.wf_nil
      | some m =>
        rw [hg] at hnew
        have hnew : S.eff p'.cache.overlay (some c.cache) a = m := hnew
        rw [← hnew]; exact hwf1
    · intro m hg
      rw [hg] at hnew
      have hnew : S.eff p'.cache.overlay (some c.cache) a = m := hnew
      rw [← hnew]; exact hkeys1
    · intro hG _ _
      obtain ⟨T⟩ := transact_trace htt
      have hrun := transactRun_ok T htt
      rw [heff, hrun]
      rw [hrun] at hQ
      exact hF hG T h.reach hr' hat hQ _ (h.good hG hca hat)
  · have hoff := watch_off L hw hon
    refine ⟨hr', hi.trans h.inner, ?_, ⟨?_, ?_, ?_⟩, ?_, ?_⟩
    · refine ⟨?_, ?_, ?_⟩
      · rw [hf, huf]; exact h.lists.fwd
      · rw [hr, hur]; exact h.lists.rev
      · rw [hi, hf, hr, huf, hur]; exact h.lists.inner
    · rw [hoff, hcc]; exact h.over.tidy
    · exact watch_wf L hw h.over.wf
    · unfold Slot.entry; rw [hoff]; exact h.over.entryWf
    · rw [hoff]; exact h.keys
    · intro hG hca hat
      rw [hcc] at hca
      exfalso
      apply hon
      refine ⟨hca, ?_⟩
      exact (onShape hsh (hS hG _ _ _ (hq (h.lists.cached L hca)))).trans hat

/-! ### Registering -/

/-- The entry made from the table agrees with it. -/
def Fills (S : Slot K V) (a : Entid) : Prop :=
  ∀ {db : Db}, ReachKept db → (db.schema.attr a).any S.on = true →
    S.Agree ((pairsOf db.store.rows a).foldl S.add []) db.store.rows a

theorem mem_setInsert_self {α : Type} [DecidableEq α] (l : List α) (x : α) : x ∈ setInsert l x :=
  (mem_setInsert' l x x).mpr (Or.inl rfl)

/-- The lists with `b` registered in direction `d`. -/
def withRegistered (o : Caches) (b : Entid) (d : CacheDir) : Caches :=
  { o with
    forward := if d.isForward then setInsert o.forward b else o.forward
    reverse := if d.isReverse then setInsert o.reverse b else o.reverse }

theorem withRegistered_forward {o : Caches} {b : Entid} {d : CacheDir} {a : Entid} :
    a ∈ (withRegistered o b d).forward ↔ a ∈ o.forward ∨ (d.isForward = true ∧ a = b) := by
  unfold withRegistered
  simp only
  split
  · rename_i h; rw [mem_setInsert']; simp [h, or_comm]
  · rename_i h; simp [h]

theorem withRegistered_reverse {o : Caches} {b : Entid} {d : CacheDir} {a : Entid} :
    a ∈ (withRegistered o b d).reverse ↔ a ∈ o.reverse ∨ (d.isReverse = true ∧ a = b) := by
  unfold withRegistered
  simp only
  split
  · rename_i h; rw [mem_setInsert']; simp [h, or_comm]
  · rename_i h; simp [h]

theorem withRegistered_mono (L : S.Laws) {o : Caches} {b : Entid} {d : CacheDir} {a : Entid}
    (h : a ∈ S.cached o) : a ∈ S.cached (withRegistered o b d) := by
  rcases L.cachedOf with hs | hs
  · rw [hs] at h ⊢; exact withRegistered_forward.mpr (Or.inl h)
  · rw [hs] at h ⊢; exact withRegistered_reverse.mpr (Or.inl h)

theorem withRegistered_other (L : S.Laws) {o : Caches} {b : Entid} {d : CacheDir} {a : Entid}
    (hab : a ≠ b) : a ∈ S.cached (withRegistered o b d) ↔ a ∈ S.cached o := by
  rcases L.cachedOf with hs | hs
  · rw [hs, hs, withRegistered_forward]; simp [hab]
  · rw [hs, hs, withRegistered_reverse]; simp [hab]

/-- Registering in a set of caches over nothing keeps the entry agreeing with the table. -/
theorem registered_entry (L : S.Laws) {a : Entid} (hfill : Fills S a) {db : Db} (hr : ReachKept db)
    {o o' : Caches} {b d} (h : (withRegistered o b d).repopulate db.schema db.store.rows b = .ok o')
    (hi : CachesInv S a o)
    (hg : G → a ∈ S.cached o → (db.schema.attr a).any S.on = true → S.Agree (S.entry o a) db.store.rows a) :
    CachesInv S a o' ∧ (G → a ∈ S.cached o' → (db.schema.attr a).any S.on = true →
      S.Agree (S.entry o' a) db.store.rows a) := by
  have hget := repopulate_get L h a
  obtain ⟨hf', hr'⟩ := repopulate_lists h
  have hcc : S.cached o' = S.cached (withRegistered o b d) := L.lists' hf' hr'
  have hfield : S.field (withRegistered o b d) = S.field o := L.lists _ _ _
  rw [hfield] at hget
  have hnil : S.Agree [] db.store.rows a → True := fun _ => trivial
  by_cases hcond : b = a ∧ a ∈ S.cached (withRegistered o b d) ∧
      (db.schema.attr a).any S.on = true ∧ pairsOf db.store.rows a ≠ []
  · rw [if_pos hcond] at hget
    refine ⟨⟨?_, ?_, ?_⟩, ?_⟩
    · intro _; rw [hcc]; exact hcond.2.1
    · exact repopulate_wf L h (by rw [hfield]; exact hi.wf)
    · unfold Slot.entry; rw [hget]; exact L.wfFold (.add true) _ _ AMap.wf_nil
    · intro _ _ hon
      unfold Slot.entry; rw [hget]
      exact hfill hr hon
  · rw [if_neg hcond] at hget
    refine ⟨⟨?_, ?_, ?_⟩, ?_⟩
    · intro hn; rw [hget] at hn; rw [hcc]; exact withRegistered_mono L (hi.tidy hn)
    · exact repopulate_wf L h (by rw [hfield]; exact hi.wf)
    · unfold Slot.entry; rw [hget]; exact hi.entryWf
    · intro hG hca hon
      unfold Slot.entry; rw [hget]
      by_cases hold : a ∈ S.cached o
      · exact hg hG hold hon
      · have hba : b = a := by
          apply Classical.byContradiction
          intro hba
          rw [hcc, withRegistered_other L (Ne.symm hba)] at hca
          exact hold hca
        have hnone : AMap.get (S.field o) a = none := by
          cases hx : AMap.get (S.field o) a with
          | none => rfl
          | some x => exact absurd (hi.tidy (by simp [hx])) hold
        have hempty : pairsOf db.store.rows a = [] := by
          apply Classical.byContradiction
          intro hne
          rw [hcc] at hca
          exact hcond ⟨hba, hca, hon, hne⟩
        have := hfill hr hon
        rw [hempty] at this
        rw [hnone]
        exact this

theorem ProgCache.register_ok {p p' : ProgCache} {s rows b d} (h : p.register s rows b d = .ok p') :
    p' = p ∨ ∃ o, (withRegistered p.overlay b d).repopulate s rows b = .ok o ∧ p' = { p with
      overlay := o
      unregForward := if d.isForward then p.unregForward.filter fun x => decide (x ≠ b)
        else p.unregForward
      unregReverse := if d.isReverse then p.unregReverse.filter fun x => decide (x ≠ b)
        else p.unregReverse } := by
  unfold ProgCache.register at h
  split at h
  · simp at h
  · split at h
    · left; exact (Res.ok.inj h).symm
    · right
      simp only at h
      change (Caches.repopulate (withRegistered p.overlay b d) s rows b).bind _ = _ at h
      cases hr : (withRegistered p.overlay b d).repopulate s rows b with
      | err e => rw [hr] at h; simp [Res.bind] at h
      | panic => rw [hr] at h; simp [Res.bind] at h
      | ok o =>
        rw [hr] at h
        exact ⟨o, rfl, (Res.ok.inj h).symm⟩

theorem register_lists {a : Entid} {p : ProgCache} {b d} {o : Caches} (h : ListsInv a p)
    (hb : b = a → a ∉ p.inner.forward ∧ a ∉ p.inner.reverse)
    (ho : o.forward = (withRegistered p.overlay b d).forward)
    (ho' : o.reverse = (withRegistered p.overlay b d).reverse) :
    ListsInv a { p with
      overlay := o
      unregForward := if d.isForward then p.unregForward.filter fun x => decide (x ≠ b)
        else p.unregForward
      unregReverse := if d.isReverse then p.unregReverse.filter fun x => decide (x ≠ b)
        else p.unregReverse } := by
  have hF : a ∈ o.forward ↔ a ∈ p.overlay.forward ∨ (d.isForward = true ∧ a = b) := by
    rw [ho]; exact withRegistered_forward
  have hR : a ∈ o.reverse ↔ a ∈ p.overlay.reverse ∨ (d.isReverse = true ∧ a = b) := by
    rw [ho']; exact withRegistered_reverse
  have hUF : a ∈ (if d.isForward then p.unregForward.filter fun x => decide (x ≠ b)
        else p.unregForward) ↔ a ∈ p.unregForward ∧ ¬ (d.isForward = true ∧ a = b) := by
    split
    · rename_i hd; simp [hd]
    · rename_i hd; simp [hd]
  have hUR : a ∈ (if d.isReverse then p.unregReverse.filter fun x => decide (x ≠ b)
        else p.unregReverse) ↔ a ∈ p.unregReverse ∧ ¬ (d.isReverse = true ∧ a = b) := by
    split
    · rename_i hd; simp [hd]
    · rename_i hd; simp [hd]
  refine ⟨?_, ?_, ?_⟩
  · show a ∈ o.forward → ¬ a ∈ (if d.isForward then p.unregForward.filter fun x => decide (x ≠ b)
        else p.unregForward)
    rw [hF, hUF]
    rintro (h1 | h1) ⟨h2, h3⟩
    · exact h.fwd h1 h2
    · exact h3 h1
  · show a ∈ o.reverse → ¬ a ∈ (if d.isReverse then p.unregReverse.filter fun x => decide (x ≠ b)
        else p.unregReverse)
    rw [hR, hUR]
    rintro (h1 | h1) ⟨h2, h3⟩
    · exact h.rev h1 h2
    · exact h3 h1
  · show a ∈ p.inner.forward ∨ a ∈ p.inner.reverse →
      (¬ a ∈ (if d.isForward then p.unregForward.filter fun x => decide (x ≠ b) else p.unregForward) ∧
        ¬ a ∈ (if d.isReverse then p.unregReverse.filter fun x => decide (x ≠ b) else p.unregReverse) ∧
        (a ∈ o.forward ↔ a ∈ p.inner.forward) ∧ (a ∈ o.reverse ↔ a ∈ p.inner.reverse)) ∨
      (a ∈ (if d.isForward then p.unregForward.filter fun x => decide (x ≠ b) else p.unregForward) ∧
        a ∈ (if d.isReverse then p.unregReverse.filter fun x => decide (x ≠ b) else p.unregReverse) ∧
        a ∉ o.forward ∧ a ∉ o.reverse)
    intro hin
    have hab : ¬ a = b := by
      rintro rfl
      have := hb rfl
      exact hin.elim this.1 this.2
    rw [hF, hR, hUF, hUR]
    simp only [hab, and_false, or_false, not_false_eq_true, and_true]
    exact h.inner hin

theorem register_inv (L : S.Laws) {a : Entid} (hfill : Fills S a) {c : Conn} (hc : ConnInv G S a c)
    {p p' : InProgress} (h : ProgInv G S a c p) {b d} (hp : p.register b d = .ok p')
    (hb : b = a → p' = p ∨ (a ∉ c.cache.forward ∧ a ∉ c.cache.reverse)) : ProgInv G S a c p' := by
  unfold InProgress.register at hp
  cases hreg : p.cache.register p.schema p.store.rows b d with
  | err e => rw [hreg] at hp; simp [Res.bind] at hp
  | panic => rw [hreg] at hp; simp [Res.bind] at hp
  | ok k =>
    rw [hreg] at hp
    obtain rfl := Res.ok.inj hp
    by_cases hsame : ({ p with cache := k } : InProgress) = p
    · rw [hsame]; exact h
    rcases ProgCache.register_ok hreg with rfl | ⟨o, ho, rfl⟩
    · exact h
    have hb' : b = a → a ∉ c.cache.forward ∧ a ∉ c.cache.reverse := by
      intro hba
      rcases hb hba with h1 | h1
      · exact absurd h1 hsame
      · exact h1
    have hlists := repopulate_lists ho
    by_cases hba : b = a
    · -- not cached before: nothing to fall back to
      obtain ⟨hnf, hnr⟩ := hb' hba
      have hns : a ∉ S.cached c.cache := by
        rcases L.cachedOf with hs | hs
        · rw [hs]; exact hnf
        · rw [hs]; exact hnr
      have hnone : AMap.get (S.field c.cache) a = none := by
        cases hx : AMap.get (S.field c.cache) a with
        | none => rfl
        | some x => exact absurd (hc.caches.tidy (by simp [hx])) hns
      have hent : S.entry c.cache a = [] := by unfold Slot.entry; rw [hnone]; rfl
      have heff : ∀ o1 : Caches, a ∈ S.cached o1 → S.eff o1 (some c.cache) a = S.entry o1 a := by
        intro o1 h1
        rw [eff_eq S hc.caches h1, hent]
        unfold Slot.entry
        cases AMap.get (S.field o1) a <;> rfl
      obtain ⟨hinv, hgood⟩ := registered_entry (db := p.db) L hfill h.reach ho h.over (by
        intro hG h1 h2
        rw [← heff _ h1]
        exact h.good hG h1 h2)
      refine ⟨h.reach, h.inner, register_lists h.lists (by rw [h.inner]; exact hb') hlists.1 hlists.2,
        hinv, ?_, ?_⟩
      · intro m _
        rw [hent]
        intro k hk
        simp [AMap.get] at hk
      · intro hG h1 h2
        have h1 : a ∈ S.cached o := h1
        show S.Agree (S.eff o (some c.cache) a) p.store.rows a
        rw [heff o h1]
        exact hgood hG h1 h2
    · have hfield : S.field (withRegistered p.cache.overlay b d) = S.field p.cache.overlay :=
        L.lists _ _ _
      have hget : AMap.get (S.field o) a = AMap.get (S.field p.cache.overlay) a := by
        rw [repopulate_get L ho a, if_neg (fun hh => hba hh.1), hfield]
      have hcc : a ∈ S.cached o ↔ a ∈ S.cached p.cache.overlay := by
        rw [L.lists' hlists.1 hlists.2]
        exact withRegistered_other L (Ne.symm hba)
      refine ⟨h.reach, h.inner, register_lists h.lists (by rw [h.inner]; exact hb') hlists.1 hlists.2,
        ⟨?_, ?_, ?_⟩, ?_, ?_⟩
      · show AMap.get (S.field o) a ≠ none → a ∈ S.cached o
        rw [hget, hcc]; exact h.over.tidy
      · exact repopulate_wf L ho (by rw [hfield]; exact h.over.wf)
      · show AMap.WF ((AMap.get (S.field o) a).getD [])
        rw [hget]; exact h.over.entryWf
      · show ∀ m, AMap.get (S.field o) a = some m → _
        rw [hget]; exact h.keys
      · intro hG h1 h2
        have h1 : a ∈ S.cached p.cache.overlay := hcc.mp h1
        show S.Agree (S.eff o (some c.cache) a) p.store.rows a
        have : S.eff o (some c.cache) a = S.eff p.cache.overlay (some c.cache) a := by
          rw [eff_eq S hc.caches h1, eff_eq S hc.caches (hcc.mpr h1), hget]
        rw [this]
        exact h.good hG h1 h2

theorem unregister_cached (L : S.Laws) (c : Caches) (b a : Entid) :
    a ∈ S.cached (c.unregister b) ↔ a ∈ S.cached c ∧ a ≠ b := by
  rcases L.cachedOf with h | h
  · rw [h, h]; simp [Caches.unregister]
  · rw [h, h]; simp [Caches.unregister]

theorem unregister_caches (L : S.Laws) {a b : Entid} {c : Caches} (h : CachesInv S a c) :
    CachesInv S a (c.unregister b) := by
  have hg : AMap.get (S.field (c.unregister b)) a = if b = a then none else AMap.get (S.field c) a := by
    rw [L.unregister, AMap.get_erase]
  refine ⟨?_, ?_, ?_⟩
  · rw [hg]
    intro hn
    split at hn
    · exact absurd rfl hn
    · rename_i hba
      exact (unregister_cached L _ _ _).mpr ⟨h.tidy hn, Ne.symm hba⟩
  · rw [L.unregister]; exact AMap.wf_erase h.wf _
  · unfold Slot.entry
    rw [hg]
    split
    · exact AMap.wf_nil
    · exact h.entryWf

theorem unregister_inv (L : S.Laws) {a : Entid} {c : Conn} (hc : ConnInv G S a c) {p : InProgress}
    (h : ProgInv G S a c p) (b : Entid) : ProgInv G S a c (p.unregister b) := by
  have hov : (p.unregister b).cache.overlay = p.cache.overlay.unregister b := rfl
  have hget : AMap.get (S.field (p.unregister b).cache.overlay) a =
      if b = a then none else AMap.get (S.field p.cache.overlay) a := by
    rw [hov, L.unregister, AMap.get_erase]
  have hUF : a ∈ (p.unregister b).cache.unregForward ↔ a = b ∨ a ∈ p.cache.unregForward :=
    mem_setInsert' _ _ _
  have hUR : a ∈ (p.unregister b).cache.unregReverse ↔ a = b ∨ a ∈ p.cache.unregReverse :=
    mem_setInsert' _ _ _
  have hOF : a ∈ (p.unregister b).cache.overlay.forward ↔ a ∈ p.cache.overlay.forward ∧ a ≠ b := by
    rw [hov]; simp [Caches.unregister]
  have hOR : a ∈ (p.unregister b).cache.overlay.reverse ↔ a ∈ p.cache.overlay.reverse ∧ a ≠ b := by
    rw [hov]; simp [Caches.unregister]
  have hIF : (p.unregister b).cache.inner = p.cache.inner := rfl
  refine ⟨h.reach, h.inner, ⟨?_, ?_, ?_⟩, unregister_caches L h.over, ?_, ?_⟩
  · rw [hOF, hUF]
    have := h.lists.fwd
    tauto
  · rw [hOR, hUR]
    have := h.lists.rev
    tauto
  · rw [hOF, hUF, hOR, hUR, hIF]
    intro hin
    by_cases hab : a = b
    · right
      simp [hab]
    · simp only [hab, false_or, ne_eq, not_false_eq_true, and_true]
      exact h.lists.inner hin
  · rw [hget]
    intro m hm
    split at hm
    · simp at hm
    · exact h.keys m hm
  · intro hG h1 h2
    have h1' : a ∈ S.cached p.cache.overlay ∧ a ≠ b := (unregister_cached L _ _ _).mp h1
    have : S.eff (p.unregister b).cache.overlay (some c.cache) a =
        S.eff p.cache.overlay (some c.cache) a := by
      rw [eff_eq S hc.caches h1'.1, eff_eq S hc.caches h1, hget, if_neg (Ne.symm h1'.2)]
    rw [this]
    exact h.good hG h1'.1 h2

theorem InProgress.transact_err {p p' : InProgress} {now terms ids e}
    (h : p.transact now terms ids = (.err e, p')) : p'.schema = p.schema ∧ p'.parts = p.parts ∧
      p'.generation = p.generation ∧ p'.saves = p.saves := by
  unfold InProgress.transact at h
  simp only at h
  have key : ∀ (w : Res InProgress),
      (∀ q, w = .ok q → q.schema = p.schema ∧ q.parts = p.parts ∧ q.generation = p.generation ∧
        q.saves = p.saves) →
      (match w with
      | .ok p2 =>
        match (transactRun p.db now terms ids).result with
        | .ok (db', rep) => ((.ok rep, { p2 with schema := db'.schema, parts := db'.parts }) : Res Report × InProgress)
        | .err e => (.err e, p2)
        | .panic => (.panic, p2)
      | .err e => (.err e, { p with store := (transactRun p.db now terms ids).store, views := (transactRun p.db now terms ids).views
                                    collected := ((transactRun p.db now terms ids).shown.map (·.a)).foldl setInsert p.collected })
      | .panic => (.panic, { p with store := (transactRun p.db now terms ids).store, views := (transactRun p.db now terms ids).views
                                    collected := ((transactRun p.db now terms ids).shown.map (·.a)).foldl setInsert p.collected }))
        = (.err e, p') →
      p'.schema = p.schema ∧ p'.parts = p.parts ∧ p'.generation = p.generation ∧ p'.saves = p.saves := by
    intro w hw h
    cases w with
    | err e => simp only [Prod.mk.injEq] at h; obtain ⟨-, rfl⟩ := h; exact ⟨rfl, rfl, rfl, rfl⟩
    | panic => simp at h
    | ok q =>
      simp only at h
      cases hres : (transactRun p.db now terms ids).result with
      | ok x => rw [hres] at h; simp at h
      | panic => rw [hres] at h; simp at h
      | err e =>
        rw [hres] at h
        simp only [Prod.mk.injEq] at h
        obtain ⟨-, rfl⟩ := h
        exact hw q rfl
  refine key _ ?_ h
  intro q hq
  cases hd : (transactRun p.db now terms ids).done with
  | none => rw [hd] at hq; obtain rfl := Res.ok.inj hq; exact ⟨rfl, rfl, rfl, rfl⟩
  | some tx =>
    rw [hd] at hq
    simp only at hq
    cases hw : p.cache.watch p.schema (transactRun p.db now terms ids).shown with
    | ok k => rw [hw] at hq; obtain rfl := Res.ok.inj hq; exact ⟨rfl, rfl, rfl, rfl⟩
    | err e => rw [hw] at hq; simp [Res.bind] at hq
    | panic => rw [hw] at hq; simp [Res.bind] at hq

theorem progInv_congr {a : Entid} {c : Conn} {p p' : InProgress} (h : ProgInv G S a c p)
    (hdb : p'.db = p.db) (hk : p'.cache = p.cache) : ProgInv G S a c p' := by
  have hs : p'.schema = p.schema := congrArg Db.schema hdb
  have hst : p'.store = p.store := congrArg Db.store hdb
  refine ⟨by rw [hdb]; exact h.reach, by rw [hk]; exact h.inner, by rw [hk]; exact h.lists,
    by rw [hk]; exact h.over, by rw [hk]; exact h.keys, ?_⟩
  rw [hk, hs, hst]
  exact h.good

theorem session_inv (L : S.Laws) (hsh : S.Shaped) {a : Entid} {Q : TxCond} (hF : G → Follows S a Q) (hS : G → ∀ db db' shown, Q db db' shown → SameShape a db db' shown)
    (hfill : Fills S a) {c : Conn} (hc : ConnInv G S a c) {p : InProgress} (h : Session a Q c p) :
    ProgInv G S a c p := by
  induction h with
  | begin => exact begin_inv L hc
  | transact _ hk ht hu hq ih => exact transact_inv L hsh hF hS hc ih hk ht hu hq
  | failed _ ht h1 h2 h3 _ ih =>
    obtain ⟨h4, h5, -, -⟩ := InProgress.transact_err ht
    refine progInv_congr ih ?_ h3
    unfold InProgress.db
    rw [h1, h2, h4, h5]
  | savepoint name _ ih => exact progInv_congr ih rfl rfl
  | @release p p' name _ hr ih =>
    unfold InProgress.release at hr
    split at hr
    · obtain rfl := Res.ok.inj hr
      exact progInv_congr ih rfl rfl
    · simp at hr
  | register _ hr hb ih => exact register_inv L hfill hc ih hr hb
  | unregister b _ ih => exact unregister_inv L hc ih b

theorem commit_ok {c c' : Conn} {p : InProgress} {txes} (h : c.commit p = (.ok txes, c')) :
    p.generation = c.generation ∧ txes = p.txes ∧ ∃ k, p.cache.commitTo c.cache c.shared = .ok k ∧
      c' = { generation := c.generation + 1, parts := p.parts, store := p.store, views := p.views,
             schema := p.schema, cache := k, shared := c.shared } := by
  unfold Conn.commit at h
  split at h
  · simp at h
  · rename_i hg
    simp only at h
    cases hk : p.cache.commitTo c.cache c.shared with
    | err e => rw [hk] at h; simp at h
    | panic => rw [hk] at h; simp at h
    | ok k =>
      rw [hk] at h
      simp only [Prod.mk.injEq, Res.ok.injEq] at h
      obtain ⟨rfl, rfl⟩ := h
      exact ⟨Decidable.not_not.mp hg, rfl, k, rfl, rfl⟩

/-- Committing publishes what the slot means in the overlay. -/
theorem commitTo_inv (L : S.Laws) {a : Entid} {c : Conn} (hc : ConnInv G S a c) {p : InProgress}
    (h : ProgInv G S a c p) {shared k} (hk : p.cache.commitTo c.cache shared = .ok k) :
    CachesInv S a k ∧ (a ∈ S.cached k ↔ a ∈ S.cached p.cache.overlay) ∧
    (a ∈ S.cached k → ∀ e v, S.holds (S.entry k a) e v ↔
      S.holds (S.eff p.cache.overlay (some c.cache) a) e v) := by
  unfold ProgCache.commitTo at hk
  split at hk
  · rename_i hempty
    obtain rfl := Res.ok.inj hk
    refine ⟨h.over, Iff.rfl, ?_⟩
    intro hca e v
    have hns : a ∉ S.cached c.cache := by
      simp only [Caches.hasCached, Bool.not_eq_true', Bool.or_eq_false_iff, Bool.not_eq_false',
        List.isEmpty_iff] at hempty
      rcases L.cachedOf with hs | hs
      · rw [hs, hempty.2]; simp
      · rw [hs, hempty.1]; simp
    have hnone : AMap.get (S.field c.cache) a = none := by
      cases hx : AMap.get (S.field c.cache) a with
      | none => rfl
      | some x => exact absurd (hc.caches.tidy (by simp [hx])) hns
    rw [eff_eq S hc.caches hca]
    unfold Slot.entry
    rw [hnone]
    cases AMap.get (S.field p.cache.overlay) a <;> exact Iff.rfl
  · split at hk
    · simp at hk
    · obtain rfl := Res.ok.inj hk
      generalize hl : p.cache.unregForward ++ p.cache.unregReverse = l
      have hmem : ∀ x, x ∈ l ↔ x ∈ p.cache.unregForward ∨ x ∈ p.cache.unregReverse := by
        intro x; rw [← hl]; exact List.mem_append
      have hcc : a ∈ S.cached ((l.foldl Caches.unregister c.cache).absorb p.cache.overlay) ↔
          a ∈ S.cached p.cache.overlay := by
        rw [absorb_cached L, unregisterAll_cached L]
        constructor
        · rintro (⟨h1, h2⟩ | h1)
          · rw [hmem] at h2
            rcases h.lists.slot L (by rw [h.inner]; exact h1) with ⟨-, -, h3⟩ | ⟨h3, -⟩
            · exact h3
            · exact absurd (Or.inl h3) h2
          · exact h1
        · exact Or.inr
      have hdest : a ∈ S.cached p.cache.overlay →
          AMap.get (S.field (l.foldl Caches.unregister c.cache)) a = AMap.get (S.field c.cache) a := by
        intro hca
        rw [unregisterAll_get L]
        split
        · rename_i hal
          cases hx : AMap.get (S.field c.cache) a with
          | none => rfl
          | some x =>
            exfalso
            have := hc.caches.tidy (by simp [hx])
            rcases h.lists.slot L (by rw [h.inner]; exact this) with ⟨h1, h2, -⟩ | ⟨-, -, h3⟩
            · rw [hmem] at hal
              rcases hal with h | h
              · exact h1 h
              · exact h2 h
            · exact h3 hca
        · rfl
      have hget := get_extendAbsorbing S.absorb (m := S.field (l.foldl Caches.unregister c.cache))
        h.over.wf a
      rw [← L.absorbField] at hget
      refine ⟨⟨?_, ?_, ?_⟩, hcc, ?_⟩
      · intro hn
        rw [hcc]
        rw [hget] at hn
        cases ho : AMap.get (S.field p.cache.overlay) a with
        | some m => exact h.over.tidy (by simp [ho])
        | none =>
          rw [ho] at hn
          simp only at hn
          rw [unregisterAll_get L] at hn
          split at hn
          · exact absurd rfl hn
          · rename_i hal
            have := hc.caches.tidy hn
            rcases h.lists.slot L (by rw [h.inner]; exact this) with ⟨-, -, h3⟩ | ⟨h3, -⟩
            · exact h3
            · exact absurd ((hmem a).mpr (Or.inl h3)) hal
      · rw [L.absorbField]
        exact wf_extendAbsorbing _ (unregisterAll_wf L _ _ hc.caches.wf)
      · unfold Slot.entry
        rw [hget]
        cases ho : AMap.get (S.field p.cache.overlay) a with
        | some m =>
          have hwm : AMap.WF m := by
            have := h.over.entryWf
            unfold Slot.entry at this
            rw [ho] at this
            exact this
          simp only [Option.getD_some]
          rw [hdest (h.over.tidy (by simp [ho]))]
          cases hx : AMap.get (S.field c.cache) a with
          | none => exact hwm
          | some y =>
            have := hc.caches.entryWf
            unfold Slot.entry at this
            rw [hx] at this
            exact L.absorbWf _ _ this
        | none =>
          simp only
          rw [unregisterAll_get L]
          split
          · exact AMap.wf_nil
          · exact hc.caches.entryWf
      · intro hca e v
        rw [hcc] at hca
        rw [eff_eq S hc.caches hca]
        have : S.entry ((l.foldl Caches.unregister c.cache).absorb p.cache.overlay) a =
            (AMap.get (S.field ((l.foldl Caches.unregister c.cache).absorb p.cache.overlay)) a).getD [] := rfl
        rw [this, hget, hdest hca]
        cases ho : AMap.get (S.field p.cache.overlay) a with
        | none => exact Iff.rfl
        | some m =>
          have hwm : AMap.WF m := by
            have := h.over.entryWf
            unfold Slot.entry at this
            rw [ho] at this
            exact this
          simp only [Option.getD_some]
          cases hx : AMap.get (S.field c.cache) a with
          | none => exact Iff.rfl
          | some y =>
            have hkk := h.keys m ho
            have hy : S.entry c.cache a = y := by unfold Slot.entry; rw [hx]; rfl
            rw [hy] at hkk
            exact L.absorbHolds y m e v hwm hkk

theorem connected_inv (L : S.Laws) (hsh : S.Shaped) {a : Entid} {Q : TxCond} (hF : G → Follows S a Q) (hS : G → ∀ db db' shown, Q db db' shown → SameShape a db db' shown)
    (hfill : Fills S a) {c : Conn} (h : Connected a Q c) : ConnInv G S a c := by
  induction h with
  | @connect db hr =>
    have hg : AMap.get (S.field (Conn.connect db).cache) a = none := by
      show AMap.get (S.field { forward := [], reverse := [] }) a = none
      rw [L.empty]; rfl
    refine ⟨hr, ⟨?_, ?_, ?_⟩, ?_⟩
    · intro hn; exact absurd hg hn
    · show AMap.WF (S.field { forward := [], reverse := [] })
      rw [L.empty]; exact AMap.wf_nil
    · unfold Slot.entry; rw [hg]; exact AMap.wf_nil
    · intro _ hca
      exfalso
      rcases L.cachedOf with hs | hs
      · rw [hs] at hca; exact List.not_mem_nil hca
      · rw [hs] at hca; exact List.not_mem_nil hca
  | @commit c p txes c' _ hs hcm ih =>
    have hp := session_inv L hsh hF hS hfill ih hs
    obtain ⟨-, -, k, hk, rfl⟩ := commit_ok hcm
    obtain ⟨h1, h2, h3⟩ := commitTo_inv L ih hp hk
    refine ⟨hp.reach, h1, ?_⟩
    intro hG hca hon e v
    rw [h3 hca e v]
    exact hp.good hG (h2.mp hca) hon e v
  | @register c c' b d _ hr ih =>
    unfold Conn.register at hr
    cases hreg : c.cache.register c.schema c.store.rows b d with
    | err e => rw [hreg] at hr; simp [Res.bind] at hr
    | panic => rw [hreg] at hr; simp [Res.bind] at hr
    | ok k =>
      rw [hreg] at hr
      obtain rfl := Res.ok.inj hr
      unfold Caches.register at hreg
      split at hreg
      · simp at hreg
      · have hreg : (withRegistered c.cache b d).repopulate c.schema c.store.rows b = .ok k := hreg
        obtain ⟨h1, h2⟩ := registered_entry (db := c.db) L hfill ih.reach hreg ih.caches ih.good
        exact ⟨ih.reach, h1, h2⟩
  | @unregister c b _ ih =>
    refine ⟨ih.reach, unregister_caches L ih.caches, ?_⟩
    intro hG h1 h2
    have h1' := (unregister_cached L _ _ _).mp h1
    have : S.entry (c.unregister b).cache a = S.entry c.cache a := by
      unfold Slot.entry
      show (AMap.get (S.field (c.cache.unregister b)) a).getD [] = _
      rw [L.unregister, AMap.get_erase, if_neg (Ne.symm h1'.2)]
    rw [this]
    exact ih.good hG h1'.1 h2
  | share x _ ih => exact ⟨ih.reach, ih.caches, ih.good⟩

end

/-! ### The four slots -/

theorem shaped_single : sSingle.Shaped := fun x y h _ => by show (!x.multival) = !y.multival; rw [h]
theorem shaped_multi : sMulti.Shaped := fun _ _ h _ => h
theorem shaped_unique : sUnique.Shaped := fun _ _ _ h => h
theorem shaped_nonUnique : sNonUnique.Shaped := fun x y _ h => by
  show (!x.unique.isSome) = !y.unique.isSome; rw [h]

theorem any_some' {α : Type} {o : Option α} {f : α → Bool} (h : o.any f = true) :
    ∃ x, o = some x ∧ f x = true := by
  cases o with
  | none => simp at h
  | some x => exact ⟨x, rfl, by simpa using h⟩

theorem has_one {db : Db} (hr : ReachKept db) {a : Entid} {at_ : Attribute}
    (hat : db.schema.attr a = some at_) (hm : at_.multival = false) {e v v'}
    (h : Has db.store.rows e a v) (h' : Has db.store.rows e a v') : v = v' := by
  obtain ⟨r, hr1, rfl, rfl, rfl⟩ := h
  obtain ⟨r', hr1', he, ha, rfl⟩ := h'
  rw [(rowsInv_reach hr).1.one r hr1 r' hr1' at_ hat hm he.symm ha.symm]

theorem has_unique {db : Db} (hr : ReachKept db) {a : Entid} {at_ : Attribute}
    (hat : db.schema.attr a = some at_) (hu : at_.unique.isSome = true) {e e' v}
    (h : Has db.store.rows e a v) (h' : Has db.store.rows e' a v) : e = e' := by
  obtain ⟨r, hr1, rfl, rfl, rfl⟩ := h
  obtain ⟨r', hr1', rfl, ha, hv⟩ := h'
  have hi := (rowsInv_reach hr).1
  obtain ⟨x, hx, -, hxu, -⟩ := hi.typed r hr1
  obtain ⟨y, hy, -, hyu, -⟩ := hi.typed r' hr1'
  rw [hat] at hx; cases hx
  rw [ha, hat] at hy; cases hy
  rw [uniqueOk_av hi.uniq hr1 hr1' (by rw [hxu, hu]) (by rw [hyu, hu]) ha.symm hv.symm]

theorem fills_single (a : Entid) : Fills sSingle a := by
  intro db hr hon e v
  obtain ⟨at_, hat, hm⟩ := any_some' hon
  have hm : at_.multival = false := by simpa [sSingle] using hm
  rw [single_fold_add _ _ _ _ (by
    intro v v' h h'
    rw [mem_pairsOf] at h h'
    exact has_one hr hat hm h h'), mem_pairsOf]
  simp [sSingle, AMap.get]

theorem fills_multi (a : Entid) : Fills sMulti a := by
  intro db hr hon e v
  rw [multi_fold_add, mem_pairsOf]
  simp [sMulti, AMap.get]

theorem fills_nonUnique (a : Entid) : Fills sNonUnique a := by
  intro db hr hon e v
  rw [nonUnique_fold_add, mem_pairsOf]
  simp [sNonUnique, AMap.get]

theorem fills_unique (a : Entid) : Fills sUnique a := by
  intro db hr hon e v
  obtain ⟨at_, hat, hu⟩ := any_some' hon
  rw [unique_fold_add _ _ _ _ (by
    intro e e' h h'
    rw [mem_pairsOf] at h h'
    exact has_unique hr hat hu h h'), mem_pairsOf]
  simp [sUnique, AMap.get]

theorem shape_attr {a : Entid} {db db' : Db} {shown} (h : SameShape a db db' shown) {at_ : Attribute}
    (hat : db.schema.attr a = some at_) : ∃ at', db'.schema.attr a = some at' ∧ at'.multival = at_.multival ∧
      at'.unique.isSome = at_.unique.isSome := by
  unfold SameShape at h
  rw [hat] at h
  cases h2 : db'.schema.attr a with
  | none => rw [h2] at h; simp at h
  | some y =>
    rw [h2] at h
    simp only [Option.map_some, Option.some.injEq, Prod.mk.injEq] at h
    exact ⟨y, rfl, h.1.symm, h.2.symm⟩

theorem follows_single (a : Entid) : Follows sSingle a
    (fun db db' shown => SameShape a db db' shown ∧ ShownKept a db db' shown) := by
  intro db now terms ids db' rep T hr hr' hon hQ m hm
  obtain ⟨at_, hat, hmv⟩ := any_some' hon
  have hmv : at_.multival = false := by simpa [sSingle] using hmv
  obtain ⟨at', hat', hmv', -⟩ := shape_attr hQ.1 hat
  refine single_step (T.shownSpec a) hQ.2 ?_ ?_ ?_ hm
  · intro e v v' h h'; exact T.shownOneAdd hat hmv h h'
  · intro e v v' h h'; exact has_one hr' hat' (hmv'.trans hmv) h h'
  · intro e v' h h'; exact T.shownOne hat hmv h h'

theorem follows_multi (a : Entid) : Follows sMulti a (SameShape a) := by
  intro db now terms ids db' rep T hr hr' hon hQ m hm
  obtain ⟨at_, hat, hmv⟩ := any_some' hon
  obtain ⟨h1, h2⟩ := T.shownMany hat hmv
  exact multi_step (T.shownSpec a) h1 h2 hm

theorem follows_nonUnique (a : Entid) : Follows sNonUnique a
    (fun db db' shown => SameShape a db db' shown ∧ ShownKept a db db' shown ∧
      NoSilentRemoval a db db' shown) := by
  intro db now terms ids db' rep T hr hr' hon hQ m hm
  exact nonUnique_step (T.shownSpec a) hQ.2.1 hQ.2.2 hm

theorem follows_unique (a : Entid) : Follows sUnique a
    (fun db db' shown => SameShape a db db' shown ∧ ShownKept a db db' shown ∧
      NoSilentRemoval a db db' shown ∧ RetractsHeld a db db' shown) := by
  intro db now terms ids db' rep T hr hr' hon hQ m hm
  obtain ⟨at_, hat, hu⟩ := any_some' hon
  obtain ⟨at', hat', -, hu'⟩ := shape_attr hQ.1 hat
  refine unique_step (T.shownSpec a) hQ.2.1 hQ.2.2.1 hQ.2.2.2 ?_ ?_ hm
  · intro e e' v h h'; exact has_unique hr hat hu h h'
  · intro e e' v h h'; exact has_unique hr' hat' (hu'.trans hu) h h'

end Mentat
