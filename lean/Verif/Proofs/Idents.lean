import Verif.Proofs.HistoryRows
/- Every entity with an ident, in memory or in the `idents` table, occurs in the log. -/
namespace Mentat

/-- The entity occurs in the log. -/
def Logged (log : List LogRow) (e : Entid) : Prop := ∃ l ∈ log, l.e = e

theorem witness_keys {K V : Type} [DecidableEq K] {P : K → Prop} {s : ARASet K V} {k : K} {v : V} {b : Bool}
    (hk : P k) (ha : ∀ p ∈ s.asserted, P p.1) (hc : ∀ p ∈ s.altered, P p.1) :
    (∀ p ∈ (s.witness k v b).asserted, P p.1) ∧ (∀ p ∈ (s.witness k v b).altered, P p.1) := by
  have ins : ∀ {W : Type} {m : AMap K W} {w : W}, (∀ p ∈ m, P p.1) → ∀ p ∈ AMap.insert m k w, P p.1 := by
    intro W m w hm
    induction m with
    | nil => intro p hp; simp only [AMap.insert, List.mem_singleton] at hp; subst hp; exact hk
    | cons x r ih =>
      obtain ⟨k', w'⟩ := x
      intro p hp
      simp only [AMap.insert] at hp
      split at hp
      · rcases List.mem_cons.1 hp with rfl | hp
        · exact hk
        · exact hm p (List.mem_cons_of_mem _ hp)
      · rcases List.mem_cons.1 hp with rfl | hp
        · exact hm _ (by simp)
        · exact ih (fun q hq => hm q (List.mem_cons_of_mem _ hq)) p hp
  unfold ARASet.witness
  split
  · split
    · exact ⟨ha, ins hc⟩
    · exact ⟨ins ha, hc⟩
  · split
    · exact ⟨fun p hp => ha p (List.mem_filter.1 hp).1, ins hc⟩
    · exact ⟨ha, hc⟩

theorem collectMeta_keys {P : Entid → Prop} {quads as_ is as0 is0} (h : collectMeta quads as0 is0 = .ok (as_, is))
    (hq : ∀ q ∈ quads, P q.1) (ha : ∀ p ∈ is0.asserted, P p.1) (hc : ∀ p ∈ is0.altered, P p.1) :
    (∀ p ∈ is.asserted, P p.1) ∧ (∀ p ∈ is.altered, P p.1) := by
  induction quads generalizing as0 is0 with
  | nil => cases h; exact ⟨ha, hc⟩
  | cons q r ih =>
    obtain ⟨e, a, v, b⟩ := q
    simp only [collectMeta] at h
    have hr : ∀ q ∈ r, P q.1 := fun q hm => hq q (List.mem_cons_of_mem _ hm)
    split at h
    · split at h
      · obtain ⟨h1, h2⟩ := witness_keys (b := b) (v := ‹Keyword›) (hq (e, a, _, b) List.mem_cons_self : P e) ha hc
        exact ih h hr h1 h2
      · cases h
    · exact ih h hr ha hc

theorem get_insert_values {K : Type} [DecidableEq K] {P : Entid → Prop} {m : AMap K Entid} {k e}
    (he : P e) (h : ∀ k n, AMap.get m k = some n → P n) :
    ∀ k' n, AMap.get (AMap.insert m k e) k' = some n → P n := by
  intro k' n
  rw [AMap.get_insert]
  split
  · rintro ⟨⟩; exact he
  · exact h k' n

theorem get_erase_values {K : Type} [DecidableEq K] {P : Entid → Prop} {m : AMap K Entid} {k}
    (h : ∀ k n, AMap.get m k = some n → P n) :
    ∀ k' n, AMap.get (AMap.erase m k) k' = some n → P n := by
  intro k' n
  rw [AMap.get_erase]
  split
  · rintro ⟨⟩
  · exact h k' n

theorem assertIdents_values {P : Entid → Prop} {l s} (hl : ∀ p ∈ l, P p.1)
    (h : ∀ k n, AMap.get s.identMap k = some n → P n) :
    ∀ k n, AMap.get (assertIdents l s).identMap k = some n → P n := by
  induction l generalizing s with
  | nil => exact h
  | cons p r ih =>
    obtain ⟨e, k⟩ := p
    exact ih (fun q hq => hl q (List.mem_cons_of_mem _ hq)) (get_insert_values (hl (e, k) (by simp)) h)

theorem alterIdents_values {P : Entid → Prop} {l s} (hl : ∀ p ∈ l, P p.1)
    (h : ∀ k n, AMap.get s.identMap k = some n → P n) :
    ∀ k n, AMap.get (alterIdents l s).identMap k = some n → P n := by
  induction l generalizing s with
  | nil => exact h
  | cons p r ih =>
    obtain ⟨e, k, k'⟩ := p
    exact ih (fun q hq => hl q (List.mem_cons_of_mem _ hq))
      (get_insert_values (hl (e, k, k') (by simp)) (get_erase_values h))

theorem retractIdents_values {P : Entid → Prop} {l s} (h : ∀ k n, AMap.get s.identMap k = some n → P n) :
    ∀ k n, AMap.get (retractIdents l s).identMap k = some n → P n := by
  induction l generalizing s with
  | nil => exact h
  | cons p r ih =>
    obtain ⟨e, k⟩ := p
    exact ih (get_erase_values h)

theorem updateSchema_values {P : Entid → Prop} {s quads s' rep} (h : updateSchema s quads = .ok (s', rep))
    (hq : ∀ q ∈ quads, P q.1) (hs : ∀ k n, AMap.get s.identMap k = some n → P n) :
    ∀ k n, AMap.get s'.identMap k = some n → P n := by
  unfold updateSchema at h
  rw [Res.bind_eq_ok] at h
  obtain ⟨⟨as_, is⟩, h1, h⟩ := h
  simp only at h
  rw [Res.bind_eq_ok] at h
  obtain ⟨⟨am, retr⟩, -, h⟩ := h
  simp only at h
  rw [Res.bind_eq_ok] at h
  obtain ⟨⟨am', rep'⟩, -, h⟩ := h
  simp only [Res.pure_eq, Res.ok.injEq, Prod.mk.injEq] at h
  obtain ⟨rfl, -⟩ := h
  obtain ⟨ha, hc⟩ := collectMeta_keys h1 hq (by simp) (by simp)
  refine retractIdents_values (alterIdents_values ?_ (assertIdents_values ?_ hs))
  · intro p hp; exact hc p ((mem_sortBy _ _ _).1 hp)
  · intro p hp; exact ha p ((mem_sortBy _ _ _).1 hp)

/-- Every ident, in memory or in the table, belongs to an entity in the log. -/
structure IdentsLogged (db : Db) : Prop where
  schema : ∀ k n, AMap.get db.schema.identMap k = some n → Logged db.store.log n
  views : ∀ p ∈ db.views.idents, Logged db.store.log p.1

theorem applyMetadata_idents {P : Entid → Prop} {s rows views lr s' rows' views'}
    (h : applyMetadata s rows views lr = .ok (s', rows', views')) (hl : ∀ l ∈ lr, P l.e)
    (hr : ∀ r ∈ rows, P r.e) (hs : ∀ k n, AMap.get s.identMap k = some n → P n)
    (hv : ∀ p ∈ views.idents, P p.1) :
    (∀ k n, AMap.get s'.identMap k = some n → P n) ∧ ∀ p ∈ views'.idents, P p.1 := by
  unfold applyMetadata at h
  rw [Res.bind_eq_ok] at h
  obtain ⟨⟨s1, rep⟩, h1, h⟩ := h
  simp only at h
  split at h
  · rw [Res.bind_eq_ok] at h
    obtain ⟨⟨rows1, views1⟩, h2, h⟩ := h
    simp only [Res.pure_eq, Res.ok.injEq, Prod.mk.injEq] at h
    obtain ⟨rfl, rfl, rfl⟩ := h
    refine ⟨updateSchema_values h1 ?_ hs, ?_⟩
    · intro q hq
      simp only [metadataAssertions, mem_sortQuads, List.mem_map, List.mem_filter] at hq
      obtain ⟨l, ⟨hm, -⟩, rfl⟩ := hq
      exact hl l hm
    · have hi : ∀ p ∈ identsOf rows, P p.1 := by
        intro p hp
        simp only [identsOf, List.mem_map, List.mem_filter] at hp
        obtain ⟨r, ⟨hm, -⟩, rfl⟩ := hp
        exact hr r hm
      unfold updateMetadata at h2
      cases ha : applyAllAlterations s1 rep.altered rows with
      | ok rows2 =>
        simp only [ha, Res.ok.injEq, Prod.mk.injEq] at h2
        obtain ⟨-, rfl⟩ := h2
        intro p hp
        cases hie : rep.identsAltered.isEmpty
        · simp only [hie, Bool.and_false, Bool.false_eq_true, if_false] at hp
          exact hi p hp
        · simp only [hie, if_true] at hp
          split at hp
          · exact hv p hp
          · exact hv p hp
      | err e => simp [ha] at h2
      | panic => simp [ha] at h2
  · simp only [Res.pure_eq, Res.ok.injEq, Prod.mk.injEq] at h
    obtain ⟨rfl, rfl, rfl⟩ := h
    exact ⟨hs, hv⟩

theorem identsLogged_step {db : Db} {sfm now terms ids db' rep} (hi' : HistInv db')
    (hs : ∀ k n, AMap.get sfm.identMap k = some n → Logged db.store.log n)
    (hv : ∀ p ∈ db.views.idents, Logged db.store.log p.1)
    (h : transactTermsWith db sfm now terms ids .materializeAndCommit = .ok (db', rep)) :
    IdentsLogged db' := by
  obtain ⟨T⟩ := transact_trace h
  obtain ⟨-, -, -, -, -, hlog, -⟩ := apply_ok T.applied
  have hlog' : db'.store.log = db.store.log ++ T.lr := by rw [T.log, hlog rfl]
  have mono : ∀ n, Logged db.store.log n → Logged db'.store.log n := by
    rintro n ⟨l, hl, h⟩; exact ⟨l, by rw [hlog']; exact List.mem_append_left _ hl, h⟩
  obtain ⟨f, hf, hf', -⟩ := T.metaRows
  have hrows : ∀ r ∈ T.store.rows, Logged db'.store.log r.e := by
    intro r hr
    obtain ⟨l, hl, he, -⟩ := has_rows_log hi'.replay (e := r.e) (a := r.a) (v := r.v)
      ⟨f r, by rw [hf]; exact List.mem_map.2 ⟨r, hr, rfl⟩, (hf' r).1, (hf' r).2.1, (hf' r).2.2.1⟩
    exact ⟨l, hl, he⟩
  rcases T.md with ⟨hm, -⟩ | ⟨hs', -, hv', -⟩
  · obtain ⟨h1, h2⟩ := applyMetadata_idents hm
      (fun l hl => ⟨l, by rw [hlog']; exact List.mem_append_right _ hl, rfl⟩) hrows
      (fun k n h => mono n (hs k n h)) (fun p hp => mono _ (hv p hp))
    exact ⟨h1, h2⟩
  · exact ⟨fun k n h => mono n (hs k n (hs' ▸ h)), fun p hp => mono _ (hv p (hv' ▸ hp))⟩

theorem readIdentMap_values {P : Entid → Prop} {l m m'} (h : readIdentMap l m = .ok m')
    (hl : ∀ p ∈ l, P p.1) (hm : ∀ k n, AMap.get m k = some n → P n) :
    ∀ k n, AMap.get m' k = some n → P n := by
  induction l generalizing m with
  | nil => cases h; exact hm
  | cons p r ih =>
    obtain ⟨e, v⟩ := p
    simp only [readIdentMap] at h
    split at h
    · exact ih h (fun q hq => hl q (List.mem_cons_of_mem _ hq)) (get_insert_values (hl (e, _) List.mem_cons_self) hm)
    · cases h

theorem same_ident {s s' : Schema} (h : Schema.same s s' = true) (k : Keyword) {n}
    (hk : AMap.get s'.identMap k = some n) : AMap.get s.identMap k = some n := by
  simp only [Schema.same, AMap.same, Bool.and_eq_true, List.all_eq_true, decide_eq_true_eq] at h
  obtain ⟨⟨_, _, h2⟩, _⟩ := h
  exact h2 (k, n) (AMap.get_some_mem hk)

theorem identsLogged_reach {db : Db} (h : Reach db) : IdentsLogged db := by
  induction h with
  | boot h =>
    obtain ⟨s, db1, rep, h1, h2, h3, rfl⟩ := create_ok h
    have hi := histInv_preBoot s
    have := identsLogged_step (histInv_step hi (bootTerms_known s) h2)
      (sfm := {}) (by simp) (by simp [preBoot]) h2
    exact ⟨fun k n hk => this.schema k n (same_ident h3 k hk), this.views⟩
  | step hr ht ih =>
    have hi' := histInv_reach (.step hr ht)
    obtain ⟨now, terms, ids, rep, hk, ht⟩ := ht
    exact identsLogged_step hi' ih.schema ih.views ht
  | reopen _ h ih =>
    obtain ⟨hs, hv, hsc, -⟩ := reopen_ok h
    refine ⟨?_, by rw [hs, hv]; exact ih.views⟩
    unfold readSchema at hsc
    rw [Res.bind_eq_ok] at hsc
    obtain ⟨im, h1, hsc⟩ := hsc
    rw [Res.bind_eq_ok] at hsc
    obtain ⟨⟨am, _⟩, -, hsc⟩ := hsc
    simp only at hsc
    split at hsc
    · simp only [Res.pure_eq, Res.ok.injEq] at hsc
      rw [← hsc, hs]
      exact readIdentMap_values h1 ih.views (by simp)
    · cases hsc
  | widen _ _ ih => exact ⟨ih.schema, ih.views⟩

/-- The entity an ident names is allocated. -/
theorem ident_allocated {db : Db} (h : Reach db) {k n} (hk : AMap.get db.schema.identMap k = some n) :
    db.parts.containsEntid n = true := by
  obtain ⟨l, hl, rfl⟩ := (identsLogged_reach h).schema k n hk
  exact (histInv_reach h).logE l hl

end Mentat
