import Verif.Model.SyncFlow
import Verif.Proofs.BootLog
import Verif.Props.Replicate
import Verif.Props.Merge
/-
C71: what a whole sync does, for one store that writes and another that reads.
-/
namespace Mentat.Sync

/-! ### The two ends of the log -/

theorem mem_selectRows {log : List LogRow} {x : LogRow} : x ∈ selectRows log none ↔ x ∈ log ∧ x.timeline = 0 := by
  unfold selectRows
  rw [mem_sortBy, List.mem_filter]
  simp

theorem rootAndHead_eq {log : List LogRow} {n : Entid} (hn : TX0 < n)
    (h : ∀ t, (∃ l ∈ log, l.timeline = 0 ∧ l.tx = t) ↔ TX0 ≤ t ∧ t < n) : rootAndHead log = .ok (TX0, n - 1) := by
  have hs : (selectRows log none).Pairwise fun a b => a.tx ≤ b.tx := pairwise_sortBy _ _
  have h' : ∀ t, (∃ l ∈ selectRows log none, l.tx = t) ↔ TX0 ≤ t ∧ t < n := by
    intro t
    rw [← h]
    constructor
    · rintro ⟨l, h1, h2⟩; exact ⟨l, (mem_selectRows.1 h1).1, (mem_selectRows.1 h1).2, h2⟩
    · rintro ⟨l, h1, h2, h3⟩; exact ⟨l, mem_selectRows.2 ⟨h1, h2⟩, h3⟩
  unfold rootAndHead
  generalize selectRows log none = rows at hs h'
  cases rows with
  | nil => obtain ⟨l, hl, -⟩ := (h' TX0).2 ⟨Int.le_refl _, hn⟩; cases hl
  | cons l r =>
    obtain ⟨h1, h2⟩ := List.pairwise_cons.1 hs
    have hroot : l.tx = TX0 := by
      obtain ⟨k1, k2⟩ := (h' l.tx).1 ⟨l, by simp, rfl⟩
      obtain ⟨l', hl', he⟩ := (h' TX0).2 ⟨Int.le_refl _, hn⟩
      rcases List.mem_cons.1 hl' with rfl | hl'
      · exact he
      · have := h1 l' hl'; omega
    simp only [hroot, Res.ok.injEq, Prod.mk.injEq, true_and]
    obtain ⟨m, hm, he⟩ := (h' (n - 1)).2 ⟨by omega, by omega⟩
    cases hx : r.getLast? with
    | none =>
      have : r = [] := List.getLast?_eq_none_iff.1 hx
      subst this
      simp only [List.mem_singleton] at hm
      subst hm
      rw [← he]; exact hroot.symm
    | some x =>
      obtain ⟨ys, rfl⟩ := List.getLast?_eq_some_iff.1 hx
      have hxm : x.tx < n := ((h' x.tx).1 ⟨x, by simp, rfl⟩).2
      have hle : m.tx ≤ x.tx := by
        rcases List.mem_cons.1 hm with rfl | hm
        · exact h1 x (by simp)
        · rcases List.mem_append.1 hm with hm | hm
          · exact (List.pairwise_append.1 h2).2.2 m hm x (by simp)
          · simp only [List.mem_singleton] at hm; subst hm; exact Int.le_refl _
      simp only
      omega

theorem log_txs {db : Db} (h : HistInv db) (t : Entid) :
    (∃ l ∈ db.store.log, l.timeline = 0 ∧ l.tx = t) ↔ TX0 ≤ t ∧ t < db.parts.tx.next := by
  constructor
  · rintro ⟨l, h1, -, rfl⟩
    exact ⟨(h.logTx l h1).1, (h.logTx l h1).2.1⟩
  · rintro ⟨h1, h2⟩
    obtain ⟨i, hi, -⟩ := h.instants t h1 h2
    exact ⟨_, hi, rfl, rfl⟩

/-- The first and the last transaction of a replica. -/
theorem rootAndHead_replica {B db : Db} (hB : HistInv B) (hn : TX0 < B.parts.tx.next) (hR : Replica B db) :
    rootAndHead db.store.log = .ok (TX0, B.parts.tx.next - 1) := by
  apply rootAndHead_eq hn
  intro t
  rw [← log_txs hB]
  constructor
  · rintro ⟨l, h1, h2⟩; exact ⟨l, hR.log.mem_iff.2 h1, h2⟩
  · rintro ⟨l, h1, h2⟩; exact ⟨l, hR.log.mem_iff.1 h1, h2⟩

theorem Replica.refl (db : Db) : Replica db db := ⟨rfl, .refl _, .refl _, .refl _, .refl _⟩

/-! ### What the remote has -/

/-- The server's transaction `x` is transaction `t` of the log. -/
def CarriedBy (rem : Remote) (log : List LogRow) (t : Entid) (x : RemoteTx) : Prop :=
  ∃ ds, rem.parts x.chunks = .ok ds ∧ Carried log t ⟨x.uuid, ds⟩

/-- `xs` are the transactions from `a` to before `n`. -/
def Seg (rem : Remote) (log : List LogRow) (a n : Entid) (xs : List RemoteTx) : Prop :=
  ∃ ts : List Entid, ts.Pairwise (· < ·) ∧ (∀ t, t ∈ ts ↔ a ≤ t ∧ t < n) ∧ List.Forall₂ (CarriedBy rem log) ts xs

theorem Seg.append {rem log a m n xs ys} (h1 : Seg rem log a m xs) (h2 : Seg rem log m n ys) (ham : a ≤ m) (hmn : m ≤ n) :
    Seg rem log a n (xs ++ ys) := by
  obtain ⟨ts, a1, a2, a3⟩ := h1
  obtain ⟨us, b1, b2, b3⟩ := h2
  refine ⟨ts ++ us, ?_, ?_, ?_⟩
  · rw [List.pairwise_append]
    refine ⟨a1, b1, ?_⟩
    intro x hx y hy
    have := (a2 x).1 hx
    have := (b2 y).1 hy
    omega
  · intro t
    rw [List.mem_append, a2, b2]
    omega
  · clear a1 a2
    induction a3 with
    | nil => exact b3
    | cons h _ ih => exact .cons h ih

theorem parts_mono {r r' : Remote} (hc : ∀ c ∈ r.chunks, c ∈ r'.chunks) (hn : (r'.chunks.map (·.1)).Nodup) :
    ∀ (cs : List Nat) {ds}, r.parts cs = .ok ds → r'.parts cs = .ok ds
  | [], ds, h => h
  | c :: cs, ds, h => by
    simp only [Remote.parts] at h ⊢
    cases hx : r.chunk c with
    | err e => rw [hx] at h; simp [Res.bind] at h
    | panic => rw [hx] at h; simp [Res.bind] at h
    | ok d =>
      have hd : (c, d) ∈ r.chunks := by
        unfold Remote.chunk at hx
        split at hx
        · rename_i q hq
          have hm := List.mem_of_find?_eq_some hq
          have he := List.find?_some hq
          simp only [decide_eq_true_eq] at he
          simp only [Res.ok.injEq] at hx
          rw [← he, ← hx]
          exact hm
        · cases hx
      rw [chunk_of_nodup hn (hc _ hd)]
      rw [hx] at h
      simp only [Res.bind] at h ⊢
      cases hy : r.parts cs with
      | err e => rw [hy] at h; simp at h
      | panic => rw [hy] at h; simp at h
      | ok ds' =>
        rw [hy] at h
        rw [parts_mono hc hn cs hy]
        exact h

theorem datomsOfTx_append {log rest : List LogRow} {t : Entid} (h : ∀ l ∈ rest, l.tx ≠ t) :
    datomsOfTx (log ++ rest) t = datomsOfTx log t := by
  unfold datomsOfTx
  rw [List.filter_append]
  have : rest.filter (fun l => decide (l.timeline = 0 ∧ l.tx = t)) = [] := by
    rw [List.filter_eq_nil_iff]
    intro l hl
    simp [h l hl]
  rw [this, List.append_nil]

theorem Seg.mono {r r' : Remote} {log rest : List LogRow} {a n xs} (h : Seg r log a n xs)
    (hc : ∀ c ∈ r.chunks, c ∈ r'.chunks) (hn : (r'.chunks.map (·.1)).Nodup) (hr : ∀ l ∈ rest, n ≤ l.tx) :
    Seg r' (log ++ rest) a n xs := by
  obtain ⟨ts, a1, a2, a3⟩ := h
  refine ⟨ts, a1, a2, ?_⟩
  clear a1
  have hts : ∀ t ∈ ts, t < n := fun t ht => ((a2 t).1 ht).2
  clear a2
  induction a3 with
  | nil => exact .nil
  | @cons t x ts xs h _ ih =>
    refine .cons ?_ (ih fun t ht => hts t (List.mem_cons_of_mem _ ht))
    obtain ⟨ds, h1, h2⟩ := h
    have : datomsOfTx (log ++ rest) t = datomsOfTx log t := datomsOfTx_append (by
      intro l hl he
      have := hr l hl
      have := hts t (by simp)
      omega)
    refine ⟨ds, parts_mono hc hn _ h1, ?_⟩
    unfold Carried
    rw [this]
    exact h2

theorem Seg.download {rem log a n xs} (h : Seg rem log a n xs) :
    ∃ txs ts, rem.download xs = .ok txs ∧ ts.Pairwise (· < ·) ∧ (∀ t, t ∈ ts ↔ a ≤ t ∧ t < n) ∧
      List.Forall₂ (Carried log) ts txs ∧ txs.map (·.uuid) = xs.map (·.uuid) := by
  obtain ⟨ts, a1, a2, a3⟩ := h
  obtain ⟨txs, k1, k2, k3⟩ := download_all (a3.imp fun _ _ h => h)
  exact ⟨txs, ts, k1, a1, a2, k2, k3⟩

/-- Downloading the transactions a replica lacks. -/
theorem catch_up {b r : Db} {l : Local} {rem : Remote} {xs : List RemoteTx} (hb : ReachKept b) (hr : Later b r)
    (hl : Replica b l.db) (hs : Seg rem r.store.log b.parts.tx.next r.parts.tx.next xs) (now : Int) :
    ∃ txs l', rem.download xs = .ok txs ∧ txs.length = xs.length ∧
      fastForwardLocal l now txs = .ok (l', .localFastForward) ∧ Replica r l'.db ∧
      (xs = [] → l' = l) ∧
      ∀ x, xs.getLast? = some x → l'.remoteHead = x.uuid ∧ l'.map = l.map.set (r.parts.tx.next - 1) x.uuid := by
  obtain ⟨txs, ts, h1, h2, h3, h4, h5⟩ := hs.download
  obtain ⟨db1, k1, k2⟩ := applyRemotes_replay hr hb hl h2 h3 h4 now none
  have hlen : txs.length = xs.length := by have := congrArg List.length h5; simpa using this
  have hff : fastForwardLocal l now txs = .ok (match lastApplied r txs none with
      | some (tx, uuid) => ({ db := db1, map := l.map.set tx uuid, remoteHead := uuid }, .localFastForward)
      | none => ({ l with db := db1 }, .localFastForward)) := by
    unfold fastForwardLocal
    rw [k1]
    simp only [Res.bind]
    cases lastApplied r txs none <;> rfl
  unfold lastApplied at hff
  cases hx : txs.getLast? with
  | none =>
    rw [hx] at hff
    have : txs = [] := List.getLast?_eq_none_iff.1 hx
    subst this
    have hxs : xs = [] := List.length_eq_zero_iff.1 hlen.symm
    simp only [applyRemotes, Res.ok.injEq, Prod.mk.injEq] at k1
    refine ⟨[], _, h1, hlen, hff, k2, ?_, by simp [hxs]⟩
    intro _
    obtain ⟨db, map, hd⟩ := l
    simp only at k1 ⊢
    rw [k1.1]
  | some tx =>
    rw [hx] at hff
    refine ⟨txs, _, h1, hlen, hff, k2, ?_, ?_⟩
    · rintro rfl
      simp only [List.length_nil, List.length_eq_zero_iff] at hlen
      subst hlen
      cases hx
    · intro x hxx
      have h6 : (txs.map (·.uuid)).getLast? = some tx.uuid := by rw [List.getLast?_map, hx]; rfl
      rw [h5, List.getLast?_map, hxx] at h6
      have : x.uuid = tx.uuid := by simpa using h6
      rw [this]
      exact ⟨rfl, rfl⟩

/-! ### Uploading -/

theorem mem_setAll_sub {l m : TxMap} {p : Entid × Nat} (h : p ∈ m.setAll l) : p ∈ m ∨ p ∈ l := by
  induction l generalizing m with
  | nil => exact .inl h
  | cons q r ih =>
    rcases ih h with h1 | h1
    · obtain ⟨t, u⟩ := p
      rcases mem_set.1 h1 with ⟨rfl, rfl⟩ | ⟨-, -, h2⟩
      · exact .inr (by simp)
      · exact .inl h2
    · exact .inr (List.mem_cons_of_mem _ h1)

/-- The UUIDs made are new. -/
structure FreshGen (gen : Nat → Nat) (r : Remote) : Prop where
  inj : ∀ m n, gen m = gen n → m = n
  nil : ∀ n, gen n ≠ nil
  chunks : ∀ c ∈ r.chunks, ∀ n, gen n ≠ c.1
  txs : ∀ x ∈ r.txs, ∀ n, gen n ≠ x.uuid

theorem upload_spec {gen : Nat → Nat} {w w' : Local} {r r' : Remote} {rh : Nat} {S : Entid} {fromTx : Option Entid}
    (hg : FreshGen gen r) (hd : (r.chunks.map (·.1)).Nodup) (hm : OneToOne w.map)
    (hr : ReachKept w.db) (hft : ∀ t, TX0 ≤ t → (After fromTx t ↔ S ≤ t)) (hS : TX0 ≤ S) (hlt : S < w.db.parts.tx.next)
    (h : fastForwardRemote gen w fromTx r rh = .ok (w', r')) :
    w'.db = w.db ∧ OneToOne w'.map ∧ (r'.chunks.map (·.1)).Nodup ∧ (∀ c ∈ r.chunks, c ∈ r'.chunks) ∧
    ∃ new, r'.txs = r.txs ++ new ∧ (new.map (·.uuid)).Nodup ∧ (∀ x ∈ new, ∃ k, x.uuid = gen k) ∧
      Seg r' w.db.store.log S w.db.parts.tx.next new ∧
      (∃ x, new.getLast? = some x ∧ x.uuid = r'.head ∧ w'.remoteHead = r'.head ∧
        (w.db.parts.tx.next - 1, r'.head) ∈ w'.map) ∧
      ∀ p ∈ w'.map, p ∈ w.map ∨ (S ≤ p.1 ∧ p.1 < w.db.parts.tx.next) := by
  have hist := histInv_reach hr.reach
  obtain ⟨ts', new', s1, s2, s3, s4⟩ := C58_download hg.inj hg.chunks hd hm h
  unfold fastForwardRemote at h
  obtain ⟨ts, t1, t2, t3⟩ := C57_process w.db.store.log fromTx
  rw [t3] at h
  have hmem : ∀ t, t ∈ ts ↔ S ≤ t ∧ t < w.db.parts.tx.next := by
    intro t
    rw [t2, log_txs hist]
    constructor
    · rintro ⟨h1, h2, h3⟩; exact ⟨(hft t h2).1 h1, h3⟩
    · rintro ⟨h1, h2⟩; exact ⟨(hft t (by omega)).2 h1, by omega, h2⟩
  have hmem' : ∀ t, t ∈ ts' ↔ S ≤ t ∧ t < w.db.parts.tx.next := by
    intro t; rw [s2, ← t2, hmem]
  cases hv : visit (Uploader.tx gen rh Parts.bootstrap) w.db.store.log ts { remote := r } with
  | err e => rw [hv] at h; simp [Res.bind] at h
  | panic => rw [hv] at h; simp [Res.bind] at h
  | ok u =>
    rw [hv] at h
    simp only [Res.bind] at h
    have hnd : ts.Nodup := t1.imp (fun h => by omega)
    obtain ⟨new, n1, n2, n3, n4, n5, n6, n7, n8⟩ := visit_upload ts _ _ hnd hv
    have hf := Fresh.visit hg.inj hg.chunks ts { remote := r } u hnd (by simp)
      ⟨hd, fun c hc => Or.inl hc, by simp [OneToOne], by simp⟩ hv
    cases hro : u.rolling with
    | none =>
      have := (n3.1 hro).2
      subst this
      have := (hmem S).2 ⟨Int.le_refl _, hlt⟩
      cases this
    | some hd' =>
      rw [hro] at h
      simp only [Res.ok.injEq, Prod.mk.injEq] at h
      obtain ⟨rfl, rfl⟩ := h
      have hnew : new' = new := List.append_cancel_left (s3.symm.trans n1)
      subst hnew
      simp only [Option.getD_none] at n2
      rw [hro] at n2
      simp only [Option.getD_some] at n2
      have hone := hm.setAll u.tempUuids
      have hget : ∀ (i : Nat) x t, new'[i]? = some x → ts[i]? = some t → (t, x.uuid) ∈ (u.tempUuids : TxMap) :=
        fun i x t h1 h2 => AMap.get_some_mem (n7 i x t h1 h2).1
      have hsome : ∀ (i : Nat) x, new'[i]? = some x → ∃ t, ts[i]? = some t := by
        intro i x hx
        have : i < new'.length := by
          rcases Nat.lt_or_ge i new'.length with h | h
          · exact h
          · rw [List.getElem?_eq_none h] at hx; cases hx
        exact ⟨ts[i]'(by omega), List.getElem?_eq_getElem _⟩
      refine ⟨rfl, hone, hf.ids, n5, new', n1, ?_, ?_, ?_, ?_, ?_⟩
      · -- distinct transactions have distinct UUIDs
        rw [List.nodup_iff_pairwise_ne, List.pairwise_map, List.pairwise_iff_getElem]
        intro i j hi hj hij he
        obtain ⟨t, ht⟩ := hsome i _ (List.getElem?_eq_getElem hi)
        obtain ⟨t', ht'⟩ := hsome j _ (List.getElem?_eq_getElem hj)
        have a1 := hget i _ t (List.getElem?_eq_getElem hi) ht
        have a2 := hget j _ t' (List.getElem?_eq_getElem hj) ht'
        rw [← he] at a2
        have htt : t = t' := by
          have b1 := (getTx_iff hf.map t new'[i].uuid).2 a1
          have b2 := (getTx_iff hf.map t' new'[i].uuid).2 a2
          rw [b1] at b2
          simpa using b2
        obtain ⟨hi', rfl⟩ := List.getElem?_eq_some_iff.1 ht
        obtain ⟨hj', rfl⟩ := List.getElem?_eq_some_iff.1 ht'
        have := List.pairwise_iff_getElem.1 t1 i j hi' hj' hij
        omega
      · intro x hx
        obtain ⟨i, hi, rfl⟩ := List.getElem_of_mem hx
        obtain ⟨t, ht⟩ := hsome i _ (List.getElem?_eq_getElem hi)
        obtain ⟨k, -, hk⟩ := hf.uuids _ (hget i _ t (List.getElem?_eq_getElem hi) ht)
        exact ⟨k, hk⟩
      · exact ⟨ts', s1, hmem', s4.imp fun t x h => ⟨h.2.choose, h.2.choose_spec.1, h.2.choose_spec.2⟩⟩
      · cases hx : new'.getLast? with
        | none =>
          have : new' = [] := List.getLast?_eq_none_iff.1 hx
          subst this
          have : ts = [] := List.length_eq_zero_iff.1 n6.symm
          subst this
          have := (hmem S).2 ⟨Int.le_refl _, hlt⟩
          cases this
        | some x =>
          have hu : x.uuid = hd' := n2.last x hx
          refine ⟨x, rfl, hu, rfl, ?_⟩
          -- the last transaction
          have hl := List.getLast?_eq_getElem? (l := new')
          rw [hx] at hl
          obtain ⟨t, ht⟩ := hsome _ x hl.symm
          have hmt := hget _ x t hl.symm ht
          have : t = w.db.parts.tx.next - 1 := by
            have htm := (hmem t).1 (List.mem_of_getElem? ht)
            have hlast := (hmem (w.db.parts.tx.next - 1)).2 ⟨by omega, by omega⟩
            obtain ⟨j, hj, he⟩ := List.getElem_of_mem hlast
            obtain ⟨hi', he'⟩ := List.getElem?_eq_some_iff.1 ht
            rcases Nat.lt_or_ge j (new'.length - 1) with h | h
            · have := List.pairwise_iff_getElem.1 t1 j (new'.length - 1) hj hi' h
              omega
            · have : j = new'.length - 1 := by omega
              subst this
              exact he'.symm.trans he
          subst this
          simp only
          rw [← hu]
          exact mem_setAll hf.map hmt
      · intro p hp
        rcases mem_setAll_sub hp with h1 | h1
        · exact .inl h1
        · right
          obtain ⟨t, v⟩ := p
          apply (hmem t).1
          apply Classical.byContradiction
          intro hn
          have := n8 t hn
          have hs := AMap.get_isSome_iff.2 (List.mem_map.2 ⟨_, h1, rfl⟩ : t ∈ AMap.keys u.tempUuids)
          rw [this] at hs
          cases hs

/-! ### The bootstrap transaction -/

theorem eLookup_eq {ps : List TxPart} {k : Keyword} {e : Entid}
    (h1 : ∃ p ∈ ps, p.v = .keyword k ∧ p.added = true) (h2 : ∀ p ∈ ps, p.v = .keyword k → p.added = true → p.e = e) :
    eLookup ps k = some e := by
  unfold eLookup
  obtain ⟨p, hp, hv, ha⟩ := h1
  cases hf : ps.find? fun p => decide (p.v = .keyword k) && p.added with
  | none =>
    have := List.find?_eq_none.1 hf p hp
    simp [hv, ha] at this
  | some q =>
    have hq := List.find?_some hf
    simp only [Bool.and_eq_true, decide_eq_true_eq] at hq
    simp [h2 q (List.mem_of_find?_eq_some hf) hq.1 hq.2]

/-- An uploaded bootstrap transaction has the version the code asks for. -/
theorem version_ok {now : Int} {boot : Db} (h : createCurrentVersion now = .ok boot) {tx : Tx}
    (hc : Carried boot.store.log TX0 tx) : coreSchemaVersion tx = .ok CORE_SCHEMA_VERSION := by
  obtain ⟨-, hl, hf⟩ := boot_log h
  obtain ⟨e1, -⟩ := sameDatom_terms hc.1
  have hmem : ∀ p, p ∈ tx.parts → (⟨.add, p.e, p.a, p.v⟩ : RTerm) ∈ bootFacts ∨ (p.e = TX0 ∧ ∃ i, p.v = .instant i) := by
    intro p hp
    have : partTerm p ∈ tx.parts.map partTerm := List.mem_map.2 ⟨p, hp, rfl⟩
    rw [e1, mem_datomsOfTx fun l hm => (hl l hm).2.2.1] at this
    obtain ⟨l, h1, h2, h3⟩ := this
    simp only [partTerm, logTerm, Term.mk.injEq] at h3
    obtain ⟨-, h4, h5, h6⟩ := h3
    rw [h4, h5, h6]
    rcases (hl l h1).2.2.2 with h7 | ⟨h7, -, h8⟩
    · exact .inl h7
    · exact .inr ⟨h7, h8⟩
  have hex : ∀ e a v, (⟨.add, e, a, v⟩ : RTerm) ∈ bootFacts → ∃ p ∈ tx.parts, p.e = e ∧ p.a = a ∧ p.v = v ∧ p.added = true := by
    intro e a v hm
    have h1 := hf _ hm
    have : logTerm ⟨e, a, v, TX0, true, 0⟩ ∈ tx.parts.map partTerm := by
      rw [e1, mem_datomsOfTx fun l hm => (hl l hm).2.2.1]
      exact ⟨_, h1, rfl, rfl⟩
    obtain ⟨p, hp, he⟩ := List.mem_map.1 this
    simp only [partTerm, logTerm, Term.mk.injEq, if_true] at he
    obtain ⟨h2, h3, h4, h5⟩ := he
    refine ⟨p, hp, h3, h4, h5, ?_⟩
    cases hx : p.added with
    | true => rfl
    | false => rw [hx] at h2; simp at h2
  have f1 : bootFacts.all (fun x => (decide (x.v ≠ .keyword (kw "db.schema" "core")) || decide (x.e = DB_SCHEMA_CORE)) &&
      (decide (x.v ≠ .keyword (kw "db.schema" "version")) || decide (x.e = DB_SCHEMA_VERSION)) &&
      (decide (¬ (x.e = DB_SCHEMA_CORE ∧ x.a = DB_SCHEMA_VERSION)) || decide (x.v = .long 1))) = true := by decide +kernel
  have f2 : (⟨.add, DB_SCHEMA_CORE, DB_IDENT, .keyword (kw "db.schema" "core")⟩ : RTerm) ∈ bootFacts ∧
      (⟨.add, DB_SCHEMA_VERSION, DB_IDENT, .keyword (kw "db.schema" "version")⟩ : RTerm) ∈ bootFacts ∧
      (⟨.add, DB_SCHEMA_CORE, DB_SCHEMA_VERSION, .long 1⟩ : RTerm) ∈ bootFacts := by decide +kernel
  have f1' : ∀ p ∈ tx.parts, (p.v = .keyword (kw "db.schema" "core") → p.e = DB_SCHEMA_CORE) ∧
      (p.v = .keyword (kw "db.schema" "version") → p.e = DB_SCHEMA_VERSION) ∧
      (p.e = DB_SCHEMA_CORE → p.a = DB_SCHEMA_VERSION → p.v = .long 1) := by
    intro p hp
    rcases hmem p hp with h1 | ⟨h1, i, h2⟩
    · have := List.all_eq_true.1 f1 _ h1
      simp only [Bool.and_eq_true, Bool.or_eq_true, decide_eq_true_eq] at this
      refine ⟨fun hv => ?_, fun hv => ?_, fun he ha => ?_⟩
      · exact this.1.1.resolve_left (fun h => h hv)
      · exact this.1.2.resolve_left (fun h => h hv)
      · exact this.2.resolve_left (fun h => h ⟨he, ha⟩)
    · refine ⟨fun hv => ?_, fun hv => ?_, fun he ha => ?_⟩
      · rw [h2] at hv; cases hv
      · rw [h2] at hv; cases hv
      · rw [h1] at he; exact absurd he (by decide)
  have l1 : eLookup tx.parts (kw "db.schema" "core") = some DB_SCHEMA_CORE := eLookup_eq
    (by obtain ⟨p, hp, -, -, h3, h4⟩ := hex _ _ _ f2.1; exact ⟨p, hp, h3, h4⟩) (fun p hp hv _ => (f1' p hp).1 hv)
  have l2 : eLookup tx.parts (kw "db.schema" "version") = some DB_SCHEMA_VERSION := eLookup_eq
    (by obtain ⟨p, hp, -, -, h3, h4⟩ := hex _ _ _ f2.2.1; exact ⟨p, hp, h3, h4⟩) (fun p hp hv _ => (f1' p hp).2.1 hv)
  unfold coreSchemaVersion eaLookup
  rw [l1, l2]
  simp only
  obtain ⟨p, hp, h1, h2, h3, h4⟩ := hex _ _ _ f2.2.2
  cases hfi : tx.parts.find? fun p => decide (p.e = DB_SCHEMA_CORE ∧ p.a = DB_SCHEMA_VERSION) && p.added with
  | none =>
    have := List.find?_eq_none.1 hfi p hp
    simp [h1, h2, h4] at this
  | some q =>
    have hq := List.find?_some hfi
    simp only [Bool.and_eq_true, decide_eq_true_eq] at hq
    have := (f1' q (List.mem_of_find?_eq_some hfi)).2.2 hq.1.1 hq.1.2
    simp [this, CORE_SCHEMA_VERSION]

/-! ### One writer, one reader -/

theorem Later.trans {a b c : Db} (h1 : Later a b) (h2 : Later b c) : Later a c := by
  induction h1 with
  | refl => exact h2
  | step h known kept told own _ ih => exact .step h known kept told own (ih h2)

theorem Later.eq_of_next {b r : Db} (h : Later b r) (hb : ReachKept b) (hn : r.parts.tx.next = b.parts.tx.next) : r = b := by
  cases h with
  | refl => rfl
  | @step _ b1 _ now terms ids rep h known kept told own rest =>
    obtain ⟨-, hle, -⟩ := rest.spec (hb.step ⟨now, terms, ids, rep, known, h⟩ kept)
    obtain ⟨T⟩ := transact_trace h
    have hnext : b1.parts.tx.next = b.parts.tx.next + 1 := by rw [T.parts, T.txid.2.1]
    omega

/-- A store that writes, one that reads, the server; and what the writer had when it last synced. -/
structure World where
  w : Local
  b : Local
  r : Remote := {}
  synced : Option Db := none

/-- The writer transacts; the writer syncs; the reader syncs, once the writer has. -/
inductive Move : World → World → Prop
  | write {W : World} {now : Int} {terms : List TTerm} {ids : List TempId} {db' : Db} {rep : Mentat.Report}
      (h : transactTerms W.w.db now terms ids = .ok (db', rep)) (known : KnownTerms W.w.db terms)
      (kept : KeepsUsedAttributes W.w.db db') (told : MetaTold W.w.db terms)
      (own : ∀ l ∈ db'.store.log, l.tx = rep.txId → l.a = DB_TX_INSTANT → l.e = rep.txId) :
      Move W { W with w := { W.w with db := db' } }
  | up {W : World} {gen : Nat → Nat} {now : Int} {w' : Local} {r' : Remote} {rep : Report} (fresh : FreshGen gen W.r)
      (h : sync gen W.w W.r now = .ok (w', r', rep)) : Move W ⟨w', W.b, r', some W.w.db⟩
  | down {W : World} {gen : Nat → Nat} {now : Int} {b' : Local} {r' : Remote} {rep : Report} (hs : W.synced ≠ none)
      (h : sync gen W.b W.r now = .ok (b', r', rep)) : Move W { W with b := b', r := r' }

/-- From two new stores with the same contents and an empty server. -/
inductive Reached (boot : Db) : World → Prop
  | start {b0 : Db} : Replica boot b0 → Reached boot { w := { db := boot }, b := { db := b0 } }
  | move {W W' : World} : Reached boot W → Move W W' → Reached boot W'

/-- The reader has synced when the writer's store was `B`. -/
def ReaderAt (boot S : Db) (r : Remote) (b : Local) : Prop :=
  ∃ B pre x post, Later boot B ∧ Later B S ∧ Replica B b.db ∧ r.txs = pre ++ x :: post ∧
    Seg r S.store.log B.parts.tx.next S.parts.tx.next post ∧ b.remoteHead = x.uuid ∧ OneToOne b.map ∧
    (B.parts.tx.next - 1, x.uuid) ∈ b.map

structure Inv (boot S : Db) (W : World) : Prop where
  shared : Later boot S
  local_ : Later S W.w.db
  chunks : (W.r.chunks.map (·.1)).Nodup
  uuids : (W.r.txs.map (·.uuid)).Nodup
  notNil : ∀ x ∈ W.r.txs, x.uuid ≠ nil
  txs : Seg W.r S.store.log TX0 S.parts.tx.next W.r.txs
  head : ∃ x, W.r.txs.getLast? = some x ∧ x.uuid = W.r.head
  known : W.w.remoteHead = W.r.head
  map : OneToOne W.w.map
  mapped : (S.parts.tx.next - 1, W.r.head) ∈ W.w.map
  before : ∀ p ∈ W.w.map, p.1 < S.parts.tx.next
  reader : (W.b.remoteHead = nil ∧ W.b.map = [] ∧ Replica boot W.b.db) ∨ ReaderAt boot S W.r W.b

/-- Before the first sync. -/
structure Inv0 (boot : Db) (W : World) : Prop where
  local_ : Later boot W.w.db
  remote : W.r = {}
  map : W.w.map = []
  known : W.w.remoteHead = nil
  reader : W.b.remoteHead = nil ∧ W.b.map = [] ∧ Replica boot W.b.db

/-- The transactions after `x`. -/
theorem after_mid {r : Remote} {pre post : List RemoteTx} {x : RemoteTx} (h : r.txs = pre ++ x :: post)
    (hu : (r.txs.map (·.uuid)).Nodup) (hx : x.uuid ≠ nil) : r.after x.uuid = r.download post := by
  unfold Remote.after
  rw [if_neg hx, h]
  have hne : ∀ y ∈ pre, y.uuid ≠ x.uuid := by
    intro y hy he
    rw [h, List.map_append, List.nodup_append] at hu
    exact hu.2.2 y.uuid (List.mem_map.2 ⟨y, hy, rfl⟩) x.uuid (by simp) he
  congr 1
  clear h hu
  induction pre with
  | nil => simp
  | cons y pre ih =>
    have hy := hne y (by simp)
    have := ih fun z hz => hne z (List.mem_cons_of_mem _ hz)
    simpa [hy] using this

theorem up_ok {boot S : Db} {W : World} (hb : ReachKept boot) (hi : Inv boot S W) {gen : Nat → Nat}
    (hg : FreshGen gen W.r) (now : Int) :
    ∃ w' r' rep, sync gen W.w W.r now = .ok (w', r', rep) ∧ w'.db = W.w.db ∧
      Inv boot W.w.db ⟨w', W.b, r', some W.w.db⟩ := by
  obtain ⟨hS, hS1, -⟩ := hi.shared.spec hb
  obtain ⟨hw, hw1, rs, hw2, hw3⟩ := hi.local_.spec hS
  have histB := histInv_reach hb.reach
  have hist := histInv_reach hw.reach
  obtain ⟨x, hx1, hx2⟩ := hi.head
  have hxm := List.mem_of_getLast? hx1
  have hnil : W.r.head ≠ nil := by rw [← hx2]; exact hi.notNil x hxm
  have hTX : TX0 < S.parts.tx.next := by
    obtain ⟨ts, -, h2, h3⟩ := hi.txs
    obtain ⟨i, hi', rfl⟩ := List.getElem_of_mem hxm
    have hlen := h3.length_eq
    have := (h2 ts[0]).1 (List.getElem_mem (by omega))
    omega
  have hroot : rootAndHead W.w.db.store.log = .ok (TX0, W.w.db.parts.tx.next - 1) :=
    rootAndHead_replica hist (by omega) (.refl _)
  unfold sync
  rw [hroot]
  simp only [Res.bind]
  have hne : ¬ (W.w.remoteHead = nil ∧ W.r.head ≠ nil) := by
    rintro ⟨h1, -⟩; rw [hi.known] at h1; exact hnil h1
  have hst : RemoteState.of W.w.remoteHead W.r.head = .unchanged := by
    unfold RemoteState.of
    rw [if_neg hnil, hi.known]; simp
  by_cases heq : W.w.db.parts.tx.next = S.parts.tx.next
  · -- nothing new
    have hSw := hi.local_.eq_of_next hS heq
    have hget : W.w.map.get (W.w.db.parts.tx.next - 1) = .ok (some W.r.head) := by
      rw [heq]; exact (get_iff hi.map _ _).2 hi.mapped
    rw [hget]
    simp only [hst, LocalState.of, whatDo, if_neg hne]
    refine ⟨_, _, _, rfl, rfl, ?_⟩
    have hi' := hi
    rw [← hSw] at hi'
    exact ⟨hi'.shared, .refl _, hi.chunks, hi.uuids, hi.notNil, hi'.txs, hi.head, hi.known, hi.map, hi'.mapped,
      hi'.before, hi'.reader⟩
  · have hlt : S.parts.tx.next < W.w.db.parts.tx.next := by omega
    have hget : W.w.map.get (W.w.db.parts.tx.next - 1) = .ok none := by
      obtain ⟨o, ho⟩ := get_ok hi.map (W.w.db.parts.tx.next - 1)
      cases o with
      | none => exact ho
      | some u =>
        have := hi.before _ ((get_iff hi.map _ _).1 ho)
        simp only at this
        omega
    rw [hget]
    simp only [hst, LocalState.of, whatDo, if_neg hne]
    have htx : localTxForUuid W.w.map W.w.remoteHead = .ok (S.parts.tx.next - 1) := by
      unfold localTxForUuid
      rw [hi.known, (getTx_iff hi.map _ _).2 hi.mapped]
      rfl
    rw [htx]
    simp only
    obtain ⟨w', r', hup⟩ := C70_uploads (gen := gen) hw.reach (some (S.parts.tx.next - 1)) W.r W.r.head
    rw [hup]
    refine ⟨w', r', _, rfl, ?_⟩
    obtain ⟨u1, u2, u3, u4, new, u5, u6, u7, u8, ⟨y, u9, u10, u11, u12⟩, u13⟩ := upload_spec (S := S.parts.tx.next) hg hi.chunks
      hi.map hw (by intro t _; simp only [After]; omega) (by omega) hlt hup
    refine ⟨u1, ?_⟩
    have hmono : ∀ {a : Entid} {xs : List RemoteTx}, Seg W.r S.store.log a S.parts.tx.next xs →
        Seg r' W.w.db.store.log a S.parts.tx.next xs := by
      intro a xs h
      rw [hw2]
      exact h.mono u4 u3 hw3
    refine ⟨hi.shared.trans hi.local_, by rw [u1]; exact .refl _, u3, ?_, ?_, ?_, ?_, u11, u2, u12, ?_, ?_⟩
    · simp only [u5, List.map_append]
      rw [List.nodup_append]
      refine ⟨hi.uuids, u6, ?_⟩
      intro a ha b hb' he
      obtain ⟨z, hz, rfl⟩ := List.mem_map.1 ha
      obtain ⟨z', hz', rfl⟩ := List.mem_map.1 hb'
      obtain ⟨k, hk⟩ := u7 z' hz'
      exact hg.txs z hz k (by rw [← hk, he])
    · intro z hz
      rw [u5] at hz
      rcases List.mem_append.1 hz with hz | hz
      · exact hi.notNil z hz
      · obtain ⟨k, hk⟩ := u7 z hz
        rw [hk]; exact hg.nil k
    · rw [u5]
      exact (hmono hi.txs).append u8 (by omega) (by omega)
    · refine ⟨y, ?_, u10⟩
      rw [u5, List.getLast?_append, u9]
      rfl
    · intro p hp
      rcases u13 p hp with h | ⟨-, h⟩
      · have := hi.before p h; omega
      · exact h
    · rcases hi.reader with h | ⟨B, pre, x', post, b1, b2, b3, b4, b5, b6, b7, b8⟩
      · exact .inl h
      · right
        obtain ⟨hB, -⟩ := b1.spec hb
        obtain ⟨-, hBle, -⟩ := b2.spec hB
        exact ⟨B, pre, x', post ++ new, b1, b2.trans hi.local_, b3, by rw [u5, b4]; simp,
          (hmono b5).append u8 hBle (by omega), b6, b7, b8⟩

theorem first_up {now0 : Int} {boot : Db} {W : World} (hboot : createCurrentVersion now0 = .ok boot) (hi : Inv0 boot W)
    {gen : Nat → Nat} (hg : FreshGen gen W.r) (now : Int) :
    ∃ w' r' rep, sync gen W.w W.r now = .ok (w', r', rep) ∧ w'.db = W.w.db ∧
      Inv boot W.w.db ⟨w', W.b, r', some W.w.db⟩ := by
  have hb : ReachKept boot := .boot hboot
  have hn := (boot_log hboot).1
  obtain ⟨hw, hw1, -⟩ := hi.local_.spec hb
  have hist := histInv_reach hw.reach
  have hroot : rootAndHead W.w.db.store.log = .ok (TX0, W.w.db.parts.tx.next - 1) :=
    rootAndHead_replica hist (by omega) (.refl _)
  unfold sync
  rw [hroot]
  simp only [Res.bind, hi.map, hi.known, hi.remote]
  have : TxMap.get [] (W.w.db.parts.tx.next - 1) = .ok none := rfl
  rw [this]
  simp only [ne_eq, not_true_eq_false, and_false, if_false]
  have hst : RemoteState.of nil nil = .empty := rfl
  simp only [hst, whatDo]
  obtain ⟨w', r', hup⟩ := C70_uploads (gen := gen) hw.reach none {} nil
  rw [hup]
  refine ⟨w', r', _, rfl, ?_⟩
  have hg' : FreshGen gen {} := by rw [← hi.remote]; exact hg
  obtain ⟨u1, u2, u3, u4, new, u5, u6, u7, u8, ⟨y, u9, u10, u11, u12⟩, u13⟩ := upload_spec (S := TX0) hg' (by simp)
    (by rw [hi.map]; simp [OneToOne]) hw (by intro t ht; simp [After, ht]) (Int.le_refl _) (by omega) hup
  refine ⟨u1, ?_⟩
  simp only [List.nil_append] at u5
  refine ⟨hi.local_, by rw [u1]; exact .refl _, u3, by rw [u5]; exact u6, ?_, by rw [u5]; exact u8,
    ⟨y, by rw [u5]; exact u9, u10⟩, u11, u2, u12, ?_, .inl hi.reader⟩
  · intro z hz
    rw [u5] at hz
    obtain ⟨k, hk⟩ := u7 z hz
    rw [hk]; exact hg.nil k
  · intro p hp
    rcases u13 p hp with h | ⟨-, h⟩
    · rw [hi.map] at h; cases h
    · exact h

theorem down_ok {now0 : Int} {boot S : Db} {W : World} (hboot : createCurrentVersion now0 = .ok boot) (hi : Inv boot S W)
    (gen : Nat → Nat) (now : Int) :
    ∃ b' rep, sync gen W.b W.r now = .ok (b', W.r, rep) ∧ Replica S b'.db ∧ b'.remoteHead = W.r.head ∧
      ReaderAt boot S W.r b' := by
  have hb : ReachKept boot := .boot hboot
  have hn := (boot_log hboot).1
  obtain ⟨hS, hS1, rsS, hSlog, hSrs⟩ := hi.shared.spec hb
  have histS := histInv_reach hS.reach
  have histB := histInv_reach hb.reach
  obtain ⟨y, hy1, hy2⟩ := hi.head
  have hym := List.mem_of_getLast? hy1
  have hnil : W.r.head ≠ nil := by rw [← hy2]; exact hi.notNil y hym
  rcases hi.reader with ⟨r1, r2, r3⟩ | ⟨B, pre, x, post, b1, b2, b3, b4, b5, b6, b7, b8⟩
  · -- the first sync
    have hroot : rootAndHead W.b.db.store.log = .ok (TX0, TX0) := by
      have := rootAndHead_replica histB (by omega) r3
      rw [hn, Int.add_sub_cancel] at this
      exact this
    unfold sync
    rw [hroot]
    simp only [Res.bind, r1, r2]
    have : TxMap.get [] TX0 = .ok none := rfl
    rw [this]
    simp only [ne_eq, hnil, not_false_eq_true, and_self, if_true]
    unfold firstSync
    have hall : W.r.after nil = W.r.download W.r.txs := by unfold Remote.after; rw [if_pos rfl]
    rw [hall]
    -- the bootstrap transaction comes first
    obtain ⟨ts, t1, t2, t3⟩ := hi.txs
    cases hxs : W.r.txs with
    | nil => rw [hxs] at hym; cases hym
    | cons x xs =>
      rw [hxs] at t3
      cases t3 with
      | @cons t _ ts _ hcar hrest =>
        obtain ⟨p1, p2⟩ := List.pairwise_cons.1 t1
        have ht : t = TX0 := by
          have h1 := (t2 t).1 (by simp)
          rcases List.mem_cons.1 ((t2 TX0).2 ⟨Int.le_refl _, by omega⟩) with h2 | h2
          · exact h2.symm
          · have := p1 _ h2; omega
        subst ht
        obtain ⟨ds, d1, d2⟩ := hcar
        have hseg : Seg W.r S.store.log boot.parts.tx.next S.parts.tx.next xs := by
          refine ⟨ts, p2, ?_, hrest⟩
          intro t'
          constructor
          · intro h
            have h1 := p1 t' h
            have h2 := (t2 t').1 (List.mem_cons_of_mem _ h)
            omega
          · rintro ⟨h1, h2⟩
            rcases List.mem_cons.1 ((t2 t').2 ⟨by omega, h2⟩) with h3 | h3
            · omega
            · exact h3
        have hver : coreSchemaVersion ⟨x.uuid, ds⟩ = .ok CORE_SCHEMA_VERSION := by
          apply version_ok hboot
          have : datomsOfTx S.store.log TX0 = datomsOfTx boot.store.log TX0 := by
            rw [hSlog]
            apply datomsOfTx_append
            intro l hl he
            have := hSrs l hl
            omega
          unfold Carried at d2 ⊢
          rw [this] at d2
          exact d2
        obtain ⟨txs, l', k1, k2, k3, k4, k5, k6⟩ := catch_up
          (l := { W.b with map := TxMap.set [] TX0 x.uuid, remoteHead := x.uuid }) hb hi.shared r3 hseg now
        have hdl : W.r.download (x :: xs) = .ok (⟨x.uuid, ds⟩ :: txs) := by
          simp [Remote.download, d1, k1, Res.bind]
        rw [hdl]
        simp only [Res.bind, hver, ne_eq, not_true_eq_false, if_false, r2, if_true]
        cases xs with
        | nil =>
          have htx : txs = [] := List.length_eq_zero_iff.1 k2
          subst htx
          have hl' := k5 rfl
          subst hl'
          simp only [List.isEmpty_nil, if_true, whatDo]
          have hSb : S = boot := hi.shared.eq_of_next hb (by
            obtain ⟨us, -, u2, u3⟩ := hseg
            cases u3
            apply Classical.byContradiction
            intro hne
            have := (u2 boot.parts.tx.next).2 ⟨Int.le_refl _, by omega⟩
            cases this)
          have hyx : y = x := by
            rw [hxs] at hy1
            simpa using hy1.symm
          refine ⟨_, _, rfl, k4, by simp only; rw [← hy2, hyx], ?_⟩
          refine ⟨S, [], x, [], hi.shared, .refl _, k4, hxs, ⟨[], .nil, fun t => ⟨fun h => (by cases h), fun h => absurd h (by omega)⟩, .nil⟩,
            rfl, ?_, ?_⟩
          · simp [TxMap.set, OneToOne]
          · rw [hSb, hn, Int.add_sub_cancel]
            simp [TxMap.set]
        | cons z zs =>
          have hne : txs.isEmpty = false := by
            cases txs with
            | nil => simp at k2
            | cons _ _ => rfl
          simp only [hne, Bool.false_eq_true, if_false, whatDo, k3]
          have hyl : (z :: zs).getLast? = some y := by
            rw [hxs, List.getLast?_cons_cons] at hy1
            exact hy1
          obtain ⟨k7, k8⟩ := k6 y hyl
          refine ⟨l', _, rfl, k4, k7.trans hy2, ?_⟩
          obtain ⟨pre, hpre⟩ := List.getLast?_eq_some_iff.1 hy1
          refine ⟨S, pre, y, [], hi.shared, .refl _, k4, hpre, ⟨[], .nil, fun t => ⟨fun h => (by cases h), fun h => absurd h (by omega)⟩, .nil⟩,
            k7, ?_, ?_⟩
          · rw [k8]
            apply OneToOne.set
            simp [TxMap.set, OneToOne]
          · rw [k8]
            exact mem_set.2 (.inl ⟨rfl, rfl⟩)
  · obtain ⟨hB, hB1, -⟩ := b1.spec hb
    obtain ⟨-, hBS, -⟩ := b2.spec hB
    have histB' := histInv_reach hB.reach
    have hroot := rootAndHead_replica histB' (by omega) b3
    have hxm : x ∈ W.r.txs := by rw [b4]; simp
    have hxn : x.uuid ≠ nil := hi.notNil x hxm
    unfold sync
    rw [hroot]
    simp only [Res.bind, (get_iff b7 _ _).2 b8]
    have hne : ¬ (W.b.remoteHead = nil ∧ W.r.head ≠ nil) := by
      rintro ⟨h1, -⟩; rw [b6] at h1; exact hxn h1
    rw [if_neg hne]
    obtain ⟨txs, l', k1, k2, k3, k4, k5, k6⟩ := catch_up hB b2 b3 b5 now
    cases post with
    | nil =>
      have hyx : y = x := by
        rw [b4] at hy1
        simpa using hy1.symm
      have hst : RemoteState.of W.b.remoteHead W.r.head = .unchanged := by
        unfold RemoteState.of
        rw [if_neg hnil, b6, ← hy2, hyx]; simp
      simp only [hst, LocalState.of, whatDo]
      have hl' := k5 rfl
      subst hl'
      refine ⟨_, _, rfl, k4, by rw [b6, ← hy2, hyx], B, pre, x, [], b1, b2, b3, b4, b5, b6, b7, b8⟩
    | cons z zs =>
      have hyl : (z :: zs).getLast? = some y := by
        rw [b4] at hy1
        rw [List.getLast?_append, List.getLast?_cons_cons] at hy1
        cases hz : (z :: zs).getLast? with
        | none => cases List.getLast?_eq_none_iff.1 hz
        | some q => rw [hz] at hy1; simpa using hy1
      have hdiff : W.r.head ≠ W.b.remoteHead := by
        rw [b6, ← hy2]
        have hu := hi.uuids
        rw [b4, List.map_append, List.nodup_append, List.map_cons] at hu
        obtain ⟨-, hu, -⟩ := hu
        rw [List.nodup_cons] at hu
        intro he
        exact hu.1 (he ▸ List.mem_map.2 ⟨y, List.mem_of_getLast? hyl, rfl⟩)
      have hst : RemoteState.of W.b.remoteHead W.r.head = .changed := by
        unfold RemoteState.of
        rw [if_neg hnil, if_pos hdiff]
      simp only [hst, LocalState.of, whatDo]
      rw [b6, after_mid b4 hi.uuids hxn, k1]
      simp only [k3]
      obtain ⟨k7, k8⟩ := k6 y hyl
      refine ⟨l', _, rfl, k4, k7.trans hy2, ?_⟩
      obtain ⟨pre', hpre⟩ := List.getLast?_eq_some_iff.1 hy1
      refine ⟨S, pre', y, [], hi.shared, .refl _, k4, hpre, ⟨[], .nil, fun t => ⟨fun h => (by cases h), fun h => absurd h (by omega)⟩, .nil⟩,
        k7, ?_, ?_⟩
      · rw [k8]; exact b7.set _ _
      · rw [k8]; exact mem_set.2 (.inl ⟨rfl, rfl⟩)

/-- What holds throughout. -/
theorem reached_inv {now0 : Int} {boot : Db} (hboot : createCurrentVersion now0 = .ok boot) {W : World} (h : Reached boot W) :
    (W.synced = none ∧ Inv0 boot W) ∨ ∃ S, W.synced = some S ∧ Inv boot S W := by
  have hb : ReachKept boot := .boot hboot
  induction h with
  | start hR => exact .inl ⟨rfl, .refl _, rfl, rfl, rfl, rfl, rfl, hR⟩
  | @move W W' _ hm ih =>
    cases hm with
    | @write now terms ids db' rep h known kept told own =>
      rcases ih with ⟨h1, h2⟩ | ⟨S, h1, h2⟩
      · exact .inl ⟨h1, h2.local_.trans (.step h known kept told own (.refl _)), h2.remote, h2.map, h2.known, h2.reader⟩
      · exact .inr ⟨S, h1, h2.shared, h2.local_.trans (.step h known kept told own (.refl _)), h2.chunks, h2.uuids, h2.notNil,
          h2.txs, h2.head, h2.known, h2.map, h2.mapped, h2.before, h2.reader⟩
    | @up gen now w' r' rep fresh h =>
      right
      refine ⟨W.w.db, rfl, ?_⟩
      rcases ih with ⟨h1, h2⟩ | ⟨S, h1, h2⟩
      · obtain ⟨a, b, c, k1, -, k3⟩ := first_up hboot h2 fresh now
        rw [k1] at h
        simp only [Res.ok.injEq, Prod.mk.injEq] at h
        obtain ⟨rfl, rfl, -⟩ := h
        exact k3
      · obtain ⟨a, b, c, k1, -, k3⟩ := up_ok hb h2 fresh now
        rw [k1] at h
        simp only [Res.ok.injEq, Prod.mk.injEq] at h
        obtain ⟨rfl, rfl, -⟩ := h
        exact k3
    | @down gen now b' r' rep hs h =>
      rcases ih with ⟨h1, -⟩ | ⟨S, h1, h2⟩
      · exact absurd h1 hs
      · obtain ⟨a, c, k1, -, -, k3⟩ := down_ok hboot h2 gen now
        rw [k1] at h
        simp only [Res.ok.injEq, Prod.mk.injEq] at h
        obtain ⟨rfl, rfl, -⟩ := h
        exact .inr ⟨S, h1, h2.shared, h2.local_, h2.chunks, h2.uuids, h2.notNil, h2.txs, h2.head, h2.known, h2.map,
          h2.mapped, h2.before, .inr k3⟩

/-- C71: the writer can always sync, whatever either has done before; its store does not change, the server
is then at the head it knows, and the transactions the server had stay. -/
theorem C71_writer_partial {now0 : Int} {boot : Db} (hboot : createCurrentVersion now0 = .ok boot) {W : World}
    (h : Reached boot W) {gen : Nat → Nat} (hg : FreshGen gen W.r) (now : Int) :
    ∃ w' r' rep, sync gen W.w W.r now = .ok (w', r', rep) ∧ w'.db = W.w.db ∧ w'.remoteHead = r'.head ∧
      Reached boot ⟨w', W.b, r', some W.w.db⟩ := by
  rcases reached_inv hboot h with ⟨-, h2⟩ | ⟨S, -, h2⟩
  · obtain ⟨a, b, c, k1, k2, k3⟩ := first_up hboot h2 hg now
    exact ⟨a, b, c, k1, k2, k3.known, h.move (.up hg k1)⟩
  · obtain ⟨a, b, c, k1, k2, k3⟩ := up_ok (.boot hboot) h2 hg now
    exact ⟨a, b, c, k1, k2, k3.known, h.move (.up hg k1)⟩

/-- C71: once the writer has synced, the reader can always sync; it then has the schema, facts, log and views
the writer had when it last synced, and the server is as it was. -/
theorem C71_reader_partial {now0 : Int} {boot : Db} (hboot : createCurrentVersion now0 = .ok boot) {W : World} {S : Db}
    (h : Reached boot W) (hs : W.synced = some S) (gen : Nat → Nat) (now : Int) :
    ∃ b' rep, sync gen W.b W.r now = .ok (b', W.r, rep) ∧ Replica S b'.db ∧ b'.remoteHead = W.r.head ∧
      Reached boot { W with b := b' } := by
  rcases reached_inv hboot h with ⟨h1, -⟩ | ⟨S', h1, h2⟩
  · rw [hs] at h1; cases h1
  · rw [hs] at h1
    cases h1
    obtain ⟨b', rep, k1, k2, k3, -⟩ := down_ok hboot h2 gen now
    exact ⟨b', rep, k1, k2, k3, h.move (.down (by rw [hs]; simp) k1)⟩

theorem le_foldr_max (l : List Nat) : ∀ n ∈ l, n ≤ l.foldr max 0 := by
  induction l with
  | nil => simp
  | cons a r ih =>
    intro n hn
    simp only [List.foldr_cons]
    rcases List.mem_cons.1 hn with rfl | hn
    · omega
    · have := ih n hn; omega

/-- New UUIDs can always be made. -/
theorem fresh_exists (r : Remote) : ∃ gen, FreshGen gen r := by
  refine ⟨fun n => n + 1 + (r.chunks.map (·.1) ++ r.txs.map (·.uuid)).foldr max 0, ?_, ?_, ?_, ?_⟩
  · intro m n h; omega
  · intro n; unfold Sync.nil; omega
  · intro c hc n he
    have := le_foldr_max (r.chunks.map (·.1) ++ r.txs.map (·.uuid)) c.1
      (List.mem_append_left _ (List.mem_map.2 ⟨c, hc, rfl⟩))
    omega
  · intro x hx n he
    have := le_foldr_max (r.chunks.map (·.1) ++ r.txs.map (·.uuid)) x.uuid
      (List.mem_append_right _ (List.mem_map.2 ⟨x, hx, rfl⟩))
    omega

theorem reached_later {boot db' : Db} {W : World} (h : Reached boot W) (hl : Later W.w.db db') :
    Reached boot { W with w := { W.w with db := db' } } := by
  generalize hd : W.w.db = d at hl
  induction hl generalizing W with
  | refl => subst hd; exact h
  | step ht known kept told own _ ih =>
    subst hd
    have h1 := h.move (Move.write ht known kept told own)
    have h2 := ih h1 rfl
    exact h2

/-- A reader that has synced once, and is behind a writer that has transacted and synced again. -/
theorem C71_example : ∃ W S, Reached bootDb W ∧ W.synced = some S ∧ W.b.remoteHead ≠ nil ∧ W.b.remoteHead ≠ W.r.head ∧
    ¬ Has W.b.db.store.rows 65539 xOne (str "c") ∧
    ∃ b' rep, sync id W.b W.r 9 = .ok (b', W.r, rep) ∧ Has b'.db.store.rows 65539 xOne (str "c") := by
  have h1 : (runLater [setupTx] bootDb).any (fun a => decide (a = setupDb)) = true := by decide +kernel
  have h2 : (runLater moreTxs setupDb).any (fun r => hasB r 65539 xOne (str "c")) = true := by decide +kernel
  have h3 : hasB setupDb 65539 xOne (str "c") = false := by decide +kernel
  cases hr1 : runLater [setupTx] bootDb with
  | none => rw [hr1] at h1; cases h1
  | some a =>
  rw [hr1] at h1
  simp only [Option.any_some, decide_eq_true_eq] at h1
  subst h1
  cases hr2 : runLater moreTxs setupDb with
  | none => rw [hr2] at h2; cases h2
  | some S =>
  rw [hr2] at h2
  simp only [Option.any_some, hasB_iff] at h2
  -- the writer sets up and syncs, and the reader syncs
  have w1 := reached_later (.start (.refl bootDb)) (runLater_later hr1)
  obtain ⟨g1, hg1⟩ := fresh_exists ({} : Remote)
  obtain ⟨w2, r2, rep2, s2, d2, -, W2⟩ := C71_writer_partial bootDb_eq w1 hg1 0
  obtain ⟨b3, rep3, s3, R3, e3, W3⟩ := C71_reader_partial bootDb_eq W2 rfl id 0
  -- the writer goes on
  simp only at d2
  have hl : Later w2.db S := by rw [d2]; exact runLater_later hr2
  have W4 := reached_later W3 hl
  obtain ⟨g4, hg4⟩ := fresh_exists r2
  obtain ⟨w5, r5, rep5, s5, d5, e5, W5⟩ := C71_writer_partial bootDb_eq W4 hg4 0
  obtain ⟨b6, rep6, s6, R6, e6, -⟩ := C71_reader_partial bootDb_eq W5 rfl id 9
  have hb3 : ¬ Has b3.db.store.rows 65539 xOne (str "c") := by
    rintro ⟨x, hx, hh⟩
    have : Has setupDb.store.rows 65539 xOne (str "c") := ⟨x, R3.rows.mem_iff.2 hx, hh⟩
    rw [← hasB_iff, h3] at this
    cases this
  have hb6 : Has b6.db.store.rows 65539 xOne (str "c") := by
    obtain ⟨x, hx, hh⟩ := h2
    exact ⟨x, R6.rows.mem_iff.1 hx, hh⟩
  refine ⟨_, _, W5, rfl, ?_, ?_, hb3, b6, rep6, s6, hb6⟩
  · -- it has synced
    rcases reached_inv bootDb_eq W3 with ⟨h, -⟩ | ⟨S', -, h⟩
    · cases h
    · obtain ⟨x, hx1, hx2⟩ := h.head
      simp only at e3 ⊢
      rw [e3, ← hx2]
      exact h.notNil x (List.mem_of_getLast? hx1)
  · -- it is behind
    intro he
    simp only at he
    have hnil : b3.remoteHead ≠ nil := by
      rcases reached_inv bootDb_eq W3 with ⟨h, -⟩ | ⟨S', -, h⟩
      · cases h
      · obtain ⟨x, hx1, hx2⟩ := h.head
        simp only at e3 ⊢
        rw [e3, ← hx2]
        exact h.notNil x (List.mem_of_getLast? hx1)
    -- otherwise it would do nothing
    have hsame : b6 = b3 := by
      unfold sync at s6
      simp only at s6
      cases ha : rootAndHead b3.db.store.log with
      | err e => rw [ha] at s6; simp [Res.bind] at s6
      | panic => rw [ha] at s6; simp [Res.bind] at s6
      | ok p =>
        rw [ha] at s6
        simp only [Res.bind] at s6
        cases hm : b3.map.get p.2 with
        | err e => rw [hm] at s6; simp at s6
        | panic => rw [hm] at s6; simp at s6
        | ok o =>
          rw [hm] at s6
          simp only at s6
          rw [if_neg (by rintro ⟨h, -⟩; exact hnil h)] at s6
          have hst : RemoteState.of b3.remoteHead r5.head = .unchanged := by
            unfold RemoteState.of
            rw [← he, if_neg hnil]; simp
          rw [hst] at s6
          have hrd : ∃ u, o = some u := by
            rcases reached_inv bootDb_eq W3 with ⟨h, -⟩ | ⟨S', -, h⟩
            · cases h
            · rcases h.reader with ⟨h, -⟩ | ⟨B, pre, x, post, b1, b2, b3', b4, b5, b6', b7, b8⟩
              · exact absurd h hnil
              · obtain ⟨hB, hB1, -⟩ := b1.spec (.boot bootDb_eq)
                have := rootAndHead_replica (histInv_reach hB.reach) (by have := (boot_log bootDb_eq).1; omega) b3'
                rw [ha] at this
                simp only [Res.ok.injEq] at this
                rw [this] at hm
                simp only at hm
                rw [(get_iff b7 _ _).2 b8] at hm
                exact ⟨_, (Res.ok.inj hm).symm⟩
          obtain ⟨u, rfl⟩ := hrd
          simp only [LocalState.of, whatDo, Res.ok.injEq, Prod.mk.injEq] at s6
          exact s6.1.symm
    rw [hsame] at hb6
    exact hb3 hb6

/-- The full C71 fails: a new store that syncs first uploads its bootstrap transaction alone, and then a store
that has more cannot sync. -/
theorem C71_fails_first : ∃ b r rep, sync (fun n => n + 8) { db := bootDb } {} 0 = .ok (b, r, rep) ∧
    sync (fun n => n + 1000) { db := setupDb } r 0 = .err .notYetImplemented := by
  have : (match sync (fun n => n + 8) { db := bootDb } {} 0 with
      | .ok (_, r, _) => decide (sync (fun n => n + 1000) { db := setupDb } r 0 = .err .notYetImplemented)
      | _ => false) = true := by decide +kernel
  split at this
  · rename_i b r rep h
    exact ⟨b, r, rep, h, by simpa using this⟩
  · cases this

/-- The full C71 fails: when a downloaded transaction lacks its partition map, nothing is applied, and the sync is
reported as a local fast-forward. -/
theorem C71_fails_report : ∃ (l : Local) (r : Remote), ReachKept l.db ∧ OneToOne l.map ∧ l.remoteHead ≠ r.head ∧
    sync id l r 0 = .ok (l, r, .localFastForward) :=
  ⟨{ db := setupDb, map := [(TX0 + 1, 7)], remoteHead := 7 },
    { head := 8, txs := [⟨7, 0, []⟩, ⟨8, 7, [20]⟩], chunks := [(20, ⟨none, 65539, xOne, str "a", TX0 + 2, true⟩)] },
    reachKept_setup, by simp [OneToOne], by decide, by decide +kernel⟩

/-- The full C71 fails: two stores made at different times never agree on when that was. -/
theorem C71_fails_boot : ∃ b0 w r rep b' rep', createCurrentVersion 5 = .ok b0 ∧
    sync (fun n => n + 8) { db := bootDb } {} 0 = .ok (w, r, rep) ∧
    sync id { db := b0 } r 9 = .ok (b', r, rep') ∧ b'.remoteHead = r.head ∧
    Has w.db.store.rows TX0 DB_TX_INSTANT (.instant 0) ∧ ¬ Has b'.db.store.rows TX0 DB_TX_INSTANT (.instant 0) := by
  have : (match createCurrentVersion 5, sync (fun n => n + 8) { db := bootDb } {} 0 with
      | .ok b0, .ok (w, r, _) => match sync id { db := b0 } r 9 with
        | .ok (b', r', _) => decide (r' = r) && decide (b'.remoteHead = r.head) &&
          hasB w.db TX0 DB_TX_INSTANT (.instant 0) && !hasB b'.db TX0 DB_TX_INSTANT (.instant 0)
        | _ => false
      | _, _ => false) = true := by decide +kernel
  split at this
  · rename_i b0 w r rep h1 h2
    split at this
    · rename_i b' r' rep' h3
      simp only [Bool.and_eq_true, decide_eq_true_eq, Bool.not_eq_true', hasB_iff] at this
      obtain ⟨⟨⟨rfl, h4⟩, h5⟩, h6⟩ := this
      refine ⟨b0, w, _, rep, b', rep', h1, h2, h3, h4, h5, ?_⟩
      intro hh
      rw [← hasB_iff, h6] at hh
      cases hh
    · cases this
  · cases this

end Mentat.Sync
