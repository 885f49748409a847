import Verif.Proofs.Trace
import Verif.Proofs.Resolve
import Verif.Model.Reopen
/- Invariants over all histories of transactions. -/
namespace Mentat

/-- The last log entry about a datom. -/
def lastEntry (log : List LogRow) (e a : Entid) (v : TypedValue) : Option LogRow :=
  (log.filter fun l => decide (l.e = e ∧ l.a = a ∧ l.v = v)).getLast?

theorem lastEntry_append (l1 l2 : List LogRow) (e a v) :
    lastEntry (l1 ++ l2) e a v = (lastEntry l2 e a v).or (lastEntry l1 e a v) := by
  unfold lastEntry
  rw [List.filter_append, List.getLast?_append]

theorem lastEntry_none {l : List LogRow} {e a v}
    (h : ∀ x ∈ l, ¬ (x.e = e ∧ x.a = a ∧ x.v = v)) : lastEntry l e a v = none := by
  unfold lastEntry
  rw [List.getLast?_eq_none_iff, List.filter_eq_nil_iff]
  intro x hx; simpa using h x hx

theorem lastEntry_some {l : List LogRow} {e a v} {x : LogRow} (hx : x ∈ l)
    (h : x.e = e ∧ x.a = a ∧ x.v = v) : ∃ y ∈ l, (y.e = e ∧ y.a = a ∧ y.v = v) ∧
      lastEntry l e a v = some y := by
  have hne : (l.filter fun l => decide (l.e = e ∧ l.a = a ∧ l.v = v)) ≠ [] := by
    intro hn
    rw [List.filter_eq_nil_iff] at hn
    exact hn x hx (by simpa using h)
  obtain ⟨y, hy⟩ := Option.isSome_iff_exists.mp (by
    unfold lastEntry; rw [List.getLast?_isSome]; exact hne : (lastEntry l e a v).isSome)
  refine ⟨y, ?_, ?_, hy⟩
  · exact (List.mem_filter.mp (List.mem_of_getLast? hy)).1
  · simpa using (List.mem_filter.mp (List.mem_of_getLast? hy)).2

/-- The datoms table is the replay of the log. -/
def Replays (rows : List Row) (log : List LogRow) : Prop :=
  ∀ e a v tx, (∃ r ∈ rows, r.e = e ∧ r.a = a ∧ r.v = v ∧ r.tx = tx) ↔
    ∃ l, lastEntry log e a v = some l ∧ l.added = true ∧ l.tx = tx

/-- What `Store.apply` does, datom by datom. -/
structure ApplySpec (st : Store) (tx : Entid) (st' : Store) (lr : List LogRow) : Prop where
  added : ∀ l ∈ lr, l.added = true → Has st'.rows l.e l.a l.v ∧ ¬ Has st.rows l.e l.a l.v
  retracted : ∀ l ∈ lr, l.added = false → Has st.rows l.e l.a l.v ∧ ¬ Has st'.rows l.e l.a l.v
  addedAll : ∀ e a v, Has st'.rows e a v → ¬ Has st.rows e a v →
    (⟨e, a, v, tx, true, 0⟩ : LogRow) ∈ lr
  retractedAll : ∀ e a v, Has st.rows e a v → ¬ Has st'.rows e a v →
    (⟨e, a, v, tx, false, 0⟩ : LogRow) ∈ lr
  stamp : ∀ l ∈ lr, l.tx = tx ∧ l.timeline = 0
  nodup : lr.Nodup
  rowsTx : ∀ r ∈ st'.rows, r ∈ st.rows ∨ (r.tx = tx ∧ ¬ Has st.rows r.e r.a r.v)
  kept : ∀ r ∈ st.rows, Has st'.rows r.e r.a r.v → r ∈ st'.rows

theorem nodup_logRowsOf {tx : Entid} {fs : List Found} (hf : foundUniqueOk fs = true) :
    (logRowsOf tx fs).Nodup := by
  have hp := foundUniqueOk_pairwise hf
  unfold logRowsOf
  rw [List.nodup_append]
  refine ⟨?_, nodup_dedup _, ?_⟩
  · unfold List.Nodup
    rw [List.pairwise_map]
    refine (hp.filter _).imp ?_
    intro f f' hn heq
    simp only [LogRow.mk.injEq, and_true] at heq
    exact hn ⟨heq.1.symm, heq.2.1.symm, heq.2.2.symm⟩
  · intro l hl l' hl' heq
    subst heq
    obtain ⟨f, -, rfl⟩ := List.mem_map.mp hl
    rw [mem_dedup] at hl'
    obtain ⟨f', -, hf'⟩ := List.mem_filterMap.mp hl'
    split at hf'
    · split at hf' <;> simp at hf'
    · simp at hf'

theorem applySpec {st : Store} {tx qs act st' lr} (hu : uniqueOk st.rows = true)
    (h : st.apply tx qs act = .ok (st', lr)) : ApplySpec st tx st' lr := by
  obtain ⟨hrows, hu', hlr, -, hfu, -⟩ := apply_ok h
  have hmem : ∀ r, r ∈ st'.rows ↔ (r ∈ st.rows ∧ ¬ ∃ q ∈ qs, Deletes q r) ∨
      (∃ q ∈ qs, Inserts st.rows q ∧ r = newRow tx q) := by
    intro r; rw [hrows, mem_newRows]
  have hlog : ∀ l, l ∈ lr ↔ (∃ q ∈ qs, Inserts st.rows q ∧
        l = { e := q.e, a := q.a, v := q.v, tx := tx, added := true }) ∨
      (∃ r ∈ st.rows, (∃ q ∈ qs, Deletes q r) ∧
        l = { e := r.e, a := r.a, v := r.v, tx := tx, added := false }) := by
    intro l; rw [hlr, mem_logRowsOf]
  refine ⟨?_, ?_, ?_, ?_, ?_, ?_, ?_, ?_⟩
  · intro l hl hadd
    rcases (hlog l).mp hl with ⟨q, hq, hi, rfl⟩ | ⟨r, _, _, rfl⟩
    · refine ⟨⟨newRow tx q, (hmem _).mpr (Or.inr ⟨q, hq, hi, rfl⟩), rfl, rfl, rfl⟩, ?_⟩
      rintro ⟨r, hr, he, ha, hv⟩
      exact not_insert_and_delete h hq hi hr he ha hv
    · simp at hadd
  · intro l hl hadd
    rcases (hlog l).mp hl with ⟨q, _, _, rfl⟩ | ⟨r, hr, hd, rfl⟩
    · simp at hadd
    · refine ⟨⟨r, hr, rfl, rfl, rfl⟩, ?_⟩
      rintro ⟨r', hr', he, ha, hv⟩
      rcases (hmem r').mp hr' with ⟨h1, h2⟩ | ⟨q, hq, hi, rfl⟩
      · have := uniqueOk_eav hu h1 hr he ha hv
        subst this; exact h2 hd
      · exact not_insert_and_delete h hq hi hr he.symm ha.symm hv.symm
  · rintro e a v ⟨r, hr, rfl, rfl, rfl⟩ hn
    rcases (hmem r).mp hr with ⟨h1, -⟩ | ⟨q, hq, hi, rfl⟩
    · exact absurd ⟨r, h1, rfl, rfl, rfl⟩ hn
    · exact (hlog _).mpr (Or.inl ⟨q, hq, hi, rfl⟩)
  · rintro e a v ⟨r, hr, rfl, rfl, rfl⟩ hn
    refine (hlog _).mpr (Or.inr ⟨r, hr, ?_, rfl⟩)
    apply Classical.byContradiction
    intro hnd
    exact hn ⟨r, (hmem r).mpr (Or.inl ⟨hr, hnd⟩), rfl, rfl, rfl⟩
  · intro l hl
    rcases (hlog l).mp hl with ⟨q, _, _, rfl⟩ | ⟨r, hr, hd, rfl⟩ <;> exact ⟨rfl, rfl⟩
  · rw [hlr]; exact nodup_logRowsOf hfu
  · intro r hr
    rcases (hmem r).mp hr with ⟨h1, -⟩ | ⟨q, hq, hi, rfl⟩
    · exact Or.inl h1
    · refine Or.inr ⟨rfl, ?_⟩
      rintro ⟨r, hr, he, ha, hv⟩
      exact not_insert_and_delete h hq hi hr he ha hv
  · rintro r hr ⟨r', hr', he, ha, hv⟩
    rcases (hmem r').mp hr' with ⟨h1, h2⟩ | ⟨q, hq, hi, rfl⟩
    · have := uniqueOk_eav hu h1 hr he ha hv
      subst this; exact hr'
    · exact (not_insert_and_delete h hq hi hr he.symm ha.symm hv.symm).elim

theorem replays_apply {st : Store} {tx st' lr} (hu' : uniqueOk st'.rows = true)
    (hr : Replays st.rows st.log) (hs : ApplySpec st tx st' lr) (hl : st'.log = st.log ++ lr) :
    Replays st'.rows st'.log := by
  intro e a v tx'
  rw [hl, lastEntry_append]
  by_cases hin : ∃ x ∈ lr, x.e = e ∧ x.a = a ∧ x.v = v
  · obtain ⟨x, hx, hxe⟩ := hin
    obtain ⟨y, hy, ⟨rfl, rfl, rfl⟩, hlast⟩ := lastEntry_some hx hxe
    rw [hlast]
    simp only [Option.some_or, Option.some.injEq, exists_eq_left']
    have hytx := (hs.stamp y hy).1
    cases hadd : y.added with
    | true =>
      obtain ⟨⟨r, hr', he, ha, hv⟩, hn⟩ := hs.added y hy hadd
      have hrtx : r.tx = tx := by
        rcases hs.rowsTx r hr' with h | h
        · exact absurd ⟨r, h, he, ha, hv⟩ hn
        · exact h.1
      constructor
      · rintro ⟨r2, hr2, he2, ha2, hv2, rfl⟩
        have := uniqueOk_eav hu' hr2 hr' (he2.trans he.symm) (ha2.trans ha.symm) (hv2.trans hv.symm)
        subst this
        exact ⟨rfl, hytx.trans hrtx.symm⟩
      · rintro ⟨-, h⟩
        exact ⟨r, hr', he, ha, hv, by rw [hrtx, ← hytx, h]⟩
    | false =>
      obtain ⟨-, hn⟩ := hs.retracted y hy hadd
      constructor
      · rintro ⟨r2, hr2, he2, ha2, hv2, -⟩
        exact absurd ⟨r2, hr2, he2, ha2, hv2⟩ hn
      · rintro ⟨h, -⟩; simp at h
  · have hnone := lastEntry_none (l := lr) (e := e) (a := a) (v := v)
      (fun x hx h => hin ⟨x, hx, h⟩)
    rw [hnone, Option.none_or, ← hr e a v tx']
    have hiff : Has st'.rows e a v ↔ Has st.rows e a v := by
      constructor
      · intro h
        apply Classical.byContradiction
        intro hn
        exact hin ⟨_, hs.addedAll e a v h hn, rfl, rfl, rfl⟩
      · intro h
        apply Classical.byContradiction
        intro hn
        exact hin ⟨_, hs.retractedAll e a v h hn, rfl, rfl, rfl⟩
    constructor
    · rintro ⟨r, hr', rfl, rfl, rfl, rfl⟩
      rcases hs.rowsTx r hr' with h | h
      · exact ⟨r, h, rfl, rfl, rfl, rfl⟩
      · exact absurd (hiff.mp ⟨r, hr', rfl, rfl, rfl⟩) h.2
    · rintro ⟨r, hr', rfl, rfl, rfl, rfl⟩
      exact ⟨r, hs.kept r hr' (hiff.mpr ⟨r, hr', rfl, rfl, rfl⟩), rfl, rfl, rfl, rfl⟩

theorem replays_map {rows : List Row} {log} {f : Row → Row}
    (hf : ∀ r, (f r).e = r.e ∧ (f r).a = r.a ∧ (f r).v = r.v ∧ (f r).tx = r.tx)
    (h : Replays rows log) : Replays (rows.map f) log := by
  intro e a v tx
  rw [← h e a v tx]
  constructor
  · rintro ⟨r', hr', he, ha, hv, ht⟩
    obtain ⟨r, hr, rfl⟩ := List.mem_map.mp hr'
    obtain ⟨h1, h2, h3, h4⟩ := hf r
    exact ⟨r, hr, h1 ▸ he, h2 ▸ ha, h3 ▸ hv, h4 ▸ ht⟩
  · rintro ⟨r, hr, he, ha, hv, ht⟩
    obtain ⟨h1, h2, h3, h4⟩ := hf r
    exact ⟨f r, List.mem_map.mpr ⟨r, hr, rfl⟩, h1.trans he, h2.trans ha, h3.trans hv, h4.trans ht⟩

theorem has_map {rows : List Row} {f : Row → Row}
    (hf : ∀ r, (f r).e = r.e ∧ (f r).a = r.a ∧ (f r).v = r.v ∧ (f r).tx = r.tx) (e a v) :
    Has (rows.map f) e a v ↔ Has rows e a v := by
  constructor
  · rintro ⟨r', hr', he, ha, hv⟩
    obtain ⟨r, hr, rfl⟩ := List.mem_map.mp hr'
    obtain ⟨h1, h2, h3, -⟩ := hf r
    exact ⟨r, hr, h1 ▸ he, h2 ▸ ha, h3 ▸ hv⟩
  · rintro ⟨r, hr, he, ha, hv⟩
    obtain ⟨h1, h2, h3, -⟩ := hf r
    exact ⟨f r, List.mem_map.mpr ⟨r, hr, rfl⟩, h1.trans he, h2.trans ha, h3.trans hv⟩

/-- The partition map is within the bootstrap bounds. -/
structure PartsOk (p : Parts) : Prop where
  db : p.db.start = 0 ∧ p.db.fin = USER0 - 1 ∧ 0 ≤ p.db.next ∧ p.db.next ≤ 41
  user : p.user.start = USER0 ∧ p.user.fin = TX0 - 1 ∧ USER0 ≤ p.user.next ∧ p.user.next ≤ TX0 - 1
  tx : p.tx.start = TX0 ∧ p.tx.fin = I64MAX ∧ TX0 ≤ p.tx.next ∧ p.tx.next ≤ I64MAX

/-- Holds in every reachable database. -/
structure HistInv (db : Db) : Prop where
  uniq : uniqueOk db.store.rows = true
  replay : Replays db.store.rows db.store.log
  parts : PartsOk db.parts
  logTx : ∀ l ∈ db.store.log, TX0 ≤ l.tx ∧ l.tx < db.parts.tx.next ∧ l.timeline = 0
  logE : ∀ l ∈ db.store.log, db.parts.containsEntid l.e = true
  instants : ∀ tx, TX0 ≤ tx → tx < db.parts.tx.next →
    ∃ i, (⟨tx, DB_TX_INSTANT, .instant i, tx, true, 0⟩ : LogRow) ∈ db.store.log ∧
      ∀ l ∈ db.store.log, l.tx = tx → l.e = tx → l.a = DB_TX_INSTANT →
        l = ⟨tx, DB_TX_INSTANT, .instant i, tx, true, 0⟩
  nodup : db.store.log.Nodup
  sorted : db.store.log.Pairwise (fun l l' => l.tx ≤ l'.tx)

theorem has_rows_log {rows log} (h : Replays rows log) {e a v} (hh : Has rows e a v) :
    ∃ l ∈ log, l.e = e ∧ l.a = a ∧ l.v = v := by
  obtain ⟨r, hr, he, ha, hv⟩ := hh
  obtain ⟨l, hl, -⟩ := (h e a v r.tx).mp ⟨r, hr, he, ha, hv, rfl⟩
  have := List.mem_filter.mp (List.mem_of_getLast? hl)
  exact ⟨l, this.1, by simpa using this.2⟩

namespace TxTrace
variable {db : Db} {sfm : Schema} {now : Int} {terms : List TTerm} {ids : List TempId}
    {act : TxAction} {db' : Db} {rep : Report}

/-- The metadata step only changes flags of rows. -/
theorem metaRows (T : TxTrace db sfm now terms ids act db' rep) :
    ∃ f : Row → Row, db'.store.rows = T.store.rows.map f ∧
      (∀ r, (f r).e = r.e ∧ (f r).a = r.a ∧ (f r).v = r.v ∧ (f r).tx = r.tx) ∧
      (uniqueOk T.store.rows = true → uniqueOk db'.store.rows = true) := by
  rcases T.md with ⟨h, -⟩ | ⟨-, h, -⟩
  · have hm := applyMetadata_step h
    obtain ⟨f, hf, hf', -⟩ := hm.reflagged
    exact ⟨f, hf, hf', hm.uniq⟩
  · exact ⟨id, by simp [h], by simp, by rw [h]; exact id⟩

theorem txid (T : TxTrace db sfm now terms ids act db' rep) :
    rep.txId = db.parts.tx.next ∧ T.txPart = { db.parts.tx with next := db.parts.tx.next + 1 } ∧
    db.parts.tx.next + 1 ≤ db.parts.tx.fin := by
  obtain ⟨h1, h2, -, h3⟩ := allocate_ok T.alloc
  exact ⟨h1, h2, h3⟩

/-- Entities of the final terms: literal, found in the store, or newly allocated. -/
theorem entity_of_term (T : TxTrace db sfm now terms ids act db' rep)
    (hlogE : ∀ l ∈ db.store.log, db.parts.containsEntid l.e = true)
    (hr : Replays db.store.rows db.store.log)
    (hk : KnownTerms db terms) {y : RTerm} (hy : y ∈ T.s3.terms) :
    db.parts.containsEntid y.e = true ∨ y.e = db.parts.tx.next ∨
      (db.parts.user.next ≤ y.e ∧ y.e < T.s3.user.next) := by
  obtain ⟨U, sp⟩ := resolveTempIds_spec T.stage3
  have hy' : y ∈ T.s3.inert ∨ y ∈ T.s3.pops.resolved ∨ y ∈ T.s3.pops.allocated := by
    simp only [Stage3.terms, List.mem_append] at hy
    rcases hy with (h | h) | h
    · exact Or.inr (Or.inl h)
    · exact Or.inr (Or.inr h)
    · exact Or.inl h
  obtain ⟨x, hx, -, -, he, -⟩ := sp.sound y hy'
  cases hxe : x.e with
  | inl e =>
    rw [hxe] at he
    simp only [DenotesE] at he
    rw [he]
    rcases hk x hx e hxe with h | h
    · exact Or.inl h
    · exact Or.inr (Or.inl h)
  | inr t =>
    rw [hxe] at he
    simp only [DenotesE] at he
    cases hU : AMap.get U t with
    | none => exact Or.inr (Or.inr (sp.fresh t y.e he hU))
    | some n =>
      have := sp.sub t n hU
      rw [he] at this
      obtain ⟨a, v, hl⟩ := sp.fromStore t n hU
      obtain ⟨r, hr', rfl, ha, hv⟩ := lookupAV_some hl
      obtain ⟨l, hl, h1, -⟩ := has_rows_log hr ⟨r, hr', rfl, rfl, rfl⟩
      left
      rw [Option.some.inj this, ← h1]
      exact hlogE l hl

theorem userPart (T : TxTrace db sfm now terms ids act db' rep) (hp : PartsOk db.parts) :
    T.s3.user.start = USER0 ∧ T.s3.user.fin = TX0 - 1 ∧ db.parts.user.next ≤ T.s3.user.next ∧
      T.s3.user.next ≤ TX0 - 1 := by
  obtain ⟨U, sp⟩ := resolveTempIds_spec T.stage3
  obtain ⟨h1, h2, h3, h4⟩ := hp.user
  obtain ⟨k1, k2, k3, k4⟩ := sp.user (by omega)
  exact ⟨by omega, by omega, k3, by omega⟩

theorem contains_mono (T : TxTrace db sfm now terms ids act db' rep) (hp : PartsOk db.parts)
    {e : Entid} (h : db.parts.containsEntid e = true) : db'.parts.containsEntid e = true := by
  obtain ⟨u1, u2, u3, u4⟩ := T.userPart hp
  obtain ⟨-, t2, -⟩ := T.txid
  rw [T.parts, t2]
  obtain ⟨p1, p2, p3, p4⟩ := hp.user
  simp only [Parts.containsEntid, Partition.containsEntid, Bool.or_eq_true, decide_eq_true_eq] at h ⊢
  omega

end TxTrace

/-- No datom is about the transaction id that will be allocated next. -/
theorem HistInv.no_datom_of_next {db : Db} (hi : HistInv db) :
    ∀ a v, ¬ Has db.store.rows db.parts.tx.next a v := by
  obtain ⟨x1, x2, x3, x4⟩ := hi.parts.tx
  obtain ⟨p1, p2, p3, p4⟩ := hi.parts.user
  intro a v hh
  obtain ⟨l, hl, h1, -⟩ := has_rows_log hi.replay hh
  have := hi.logE l hl
  rw [h1] at this
  simp only [Parts.containsEntid, Partition.containsEntid, Bool.or_eq_true, decide_eq_true_eq] at this
  obtain ⟨b1, b2, b3, b4⟩ := hi.parts.db
  have hT : TX0 = 268435456 := rfl
  have hU : USER0 = 65536 := rfl
  omega

theorem histInv_step {db sfm now terms ids db' rep} (hi : HistInv db) (hk : KnownTerms db terms)
    (h : transactTermsWith db sfm now terms ids .materializeAndCommit = .ok (db', rep)) :
    HistInv db' := by
  obtain ⟨T⟩ := transact_trace h
  obtain ⟨f, hf, hf', hfu⟩ := T.metaRows
  have hs := applySpec hi.uniq T.applied
  obtain ⟨-, hu', -, -, -, hlog, -⟩ := apply_ok T.applied
  have hlog' := hlog rfl
  obtain ⟨t1, t2, t3⟩ := T.txid
  obtain ⟨u1, u2, u3, u4⟩ := T.userPart hi.parts
  have htxnext : db'.parts.tx.next = db.parts.tx.next + 1 := by rw [T.parts, t2]
  obtain ⟨x1, x2, x3, x4⟩ := hi.parts.tx
  obtain ⟨p1, p2, p3, p4⟩ := hi.parts.user
  have hparts : PartsOk db'.parts := by
    refine ⟨?_, ?_, ?_⟩
    · rw [T.parts]; exact hi.parts.db
    · rw [T.parts]; exact ⟨u1, u2, by simp only; omega, u4⟩
    · rw [T.parts, t2]; simp only; omega
  have hlr : ∀ l ∈ T.lr, l.tx = db.parts.tx.next ∧ l.timeline = 0 := by
    intro l hl; rw [← t1]; exact hs.stamp l hl
  have hlrE : ∀ l ∈ T.lr, db'.parts.containsEntid l.e = true := by
    intro l hl
    obtain ⟨-, -, hlr', -⟩ := apply_ok T.applied
    rw [hlr', mem_logRowsOf] at hl
    rcases hl with ⟨q, hq, -, rfl⟩ | ⟨r, hr, -, rfl⟩
    · simp only
      rcases (T.mem_queue.mp hq).2 with ⟨-, h | ⟨-, h, -⟩⟩ | ⟨-, h⟩
      · rcases T.entity_of_term hi.logE hi.replay hk h with h | h | h
        · exact T.contains_mono hi.parts h
        · simp only at h
          rw [T.parts, t2, h]
          simp only [Parts.containsEntid, Partition.containsEntid, Bool.or_eq_true, decide_eq_true_eq]
          omega
        · simp only at h
          rw [T.parts]
          simp only [Parts.containsEntid, Partition.containsEntid, Bool.or_eq_true, decide_eq_true_eq]
          omega
      · rw [T.parts, t2, h, t1]
        simp only [Parts.containsEntid, Partition.containsEntid, Bool.or_eq_true, decide_eq_true_eq]
        omega
      · rcases T.entity_of_term hi.logE hi.replay hk h with h | h | h
        · exact T.contains_mono hi.parts h
        · simp only at h
          rw [T.parts, t2, h]
          simp only [Parts.containsEntid, Partition.containsEntid, Bool.or_eq_true, decide_eq_true_eq]
          omega
        · simp only at h
          rw [T.parts]
          simp only [Parts.containsEntid, Partition.containsEntid, Bool.or_eq_true, decide_eq_true_eq]
          omega
    · simp only
      obtain ⟨l, hl, h1, -⟩ := has_rows_log hi.replay ⟨r, hr, rfl, rfl, rfl⟩
      rw [← h1]; exact T.contains_mono hi.parts (hi.logE l hl)
  have hnew := hi.no_datom_of_next
  refine ⟨?_, ?_, hparts, ?_, ?_, ?_, ?_, ?_⟩
  · exact hfu hu'
  · rw [hf, T.log]
    exact replays_map hf' (replays_apply hu' hi.replay hs hlog')
  · intro l hl
    rw [T.log, hlog', List.mem_append] at hl
    rw [htxnext]
    rcases hl with hl | hl
    · have := hi.logTx l hl; omega
    · have := hlr l hl; omega
  · intro l hl
    rw [T.log, hlog', List.mem_append] at hl
    rcases hl with hl | hl
    · exact T.contains_mono hi.parts (hi.logE l hl)
    · exact hlrE l hl
  · intro tx h1 h2
    rw [htxnext] at h2
    rw [T.log, hlog']
    simp only [List.mem_append]
    by_cases htx : tx = db.parts.tx.next
    · refine ⟨rep.txInstant, Or.inr ?_, ?_⟩
      · -- the instant is inserted
        obtain ⟨at_, hat⟩ := Option.isSome_iff_exists.mp T.tSpec.attr
        have hq : (⟨rep.txId, DB_TX_INSTANT, at_, .instant rep.txInstant, true⟩ : Reduced) ∈
            reducedOf db.schema T.t :=
          T.mem_queue.mpr ⟨hat, Or.inl ⟨rfl, Or.inr ⟨rfl, rfl, rfl⟩⟩⟩
        have hins : Inserts db.store.rows
            (⟨rep.txId, DB_TX_INSTANT, at_, .instant rep.txInstant, true⟩ : Reduced) := by
          refine ⟨rfl, Or.inl ?_⟩
          rintro r hr ⟨he, ha, -⟩
          simp only [t1] at he
          exact hnew r.a r.v ⟨r, hr, he, rfl, rfl⟩
        obtain ⟨-, -, hlr', -⟩ := apply_ok T.applied
        rw [hlr', mem_logRowsOf, htx, ← t1]
        exact Or.inl ⟨_, hq, hins, rfl⟩
      · rintro l (hl | hl) hlt hle hla
        · have := hi.logTx l hl; omega
        · obtain ⟨-, -, hlr', -⟩ := apply_ok T.applied
          rw [hlr', mem_logRowsOf] at hl
          rcases hl with ⟨q, hq, hins, rfl⟩ | ⟨r, hr, -, rfl⟩
          · simp only at hlt hle hla
            have hqa := (mem_reducedOf T.tSpec.wf).mp hq
            rcases hqa.2 with ⟨-, h⟩ | ⟨h, -⟩
            · rw [hla, hle, htx, ← t1] at h
              have := T.tSpec.only _ h
              simp only [this, hla, hle, htx, t1]
            · have := hins.1; rw [h] at this; simp at this
          · simp only at hle
            exact absurd ⟨r, hr, hle.trans htx, rfl, rfl⟩ (hnew r.a r.v)
    · obtain ⟨i, h3, h4⟩ := hi.instants tx h1 (by omega)
      refine ⟨i, Or.inl h3, ?_⟩
      rintro l (hl | hl) hlt hle hla
      · exact h4 l hl hlt hle hla
      · have := (hlr l hl).1; omega
  · rw [T.log, hlog', List.nodup_append]
    refine ⟨hi.nodup, hs.nodup, ?_⟩
    intro l hl l' hl' heq
    subst heq
    have := hi.logTx l hl
    have := hlr l hl'
    omega
  · rw [T.log, hlog', List.pairwise_append]
    refine ⟨hi.sorted, ?_, ?_⟩
    · exact List.pairwise_iff_forall_sublist.mpr (fun {l l'} hsub => by
        have hl := hsub.subset (List.mem_cons_self)
        have hl' := hsub.subset (List.mem_cons_of_mem l List.mem_cons_self)
        rw [(hlr l hl).1, (hlr l' hl').1]; omega)
    · intro l hl l' hl'
      have := hi.logTx l hl
      have := (hlr l' hl').1
      omega

end Mentat
