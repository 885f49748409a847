import Verif.Model.Reopen
/- Moving transactions off the main timeline: db/src/timelines.rs.  Simplified: the log has the strings of
fulltext values; with the rowids that it really has the move fails (`C81_fails_move`). -/
namespace Mentat

/-- timelines.rs:107-140 `reversed_terms_for` -/
def reversedTerms (log : List LogRow) (tx : Entid) : List TTerm :=
  (log.filter fun l => decide (l.tx = tx ∧ l.timeline = 0)).map fun l =>
    ⟨if l.added then .retract else .add, .inl l.e, l.a, .inl l.v⟩

/-- timelines.rs:38-71 `collect_ordered_txs_to_move`: `SELECT tx ... WHERE tx >= ? AND timeline = ?
GROUP BY tx ORDER BY tx DESC`.  All rows are of the one timeline, so `TimelinesMixed` cannot
happen. -/
def txsToMove (log : List LogRow) (fromTx : Entid) : List Entid :=
  sortBy (fun t => -t)
    (dedup ((log.filter fun l => decide (fromTx ≤ l.tx ∧ l.timeline = 0)).map (·.tx)))

/-- timelines.rs:168-192, one transaction: transact the reversed terms without logging them, then
`DELETE FROM datoms WHERE e = tx`.  The metadata of `db` stays (each iteration gets the original
schema and partition map); the second component is the new schema, if it changed. -/
def rewindOne (db : Db) (now : Int) (tx : Entid) : Res (Db × Option Schema) :=
  (transactTermsWith db db.schema now (reversedTerms db.store.log tx) [] .materialize).bind
    fun (db', rep) =>
    .ok ({ db with store := { db'.store with rows := db'.store.rows.filter fun r => decide (r.e ≠ rep.txId) },
                   views := db'.views },
      if Schema.same db'.schema db.schema then none else some db'.schema)

/-- timelines.rs:168-192: the loop. -/
def rewindTxs (now : Int) : List Entid → Db → Option Schema → Res (Db × Option Schema)
  | [], db, s => .ok (db, s)
  | t :: r, db, _ => (rewindOne db now t).bind fun (db', s') => rewindTxs now r db' s'

/-- timelines.rs:73-90 `move_transactions_to` -/
def moveTransactions (log : List LogRow) (txs : List Entid) (timeline : Int) : List LogRow :=
  log.map fun l => if l.tx ∈ txs then { l with timeline := timeline } else l

/-- timelines.rs:137-192 `move_from_main_timeline`, with the metadata installed as the caller does
(tolstoy/src/syncer.rs:388-391): the new schema if there is one, and the partition map. -/
def moveFromMain (db : Db) (now : Int) (fromTx : Entid) (timeline : Int) : Res Db :=
  if timeline = 0 then .err .notYetImplemented
  else if db.store.log.any fun l => decide (l.timeline = timeline) then .err .timelinesMoveToNonEmpty
  else match txsToMove db.store.log fromTx with
    | [] => .err .timelinesInvalidRange
    | txs =>
      (rewindTxs now txs db none).bind fun (db', s) =>
      let log := moveTransactions db'.store.log txs timeline
      (readParts log).bind fun parts =>
      .ok { schema := match s with | some s => s | none => db.schema
            parts := parts, store := { rows := db'.store.rows, log := log }, views := db'.views }

end Mentat
