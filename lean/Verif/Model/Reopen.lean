import Verif.Model.Bootstrap
/-
Opening an existing store: db/src/db.rs:298-322 (`parts` view), 505-548 `read_partition_map`,
574-580 `read_db`.
-/
namespace Mentat

/-- `max(e)` over a group of rows; `none` for an empty group. -/
def maxEntid : List Entid → Option Entid
  | [] => none
  | e :: r => match maxEntid r with
    | none => some e
    | some m => some (if e ≤ m then m else e)

/-- db.rs:307-318: the entities the `parts` view groups under one partition.
`CASE WHEN e <= end THEN part` over the known parts in ascending `end` puts `e` in the first
partition whose end is not below it: `lo` is the end of the previous partition (none for the
first). -/
def partEntids (log : List LogRow) (lo : Option Entid) (fin : Entid) : List Entid :=
  (log.filter fun (l : LogRow) => decide (l.timeline = 0) && decide (l.e ≤ fin) &&
      (match lo with | none => true | some x => decide (x < l.e))).map (·.e)

/-- `max(e) + 1 AS idx` of that group. -/
def partIdx (log : List LogRow) (lo : Option Entid) (fin : Entid) : Option Entid :=
  (maxEntid (partEntids log lo fin)).map (· + 1)

/-- db.rs:505-548 `read_partition_map`: the index from the view, or the start of a partition
without transactions; `Partition::new` asserts the bounds. -/
def readPart (log : List LogRow) (lo : Option Entid) (start fin : Entid) : Res Partition :=
  Partition.new start fin (match partIdx log lo fin with | some i => i | none => start)

/-- The three known parts (bootstrap.rs:114-132), in ascending order of their ends. -/
def readParts (log : List LogRow) : Res Parts := do
  let db ← readPart log none 0 (USER0 - 1)
  let user ← readPart log (some (USER0 - 1)) USER0 (TX0 - 1)
  let tx ← readPart log (some (TX0 - 1)) TX0 I64MAX
  pure { db := db, user := user, tx := tx }

/-- db.rs:574-580 `read_db` -/
def reopen (db : Db) : Res Db := do
  let parts ← readParts db.store.log
  let schema ← readSchema db.views
  pure { db with parts := parts, schema := schema }

end Mentat
