import Verif.Model.Base
/-
The SQLite store: `datoms` and `timelined_transactions`, and the three statements that apply a
transaction (db/src/db.rs `search`, `update_datoms`, `insert_transaction`).

Values are compared as typed values.  SQLite compares (value, value_type_tag) pairs; within one
attribute the two agree (see `Props/ValueEncoding`).  Fulltext attributes are modelled as storing
their string directly (the code stores a rowid of `fulltext_values` and interpolates it through
the `fulltext_datoms` view).
-/
namespace Mentat

/-- A row of the `datoms` table (db/src/db.rs:170-173 `CREATE TABLE datoms`), with the flag columns
`index_avet` and `unique_value`; `index_vaet`/`index_fulltext` only select indices. -/
structure Row where
  e : Entid
  a : Entid
  v : TypedValue
  tx : Entid
  avet : Bool := false
  uniq : Bool := false
  deriving DecidableEq, Repr

/-- A row of `timelined_transactions` (db/src/db.rs:196). -/
structure LogRow where
  e : Entid
  a : Entid
  v : TypedValue
  tx : Entid
  added : Bool
  timeline : Int := 0
  deriving DecidableEq, Repr

/-- The tables `datoms` and `timelined_transactions` (db/src/db.rs:169-196). -/
structure Store where
  rows : List Row := []
  log : List LogRow := []
  deriving DecidableEq, Repr

/-- db/src/db.rs:584-594 `ReducedEntity` = (e, a, &attribute, v, added). -/
structure Reduced where
  e : Entid
  a : Entid
  attr : Attribute
  v : TypedValue
  added : Bool
  deriving DecidableEq, Repr

/-- A row of `temp.search_results`: the search row and the joined datom (`rid`, `v`), if any.
`one` is `search_type IS ':db.cardinality/one'`. -/
structure Found where
  q : Reduced
  one : Bool
  hit : Option Row
  deriving DecidableEq, Repr

/-- SQL `LEFT JOIN datoms AS d ON p`. -/
def leftJoin (rows : List Row) (q : Reduced) (one : Bool) (p : Row → Bool) : List Found :=
  match rows.filter p with
  | [] => [⟨q, one, none⟩]
  | hits => hits.map fun r => ⟨q, one, some r⟩

/-- db/src/db.rs:645-671 `search`: exact lookup by eav for cardinality-many (exact_searches),
lookup of the old value by ea for cardinality-one (inexact_searches).
tx.rs:875-919 decides the queue from `attribute.multival`. -/
def searchOne (rows : List Row) (q : Reduced) : List Found :=
  if q.attr.multival then
    leftJoin rows q false (fun r => decide (r.e = q.e ∧ r.a = q.a ∧ r.v = q.v))
  else
    leftJoin rows q true (fun r => decide (r.e = q.e ∧ r.a = q.a))

/-- db/src/db.rs:645-671 `search`: all searches. -/
def search (rows : List Row) (qs : List Reduced) : List Found :=
  qs.flatMap (searchOne rows)

/-- `added0 IS 1 AND ((rid IS NULL) OR ((rid IS NOT NULL) AND (v0 IS NOT v)))`
(db.rs:686-689, 737-746). -/
def Found.inserts (f : Found) : Bool :=
  f.q.added && match f.hit with
    | none => true
    | some r => decide (f.q.v ≠ r.v)

/-- `rid IS NOT NULL AND ((added0 IS 0) OR (added0 IS 1 AND search_type IS one AND v0 IS NOT v))`
(db.rs:697-702, 717-724). -/
def Found.deletes (f : Found) : Bool :=
  match f.hit with
  | none => false
  | some r => !f.q.added || (f.q.added && f.one && decide (f.q.v ≠ r.v))

/-- core-traits/lib.rs:184 `Attribute::flags`, expanded as in db.rs:735-745. -/
def newRow (tx : Entid) (q : Reduced) : Row :=
  { e := q.e, a := q.a, v := q.v, tx := tx, avet := q.attr.index, uniq := q.attr.unique.isSome }

/-- `DELETE FROM datoms WHERE rowid IN ids` (db.rs:717-724).  A rowid stands for one row; rows are
pairwise distinct by the unique index on (e, a, value_type_tag, v). -/
def deleteRows (rows : List Row) (fs : List Found) : List Row :=
  rows.filter fun r => !(fs.any fun f => f.deletes && decide (f.hit = some r))

/-- `INSERT INTO datoms ...` (db.rs:732-750). -/
def insertRows (tx : Entid) (fs : List Found) : List Row :=
  (fs.filter Found.inserts).map fun f => newRow tx f.q

/-- The unique indices on `datoms`: idx_datoms_eavt, idx_datoms_aevt (same columns) and the partial
index idx_datoms_unique_value on (a, value_type_tag, v) WHERE unique_value IS NOT 0.
idx_datoms_avet and idx_datoms_vaet contain (e, a, v) and are implied by eavt. -/
def uniqueOk : List Row → Bool
  | [] => true
  | r :: rest =>
    (rest.all fun r' => decide (¬ (r'.e = r.e ∧ r'.a = r.a ∧ r'.v = r.v))) &&
    (!r.uniq || rest.all fun r' => decide (¬ (r'.uniq = true ∧ r'.a = r.a ∧ r'.v = r.v))) &&
    uniqueOk rest

/-- Unique index on temp.inexact_searches (e0, a0) WHERE added0 = 1 (db.rs:857). -/
def inexactUniqueOk : List Reduced → Bool
  | [] => true
  | q :: rest =>
    (q.attr.multival || !q.added ||
      rest.all fun q' => q'.attr.multival || !q'.added || decide (¬ (q'.e = q.e ∧ q'.a = q.a))) &&
    inexactUniqueOk rest

/-- Unique index on temp.search_results (e0, a0, v0, value_type_tag0) (db.rs:877). -/
def foundUniqueOk : List Found → Bool
  | [] => true
  | f :: rest =>
    (rest.all fun f' => decide (¬ (f'.q.e = f.q.e ∧ f'.q.a = f.q.a ∧ f'.q.v = f.q.v))) &&
    foundUniqueOk rest

/-- `SELECT DISTINCT`. -/
def dedup {α : Type} [DecidableEq α] : List α → List α
  | [] => []
  | x :: r => if x ∈ r then dedup r else x :: dedup r

/-- db/src/db.rs:677-711 `insert_transaction`. -/
def logRowsOf (tx : Entid) (fs : List Found) : List LogRow :=
  ((fs.filter Found.inserts).map fun f =>
      ({ e := f.q.e, a := f.q.a, v := f.q.v, tx := tx, added := true } : LogRow)) ++
  dedup (fs.filterMap fun f =>
      match f.hit with
      | some r => if f.deletes then
          some ({ e := f.q.e, a := f.q.a, v := r.v, tx := tx, added := false } : LogRow)
        else none
      | none => none)

/-- db.rs `update_datoms`: DELETE then INSERT under the unique indices. -/
def updateDatoms (rows : List Row) (tx : Entid) (fs : List Found) : Res (List Row) :=
  let rows' := deleteRows rows fs ++ insertRows tx fs
  if uniqueOk rows' then .ok rows' else .err .sqlConstraint

/-- tx.rs:81-93 `TransactorAction`. -/
inductive TxAction where
  | materialize | materializeAndCommit
  deriving DecidableEq, Repr

/-- tx.rs:897-929: fill the search tables, `materialize_mentat_transaction`
(`search`; `update_datoms`) and, for MaterializeAndCommit, `commit_mentat_transaction`
(`insert_transaction`).  Result: new store and the log rows of this transaction (which for
`Materialize` are what `resolved_metadata_assertions` reads back, db.rs:1098-1128). -/
def Store.apply (st : Store) (tx : Entid) (qs : List Reduced) (action : TxAction) :
    Res (Store × List LogRow) :=
  let fs := search st.rows qs
  if !inexactUniqueOk qs || !foundUniqueOk fs then .err .sqlConstraint else
  match updateDatoms st.rows tx fs with
  | .ok rows' =>
    let lr := logRowsOf tx fs
    match action with
    | .materialize => .ok ({ st with rows := rows' }, lr)
    | .materializeAndCommit => .ok ({ rows := rows', log := st.log ++ lr }, lr)
  | .err e => .err e
  | .panic => .panic

/-- db.rs:758-826 `resolve_avs` for one [a v]: the entity having it, looked up through the AVET
index (`d.index_avet IS NOT 0`).  The code's comment: a is `:db/unique`, so at most one. -/
def Store.lookupAV (st : Store) (a : Entid) (v : TypedValue) : Option Entid :=
  (st.rows.find? fun r => r.avet && decide (r.a = a ∧ r.v = v)).map (·.e)

end Mentat
