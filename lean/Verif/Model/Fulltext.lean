import Verif.Model.Chunks
import Verif.Model.Sync
import Verif.Model.Timelines
import Verif.Model.Bootstrap
/-
How fulltext values are stored: the tables `datoms`, `timelined_transactions` and `fulltext_values`
with the column `v` as SQLite has it, and the views over them (db/src/db.rs:166-250, 645-756,
758-826, 964-1128).

Model/Store keeps the string of a fulltext attribute in its row.  Here the row has the rowid of the
string in `fulltext_values`, as the code writes it.  As in Model/Store, values that are not rowids
are compared as typed values, and the rows of a table are in the order of the terms they come from.
-/
namespace Mentat

/-- A column `v` with its tag: the SQL value of a typed value, or a rowid of `fulltext_values`, an
integer with the tag of strings (db.rs:201, 1062). -/
inductive Cell where
  | val (v : TypedValue)
  | rowid (n : Nat)
  deriving DecidableEq, Repr

/-- db.rs:406-438 `from_sql_value_pair`: an integer with the tag of strings is an error.  (The other
cases are Model/SqlValue's.) -/
def Cell.read : Cell → Res TypedValue
  | .val v => .ok v
  | .rowid _ => .err .badSqlValuePair

/-- A row of `fulltext_values` (db.rs:208-209), an FTS4 table.  `searchid` is NULL but while a
transaction is being written. -/
structure FtRow where
  rowid : Nat
  text : Text
  searchid : Option Nat := none
  deriving DecidableEq, Repr

/-- A row of `datoms` (db.rs:170-174). -/
structure DiskRow where
  e : Entid
  a : Entid
  v : Cell
  tx : Entid
  avet : Bool := false
  ft : Bool := false
  uniq : Bool := false
  deriving DecidableEq, Repr

/-- A row of `timelined_transactions` (db.rs:196). -/
structure DiskLog where
  e : Entid
  a : Entid
  v : Cell
  tx : Entid
  added : Bool
  timeline : Int := 0
  deriving DecidableEq, Repr

/-- A row of `temp.exact_searches` or `temp.inexact_searches` (db.rs:837-858); the attribute stands for
its flags and for the table. -/
structure DiskSought where
  e : Entid
  a : Entid
  attr : Attribute
  v : Cell
  added : Bool
  deriving DecidableEq, Repr

/-- A row of `temp.search_results` (db.rs:863-872), as Model/Store's `Found`. -/
structure DiskFound where
  q : DiskSought
  one : Bool
  hit : Option DiskRow
  deriving DecidableEq, Repr

/-- The tables `datoms`, `timelined_transactions` and `fulltext_values` (db.rs:166-207). -/
structure Disk where
  rows : List DiskRow := []
  log : List DiskLog := []
  texts : List FtRow := []
  deriving DecidableEq, Repr

/-! ### The fulltext table -/

/-- The rowid SQLite gives a new row: one above the largest. -/
def nextRowid (t : List FtRow) : Nat := t.foldl (fun m r => max m r.rowid) 0 + 1

/-- `INSERT INTO fulltext_values_view`: the triggers of db.rs:214-225.  A text that is there gets the
new searchid, another is inserted.  (SQLite does not say in which order it runs the two triggers; if
the insertion comes first, the other one sets the same searchid once more.) -/
def ftInsert (t : List FtRow) (text : Text) (sid : Nat) : List FtRow :=
  if t.any fun r => decide (r.text = text) then
    t.map fun r => if r.text = text then { r with searchid := some sid } else r
  else t ++ [⟨nextRowid t, text, some sid⟩]

/-- `SELECT rowid FROM fulltext_values WHERE searchid = ?` -/
def ftFind (t : List FtRow) (sid : Nat) : Option Nat :=
  (t.find? fun r => decide (r.searchid = some sid)).map (·.rowid)

/-- db.rs:994-1024: the rows of a chunk with their searchids, and the string where it is met for the
first time.  `seen` maps strings to searchids, `k` is the last one given. -/
def numberRows : List Reduced → AMap Text Nat → Nat → Res (List (Reduced × Option Text × Nat) × AMap Text Nat × Nat)
  | [], seen, k => .ok ([], seen, k)
  | q :: r, seen, k => match q.v with
    | .string s => match AMap.get seen s with
      | some sid => (numberRows r seen k).bind fun p => .ok ((q, none, sid) :: p.1, p.2)
      | none => (numberRows r (AMap.insert seen s (k + 1)) (k + 1)).bind fun p => .ok ((q, some s, k + 1) :: p.1, p.2)
    | _ => .err .other

/-- db.rs:1026-1044: the strings met for the first time go into the table. -/
def ftInsertAll : List FtRow → List (Reduced × Option Text × Nat) → List FtRow
  | t, [] => t
  | t, (_, some s, sid) :: r => ftInsertAll (ftInsert t s sid) r
  | t, (_, none, _) :: r => ftInsertAll t r

/-- db.rs:1048-1074: the search rows, with the rowids found by searchid.  `v0` is `NOT NULL`. -/
def seekRows (t : List FtRow) : List (Reduced × Option Text × Nat) → Res (List DiskSought)
  | [] => .ok []
  | (q, _, sid) :: r => match ftFind t sid with
    | none => .err .sqlConstraint
    | some n => (seekRows t r).bind fun l => .ok (⟨q.e, q.a, q.attr, .rowid n, q.added⟩ :: l)

/-- db.rs:985-1076, over the chunks.  `repeat_values(2, string_count)` asserts that there is a new
string in each. -/
def seekChunks (maxVars : Nat) : List (List Reduced) → List FtRow → AMap Text Nat → Nat → Res (List FtRow × List DiskSought)
  | [], t, _, _ => .ok (t, [])
  | c :: r, t, seen, k =>
    (numberRows c seen k).bind fun (block, seen', k') =>
    (repeatValues 2 (block.filter fun b => b.2.1.isSome).length).bind fun _ =>
    let t' := ftInsertAll t block
    (Res.assert (6 * c.length < maxVars)).bind fun _ =>
    (seekRows t' block).bind fun l =>
    (seekChunks maxVars r t' seen' k').bind fun p => .ok (p.1, l ++ p.2)

/-- db.rs:964-1085 `insert_fts_searches`; at the end the searchids are dropped. -/
def insertFtsSearches (maxVars : Nat) (t : List FtRow) (qs : List Reduced) : Res (List FtRow × List DiskSought) :=
  if qs = [] then .ok (t, [])
  else
    (chunks (maxVars / 6) qs).bind fun cs => (seekChunks maxVars cs t [] 2000).bind fun p =>
    .ok (p.1.map fun r => { r with searchid := none }, p.2)

/-- db.rs:893-962 `insert_non_fts_searches` -/
def insertNonFtsSearches (maxVars : Nat) (qs : List Reduced) : Res (List DiskSought) :=
  if qs = [] then .ok []
  else (statements 6 maxVars qs).bind fun cs => .ok (cs.flatten.map fun q => ⟨q.e, q.a, q.attr, .val q.v, q.added⟩)

/-- The rows of the temporary tables in the order of the terms: fulltext rows come from the tables of
their cardinality, and so do the others. -/
def inTermOrder : List Reduced → List DiskSought → List DiskSought → List DiskSought → List DiskSought → List DiskSought
  | [], _, _, _, _ => []
  | q :: r, n1, nm, f1, fm => match q.attr.fulltext, q.attr.multival, n1, nm, f1, fm with
    | false, false, x :: n1, nm, f1, fm => x :: inTermOrder r n1 nm f1 fm
    | false, true, n1, x :: nm, f1, fm => x :: inTermOrder r n1 nm f1 fm
    | true, false, n1, nm, x :: f1, fm => x :: inTermOrder r n1 nm f1 fm
    | true, true, n1, nm, f1, x :: fm => x :: inTermOrder r n1 nm f1 fm
    | _, _, n1, nm, f1, fm => inTermOrder r n1 nm f1 fm

/-- tx.rs:867-919: the four queues and the search tables filled from them. -/
def seekAll (maxVars : Nat) (t : List FtRow) (qs : List Reduced) : Res (List FtRow × List DiskSought) :=
  (insertNonFtsSearches maxVars (qs.filter fun q => !q.attr.fulltext && !q.attr.multival)).bind fun n1 =>
  (insertNonFtsSearches maxVars (qs.filter fun q => !q.attr.fulltext && q.attr.multival)).bind fun nm =>
  (insertFtsSearches maxVars t (qs.filter fun q => q.attr.fulltext && !q.attr.multival)).bind fun f1 =>
  (insertFtsSearches maxVars f1.1 (qs.filter fun q => q.attr.fulltext && q.attr.multival)).bind fun fm =>
  .ok (fm.1, inTermOrder qs n1 nm f1.2 fm.2)

/-! ### The statements of a transaction, as in Model/Store -/

/-- The left join of a search with `datoms` (db.rs:645-671), as Model/Store's `leftJoin`. -/
def diskJoin (rows : List DiskRow) (q : DiskSought) (one : Bool) (p : DiskRow → Bool) : List DiskFound :=
  match rows.filter p with
  | [] => [⟨q, one, none⟩]
  | hits => hits.map fun r => ⟨q, one, some r⟩

/-- db.rs:645-671 `search` -/
def diskSearchOne (rows : List DiskRow) (q : DiskSought) : List DiskFound :=
  if q.attr.multival then
    diskJoin rows q false (fun r => decide (r.e = q.e ∧ r.a = q.a ∧ r.v = q.v))
  else
    diskJoin rows q true (fun r => decide (r.e = q.e ∧ r.a = q.a))

/-- db.rs:645-671 `search`: all searches. -/
def diskSearch (rows : List DiskRow) (qs : List DiskSought) : List DiskFound := qs.flatMap (diskSearchOne rows)

/-- db.rs:686-689, 737-746 -/
def DiskFound.inserts (f : DiskFound) : Bool :=
  f.q.added && match f.hit with
    | none => true
    | some r => decide (f.q.v ≠ r.v)

/-- db.rs:697-702, 717-724 -/
def DiskFound.deletes (f : DiskFound) : Bool :=
  match f.hit with
  | none => false
  | some r => !f.q.added || (f.q.added && f.one && decide (f.q.v ≠ r.v))

/-- core-traits/lib.rs:184 `Attribute::flags`, expanded as in db.rs:735-745. -/
def diskNewRow (tx : Entid) (q : DiskSought) : DiskRow :=
  { e := q.e, a := q.a, v := q.v, tx := tx, avet := q.attr.index, ft := q.attr.fulltext, uniq := q.attr.unique.isSome }

/-- The unique indices of `datoms` (db.rs:175-194). -/
def diskUniqueOk : List DiskRow → Bool
  | [] => true
  | r :: rest =>
    (rest.all fun r' => decide (¬ (r'.e = r.e ∧ r'.a = r.a ∧ r'.v = r.v))) &&
    (!r.uniq || rest.all fun r' => decide (¬ (r'.uniq = true ∧ r'.a = r.a ∧ r'.v = r.v))) &&
    diskUniqueOk rest

/-- db.rs:857 -/
def diskInexactOk : List DiskSought → Bool
  | [] => true
  | q :: rest =>
    (q.attr.multival || !q.added ||
      rest.all fun q' => q'.attr.multival || !q'.added || decide (¬ (q'.e = q.e ∧ q'.a = q.a))) &&
    diskInexactOk rest

/-- db.rs:877 -/
def diskFoundOk : List DiskFound → Bool
  | [] => true
  | f :: rest =>
    (rest.all fun f' => decide (¬ (f'.q.e = f.q.e ∧ f'.q.a = f.q.a ∧ f'.q.v = f.q.v))) &&
    diskFoundOk rest

/-- db.rs:677-711 `insert_transaction` -/
def diskLogOf (tx : Entid) (fs : List DiskFound) : List DiskLog :=
  ((fs.filter DiskFound.inserts).map fun f =>
      ({ e := f.q.e, a := f.q.a, v := f.q.v, tx := tx, added := true } : DiskLog)) ++
  dedup (fs.filterMap fun f =>
      match f.hit with
      | some r => if f.deletes then
          some ({ e := f.q.e, a := f.q.a, v := r.v, tx := tx, added := false } : DiskLog)
        else none
      | none => none)

/-- db.rs:713-756 `update_datoms` -/
def diskUpdate (rows : List DiskRow) (tx : Entid) (fs : List DiskFound) : Res (List DiskRow) :=
  let rows' := (rows.filter fun r => !(fs.any fun f => f.deletes && decide (f.hit = some r))) ++
    (fs.filter DiskFound.inserts).map fun f => diskNewRow tx f.q
  if diskUniqueOk rows' then .ok rows' else .err .sqlConstraint

/-- tx.rs:867-929, as Model/Store's `Store.apply`. -/
def Disk.apply (maxVars : Nat) (d : Disk) (tx : Entid) (qs : List Reduced) (action : TxAction) :
    Res (Disk × List DiskLog) :=
  (seekAll maxVars d.texts qs).bind fun (texts, ss) =>
  let fs := diskSearch d.rows ss
  if !diskInexactOk ss || !diskFoundOk fs then .err .sqlConstraint else
  match diskUpdate d.rows tx fs with
  | .ok rows' =>
    let lr := diskLogOf tx fs
    match action with
    | .materialize => .ok ({ d with rows := rows', texts := texts }, lr)
    | .materializeAndCommit => .ok ({ rows := rows', log := d.log ++ lr, texts := texts }, lr)
  | .err e => .err e
  | .panic => .panic

/-! ### The views -/

/-- db.rs:228-231 `fulltext_datoms` -/
def Disk.fulltextDatoms (d : Disk) : List Row :=
  d.rows.flatMap fun r => (d.texts.filter fun t => r.ft && decide (r.v = .rowid t.rowid)).map fun t =>
    { e := r.e, a := r.a, v := .string t.text, tx := r.tx, avet := r.avet, uniq := r.uniq }

/-- A row with the column `v` as it is. -/
def DiskRow.plain (r : DiskRow) : Option Row := match r.v with
  | .val v => some { e := r.e, a := r.a, v := v, tx := r.tx, avet := r.avet, uniq := r.uniq }
  | .rowid _ => none

/-- db.rs:234-240 `all_datoms`.  The first part shows the column `v` as it is: for a row without
`index_fulltext` the value of its cell. -/
def Disk.allDatoms (d : Disk) : List Row :=
  (d.rows.filter fun r => !r.ft).filterMap DiskRow.plain ++ d.fulltextDatoms

/-! ### The tables with every rowid replaced by its text -/

/-- The text of a rowid, or nothing. -/
def ftText (t : List FtRow) (n : Nat) : Text := ((t.find? fun r => decide (r.rowid = n)).map (·.text)).getD []

/-- The value a cell stands for. -/
def absCell (t : List FtRow) : Cell → TypedValue
  | .val v => v
  | .rowid n => .string (ftText t n)

/-- A row of `datoms` as the views show it. -/
def absRow (t : List FtRow) (r : DiskRow) : Row :=
  { e := r.e, a := r.a, v := absCell t r.v, tx := r.tx, avet := r.avet, uniq := r.uniq }

/-- A row of the log as the views show it. -/
def absLog (t : List FtRow) (l : DiskLog) : LogRow :=
  { e := l.e, a := l.a, v := absCell t l.v, tx := l.tx, added := l.added, timeline := l.timeline }

/-- What the views over the tables show. -/
def Disk.shown (d : Disk) : Store := { rows := d.rows.map (absRow d.texts), log := d.log.map (absLog d.texts) }

/-! ### Metadata -/

/-- db.rs:1248-1300, as Model/Metadata's `applyAlteration`. -/
def diskAlteration (at_ : Attribute) (e : Entid) (rows : List DiskRow) : Alteration → Res (List DiskRow)
  | .index => .ok (rows.map fun r => if r.a = e then { r with avet := at_.index } else r)
  | .unique =>
    let rows' := rows.map fun r => if r.a = e then { r with uniq := at_.unique.isSome } else r
    if diskUniqueOk rows' then .ok rows' else
      match at_.unique with
      | some _ => .err .schemaAlterationFailed
      | none => .panic
  | .cardinality => if at_.multival then .ok rows else .err .schemaAlterationFailed
  | .noHistory => .ok rows
  | .isComponent => .ok rows

/-- db.rs:1248-1300: the alterations of one attribute. -/
def diskAlterations (at_ : Attribute) (e : Entid) : List Alteration → List DiskRow → Res (List DiskRow)
  | [], rows => .ok rows
  | x :: xs, rows =>
    match diskAlteration at_ e rows x with
    | .ok rows' => diskAlterations at_ e xs rows'
    | .err er => .err er
    | .panic => .panic

/-- db.rs:1248-1300: all alterations. -/
def diskAllAlterations (s : Schema) : AMap Entid (List Alteration) → List DiskRow → Res (List DiskRow)
  | [], rows => .ok rows
  | (e, xs) :: r, rows =>
    match s.attr e with
    | none => .err .unrecognizedEntid
    | some at_ =>
      match diskAlterations at_ e xs rows with
      | .ok rows' => diskAllAlterations s r rows'
      | .err er => .err er
      | .panic => .panic

/-- db.rs:1173-1303 `update_metadata`.  The values of the rows of metadata attributes are taken as
shown; in the bootstrap schema these attributes are not fulltext, so that their cells are values. -/
def diskUpdateMetadata (new : Schema) (rep : MetadataReport) (d : Disk) (views : Views) : Res (List DiskRow × Views) :=
  let views := if rep.identsAltered.isEmpty then views else { views with idents := identsOf d.shown.rows }
  let views := if rep.installed.isEmpty && rep.altered.isEmpty && rep.identsAltered.isEmpty
    then views else { views with schema := schemaOf d.shown.rows }
  match diskAllAlterations new rep.altered d.rows with
  | .ok rows' => .ok (rows', views)
  | .err e => .err e
  | .panic => .panic

/-- tx.rs:937-963.  The values of metadata attributes are taken as shown, as above. -/
def diskApplyMetadata (s : Schema) (d : Disk) (views : Views) (lr : List DiskLog) :
    Res (Schema × List DiskRow × Views) := do
  let (s', rep) ← updateSchema s (metadataAssertions (lr.map (absLog d.texts)))
  if !Schema.same s' s then
    let (rows', views') ← diskUpdateMetadata s' rep d views
    pure (s', rows', views')
  else pure (s, d.rows, views)

/-! ### A whole transaction, as in Model/Transact -/

/-- A database with these tables, as Model/Transact's `Db`. -/
structure DiskDb where
  schema : Schema
  parts : Parts
  disk : Disk
  views : Views
  deriving DecidableEq, Repr

/-- tx.rs:838-963 -/
def diskApplyTrie (maxVars : Nat) (db : DiskDb) (sfm : Schema) (tx : Entid) (now : Int) (t : Trie) (action : TxAction) :
    Res (Schema × Disk × Views × Int) := do
  Res.require (typeDisagreements db.schema t = []) .typeDisagreements
  Res.require (cardinalityConflicts db.schema t = []) .cardinalityConflicts
  let (instant, t) ← getOrInsertTxInstant db.schema t tx now
  let qs := reducedOf db.schema t
  let (disk, lr) ← db.disk.apply maxVars tx qs action
  if qs.any fun q => mightUpdateMetadata q.a then
    let (s', rows', views') ← diskApplyMetadata sfm disk db.views lr
    pure (s', { disk with rows := rows' }, views', instant)
  else pure (sfm, disk, db.views, instant)

/-- tx.rs:973-995, 722-970, 997-1010.  `resolve_avs` reads the view `all_datoms` (db.rs:801-803). -/
def diskTransactWith (maxVars : Nat) (db : DiskDb) (sfm : Schema) (now : Int) (terms : List TTerm) (ids : List TempId)
    (action : TxAction) : Res (DiskDb × Report) := do
  let (tx, txPart) ← db.parts.tx.allocate 1
  let s3 ← resolveTempIds db.schema { rows := db.disk.allDatoms } db.parts.user terms ids
  let t ← intoTrie db.schema s3.pops s3.inert
  let (schema, disk, views, instant) ← diskApplyTrie maxVars db sfm tx now t action
  pure ({ schema := schema, parts := { db.parts with tx := txPart, user := s3.user }, disk := disk, views := views },
        { txId := tx, txInstant := instant, tempids := externalTempIds s3.tempids })

/-- tx.rs:1037-1061 `transact_terms` -/
def diskTransact (maxVars : Nat) (db : DiskDb) (now : Int) (terms : List TTerm) (ids : List TempId) :
    Res (DiskDb × Report) :=
  diskTransactWith maxVars db db.schema now terms ids .materializeAndCommit

/-- db.rs:325-372 `create_current_version` -/
def diskCreate (maxVars : Nat) (now : Int) : Res DiskDb := do
  let s ← bootstrapSchema
  let (db, _) ← diskTransactWith maxVars { schema := s, parts := Parts.bootstrap, disk := {}, views := {} }
    {} now bootTerms [] .materializeAndCommit
  if Schema.same db.schema s then pure { db with schema := s } else .err .notYetImplemented

/-- What the store shows. -/
def DiskDb.db (d : DiskDb) : Db := { schema := d.schema, parts := d.parts, store := d.disk.shown, views := d.views }

/-! ### Reading the log -/

/-- The loop of timelines.rs:120-137. -/
def reverseRows : List DiskLog → Res (List TTerm)
  | [] => .ok []
  | l :: r => l.v.read.bind fun v => (reverseRows r).bind fun ts =>
    .ok (⟨if l.added then .retract else .add, .inl l.e, l.a, .inl v⟩ :: ts)

/-- timelines.rs:107-140 `reversed_terms_for` -/
def diskReversedTerms (log : List DiskLog) (tx : Entid) : Res (List TTerm) :=
  reverseRows (log.filter fun l => decide (l.tx = tx ∧ l.timeline = 0))

/-- tolstoy/src/tx_processor.rs:106-165 `Processor::process` -/
def diskProcess {S : Type} (log : List DiskLog) (fromTx : Option Entid)
    (recv : S → Entid → List Sync.TxPart → Res S) (s : S) : Res S :=
  let rows := (sortBy (·.tx) (log.filter fun l =>
    decide (l.timeline = 0) && (match fromTx with | some t => decide (l.tx > t) | none => true))).map fun l =>
    l.v.read.bind fun v => .ok ({ e := l.e, a := l.a, v := v, tx := l.tx, added := l.added } : Sync.TxPart)
  Sync.processRows recv rows.length none rows s

end Mentat
