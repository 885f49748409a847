import Verif.Model.Cache
/-
A transaction in progress (transaction/src/lib.rs `InProgress`) and the connection it belongs to
(src/conn.rs `Conn`, transaction/src/metadata.rs `Metadata`).

`Model/Transact` gives the outcome of the transactor; here also what a *failed* run leaves behind in
the SQLite transaction and what the watchers were shown, because an `InProgress` stays usable after
a failed `transact` (there is no savepoint around it).
-/
namespace Mentat

/-! ### What a run of the transactor leaves behind -/

/-- The rows left by `applyAlterations` (db.rs:1248-1300), also when an alteration fails: each
`UPDATE` is undone by SQLite when it fails, the earlier ones are not. -/
def applyAlterationsLeft (at_ : Attribute) (e : Entid) : List Alteration → List Row → List Row
  | [], rows => rows
  | x :: xs, rows =>
    match applyAlteration at_ e rows x with
    | .ok rows' => applyAlterationsLeft at_ e xs rows'
    | _ => rows

/-- The same, for all alterations. -/
def applyAllAlterationsLeft (s : Schema) : AMap Entid (List Alteration) → List Row → List Row
  | [], rows => rows
  | (e, xs) :: r, rows =>
    match s.attr e with
    | none => rows
    | some at_ =>
      match applyAlterations at_ e xs rows with
      | .ok rows' => applyAllAlterationsLeft s r rows'
      | _ => applyAlterationsLeft at_ e xs rows

/-- db.rs:1173-1303 `update_metadata`: what it leaves. -/
def updateMetadataLeft (new : Schema) (rep : MetadataReport) (rows : List Row) (views : Views) :
    List Row × Views :=
  let views := if rep.identsAltered.isEmpty then views else { views with idents := identsOf rows }
  let views := if rep.installed.isEmpty && rep.altered.isEmpty && rep.identsAltered.isEmpty
    then views else { views with schema := schemaOf rows }
  (applyAllAlterationsLeft new rep.altered rows, views)

/-- tx.rs:937-963: what the metadata step leaves. -/
def applyMetadataLeft (s : Schema) (rows : List Row) (views : Views) (lr : List LogRow) :
    List Row × Views :=
  match updateSchema s (metadataAssertions lr) with
  | .ok (s', rep) => if !Schema.same s' s then updateMetadataLeft s' rep rows views else (rows, views)
  | _ => (rows, views)

/-- tx.rs:897-929: what a failed write leaves: nothing when a search table is refused (those are
temporary tables, recreated by the next transaction), but the `DELETE` of `update_datoms` when its
`INSERT` is refused (db.rs:714-750; SQLite undoes only the failed statement). -/
def Store.applyLeft (st : Store) (qs : List Reduced) : Store :=
  let fs := search st.rows qs
  if !inexactUniqueOk qs || !foundUniqueOk fs then st else { st with rows := deleteRows st.rows fs }

/-- A run of the transactor: its result, the SQLite tables it leaves, the datoms shown to the
watchers, and the transaction id `watcher.done` was called with, if it was. -/
structure TxRun where
  result : Res (Db × Report)
  store : Store
  views : Views
  shown : List Shown := []
  done : Option Entid := none

/-- The terms as watchers are shown them. -/
def shownOf (qs : List Reduced) : List Shown :=
  qs.map fun q => { added := q.added, e := q.e, a := q.a, v := q.v }

/-- tx.rs:838-963, given the trie of final terms: the watchers are shown every term before anything is
written (886-895); `done` is called after the datoms and the log are written and before the metadata
step (932). -/
def applyTrieRun (db : Db) (tx : Entid) (now : Int) (t : Trie) (result : Res (Db × Report)) : TxRun :=
  if typeDisagreements db.schema t ≠ [] ∨ cardinalityConflicts db.schema t ≠ [] then
    ⟨result, db.store, db.views, [], none⟩
  else match getOrInsertTxInstant db.schema t tx now with
    | .ok (_, t) =>
      let qs := reducedOf db.schema t
      match db.store.apply tx qs .materializeAndCommit with
      | .ok (store, lr) =>
        if qs.any fun q => mightUpdateMetadata q.a then
          let left := applyMetadataLeft db.schema store.rows db.views lr
          ⟨result, { store with rows := left.1 }, left.2, shownOf qs, some tx⟩
        else ⟨result, store, db.views, shownOf qs, some tx⟩
      | _ => ⟨result, db.store.applyLeft qs, db.views, shownOf qs, none⟩
    | _ => ⟨result, db.store, db.views, [], none⟩

/-- tx.rs:1037-1061 `transact_terms`, with what it leaves behind. -/
def transactRun (db : Db) (now : Int) (terms : List TTerm) (ids : List TempId) : TxRun :=
  let result := transactTerms db now terms ids
  match db.parts.tx.allocate 1 with
  | .ok (tx, _) =>
    match resolveTempIds db.schema db.store db.parts.user terms ids with
    | .ok s3 =>
      match intoTrie db.schema s3.pops s3.inert with
      | .ok t => applyTrieRun db tx now t result
      | _ => ⟨result, db.store, db.views, [], none⟩
    | _ => ⟨result, db.store, db.views, [], none⟩
  | _ => ⟨result, db.store, db.views, [], none⟩

/-! ### A transaction in progress -/

/-- transaction/src/lib.rs:88-98 `InProgress`: the SQLite tables as seen inside the SQLite
transaction, the snapshot of the metadata taken at the start, the cache, the observer's watcher
(db/src/tx_observer.rs:160-164), and the stack of SQLite savepoints. -/
structure InProgress where
  generation : Nat
  parts : Parts
  schema : Schema
  store : Store
  views : Views
  cache : ProgCache
  collected : List Entid := []
  txes : AMap Entid (List Entid) := []
  saves : List (Text × Store × Views) := []
  deriving DecidableEq, Repr

/-- The database as the transaction in progress sees it. -/
def InProgress.db (p : InProgress) : Db := ⟨p.schema, p.parts, p.store, p.views⟩

/-- transaction/src/lib.rs:164-186 `transact_terms` (188-217 `transact_entities` differs in the
input): the partition map and the schema are taken over on success only; the SQLite transaction and
the watchers (580-612) keep what happened.  Returns the outcome and the state left. -/
def InProgress.transact (p : InProgress) (now : Int) (terms : List TTerm) (ids : List TempId) :
    Res Report × InProgress :=
  let r := transactRun p.db now terms ids
  let p1 := { p with store := r.store, views := r.views
                     collected := (r.shown.map (·.a)).foldl setInsert p.collected }
  let watched : Res InProgress := match r.done with
    | none => .ok p1
    | some tx =>
      -- tx_observer.rs:180-184 `done`; cache.rs:1983-2007 `done`
      (p.cache.watch p.schema r.shown).bind fun c =>
        .ok { p1 with cache := c, collected := [], txes := AMap.insert p1.txes tx p1.collected }
  match watched with
  | .ok p2 =>
    match r.result with
    | .ok (db', rep) => (.ok rep, { p2 with schema := db'.schema, parts := db'.parts })
    | .err e => (.err e, p2)
    | .panic => (.panic, p2)
  | .err e => (.err e, p1)
  | .panic => (.panic, p1)

/-- transaction/src/lib.rs:319-323 `savepoint` (names compared exactly; SQLite ignores case). -/
def InProgress.savepoint (p : InProgress) (name : Text) : InProgress :=
  { p with saves := (name, p.store, p.views) :: p.saves }

/-- The stack from the named savepoint down. -/
def findSave (name : Text) : List (Text × Store × Views) → Option (List (Text × Store × Views))
  | [] => none
  | s :: r => if s.1 = name then some (s :: r) else findSave name r

/-- transaction/src/lib.rs:325-329 `rollback_savepoint`: SQL only. -/
def InProgress.rollbackTo (p : InProgress) (name : Text) : Res InProgress :=
  match findSave name p.saves with
  | some (s :: r) => .ok { p with store := s.2.1, views := s.2.2, saves := s :: r }
  | _ => .err .other

/-- transaction/src/lib.rs:331-335 `release_savepoint` -/
def InProgress.release (p : InProgress) (name : Text) : Res InProgress :=
  match findSave name p.saves with
  | some (_ :: r) => .ok { p with saves := r }
  | _ => .err .other

/-- transaction/src/lib.rs:279-313 `cache` (by entid; the code looks the ident up first). -/
def InProgress.register (p : InProgress) (a : Entid) (d : CacheDir) : Res InProgress :=
  (p.cache.register p.schema p.store.rows a d).bind fun c => .ok { p with cache := c }

/-- db/src/cache.rs:1719-1727 `unregister` -/
def InProgress.unregister (p : InProgress) (a : Entid) : InProgress :=
  { p with cache := p.cache.unregister a }

/-! ### The connection -/

/-- src/conn.rs `Conn` with its `Metadata` (transaction/src/metadata.rs:22-27), and the committed
SQLite tables.  `shared`: a clone of the cache's `Arc` is alive elsewhere. -/
structure Conn where
  generation : Nat := 0
  parts : Parts
  schema : Schema
  cache : Caches := {}
  shared : Bool := false
  store : Store
  views : Views
  deriving DecidableEq, Repr

/-- The database as the connection sees it. -/
def Conn.db (c : Conn) : Db := ⟨c.schema, c.parts, c.store, c.views⟩

/-- src/conn.rs `Conn::connect`: the metadata as read or created by `ensure_current_version`. -/
def Conn.connect (db : Db) : Conn :=
  { parts := db.parts, schema := db.schema, store := db.store, views := db.views }

/-- src/conn.rs:232-262 `begin_transaction_with_behavior` -/
def Conn.begin (c : Conn) : InProgress :=
  { generation := c.generation, parts := c.parts, schema := c.schema, store := c.store,
    views := c.views, cache := ProgCache.fromCache c.cache }

/-- transaction/src/lib.rs:241-277 `commit`: outcome, the connection afterwards, and the batch handed
to the observer service.  An error of SQLite's own `COMMIT` is not modelled (it leaves everything
as it was).  When the cache commit panics the metadata is half updated: generation, partition map
and the SQLite tables are already those of the transaction, the schema is not (and the mutex is
poisoned). -/
def Conn.commit (c : Conn) (p : InProgress) : Res (AMap Entid (List Entid)) × Conn :=
  if p.generation ≠ c.generation then (.err .other, c) else
  let c1 := { c with generation := c.generation + 1, parts := p.parts, store := p.store,
                     views := p.views }
  match p.cache.commitTo c.cache c.shared with
  | .ok cache => (.ok p.txes, { c1 with cache := cache, schema := p.schema })
  | .err e => (.err e, c1)
  | .panic => (.panic, c1)

/-- src/conn.rs:298-320 `Conn::transact` on terms: begin, transact, commit; an error drops the
`InProgress`, whose SQLite transaction is rolled back. -/
def Conn.transact (c : Conn) (now : Int) (terms : List TTerm) (ids : List TempId) :
    Res (Report × AMap Entid (List Entid)) × Conn :=
  match c.begin.transact now terms ids with
  | (.ok rep, p) =>
    match c.commit p with
    | (.ok txes, c') => (.ok (rep, txes), c')
    | (.err e, c') => (.err e, c')
    | (.panic, c') => (.panic, c')
  | (.err e, _) => (.err e, c)
  | (.panic, _) => (.panic, c)

/-- src/conn.rs:324-360 `Conn::cache`, with the connection's own schema as the `schema` argument. -/
def Conn.register (c : Conn) (a : Entid) (d : CacheDir) : Res Conn :=
  (c.cache.register c.schema c.store.rows a d).bind fun k => .ok { c with cache := k }

/-- db/src/cache.rs:1520-1525 `unregister` -/
def Conn.unregister (c : Conn) (a : Entid) : Conn := { c with cache := c.cache.unregister a }

end Mentat
