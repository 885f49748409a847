import Verif.Model.Upsert
import Verif.Model.Metadata
/-
The transactor from terms with tempids to the store: db/src/tx.rs:722-1080.
-/
namespace Mentat

/-- What a connection sees: the in-memory metadata (db/src/types.rs:117-125 `DB`: schema and
partition map) and the SQLite store with its materialized views. -/
structure Db where
  schema : Schema
  parts : Parts
  store : Store
  views : Views
  deriving DecidableEq, Repr

/-- core/src/tx_report.rs `TxReport` -/
structure Report where
  txId : Entid
  txInstant : Int
  tempids : AMap Text Entid
  deriving DecidableEq, Repr

/-- tx.rs:821-829: internal tempids are not reported. -/
def externalTempIds : TempIdMap → AMap Text Entid
  | [] => []
  | (.external s, e) :: r => (s, e) :: externalTempIds r
  | (.internal _, _) :: r => externalTempIds r

/-- tx.rs:1107-1123 `into_aev_trie`: resolved, allocated and inert terms (not `upserted`). -/
def intoTrie (s : Schema) (pops : FinalPopulations) (inert : List RTerm) : Res Trie := do
  let t ← extendTrie s pops.resolved []
  let t ← extendTrie s pops.allocated t
  extendTrie s inert t

/-- Equality of two maps (Rust `BTreeMap` equality; association lists may order entries
differently). -/
def AMap.same {K V : Type} [DecidableEq K] [DecidableEq V] (m m' : AMap K V) : Bool :=
  (m.all fun p => decide (AMap.get m' p.1 = some p.2)) &&
  (m'.all fun p => decide (AMap.get m p.1 = some p.2))

/-- `new_schema != *self.schema_for_mutation` (tx.rs:954) -/
def Schema.same (s s' : Schema) : Bool :=
  AMap.same s.entidMap s'.entidMap && AMap.same s.identMap s'.identMap &&
  AMap.same s.attributeMap s'.attributeMap

/-- tx.rs:937-963: update the in-memory schema and the materialized views from what this
transaction changed. -/
def applyMetadata (s : Schema) (rows : List Row) (views : Views) (lr : List LogRow) :
    Res (Schema × List Row × Views) := do
  let (s', rep) ← updateSchema s (metadataAssertions lr)
  if !Schema.same s' s then
    let (rows', views') ← updateMetadata s' rep rows views
    pure (s', rows', views')
  else pure (s, rows, views)

/-- tx.rs:838-963, given the trie of final terms: check, insert the instant, write, update
metadata.  `sfm` is `schema_for_mutation`. -/
def applyTrie (db : Db) (sfm : Schema) (tx : Entid) (now : Int) (t : Trie) (action : TxAction) :
    Res (Schema × Store × Views × Int) := do
  Res.require (typeDisagreements db.schema t = []) .typeDisagreements
  Res.require (cardinalityConflicts db.schema t = []) .cardinalityConflicts
  let (instant, t) ← getOrInsertTxInstant db.schema t tx now
  let qs := reducedOf db.schema t
  let (store, lr) ← db.store.apply tx qs action
  if qs.any fun q => mightUpdateMetadata q.a then
    let (s', rows', views') ← applyMetadata sfm store.rows db.views lr
    pure (s', { store with rows := rows' }, views', instant)
  else pure (sfm, store, db.views, instant)

/-- tx.rs:973-995 `start_tx`, 722-970 `transact_simple_terms_with_action`, 997-1010 `conclude_tx`.
`now` is the clock; `ids` the interned tempids of `terms`; `sfm` is `schema_for_mutation`, which is
`db.schema` for every caller but bootstrap. -/
def transactTermsWith (db : Db) (sfm : Schema) (now : Int) (terms : List TTerm) (ids : List TempId)
    (action : TxAction) : Res (Db × Report) := do
  let (tx, txPart) ← db.parts.tx.allocate 1
  let s3 ← resolveTempIds db.schema db.store db.parts.user terms ids
  let t ← intoTrie db.schema s3.pops s3.inert
  let (schema, store, views, instant) ← applyTrie db sfm tx now t action
  pure ({ schema := schema, parts := { db.parts with tx := txPart, user := s3.user },
          store := store, views := views },
        { txId := tx, txInstant := instant, tempids := externalTempIds s3.tempids })

/-- tx.rs:1037-1061 `transact_terms` -/
def transactTerms (db : Db) (now : Int) (terms : List TTerm) (ids : List TempId) :
    Res (Db × Report) :=
  transactTermsWith db db.schema now terms ids .materializeAndCommit

end Mentat
