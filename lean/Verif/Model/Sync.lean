import Verif.Model.Entities
import Verif.Model.Reopen
/-
Synchronisation: tolstoy/src (syncer.rs, tx_processor.rs, tx_uploader.rs, tx_mapper.rs,
metadata.rs).  UUIDs are their 128-bit numbers.  Simplified: the log has the strings of fulltext values; with the
rowids that it really has, reading it fails (`C81_fails_sync`).
-/
namespace Mentat.Sync

/-- `Uuid::nil()` -/
def nil : Nat := 0

/-! ### What to do -/

/-- syncer.rs:111-122 `SyncAction` -/
inductive Action where
  | noOp | populateRemote | remoteFastForward | localFastForward | combineChanges
  deriving DecidableEq, Repr

/-- syncer.rs:126-130 -/
inductive RemoteState where
  | empty | changed | unchanged
  deriving DecidableEq, Repr

/-- syncer.rs:134-144 `impl From<(&Uuid, &Uuid)> for RemoteDataState` -/
def RemoteState.of (known actual : Nat) : RemoteState :=
  if actual = nil then .empty else if actual ≠ known then .changed else .unchanged

/-- syncer.rs:149-152 -/
inductive LocalState where
  | changed | unchanged
  deriving DecidableEq, Repr

/-- syncer.rs:159-166 `impl From<Option<Uuid>> for LocalDataState` -/
def LocalState.of : Option Nat → LocalState
  | some _ => .unchanged
  | none => .changed

/-- syncer.rs:204-220 `what_do` -/
def whatDo : RemoteState → LocalState → Action
  | .empty, _ => .populateRemote
  | .changed, .changed => .combineChanges
  | .changed, .unchanged => .localFastForward
  | .unchanged, .changed => .remoteFastForward
  | .unchanged, .unchanged => .noOp

/-- syncer.rs:60-68 `SyncReport` (without messages) -/
inductive Report where
  | incompatibleRemoteBootstrap | badRemoteState | noChanges | remoteFastForward | localFastForward
  | merge (followUp : Bool)
  deriving DecidableEq, Repr

/-! ### The processor -/

/-- types.rs:73-82 `TxPart` -/
structure TxPart where
  partitions : Option Parts := none
  e : Entid
  a : Entid
  v : TypedValue
  tx : Entid
  added : Bool
  deriving DecidableEq, Repr

/-- tx_processor.rs:44-91 `DatomsIterator`, after its first element: the following rows of the same
transaction, and the rows left.  It stops before a row of another transaction and before an error. -/
def following (first : TxPart) : List (Res TxPart) → List TxPart × List (Res TxPart)
  | .ok d :: r =>
    if d.tx ≠ first.tx then ([], .ok d :: r)
    else ({ d with partitions := none } :: (following first r).1, (following first r).2)
  | rows => ([], rows)

/-- tx_processor.rs:135-160, the loop over the rows; `n` bounds the number of rows.  `recv` is
`TxReceiver::tx`; both receivers collect their iterator, so it is given the collected datoms. -/
def processRows {S : Type} (recv : S → Entid → List TxPart → Res S) :
    Nat → Option Entid → List (Res TxPart) → S → Res S
  | _, _, [], s => .ok s
  | 0, _, _ :: _, _ => .err .other
  | _ + 1, _, .err e :: _, _ => .err e
  | _ + 1, _, .panic :: _, _ => .panic
  | n + 1, cur, .ok d :: r, s =>
    if cur = some d.tx then processRows recv n cur r s
    else
      (recv s d.tx (d :: (following d r).1)).bind fun s' =>
      processRows recv n (some d.tx) (following d r).2 s'

/-- tx_processor.rs:110-119 `to_tx_part`.  (Stored values are typed values in the store model; their
encoding is C01.) -/
def toTxPart (l : LogRow) : TxPart := { e := l.e, a := l.a, v := l.v, tx := l.tx, added := l.added }

/-- tx_processor.rs:113-123: `SELECT ... WHERE timeline = 0 AND tx > from ORDER BY tx`. -/
def selectRows (log : List LogRow) (fromTx : Option Entid) : List LogRow :=
  sortBy (·.tx) (log.filter fun l =>
    decide (l.timeline = 0) && (match fromTx with | some t => decide (l.tx > t) | none => true))

/-- tx_processor.rs:106-165 `Processor::process` -/
def process {S : Type} (log : List LogRow) (fromTx : Option Entid)
    (recv : S → Entid → List TxPart → Res S) (s : S) : Res S :=
  let rows := (selectRows log fromTx).map fun l => Res.ok (toTxPart l)
  processRows recv rows.length none rows s

/-- syncer.rs:169-200 `LocalTxSet` as a receiver. -/
def collectTxs (s : List (Entid × List TxPart)) (tx : Entid) (ds : List TxPart) :
    Res (List (Entid × List TxPart)) := .ok (s ++ [(tx, ds)])

/-! ### The uploader -/

/-- A transaction as the server keeps it. -/
structure RemoteTx where
  uuid : Nat
  parent : Nat
  chunks : List Nat
  deriving DecidableEq, Repr

/-- The remote log (types.rs:84-90 `GlobalTransactionLog`), a server that accepts every request. -/
structure Remote where
  head : Nat := nil
  txs : List RemoteTx := []
  chunks : List (Nat × TxPart) := []
  deriving DecidableEq, Repr

/-- `Partition::set_next_entid(entid + 1)` where the entid belongs to the partition
(tx_uploader.rs:72-77). -/
def bump (local_ p : Partition) (e : Entid) : Res Partition :=
  if local_.allowsEntid e && decide (p.next ≤ e) then p.setNext (e + 1) else .ok p

/-- tx_uploader.rs:59-86 `allocate_partition_map_for_entids`, one partition. -/
def bumpAll (local_ : Partition) : List Entid → Partition → Res Partition
  | [], p => .ok p
  | e :: r, p => (bump local_ p e).bind fun p' => bumpAll local_ r p'

/-- tx_uploader.rs:59-86 `allocate_partition_map_for_entids` (the three partitions do not affect
each other). -/
def allocateParts (es : List Entid) (local_ : Parts) : Res Parts :=
  (bumpAll local_.db es local_.db).bind fun d =>
  (bumpAll local_.user es local_.user).bind fun u =>
  (bumpAll local_.tx es local_.tx).bind fun t => .ok ⟨d, u, t⟩

/-- tx_uploader.rs:32-38 `TxUploader`, with the remote and the number of UUIDs made so far. -/
structure Uploader where
  tempUuids : AMap Entid Nat := []
  rolling : Option Nat := none
  remote : Remote
  made : Nat := 0
  deriving DecidableEq, Repr

/-- tx_uploader.rs:115-131: upload the chunks; the server's chunks and the chunk ids. -/
def putChunks (gen : Nat → Nat) : List TxPart → Nat → List (Nat × TxPart)
  | [], _ => []
  | d :: r, n => (gen n, d) :: putChunks gen r (n + 1)

/-- tx_uploader.rs:88-158 `TxReceiver::tx for TxUploader`.  `gen n` is the n-th `Uuid::new_v4()`;
`local_` are the `tolstoy_parts`. -/
def Uploader.tx (gen : Nat → Nat) (remoteHead : Nat) (local_ : Parts) (u : Uploader) (tx : Entid)
    (ds : List TxPart) : Res Uploader :=
  match ds with
  | [] => .panic
  | d :: r =>
    (allocateParts (ds.map (·.e)) local_).bind fun p =>
    let ds' := { d with partitions := some p } :: r
    let uuid := gen u.made
    let cs := putChunks gen ds' (u.made + 1)
    let parent := match u.rolling with | some h => h | none => remoteHead
    .ok { tempUuids := AMap.insert u.tempUuids tx uuid, rolling := some uuid,
          made := u.made + 1 + ds'.length,
          remote := { u.remote with chunks := u.remote.chunks ++ cs,
                                    txs := u.remote.txs ++ [⟨uuid, parent, cs.map (·.1)⟩] } }

/-! ### The transaction map -/

/-- The table `tolstoy_tu (tx PRIMARY KEY, uuid UNIQUE)` (tolstoy/src/schema.rs:26). -/
abbrev TxMap := List (Entid × Nat)

/-- `INSERT OR REPLACE` (tx_mapper.rs:31-32): rows that the new one conflicts with go. -/
def TxMap.set (m : TxMap) (tx : Entid) (uuid : Nat) : TxMap :=
  (m.filter fun p => decide (p.1 ≠ tx ∧ p.2 ≠ uuid)) ++ [(tx, uuid)]

/-- tx_mapper.rs:26-38 `set_lg_mappings` -/
def TxMap.setAll (m : TxMap) (l : List (Entid × Nat)) : TxMap :=
  l.foldl (fun m p => m.set p.1 p.2) m

/-- tx_mapper.rs:84-101 `get` -/
def TxMap.get (m : TxMap) (tx : Entid) : Res (Option Nat) :=
  match (m.filter fun p => decide (p.1 = tx)).map (·.2) with
  | [] => .ok none
  | [u] => .ok (some u)
  | _ => .err .other

/-- tx_mapper.rs:65-82 `get_tx_for_uuid` -/
def TxMap.getTx (m : TxMap) (uuid : Nat) : Res (Option Entid) :=
  match (m.filter fun p => decide (p.2 = uuid)).map (·.1) with
  | [] => .ok none
  | [t] => .ok (some t)
  | _ => .err .other

/-- tx_mapper.rs:47-63 `get_or_set_uuid_for_tx`, with the fresh UUID; the plain `INSERT` fails on a
conflict. -/
def TxMap.getOrSet (m : TxMap) (tx : Entid) (fresh : Nat) : Res (Nat × TxMap) :=
  (m.get tx).bind fun o => match o with
  | some u => .ok (u, m)
  | none =>
    if m.any fun p => decide (p.1 = tx ∨ p.2 = fresh) then .err .sqlConstraint
    else .ok (fresh, m ++ [(tx, fresh)])

/-! ### Fast-forwarding -/

/-- The local side: the store, `tolstoy_tu` and the known remote head (`tolstoy_metadata`). -/
structure Local where
  db : Db
  map : TxMap := []
  remoteHead : Nat := nil
  deriving DecidableEq, Repr

/-- metadata.rs:108-131 `root_and_head_tx`: the least and the greatest transaction of the main
timeline. -/
def rootAndHead (log : List LogRow) : Res (Entid × Entid) :=
  match selectRows log none with
  | [] => .err .other
  | l :: r => .ok (l.tx, match r.getLast? with | some x => x.tx | none => l.tx)

/-- syncer.rs:224-269 `fast_forward_remote`.  `tolstoy_parts` holds the bootstrap partitions
(tolstoy/src/schema.rs:37-45; nothing updates it).  The iteration order of the hash map of new UUIDs
does not matter: `setAll` of distinct keys and values. -/
def fastForwardRemote (gen : Nat → Nat) (l : Local) (fromTx : Option Entid) (r : Remote)
    (remoteHead : Nat) : Res (Local × Remote) :=
  (process l.db.store.log fromTx (Uploader.tx gen remoteHead Parts.bootstrap) { remote := r }).bind
    fun u => match u.rolling with
    | some h => .ok ({ l with map := l.map.setAll u.tempUuids, remoteHead := h },
        { u.remote with head := h })
    | none => .ok (l, u.remote)

/-- types.rs:62-66 `Tx`: a transaction downloaded. -/
structure Tx where
  uuid : Nat
  parts : List TxPart
  deriving DecidableEq, Repr

/-- remote_client.rs:186-211 `get_chunk` -/
def Remote.chunk (r : Remote) (id : Nat) : Res TxPart :=
  match r.chunks.find? fun c => decide (c.1 = id) with
  | some c => .ok c.2
  | none => .err .other

/-- remote_client.rs:243-246: the chunks of a transaction. -/
def Remote.parts (r : Remote) : List Nat → Res (List TxPart)
  | [] => .ok []
  | c :: cs => (r.chunk c).bind fun d => (r.parts cs).bind fun ds => .ok (d :: ds)

/-- remote_client.rs:237-254: the transactions, one after the other. -/
def Remote.download (r : Remote) : List RemoteTx → Res (List Tx)
  | [] => .ok []
  | x :: xs => (r.parts x.chunks).bind fun ds => (r.download xs).bind fun l => .ok (⟨x.uuid, ds⟩ :: l)

/-- remote_client.rs:232-257 `transactions_after`.  The server, which is not in the repository, is
taken to list the transactions in the order they were put. -/
def Remote.after (r : Remote) (uuid : Nat) : Res (List Tx) :=
  if uuid = nil then r.download r.txs
  else r.download (r.txs.dropWhile fun x => decide (x.uuid ≠ uuid)).tail

/-- syncer.rs:313-325 `rewind_tx_partition_by_one` -/
def rewind (p : Parts) : Res Parts :=
  (p.tx.setNext (p.tx.next - 1)).bind fun t => .ok { p with tx := t }

/-- syncer.rs:278-304 `remote_parts_to_builder`, one part; transaction/src/entity_builder.rs
`TermBuilder::add` and `retract` push an entity. -/
def remotePart (p : TxPart) : TxEntity TypedValue :=
  .addOrRetract (if p.added then .add else .retract)
    (if p.a = DB_TX_INSTANT then .txFunction transactionTx else .entid (.entid p.e))
    (.entid p.a) (.atom p.v)

/-- syncer.rs:333-358, one transaction of `fast_forward_local`: `none` is the early return of
`BadRemoteState`. -/
def applyRemote (db : Db) (now : Int) (tx : Tx) : Res (Option (Db × Entid)) :=
  match tx.parts with
  | [] => .panic
  | p :: _ => match p.partitions with
    | none => .ok none
    | some parts =>
      (rewind parts).bind fun parts' =>
      (transactEntities { db with parts := parts' } now (tx.parts.map remotePart)).bind fun (db', rep) =>
      .ok (some (db', rep.txId))

/-- syncer.rs:331-358, the loop; the database after it, the last transaction and its UUID, and
whether it was cut short. -/
def applyRemotes (now : Int) : List Tx → Db → Option (Entid × Nat) →
    Res (Db × Option (Entid × Nat) × Bool)
  | [], db, last => .ok (db, last, false)
  | tx :: r, db, last =>
    (applyRemote db now tx).bind fun o => match o with
    | none => .ok (db, last, true)
    | some (db', id) => applyRemotes now r db' (some (id, tx.uuid))

/-- syncer.rs:327-370 `fast_forward_local` -/
def fastForwardLocal (l : Local) (now : Int) (txs : List Tx) : Res (Local × Report) :=
  (applyRemotes now txs l.db none).bind fun (db', last, cut) =>
  if cut then .ok ({ l with db := db' }, .badRemoteState)
  else match last with
    | some (tx, uuid) => .ok ({ db := db', map := l.map.set tx uuid, remoteHead := uuid }, .localFastForward)
    | none => .ok ({ l with db := db' }, .localFastForward)

end Mentat.Sync
