import Verif.Model.SyncFlow
/- `Store::sync` (src/store.rs:64-89), the requests an upload makes (tolstoy/src/remote_client.rs:97-123 and 219-287) and syncs of
which others see the server in between. -/
namespace Mentat.Sync

/-- tolstoy/src/syncer.rs:70-73 `SyncResult` -/
inductive SyncResult where
  | atomic (r : Report)
  | nonAtomic (rs : List Report)
  deriving DecidableEq, Repr

/-- src/store.rs:84-88 -/
def syncResult : List Report → SyncResult
  | [r] => .atomic r
  | rs => .nonAtomic rs

/-- src/store.rs:64-89 `Store::sync`, with fuel for the `loop`: `none` if it is not over then.  Each round is a transaction of its
own, committed before the next begins (line 70), so an error leaves what the rounds before it did; what a failed round sent to the
server is taken to be nothing.  `others n` is what other clients do to the server before round `n`. -/
def storeSync (gen : Nat → Nat → Nat) (now : Nat → Int) (others : Nat → Remote → Remote) : Nat → Nat → Local → Remote →
    List Report → Option (Local × Remote × Res SyncResult)
  | 0, _, _, _, _ => none
  | fuel + 1, n, l, r, reports =>
    match sync (gen n) l (others n r) (now n) with
    | .ok (l', r', .merge true) => storeSync gen now others fuel (n + 1) l' r' (reports ++ [.merge true])
    | .ok (l', r', rep) => some (l', r', .ok (syncResult (reports ++ [rep])))
    | .err e => some (l, others n r, .err e)
    | .panic => some (l, others n r, .panic)

/-- The `PUT`s of remote_client.rs: 259-279 `put_transaction`, 281-287 `put_chunk`, 219-227 `set_head`. -/
inductive Put where
  | chunk (id : Nat) (p : TxPart)
  | tx (x : RemoteTx)
  | head (h : Nat)
  deriving DecidableEq, Repr

/-- A server that does what it is asked to. -/
def Remote.put (r : Remote) : Put → Remote
  | .chunk id p => { r with chunks := r.chunks ++ [(id, p)] }
  | .tx x => { r with txs := r.txs ++ [x] }
  | .head h => { r with head := h }

/-- What a server makes of a request, and whether it answers with the status expected. -/
abbrev Serve := Remote → Put → Remote × Bool

/-- remote_client.rs:97-123 `put`: an unexpected status is only logged (line 118). -/
def clientPut (serve : Serve) (r : Remote) (p : Put) : Res Remote :=
  match serve r p with
  | (r', _) => .ok r'

/-- The `?` after each request of tx_uploader.rs:115-150. -/
def clientPuts (serve : Serve) : List Put → Remote → Res Remote
  | [], r => .ok r
  | p :: ps, r => (clientPut serve r p).bind fun r' => clientPuts serve ps r'

/-- tx_uploader.rs:88-158, as `Uploader.tx`, by requests. -/
def uploadTx (serve : Serve) (gen : Nat → Nat) (remoteHead : Nat) (local_ : Parts) (u : Uploader) (tx : Entid)
    (ds : List TxPart) : Res Uploader :=
  match ds with
  | [] => .panic
  | d :: r =>
    (allocateParts (ds.map (·.e)) local_).bind fun p =>
    let ds' := { d with partitions := some p } :: r
    let uuid := gen u.made
    let cs := putChunks gen ds' (u.made + 1)
    let parent := match u.rolling with | some h => h | none => remoteHead
    (clientPuts serve (cs.map (fun c => .chunk c.1 c.2) ++ [.tx ⟨uuid, parent, cs.map (·.1)⟩]) u.remote).bind fun remote =>
    .ok { tempUuids := AMap.insert u.tempUuids tx uuid, rolling := some uuid, made := u.made + 1 + ds'.length, remote := remote }

/-- syncer.rs:224-269 `fast_forward_remote`, by requests. -/
def uploadVia (serve : Serve) (gen : Nat → Nat) (l : Local) (fromTx : Option Entid) (r : Remote) (remoteHead : Nat) :
    Res (Local × Remote) :=
  (process l.db.store.log fromTx (uploadTx serve gen remoteHead Parts.bootstrap) { remote := r }).bind
    fun u => match u.rolling with
    | some h => (clientPut serve u.remote (.head h)).bind fun r' =>
        .ok ({ l with map := l.map.setAll u.tempUuids, remoteHead := h }, r')
    | none => .ok (l, u.remote)

/-- syncer.rs:772-860 `sync` where the server's head was `seen` (line 782) and the server has changed to `r` before anything else
is asked of it. -/
def syncSeen (gen : Nat → Nat) (l : Local) (seen : Nat) (r : Remote) (now : Int) : Res (Local × Remote × Report) :=
  (rootAndHead l.db.store.log).bind fun (root, head) =>
  (l.map.get head).bind fun mapped =>
  if l.remoteHead = nil ∧ seen ≠ nil then
    (firstSync l r now root head).bind fun (l', rep) => .ok (l', r, rep)
  else match whatDo (.of l.remoteHead seen) (.of mapped) with
    | .noOp => .ok (l, r, .noChanges)
    | .populateRemote =>
      (fastForwardRemote gen l none r seen).bind fun (l', r') => .ok (l', r', .remoteFastForward)
    | .remoteFastForward =>
      (localTxForUuid l.map l.remoteHead).bind fun t =>
      (fastForwardRemote gen l (some t) r seen).bind fun (l', r') => .ok (l', r', .remoteFastForward)
    | .localFastForward =>
      (r.after l.remoteHead).bind fun txs =>
      (fastForwardLocal l now txs).bind fun (l', _) => .ok (l', r, .localFastForward)
    | .combineChanges =>
      (localTxForUuid l.map l.remoteHead).bind fun t =>
      (localTxs l.db.store.log (some t)).bind fun ls =>
      (r.after l.remoteHead).bind fun txs =>
      (merge l now txs ls).bind fun (l', rep) => .ok (l', r, rep)

end Mentat.Sync
