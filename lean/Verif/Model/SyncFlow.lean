import Verif.Model.Merge
/- The whole of a sync: tolstoy/src/syncer.rs:685-860, bootstrap.rs, datoms.rs. -/
namespace Mentat.Sync

/-- datoms.rs:26-37 `e_lookup`: the entity of the first added datom with this keyword as value. -/
def eLookup (parts : List TxPart) (k : Keyword) : Option Entid :=
  (parts.find? fun p => decide (p.v = .keyword k) && p.added).map (·.e)

/-- datoms.rs:39-58 `ea_lookup` -/
def eaLookup (parts : List TxPart) (e a : Keyword) : Option TypedValue :=
  match eLookup parts e, eLookup parts a with
  | some e, some a => (parts.find? fun p => decide (p.e = e ∧ p.a = a) && p.added).map (·.v)
  | _, _ => none

/-- db/src/bootstrap.rs:36 -/
def CORE_SCHEMA_VERSION : Int := 1

/-- bootstrap.rs:40-59 `core_schema_version` -/
def coreSchemaVersion (tx : Tx) : Res Int :=
  match eaLookup tx.parts (kw "db.schema" "core") (kw "db.schema" "version") with
  | some (.long n) => .ok n
  | _ => .err .other

/-- syncer.rs:271-276 `local_tx_for_uuid` -/
def localTxForUuid (m : TxMap) (uuid : Nat) : Res Entid :=
  (m.getTx uuid).bind fun o => match o with
  | some t => .ok t
  | none => .err .other

/-- syncer.rs:685-770 `first_sync_against_non_empty`; `root` and `head` are the `local_metadata`.  The report
of `fast_forward_local` is dropped. -/
def firstSync (l : Local) (r : Remote) (now : Int) (root head : Entid) : Res (Local × Report) :=
  (r.after nil).bind fun incoming =>
  match incoming with
  | [] => .ok (l, .badRemoteState)
  | boot :: rest =>
    (coreSchemaVersion boot).bind fun version =>
    if version ≠ CORE_SCHEMA_VERSION then .ok (l, .incompatibleRemoteBootstrap)
    else
      let l' : Local := { l with map := l.map.set root boot.uuid, remoteHead := boot.uuid }
      match whatDo (if rest.isEmpty then .unchanged else .changed) (if root = head then .unchanged else .changed) with
      | .noOp => .ok (l', .merge false)
      | .populateRemote => .err .other
      | .remoteFastForward => .err .notYetImplemented
      | .localFastForward => (fastForwardLocal l' now rest).bind fun (l'', _) => .ok (l'', .merge false)
      | .combineChanges => (localTxs l'.db.store.log (some root)).bind fun ls => merge l' now rest ls

/-- syncer.rs:772-860 `sync`.  `ensure_current_version` (schema.rs:42-63) makes the tables if they are not
there: an empty map and the nil remote head.  The report of `fast_forward_local` is dropped. -/
def sync (gen : Nat → Nat) (l : Local) (r : Remote) (now : Int) : Res (Local × Remote × Report) :=
  (rootAndHead l.db.store.log).bind fun (root, head) =>
  (l.map.get head).bind fun mapped =>
  if l.remoteHead = nil ∧ r.head ≠ nil then
    (firstSync l r now root head).bind fun (l', rep) => .ok (l', r, rep)
  else match whatDo (.of l.remoteHead r.head) (.of mapped) with
    | .noOp => .ok (l, r, .noChanges)
    | .populateRemote =>
      (fastForwardRemote gen l none r r.head).bind fun (l', r') => .ok (l', r', .remoteFastForward)
    | .remoteFastForward =>
      (localTxForUuid l.map l.remoteHead).bind fun t =>
      (fastForwardRemote gen l (some t) r r.head).bind fun (l', r') => .ok (l', r', .remoteFastForward)
    | .localFastForward =>
      (r.after l.remoteHead).bind fun txs =>
      (fastForwardLocal l now txs).bind fun (l', _) => .ok (l', r, .localFastForward)
    | .combineChanges =>
      (localTxForUuid l.map l.remoteHead).bind fun t =>
      (localTxs l.db.store.log (some t)).bind fun ls =>
      (r.after l.remoteHead).bind fun txs =>
      (merge l now txs ls).bind fun (l', rep) => .ok (l', r, rep)

end Mentat.Sync
