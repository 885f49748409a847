import Verif.Model.Sync
import Verif.Model.Timelines
/- Merging diverged stores: tolstoy/src/syncer.rs:372-683. -/
namespace Mentat.Sync

/-- types.rs:38-42 `LocalTx` -/
structure LocalTx where
  tx : Entid
  parts : List TxPart
  deriving DecidableEq, Repr

/-- syncer.rs:185-200: the receiver `LocalTxSet` -/
def localTxs (log : List LogRow) (fromTx : Option Entid) : Res (List LocalTx) :=
  process log fromTx (fun acc tx ds => .ok (acc ++ [⟨tx, ds⟩])) []

/-- `format!("{}", part.e)`: the name of the tempid that stands for a local entity -/
def entityName (e : Entid) : Text := (toString e).toList

/-- syncer.rs:496-518 `entids_that_will_allocate` -/
def willAllocate (parts : List TxPart) (e : Entid) : Bool :=
  parts.any fun p => p.added && decide (p.a ≠ DB_TX_INSTANT) && decide (p.e = e)

/-- db/src/entids.rs:81-92 `is_a_schema_attribute` -/
def isSchemaAttribute (a : Entid) : Bool :=
  decide (a ∈ [DB_IDENT, DB_CARDINALITY, DB_FULLTEXT, DB_INDEX, DB_IS_COMPONENT, DB_UNIQUE, DB_VALUE_TYPE])

/-- syncer.rs:463-494, the two sets: entities that will not alter an installed attribute, and those
that might. -/
def classify (s : Schema) : List TxPart → List Entid → List Entid → Res (List Entid)
  | [], _, might => .ok might
  | p :: r, willNot, might =>
    if p.a = DB_IDENT then
      match p.v with
      | .keyword k =>
        if AMap.contains s.identMap k then classify s r willNot (p.e :: might)
        else classify s r (p.e :: willNot) might
      | _ => .panic
    else if isSchemaAttribute p.a && decide (p.e ∉ willNot) then classify s r willNot (p.e :: might)
    else classify s r willNot might

/-- syncer.rs:535-618, one datom: the entity it contributes to the builder, if any.  The query of
602-609 asks whether any datom has the attribute and the value. -/
def rebasePart (db : Db) (parts : List TxPart) (p : TxPart) : Res (Option (TxEntity TypedValue)) :=
  if p.a = DB_TX_INSTANT then .ok none
  else if willAllocate parts p.e then
    .ok (some (.addOrRetract (if p.added then .add else .retract) (.tempId (.external (entityName p.e)))
      (.entid p.a) (.atom p.v)))
  else if p.added then
    .ok (some (.addOrRetract .add (.entid (.entid p.e)) (.entid p.a) (.atom p.v)))
  else match db.schema.attr p.a with
    | none => .panic
    | some at_ =>
      if at_.unique.isNone then .ok none
      else if db.store.rows.any fun r => decide (r.a = p.a ∧ r.v = p.v) then
        .ok (some (.addOrRetract .retract (.lookupRef (.entid p.a) p.v) (.entid p.a) (.atom p.v)))
      else .ok none

/-- The entities made of all parts (tolstoy/src/syncer.rs:372-683). -/
def rebaseParts (db : Db) (parts : List TxPart) : List TxPart → Res (List (TxEntity TypedValue))
  | [] => .ok []
  | p :: r => (rebasePart db parts p).bind fun o => (rebaseParts db parts r).bind fun es =>
    .ok (o.toList ++ es)

/-- metadata.rs:166-175 `has_entity_assertions_in_tx` -/
def assertedIn (log : List LogRow) (e tx : Entid) : Bool :=
  log.any fun l => decide (l.timeline = 0 ∧ l.tx = tx ∧ l.e = e)

/-- metadata.rs:159-164 `is_tx_empty` -/
def isTxEmpty (log : List LogRow) (tx : Entid) : Bool :=
  !(log.any fun l => decide (l.timeline = 0 ∧ l.tx = tx ∧ l.e ≠ tx))

/-- syncer.rs:438-660, one local transaction on top of the incoming ones: the database and whether
something was transacted.  Rolling back to the savepoint restores the tables but not the metadata in
memory (transaction/src/lib.rs:314-318). -/
def rebaseOne (db : Db) (now : Int) (parts : List TxPart) : Res (Db × Bool) :=
  (classify db.schema parts [] []).bind fun might =>
  (rebaseParts db parts parts).bind fun es =>
  if es.isEmpty then .ok (db, false)
  else (transactEntities db now es).bind fun (db', rep) =>
    if might.any fun e => match AMap.get rep.tempids (entityName e) with
      | some n => assertedIn db'.store.log n rep.txId
      | none => false then .err .notYetImplemented
    else if isTxEmpty db'.store.log rep.txId then
      .ok ({ db' with store := db.store, views := db.views }, false)
    else .ok (db', true)

/-- The local transactions, one after the other (tolstoy/src/syncer.rs:372-683). -/
def rebaseAll (now : Int) : List LocalTx → Db → Bool → Res (Db × Bool)
  | [], db, clean => .ok (db, clean)
  | t :: r, db, clean => (rebaseOne db now t.parts).bind fun (db', changed) =>
    rebaseAll now r db' (clean && !changed)

/-- syncer.rs:404-421, preparing the builders: is some partition map missing? -/
def missingParts : List Tx → Res Bool
  | [] => .ok false
  | tx :: r => match tx.parts with
    | [] => .panic
    | p :: _ => if p.partitions.isNone then .ok true else missingParts r

/-- syncer.rs:372-683 `merge` -/
def merge (l : Local) (now : Int) (incoming : List Tx) (locals : List LocalTx) : Res (Local × Report) :=
  match sortBy (·.tx) locals with
  | [] => .panic
  | t :: r =>
    (moveFromMain l.db now t.tx (t.tx - 1)).bind fun db0 =>
    (missingParts incoming).bind fun bad =>
    if bad then .ok ({ l with db := db0 }, .badRemoteState)
    else (applyRemotes now incoming db0 none).bind fun (db1, last, _) =>
      (rebaseAll now (t :: r) db1 true).bind fun (db2, clean) =>
      let l' := { l with db := db2 }
      .ok (match last with
        | some (tx, uuid) => { l' with map := l.map.set tx uuid, remoteHead := uuid }
        | none => l', .merge (!clean))

end Mentat.Sync
