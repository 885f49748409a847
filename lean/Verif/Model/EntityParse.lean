import Verif.Model.QueryParse
import Verif.Model.Entities
/-
The text of transactions: the entity rules of the PEG grammar (edn/src/lib.rs:240-320).

As in Model/EdnParse, spans are not modelled.
-/
namespace Mentat
namespace EParse
open EdnParse QParse

/-! ### Map notation: a `BTreeMap` -/

/-- The derived order of `EntidOrIdent` (entities.rs:54-58): entids first; keywords by `Ord for
NamespaceableName` (namespaceable_name.rs:176-180), namespace and then name. -/
def keyCmp : EntidOrIdent → EntidOrIdent → Ordering
  | .entid a, .entid b => intCmp a b
  | .entid _, .ident _ => .lt
  | .ident _, .entid _ => .gt
  | .ident a, .ident b => pairCmp textCmp textCmp (a.ns, a.name) (b.ns, b.name)

/-- `BTreeMap::insert` on the entries in order. -/
def mapInsert (k : EntidOrIdent) (v : V) : List (EntidOrIdent × V) → List (EntidOrIdent × V)
  | [] => [(k, v)]
  | (k', v') :: r => match keyCmp k k' with
    | .lt => (k, v) :: (k', v') :: r
    | .eq => (k', v) :: r
    | .gt => (k', v') :: mapInsert k v r

/-- `collect` into a `BTreeMap`. -/
def mapOf (l : List (EntidOrIdent × V)) : List (EntidOrIdent × V) := l.foldl (fun m p => mapInsert p.1 p.2 m) []

/-! ### The rules -/

/-- lib.rs:242-244 `op` -/
def op (s : Text) : PRes Op :=
  EdnParse.PRes.orElse (expect ":db/add" s fun r => .ok .add r) fun _ => expect ":db/retract" s fun r => .ok .retract r

/-- The integers of lib.rs:274 and 279. -/
def rawInt (s : Text) : PRes Edn :=
  EdnParse.PRes.orElse (basedinteger s) fun _ => EdnParse.PRes.orElse (hexinteger s) fun _ =>
  EdnParse.PRes.orElse (octalinteger s) fun _ => EdnParse.integer s

/-- lib.rs:274, 279: an integer as an entid. -/
def entidOf : Edn → Option EntidOrIdent
  | .integer n => some (.entid n)
  | _ => none

/-- The action of lib.rs:270-271: backward keywords only. -/
def bwdOf (k : NName) : Option NName := if k.isBackward then some k else none

/-- lib.rs:273-276 `entid` -/
def entid (s : Text) : PRes EntidOrIdent :=
  EdnParse.PRes.orElse (accept (rawInt s) entidOf) fun _ => bind (rawNsKeyword s) fun k r => .ok (.ident k.keyword) r

/-- lib.rs:278-281 `forward_entid` -/
def forwardEntid (s : Text) : PRes EntidOrIdent :=
  EdnParse.PRes.orElse (accept (rawInt s) entidOf) fun _ =>
  bind (accept (rawNsKeyword s) fwdOf) fun k r => .ok (.ident k.keyword) r

/-- lib.rs:283-285 `backward_entid` -/
def backwardEntid (s : Text) : PRes EntidOrIdent :=
  bind (accept (rawNsKeyword s) bwdOf) fun k r => match k.toReversed with
    | .ok k' => .ok (.ident k'.keyword) r
    | _ => .panic

/-- lib.rs:287-289 `lookup_ref` -/
def lookupRef (s : Text) : PRes (EntidOrIdent × Edn) :=
  expect "(" s fun r => expect "lookup-ref" (skip r) fun r => bind (entid (skip r)) fun a r =>
  bind (val (skip r)) fun v r => expect ")" (skip r) fun r => .ok (a, v) r

/-- lib.rs:291-292 `tx_function` -/
def txFunction (s : Text) : PRes Text :=
  expect "(" s fun r => match symbolName (skip r) with
    | some (n, r) => expect ")" (skip r) fun r => .ok n r
    | none => .fail

/-- The string of a text value. -/
def textOf : Edn → Option Text
  | .text s => some s
  | _ => none

/-- lib.rs:294-298 `entity_place` -/
def entityPlace (s : Text) : PRes (EntityPlace Edn) :=
  EdnParse.PRes.orElse (bind (accept (EdnParse.text s) textOf) fun t r => .ok (.tempId (.external t)) r) fun _ =>
  EdnParse.PRes.orElse (bind (entid s) fun e r => .ok (.entid e) r) fun _ =>
  EdnParse.PRes.orElse (bind (lookupRef s) fun p r => .ok (.lookupRef p.1 p.2) r) fun _ =>
  bind (txFunction s) fun n r => .ok (.txFunction n) r

/-- types.rs:473-495 `is_atom` -/
def atomOf : Edn → Option Edn
  | .vector _ => none
  | .list _ => none
  | .set _ => none
  | .map _ => none
  | v => some v

/-- lib.rs:300-301 `value_place_pair` -/
def pair (vp : Text → PRes (ValuePlace Edn)) (s : Text) : PRes (EntidOrIdent × ValuePlace Edn) :=
  bind (entid s) fun k r => bind (vp (skip r)) fun v r => .ok (k, v) r

/-- lib.rs:303-304 `map_notation` -/
def mapNotation (vp : Text → PRes (ValuePlace Edn)) (s : Text) : PRes (MapNotation Edn) :=
  expect "{" s fun r => bind (many (pair vp) (skip r)) fun kvs r => expect "}" (skip r) fun r => .ok (mapOf kvs) r

/-- lib.rs:306-311 `value_place` -/
def placeN : Nat → Text → PRes (ValuePlace Edn)
  | 0, _ => .stuck
  | n + 1, s =>
    EdnParse.PRes.orElse (bind (lookupRef (skip s)) fun p r => .ok (.lookupRef p.1 p.2) (skip r)) fun _ =>
    EdnParse.PRes.orElse (bind (txFunction (skip s)) fun f r => .ok (.txFunction f) (skip r)) fun _ =>
    EdnParse.PRes.orElse (expect "[" (skip s) fun r => bind (many (placeN n) (skip r)) fun vs r =>
      expect "]" (skip r) fun r => .ok (.vector vs) (skip r)) fun _ =>
    EdnParse.PRes.orElse (bind (mapNotation (placeN n) (skip s)) fun m r => .ok (.map m) (skip r)) fun _ =>
    bind (accept (val (skip s)) atomOf) fun v r => .ok (.atom v) (skip r)

/-- lib.rs:306-311 `value_place` -/
def place (s : Text) : PRes (ValuePlace Edn) := placeN (s.length + 1) s

/-- lib.rs:313-317 `entity` -/
def entity (s : Text) : PRes (TxEntity Edn) :=
  EdnParse.PRes.orElse (expect "[" (skip s) fun r => bind (op (skip r)) fun o r =>
    bind (entityPlace (skip r)) fun e r => bind (forwardEntid (skip r)) fun a r =>
    bind (place (skip r)) fun v r => expect "]" (skip r) fun r => .ok (.addOrRetract o e a v) (skip r)) fun _ =>
  EdnParse.PRes.orElse (expect "[" (skip s) fun r => bind (op (skip r)) fun o r =>
    bind (place (skip r)) fun v r => bind (backwardEntid (skip r)) fun a r =>
    bind (entityPlace (skip r)) fun e r => expect "]" (skip r) fun r => .ok (.addOrRetract o e a v) (skip r)) fun _ =>
  bind (mapNotation (place) (skip s)) fun m r => .ok (.map m) (skip r)

/-- lib.rs:319-320 `entities` -/
def entities (s : Text) : PRes (List (TxEntity Edn)) :=
  expect "[" (skip s) fun r => bind (many (entity) (skip r)) fun es r => expect "]" (skip r) fun r => .ok es (skip r)

/-- `parse::entities`: the whole input. -/
def parseEntities (s : Text) : PRes (List (TxEntity Edn)) :=
  match entities s with
  | .ok es [] => .ok es []
  | .ok _ _ => .fail
  | r => r

/-- transaction/src/lib.rs:219-225 `InProgress::transact`: the text is parsed and its entities transacted.  An error of the
parser is an error of the transaction. -/
def transactText (db : Db) (now : Int) (s : Text) : Res (Db × Report) :=
  match parseEntities s with
  | .ok es _ => transactEntities db now es
  | .fail => .err .other
  | _ => .panic

end EParse
end Mentat
