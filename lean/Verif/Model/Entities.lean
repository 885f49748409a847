import Verif.Model.Transact
import Verif.Model.Edn
/-
Pipeline stages 1 and 2 of the transactor: transaction entities to terms.
edn/src/entities.rs, db/src/internal_types.rs:31-209, db/src/tx.rs:128-150, 232-720,
db/src/schema.rs:344-388, db/src/db.rs:446-458.
-/
namespace Mentat

/-- edn/src/entities.rs:59-62 `EntidOrIdent` -/
inductive EntidOrIdent where
  | entid (e : Entid)
  | ident (k : Keyword)
  deriving DecidableEq, Repr

/-- symbols.rs:263-269 `Keyword::unreversed` (see `NName.unreversed`): `:ns/_name` gives
`:ns/name`; a name that is just `_` makes the constructor panic. -/
def Keyword.unreversed (k : Keyword) : Res (Option Keyword) :=
  match k.name with
  | '_' :: r => if r = [] then .panic else .ok (some ⟨k.ns, r⟩)
  | _ => .ok none

/-- entities.rs:73-79 `EntidOrIdent::unreversed` -/
def EntidOrIdent.unreversed : EntidOrIdent → Res (Option EntidOrIdent)
  | .entid _ => .ok none
  | .ident k => match k.unreversed with
    | .ok (some k') => .ok (some (.ident k'))
    | .ok none => .ok none
    | .err e => .err e
    | .panic => .panic

/-- entities.rs:176-181 `EntityPlace`; `LookupRef` (82-87) is its attribute and value,
`TxFunction` (102-104) its name. -/
inductive EntityPlace (V : Type) where
  | entid (e : EntidOrIdent)
  | tempId (t : TempId)
  | lookupRef (a : EntidOrIdent) (v : V)
  | txFunction (op : Text)
  deriving DecidableEq, Repr

/-- entities.rs:108-121 `ValuePlace`.  A map notation (106), which is a `BTreeMap`, is the list of
its entries in order. -/
inductive ValuePlace (V : Type) where
  | entid (e : EntidOrIdent)
  | tempId (t : TempId)
  | lookupRef (a : EntidOrIdent) (v : V)
  | txFunction (op : Text)
  | vector (vs : List (ValuePlace V))
  | atom (v : V)
  | map (m : List (EntidOrIdent × ValuePlace V))

/-- entities.rs:110 `MapNotation` -/
abbrev MapNotation (V : Type) := List (EntidOrIdent × ValuePlace V)

/-- entities.rs:229-241 `Entity` -/
inductive TxEntity (V : Type) where
  | addOrRetract (op : Op) (e : EntityPlace V) (a : EntidOrIdent) (v : ValuePlace V)
  | map (m : MapNotation V)

/-- db/src/types.rs `trait TransactableValue` -/
class TransactableValue (V : Type) where
  intoTypedValue : Schema → V → ValueType → Res TypedValue
  intoEntityPlace : V → Res (EntityPlace V)
  asTempid : V → Option TempId

open TransactableValue

/-! ### Values -/

/-- The keyword held by an EDN keyword (`Keyword.nname` is the inverse). -/
def NName.keyword (n : NName) : Keyword := ⟨n.parts.1, n.parts.2⟩

/-- db.rs:446-458 `from_edn_value`.  Simplifications: an instant is truncated to microseconds here
rather than when it is stored, and NaN and infinities, which typed values of the model lack, are
refused. -/
def TypedValue.fromEdn : Edn → Option TypedValue
  | .boolean b => some (.boolean b)
  | .instant t => some (.instant t.toMicros)
  | .integer n => some (.long n)
  | .uuid u => some (.uuid u)
  | .float (.finite d) => some (.double d)
  | .text s => some (.string s)
  | .keyword k => some (.keyword k.keyword)
  | _ => none

/-- schema.rs:346-388 `to_typed_value` -/
def Schema.toTypedValue (s : Schema) (x : Edn) (vt : ValueType) : Res TypedValue :=
  match TypedValue.fromEdn x with
  | none => .err .badValuePair
  | some v =>
    match vt, v with
    | .boolean, .boolean b => .ok (.boolean b)
    | .long, .long n => .ok (.long n)
    | .double, .double d => .ok (.double d)
    | .string, .string t => .ok (.string t)
    | .uuid, .uuid u => .ok (.uuid u)
    | .instant, .instant i => .ok (.instant i)
    | .keyword, .keyword k => .ok (.keyword k)
    | .ref, .long n => .ok (.ref n)
    | .ref, .keyword k => (s.requireEntid k).bind fun e => .ok (.ref e)
    | _, _ => .err .badValuePair

/-- The name of the `lookup-ref` form. -/
def lookupRefName : Text := "lookup-ref".toList

/-- internal_types.rs:68-72: the attribute of a `(lookup-ref a v)` must be an entid or an ident.
The code converts it with `into_entity_place` and refuses anything but these two (a list is refused
either way). -/
def Edn.attributePlace : Edn → Res EntidOrIdent
  | .integer n => .ok (.entid n)
  | .keyword k => if k.isNamespaced then .ok (.ident k.keyword) else .err .inputError
  | _ => .err .inputError

/-- internal_types.rs:36-85 `into_entity_place` for EDN values -/
def Edn.intoEntityPlace : Edn → Res (EntityPlace Edn)
  | .integer n => .ok (.entid (.entid n))
  | .keyword k => if k.isNamespaced then .ok (.entid (.ident k.keyword)) else .err .inputError
  | .text s => .ok (.tempId (.external s))
  | .list [.plainSymbol op] => .ok (.txFunction op)
  | .list [.plainSymbol op, a, v] =>
    if op = lookupRefName then a.attributePlace.bind fun a' => .ok (.lookupRef a' v)
    else .err .inputError
  | _ => .err .inputError

/-- internal_types.rs:84-86 `as_tempid` for EDN values -/
def Edn.asTempid : Edn → Option TempId
  | .text s => some (.external s)
  | _ => none

instance : TransactableValue Edn where
  intoTypedValue := Schema.toTypedValue
  intoEntityPlace := Edn.intoEntityPlace
  asTempid := Edn.asTempid

/-- internal_types.rs:92-125 `impl TransactableValue for TypedValue` -/
instance : TransactableValue TypedValue where
  intoTypedValue := fun _ v vt => if v.valueType = vt then .ok v else .err .badValuePair
  intoEntityPlace := fun v => match v with
    | .ref x => .ok (.entid (.entid x))
    | .keyword k => .ok (.entid (.ident k))
    | .string s => .ok (.tempId (.external s))
    | _ => .err .inputError
  asTempid := fun v => match v with
    | .string s => some (.external s)
    | _ => none

/-! ### Stage 1 -/

/-- internal_types.rs:141-144 `LookupRefOrTempId` -/
inductive LookupRefOrTempId where
  | lookupRef (a : Entid) (v : TypedValue)
  | tempId (t : TempId)
  deriving DecidableEq, Repr

/-- internal_types.rs:146-147 `TermWithTempIdsAndLookupRefs` -/
abbrev LTerm := Term (Sum Entid LookupRefOrTempId) (Sum TypedValue LookupRefOrTempId)

/-- What stage 1 reads: the schema, the partition map and the transaction's id (the constant part
of tx.rs:249-256 `InProcess`). -/
structure TxEnv where
  schema : Schema
  parts : Parts
  txId : Entid

/-- tx.rs:249-256 `InProcess` and the terms made so far (tx.rs:442).  The `InternSet`s are lists
without repetition; interned handles are the values themselves (see C64). -/
structure Stage1 where
  count : Nat := 0
  tempIds : List TempId := []
  lookupRefs : List (Entid × TypedValue) := []
  terms : List LTerm := []
  deriving DecidableEq, Repr

/-- edn/src/intern_set.rs:83-90 `intern` -/
def internIn {α : Type} [DecidableEq α] (l : List α) (x : α) : List α :=
  if x ∈ l then l else l ++ [x]

/-- A tempid among those seen (edn/src/intern_set.rs:83-90 `intern`). -/
def Stage1.internTempId (s : Stage1) (t : TempId) : Stage1 :=
  { s with tempIds := internIn s.tempIds t }

/-- A term at the end of `terms` (tx.rs:471, 608, 644). -/
def Stage1.push (s : Stage1) (t : LTerm) : Stage1 := { s with terms := s.terms ++ [t] }

/-- The name of the only transaction function, tx.rs:341. -/
def transactionTx : Text := "transaction-tx".toList

/-- tx.rs:352-358 `entity_a_into_term_a` -/
def TxEnv.attribute (env : TxEnv) : EntidOrIdent → Res Entid
  | .entid a => .ok a
  | .ident k => env.schema.requireEntid k

section
variable {V : Type} [TransactableValue V]

/-- tx.rs:285-309 `intern_lookup_ref` -/
def TxEnv.lookupRef (env : TxEnv) (s : Stage1) (a : EntidOrIdent) (v : V) :
    Res (LookupRefOrTempId × Stage1) :=
  (env.attribute a).bind fun a' =>
  (env.schema.requireAttr a').bind fun at_ =>
  (intoTypedValue env.schema v at_.valueType).bind fun v' =>
  if at_.unique = none then .err .notYetImplemented
  else .ok (.lookupRef a' v', { s with lookupRefs := internIn s.lookupRefs (a', v') })

/-- tx.rs:341-347, 412-417, 520-526: `(transaction-tx)`. -/
def TxEnv.txFunction (env : TxEnv) (op : Text) : Res Entid :=
  if op = transactionTx then .ok env.txId else .err .notYetImplemented

/-- tx.rs:318-350 `entity_e_into_term_e` (with 271-283) -/
def TxEnv.termE (env : TxEnv) (s : Stage1) :
    EntityPlace V → Res (Sum Entid LookupRefOrTempId × Stage1)
  | .entid (.entid e) =>
    if env.parts.containsEntid e then .ok (.inl e, s) else .err .unallocatedEntid
  | .entid (.ident k) => (env.schema.requireEntid k).bind fun e => .ok (.inl e, s)
  | .tempId t => .ok (.inr (.tempId t), s.internTempId t)
  | .lookupRef a v => (env.lookupRef s a v).bind fun (r, s') => .ok (.inr r, s')
  | .txFunction op => (env.txFunction op).bind fun e => .ok (.inl e, s)

/-- `Either::map_left(|ke| TypedValue::Ref(ke.0))` -/
def refLeft : Sum Entid LookupRefOrTempId → Sum TypedValue LookupRefOrTempId
  | .inl e => .inl (.ref e)
  | .inr r => .inr r

/-- tx.rs:360-366 `entity_e_into_term_v` -/
def TxEnv.termVOfE (env : TxEnv) (s : Stage1) (x : EntityPlace V) :
    Res (Sum TypedValue LookupRefOrTempId × Stage1) :=
  (env.termE s x).bind fun (r, s') => .ok (refLeft r, s')

/-- tx.rs:368-428 `entity_v_into_term_e`, given the unreversed attribute (the caller has it; for a
forward attribute the code returns an error at 374, which no caller meets). -/
def TxEnv.termEOfV (env : TxEnv) (s : Stage1) (x : ValuePlace V) (forwardA : EntidOrIdent) :
    Res (Sum Entid LookupRefOrTempId × Stage1) :=
  (env.attribute forwardA).bind fun a =>
  (env.schema.requireAttr a).bind fun at_ =>
  if at_.valueType ≠ .ref then .err .notYetImplemented
  else match x with
    | .atom v => match asTempid v with
      | some t => .ok (.inr (.tempId t), s.internTempId t)
      | none => (intoTypedValue env.schema v .ref).bind fun v' => match v' with
        | .ref e => .ok (.inl e, s)
        | _ => .err .notYetImplemented
    | .entid e => (env.attribute e).bind fun e' => .ok (.inl e', s)
    | .tempId t => .ok (.inr (.tempId t), s.internTempId t)
    | .lookupRef a v => (env.lookupRef s a v).bind fun (r, s') => .ok (.inr r, s')
    | .txFunction op => (env.txFunction op).bind fun e => .ok (.inl e, s)
    | .vector _ => .err .notYetImplemented
    | .map _ => .err .notYetImplemented

/-- tx.rs:467-476 and 594-606: the term of a reversed attribute; always an addition. -/
def TxEnv.reversedTerm (env : TxEnv) (s : Stage1) (e : EntityPlace V) (forwardA : EntidOrIdent)
    (v : ValuePlace V) : Res Stage1 :=
  (env.termEOfV s v forwardA).bind fun (e', s1) =>
  (env.attribute forwardA).bind fun a' =>
  (env.termVOfE s1 e).bind fun (v', s2) =>
  .ok (s2.push ⟨.add, e', a', v'⟩)

/-- `:db/id` -/
def dbIdKey : EntidOrIdent := .ident ⟨"db".toList, "id".toList⟩

/-- The entry of a map under a key: `BTreeMap::get`. -/
def MapNotation.get (m : MapNotation V) (k : EntidOrIdent) : Option (ValuePlace V) :=
  match m with
  | [] => none
  | (k', v) :: r => if k' = k then some v else MapNotation.get r k

/-- The other entries. -/
def MapNotation.remove (m : MapNotation V) (k : EntidOrIdent) : MapNotation V :=
  m.filter fun p => decide (p.1 ≠ k)

/-- tx.rs:134-143: a value as the place of `:db/id`. -/
def ValuePlace.dbId : ValuePlace V → Res (EntityPlace V)
  | .entid e => .ok (.entid e)
  | .lookupRef a v => .ok (.lookupRef a v)
  | .tempId t => .ok (.tempId t)
  | .txFunction op => .ok (.txFunction op)
  | .atom v => intoEntityPlace v
  | .vector _ => .err .inputError
  | .map _ => .err .inputError

/-- tx.rs:128-150 `remove_db_id` -/
def removeDbId (m : MapNotation V) : Res (Option (EntityPlace V) × MapNotation V) :=
  match m.get dbIdKey with
  | none => .ok (none, m.remove dbIdKey)
  | some v => v.dbId.bind fun e => .ok (some e, m.remove dbIdKey)

/-- tx.rs:311-316 `allocate_mentat_id`, where no `:db/id` is given. -/
def Stage1.placeOr (s : Stage1) : Option (EntityPlace V) → EntityPlace V × Stage1
  | some e => (e, s)
  | none => (.tempId (.internal (s.count + 1)), { s with count := s.count + 1 })

/-- tx.rs:583-630, the loop over the entries of a nested map.  Returns the state, the entities
pushed to the front of the deque (the last pushed first) and `dangling`. -/
def TxEnv.nested (env : TxEnv) (dbId : EntityPlace V) :
    MapNotation V → Stage1 → List (TxEntity V) → Bool → Res (Stage1 × List (TxEntity V) × Bool)
  | [], s, front, dangling => .ok (s, front, dangling)
  | (ia, iv) :: r, s, front, dangling =>
    ia.unreversed.bind fun u => match u with
    | some fa => (env.reversedTerm s dbId fa iv).bind fun s' => env.nested dbId r s' front false
    | none =>
      (env.attribute ia).bind fun a =>
      (env.schema.requireAttr a).bind fun at_ =>
      env.nested dbId r s (.addOrRetract .add dbId (.entid a) iv :: front)
        (dangling && !decide (at_.unique = some .identity))

/-- tx.rs:637-638: the entity and the term. -/
def TxEnv.finish (env : TxEnv) (s : Stage1) (op : Op) (e : EntityPlace V) (a : Entid)
    (v : Sum TypedValue LookupRefOrTempId) : Res Stage1 :=
  (env.termE s e).bind fun (e', s') => .ok (s'.push ⟨op, e', a, v⟩)

/-- tx.rs:446-642, one turn of the loop: the state and the entities pushed to the front. -/
def TxEnv.step (env : TxEnv) (s : Stage1) : TxEntity V → Res (Stage1 × List (TxEntity V))
  | .map m =>
    (removeDbId m).bind fun (id, m') =>
    let p := s.placeOr id
    .ok (p.2, m'.foldl (fun front x => .addOrRetract .add p.1 x.1 x.2 :: front) [])
  | .addOrRetract op e a v =>
    a.unreversed.bind fun u => match u with
    | some fa => (env.reversedTerm s e fa v).bind fun s' => .ok (s', [])
    | none =>
      (env.attribute a).bind fun a' =>
      (env.schema.requireAttr a').bind fun at_ =>
      match v with
      | .atom v =>
        match if at_.valueType = .ref then asTempid v else none with
        | some t => (env.finish (s.internTempId t) op e a' (.inr (.tempId t))).bind fun s' => .ok (s', [])
        | none => (intoTypedValue env.schema v at_.valueType).bind fun v' =>
            (env.finish s op e a' (.inl v')).bind fun s' => .ok (s', [])
      | .entid x => (env.attribute x).bind fun x' =>
          (env.finish s op e a' (.inl (.ref x'))).bind fun s' => .ok (s', [])
      | .tempId t => (env.finish (s.internTempId t) op e a' (.inr (.tempId t))).bind fun s' => .ok (s', [])
      | .lookupRef la lv =>
        if at_.valueType ≠ .ref then .err .notYetImplemented
        else (env.lookupRef s la lv).bind fun (r, s1) =>
          (env.finish s1 op e a' (.inr r)).bind fun s' => .ok (s', [])
      | .txFunction f => (env.txFunction f).bind fun x =>
          if at_.valueType ≠ .ref then .err .notYetImplemented
          else (env.finish s op e a' (.inl (.ref x))).bind fun s' => .ok (s', [])
      | .vector vs =>
        if at_.multival = false then .err .notYetImplemented
        else .ok (s, vs.foldl (fun front x => .addOrRetract op e (.entid a') x :: front) [])
      | .map m =>
        if op ≠ .add then .err .notYetImplemented
        else if at_.valueType ≠ .ref then .err .notYetImplemented
        else (removeDbId m).bind fun (id, m') =>
          let p := s.placeOr id
          (env.nested p.1 m' p.2 [] (id.isNone && !at_.component)).bind fun (s1, front, dangling) =>
          if dangling then .err .notYetImplemented
          else (env.termVOfE s1 p.1).bind fun (v', s2) =>
            (env.finish s2 op e a' v').bind fun s' => .ok (s', front)

mutual
/-- How many entities a value can explode into. -/
def ValuePlace.size : ValuePlace V → Nat
  | .vector vs => sizeList vs + 1
  | .map m => sizeMap m + 1
  | _ => 1
/-- The sum of the sizes. -/
def ValuePlace.sizeList : List (ValuePlace V) → Nat
  | [] => 0
  | x :: r => x.size + sizeList r
/-- The sum of the sizes of the values. -/
def ValuePlace.sizeMap : List (EntidOrIdent × ValuePlace V) → Nat
  | [] => 0
  | x :: r => sizePair x + sizeMap r
/-- The size of the value. -/
def ValuePlace.sizePair : EntidOrIdent × ValuePlace V → Nat
  | (_, v) => v.size
end

/-- How many entities an entity can explode into. -/
def TxEntity.size : TxEntity V → Nat
  | .addOrRetract _ _ _ v => v.size
  | .map m => ValuePlace.sizeMap m + 1

/-- The sum of the sizes. -/
def sizeAll (es : List (TxEntity V)) : Nat := (es.map TxEntity.size).sum

/-- tx.rs:444-644, the loop over the deque.  The fuel, `sizeAll` of the entities, always suffices
(`stage1_unfold`). -/
def TxEnv.loop (env : TxEnv) : Nat → List (TxEntity V) → Stage1 → Res Stage1
  | _, [], s => .ok s
  | 0, _ :: _, _ => .err .other
  | n + 1, x :: r, s => (env.step s x).bind fun (s', front) => env.loop n (front ++ r) s'

/-- tx.rs:238-646 `entities_into_terms_with_temp_ids_and_lookup_refs` -/
def TxEnv.stage1 (env : TxEnv) (es : List (TxEntity V)) : Res Stage1 :=
  env.loop (sizeAll es) es {}

end

/-! ### Stage 2 -/

/-- internal_types.rs:181-209 `replace_lookup_ref` with the map of db.rs:758-826 `resolve_avs` -/
def replaceLookupRef {α : Type} (st : Store) (lift : Entid → α) :
    Sum α LookupRefOrTempId → Res (Sum α TempId)
  | .inl x => .ok (.inl x)
  | .inr (.tempId t) => .ok (.inr t)
  | .inr (.lookupRef a v) => match st.lookupAV a v with
    | some n => .ok (.inl (lift n))
    | none => .err .unrecognizedIdent

/-- tx.rs:657-680 `resolve_lookup_refs` -/
def resolveLookupRefs (st : Store) : List LTerm → Res (List TTerm)
  | [] => .ok []
  | x :: r =>
    (replaceLookupRef st id x.e).bind fun e =>
    (replaceLookupRef st .ref x.v).bind fun v =>
    (resolveLookupRefs st r).bind fun r' => .ok (⟨x.op, e, x.a, v⟩ :: r')

/-- tx.rs:973-995 `start_tx` and tx.rs:684-706 `transact_entities`, 1017-1033 `transact`.
(`transactTerms` starts the transaction again from the same partition map.) -/
def transactEntities {V : Type} [TransactableValue V] (db : Db) (now : Int)
    (es : List (TxEntity V)) : Res (Db × Report) :=
  (db.parts.tx.allocate 1).bind fun (tx, txPart) =>
  (TxEnv.stage1 ⟨db.schema, { db.parts with tx := txPart }, tx⟩ es).bind fun s =>
  (resolveLookupRefs db.store s.terms).bind fun terms =>
  transactTerms db now terms s.tempIds

end Mentat
