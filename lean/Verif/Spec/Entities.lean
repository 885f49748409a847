import Verif.Model.Entities
import Verif.Spec.Transact
/-
Vocabulary in which the properties of transaction entities are stated: what map notation, vectors
and reversed attributes stand for.  Nothing here is used by the model.
-/
namespace Mentat

/-- `:ns/_name` -/
def Backward : EntidOrIdent → Bool
  | .entid _ => false
  | .ident k => k.name.head? = some '_'

/-- `x` names the attribute `a`. -/
def Names (s : Schema) (x : EntidOrIdent) (a : Entid) : Prop :=
  match x with
  | .entid e => a = e
  | .ident k => AMap.get s.identMap k = some a

/-- `x` names an attribute described by `at_`. -/
def NamesAttr (s : Schema) (x : EntidOrIdent) (at_ : Attribute) : Prop :=
  ∃ a, Names s x a ∧ s.attr a = some at_

section
variable {V : Type} [TransactableValue V]

/-- An entity place written in the value position. -/
def EntityPlace.asValue : EntityPlace V → ValuePlace V
  | .entid e => .entid e
  | .tempId t => .tempId t
  | .lookupRef a v => .lookupRef a v
  | .txFunction f => .txFunction f

/-- What a value stands for in the entity position, if it can. -/
def ValuePlace.asEntity : ValuePlace V → Option (EntityPlace V)
  | .entid e => some (.entid e)
  | .tempId t => some (.tempId t)
  | .lookupRef a v => some (.lookupRef a v)
  | .txFunction f => some (.txFunction f)
  | .atom v => match TransactableValue.intoEntityPlace v with
    | .ok e => some e
    | _ => none
  | .vector _ => none
  | .map _ => none

/-- The entity a map is about: its `:db/id`, or, when it has none, the next internal tempid.
`k` counts the maps without `:db/id` met so far. -/
def aboutPlace (k : Nat) (m : MapNotation V) : EntityPlace V × Nat :=
  match m.find? (fun p => decide (p.1 = dbIdKey)) with
  | none => (.tempId (.internal (k + 1)), k + 1)
  | some p => match p.2.asEntity with
    | some e => (e, k)
    | none => (.tempId (.internal (k + 1)), k + 1)

/-- The entries of a map with reversed attributes, as assertions about `e`. -/
def reversedEntries (e : EntityPlace V) (m : MapNotation V) : List (TxEntity V) :=
  (m.filter fun p => Backward p.1).map fun p => .addOrRetract .add e p.1 p.2

mutual
/-- The assertions that `[op e a v]` stands for, and the count of anonymous maps after it.  The
elements of a vector and the entries of a map are taken from the last to the first, which is the
order in which the code visits them. -/
def flatten (op : Op) (e : EntityPlace V) (a : EntidOrIdent) (k : Nat) :
    ValuePlace V → List (TxEntity V) × Nat
  | .vector vs =>
    if Backward a then ([.addOrRetract op e a (.vector vs)], k)
    else flattenVec op e a k vs
  | .map m =>
    if Backward a then ([.addOrRetract op e a (.map m)], k)
    else
      let id := aboutPlace k m
      let inner := flattenFwd id.1 id.2 m
      (reversedEntries id.1 m ++ .addOrRetract op e a id.1.asValue :: inner.1, inner.2)
  | .entid x => ([.addOrRetract op e a (.entid x)], k)
  | .tempId x => ([.addOrRetract op e a (.tempId x)], k)
  | .lookupRef x y => ([.addOrRetract op e a (.lookupRef x y)], k)
  | .txFunction f => ([.addOrRetract op e a (.txFunction f)], k)
  | .atom x => ([.addOrRetract op e a (.atom x)], k)

def flattenVec (op : Op) (e : EntityPlace V) (a : EntidOrIdent) (k : Nat) :
    List (ValuePlace V) → List (TxEntity V) × Nat
  | [] => ([], k)
  | v :: r =>
    let p := flattenVec op e a k r
    let q := flatten op e a p.2 v
    (p.1 ++ q.1, q.2)

/-- The entries of a nested map other than `:db/id` and reversed ones. -/
def flattenFwd (e : EntityPlace V) (k : Nat) :
    List (EntidOrIdent × ValuePlace V) → List (TxEntity V) × Nat
  | [] => ([], k)
  | x :: r =>
    let p := flattenFwd e k r
    if x.1 = dbIdKey ∨ Backward x.1 then p
    else
      let q := flattenEntry e p.2 x
      (p.1 ++ q.1, q.2)

def flattenEntry (e : EntityPlace V) (k : Nat) : EntidOrIdent × ValuePlace V → List (TxEntity V) × Nat
  | (a, v) => flatten .add e a k v
end

/-- The entries of a map other than `:db/id`. -/
def flattenMap (e : EntityPlace V) (k : Nat) : MapNotation V → List (TxEntity V) × Nat
  | [] => ([], k)
  | x :: r =>
    let p := flattenMap e k r
    if x.1 = dbIdKey then p
    else
      let q := flatten .add e x.1 p.2 x.2
      (p.1 ++ q.1, q.2)

/-- The assertions that an entity stands for. -/
def flattenEntity (k : Nat) : TxEntity V → List (TxEntity V) × Nat
  | .addOrRetract op e a v => flatten op e a k v
  | .map m =>
    let id := aboutPlace k m
    flattenMap id.1 id.2 m

/-- The flat list of assertions that the entities of a transaction stand for. -/
def flattenAll (k : Nat) : List (TxEntity V) → List (TxEntity V) × Nat
  | [] => ([], k)
  | x :: r =>
    let p := flattenEntity k x
    let q := flattenAll p.2 r
    (p.1 ++ q.1, q.2)

/-- An assertion whose value is neither a vector nor a map (or whose attribute is reversed, where
neither is accepted). -/
def Flat : TxEntity V → Prop
  | .addOrRetract _ _ a (.vector _) => Backward a = true
  | .addOrRetract _ _ a (.map _) => Backward a = true
  | .addOrRetract _ _ _ _ => True
  | .map _ => False

/-- The `:db/id` of a map, if given, is an entity. -/
def IdGiven (m : MapNotation V) : Prop :=
  ∀ p, m.find? (fun p => decide (p.1 = dbIdKey)) = some p → p.2.asEntity ≠ none

/-- A map nested under an attribute is not an orphan: the attribute is a component, or the map has
a `:db/id`, a reversed attribute or an identity attribute. -/
def Anchored (s : Schema) (at_ : Attribute) (m : MapNotation V) : Prop :=
  at_.component = true ∨
  ∃ p ∈ m, p.1 = dbIdKey ∨ Backward p.1 = true ∨
    ∃ ia, NamesAttr s p.1 ia ∧ ia.unique = some .identity

mutual
/-- Vectors stand only under cardinality-many attributes and maps only in additions under
reference attributes, properly anchored, at every depth. -/
def Placed (env : TxEnv) (op : Op) (a : EntidOrIdent) : ValuePlace V → Prop
  | .vector vs => Backward a = true ∨
      ((∃ at_, NamesAttr env.schema a at_ ∧ at_.multival = true) ∧ PlacedVec env op a vs)
  | .map m => Backward a = true ∨
      (op = .add ∧
       (∃ at_, NamesAttr env.schema a at_ ∧ at_.valueType = .ref ∧ Anchored env.schema at_ m) ∧
       IdGiven m ∧
       (∀ e, (aboutPlace 0 m).1 = .entid (.entid e) → env.parts.containsEntid e = true) ∧
       PlacedEntries env m)
  | .entid _ => True
  | .tempId _ => True
  | .lookupRef _ _ => True
  | .txFunction _ => True
  | .atom _ => True
def PlacedVec (env : TxEnv) (op : Op) (a : EntidOrIdent) : List (ValuePlace V) → Prop
  | [] => True
  | v :: r => Placed env op a v ∧ PlacedVec env op a r
def PlacedEntries (env : TxEnv) : List (EntidOrIdent × ValuePlace V) → Prop
  | [] => True
  | x :: r => PlacedEntry env x ∧ PlacedEntries env r
def PlacedEntry (env : TxEnv) : EntidOrIdent × ValuePlace V → Prop
  | (a, v) => a = dbIdKey ∨ Placed env .add a v
end

/-- The same for a whole entity. -/
def PlacedEntity (env : TxEnv) : TxEntity V → Prop
  | .addOrRetract op _ a v => Placed env op a v
  | .map m => IdGiven m ∧ PlacedEntries env m

/-! ### What a flat assertion means -/

/-- `(lookup-ref a v)` is the attribute named by `a`, which must be unique, with `v` as a value of
its type. -/
def LookupMeans (env : TxEnv) (a : EntidOrIdent) (v : V) (r : LookupRefOrTempId) : Prop :=
  ∃ a' at_ w, Names env.schema a a' ∧ env.schema.attr a' = some at_ ∧ at_.unique ≠ none ∧
    TransactableValue.intoTypedValue env.schema v at_.valueType = .ok w ∧ r = .lookupRef a' w

/-- What an entity place denotes: an allocated entid, the entity with the ident, a tempid, a lookup
ref or the transaction. -/
def PlaceMeans (env : TxEnv) : EntityPlace V → Sum Entid LookupRefOrTempId → Prop
  | .entid (.entid n), r => env.parts.containsEntid n = true ∧ r = .inl n
  | .entid (.ident k), r => ∃ n, AMap.get env.schema.identMap k = some n ∧ r = .inl n
  | .tempId t, r => r = .inr (.tempId t)
  | .lookupRef a v, r => ∃ l, LookupMeans env a v l ∧ r = .inr l
  | .txFunction f, r => f = "transaction-tx".toList ∧ r = .inl env.txId

/-- What a value denotes under an attribute: a string is a tempid under a reference attribute, and
otherwise a literal is a value of the attribute's type. -/
def ValueMeans (env : TxEnv) (at_ : Attribute) : ValuePlace V → Sum TypedValue LookupRefOrTempId → Prop
  | .atom v, r =>
    (at_.valueType = .ref ∧ ∃ t, TransactableValue.asTempid v = some t ∧ r = .inr (.tempId t)) ∨
    ((at_.valueType = .ref → TransactableValue.asTempid v = none) ∧
      ∃ w, TransactableValue.intoTypedValue env.schema v at_.valueType = .ok w ∧ r = .inl w)
  | .entid x, r => ∃ n, Names env.schema x n ∧ r = .inl (.ref n)
  | .tempId t, r => r = .inr (.tempId t)
  | .lookupRef a v, r => at_.valueType = .ref ∧ ∃ l, LookupMeans env a v l ∧ r = .inr l
  | .txFunction f, r => at_.valueType = .ref ∧ f = "transaction-tx".toList ∧ r = .inl (.ref env.txId)
  | .vector _, _ => False
  | .map _, _ => False

/-- A reference as a value. -/
def asRef : Sum Entid LookupRefOrTempId → Sum TypedValue LookupRefOrTempId
  | .inl n => .inl (.ref n)
  | .inr l => .inr l

/-- `fa` is `:ns/name` for `:ns/_name`. -/
def Unreversed (a fa : EntidOrIdent) : Prop :=
  ∃ ns n, a = .ident ⟨ns, '_' :: n⟩ ∧ n ≠ [] ∧ fa = .ident ⟨ns, n⟩

/-- The flat assertion means the term.  A reversed attribute swaps the entity, which becomes a
reference value, and the value, which must denote a reference; the operation is kept. -/
def Means (env : TxEnv) : TxEntity V → LTerm → Prop
  | .addOrRetract op e a v, t =>
    t.op = op ∧
    ((Backward a = false ∧ ∃ at_, Names env.schema a t.a ∧ env.schema.attr t.a = some at_ ∧
        PlaceMeans env e t.e ∧ ValueMeans env at_ v t.v) ∨
     (∃ fa at_ x, Unreversed a fa ∧ Names env.schema fa t.a ∧ env.schema.attr t.a = some at_ ∧
        at_.valueType = .ref ∧ ValueMeans env at_ v (asRef t.e) ∧
        PlaceMeans env e x ∧ t.v = asRef x))
  | .map _, _ => False

/-- The tempid is mentioned by one of the terms. -/
def MentionsId (ts : List LTerm) (i : TempId) : Prop :=
  ∃ t ∈ ts, t.e = .inr (.tempId i) ∨ t.v = .inr (.tempId i)

/-- No reversed attribute is retracted. -/
def NoReversedRetract (es : List (TxEntity V)) : Prop :=
  ∀ e a v, TxEntity.addOrRetract .retract e a v ∈ es → Backward a = false

end
end Mentat
