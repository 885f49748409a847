import Verif.Model.Bootstrap
import Verif.Model.Names
/-
Vocabularies: src/vocabulary.rs.  A vocabulary is an entity with a `:db.schema/version` and any
number of `:db.schema/attribute`s.

Simplifications:
* Values are looked up in the datoms directly, not by a query or in the attribute cache; in the
  order of the rows (SQLite promises none).
* The terms of a description are handed to the transactor as flat terms; the entity stage, which
  passes terms of a `TermBuilder` through unchanged but for the type check of their values
  (db/src/internal_types.rs:89-95), is modelled by that check.
* Every error of vocabulary.rs is `Err.other`.
-/
namespace Mentat

/-- vocabulary.rs:261-266 `Vocabulary` -/
structure Vocabulary where
  entity : Entid
  version : Nat
  attributes : List (Entid × Attribute)
  deriving DecidableEq, Repr

/-- vocabulary.rs:677-686 `Vocabulary::find` -/
def Vocabulary.find (v : Vocabulary) (e : Entid) : Option Attribute :=
  (v.attributes.find? fun p => decide (p.1 = e)).map (·.2)

/-- vocabulary.rs:135-141 `Definition`: `version` is a `u32`. -/
structure Definition where
  name : Keyword
  version : Nat
  attributes : List (Keyword × Attribute)
  pre : Db → Vocabulary → Res Db := fun db _ => .ok db
  post : Db → Vocabulary → Res Db := fun db _ => .ok db

/-- vocabulary.rs:230-242 `Definition::new`: nothing to do before or after an upgrade. -/
def Definition.new (name : Keyword) (version : Nat) (attributes : List (Keyword × Attribute)) : Definition :=
  { name, version, attributes }

/-! ### Reading -/

/-- The values of `a` for `e`: transaction/src/query.rs:229-256 `lookup_values`; nothing is found
for what is not an attribute (query-algebrizer). -/
def Db.valuesOf (db : Db) (e a : Entid) : List TypedValue :=
  if (db.schema.attr a).isSome then
    (db.store.rows.filter fun r => decide (r.e = e ∧ r.a = a)).map (·.v)
  else []

/-- transaction/src/query.rs:193-197 `lookup_attribute` -/
def Db.lookupAttribute (db : Db) (k : Keyword) : Res Entid :=
  match AMap.get db.schema.identMap k with
  | some a => .ok a
  | none => .err .other

/-- src/vocabulary.rs:299 -/
def kwVersion : Keyword := kw "db.schema" "version"
/-- src/vocabulary.rs:298 -/
def kwAttribute : Keyword := kw "db.schema" "attribute"
/-- src/vocabulary.rs:297 -/
def kwCore : Keyword := kw "db.schema" "core"

/-- A version that is accepted when read: vocabulary.rs:899, 940.  `u32::max_value()` itself is
not. -/
def versionOf : TypedValue → Option Nat
  | .long n => if 0 < n ∧ n < 4294967295 then some n.toNat else none
  | _ => none

/-- vocabulary.rs:905-912: the values that are attributes. -/
def attributesOf (s : Schema) (vs : List TypedValue) : List (Entid × Attribute) :=
  vs.filterMap fun v =>
    match v with
    | .ref a => (s.attr a).map fun at_ => (a, at_)
    | _ => none

/-- vocabulary.rs:894-924 `read_vocabulary_named` -/
def readVocabularyNamed (db : Db) (name : Keyword) : Res (Option Vocabulary) :=
  match AMap.get db.schema.identMap name with
  | none => .ok none
  | some e =>
    (db.lookupAttribute kwVersion).bind fun av =>
    match (db.valuesOf e av).head? with
    | none => .ok none
    | some v =>
      match versionOf v with
      | none => .err .other
      | some n => (db.lookupAttribute kwAttribute).bind fun aa =>
          .ok (some ⟨e, n, attributesOf db.schema (db.valuesOf e aa)⟩)

/-- The distinct pairs of an entity and a value of `a`: the answers to
`[:find ?e ?v :where [?e a ?v]]`. -/
def Db.pairsOf (db : Db) (a : Entid) : List (Entid × TypedValue) :=
  if (db.schema.attr a).isSome then
    (db.store.rows.filter fun r => decide (r.a = a)).map fun r => (r.e, r.v)
  else []

/-- vocabulary.rs:926-995 `read_vocabularies`; a query about an unknown ident has no answers. -/
def readVocabularies (db : Db) : AMap Keyword Vocabulary :=
  let pairs := fun k => match AMap.get db.schema.identMap k with
    | some a => db.pairsOf a
    | none => []
  let versions := (pairs kwVersion).filterMap fun (e, v) => (versionOf v).map fun n => (e, n)
  let attrs := fun e => attributesOf db.schema (((pairs kwAttribute).filter fun p => decide (p.1 = e)).map (·.2))
  versions.foldl (fun m (e, n) =>
    match AMap.get db.schema.entidMap e with
    | some name => AMap.insert m name ⟨e, n, attrs e⟩
    | none => m) []

/-! ### Checking -/

/-- vocabulary.rs:488-505 `VocabularyCheck` -/
inductive VCheck where
  | notPresent
  | present
  | needsUpdate (older : Vocabulary)
  | tooNew (newer : Vocabulary)
  | missing (attributes : List (Keyword × Attribute))
  deriving DecidableEq, Repr

/-- What the store has under the name of an attribute: vocabulary.rs:546-547. -/
def existingAttribute (s : Schema) (v : Vocabulary) (k : Keyword) : Option Attribute :=
  (AMap.get s.identMap k).bind fun e => v.find e

/-- vocabulary.rs:544-567: the attributes the vocabulary lacks; an error if it has one of them with
another definition. -/
def missingAttributes (s : Schema) (v : Vocabulary) : List (Keyword × Attribute) → Res (List (Keyword × Attribute))
  | [] => .ok []
  | (k, at_) :: r =>
    match existingAttribute s v k with
    | some x => if x = at_ then missingAttributes s v r else .err .other
    | none => (missingAttributes s v r).bind fun m => .ok ((k, at_) :: m)

/-- vocabulary.rs:535-590 `check_vocabulary` -/
def checkVocabulary (db : Db) (d : Definition) : Res VCheck :=
  (readVocabularyNamed db d.name).bind fun o =>
  match o with
  | none => .ok .notPresent
  | some v =>
    if v.version = d.version then
      (missingAttributes db.schema v d.attributes).bind fun m =>
      .ok (if m.isEmpty then .present else .missing m)
    else if v.version < d.version then .ok (.needsUpdate v)
    else .ok (.tooNew v)

/-! ### Describing -/

/-- vocabulary.rs:335-338 `core_entid` -/
def coreEntid (s : Schema) (k : Keyword) : Res Entid :=
  match AMap.get s.identMap k with
  | some e => .ok e
  | none => .err .other

/-- vocabulary.rs:340-344 `core_attribute`, core/src/lib.rs `attribute_for_ident` -/
def coreAttribute (s : Schema) (k : Keyword) : Res Entid :=
  match AMap.get s.identMap k with
  | some e => if (s.attr e).isSome then .ok e else .err .other
  | none => .err .other

/-- core-traits/lib.rs `ValueType::into_keyword` -/
def ValueType.keyword' : ValueType → Keyword
  | .ref => kw "db.type" "ref"
  | .boolean => kw "db.type" "boolean"
  | .instant => kw "db.type" "instant"
  | .long => kw "db.type" "long"
  | .double => kw "db.type" "double"
  | .string => kw "db.type" "string"
  | .keyword => kw "db.type" "keyword"
  | .uuid => kw "db.type" "uuid"

/-- The entids vocabulary.rs:359-375 looks up. -/
structure CoreIds where
  version : Entid
  ident : Entid
  attr : Entid
  cardinality : Entid
  fulltext : Entid
  index : Entid
  isComponent : Entid
  valueType : Entid
  unique : Entid
  noHistory : Entid
  many : Entid
  one : Entid
  identity : Entid
  value : Entid
  deriving DecidableEq, Repr

/-- vocabulary.rs:359-375 -/
def coreIds (s : Schema) : Res CoreIds := do
  let version ← coreAttribute s kwVersion
  let ident ← coreAttribute s (kw "db" "ident")
  let attr ← coreAttribute s kwAttribute
  let cardinality ← coreAttribute s (kw "db" "cardinality")
  let fulltext ← coreAttribute s (kw "db" "fulltext")
  let index ← coreAttribute s (kw "db" "index")
  let isComponent ← coreAttribute s (kw "db" "isComponent")
  let valueType ← coreAttribute s (kw "db" "valueType")
  let unique ← coreAttribute s (kw "db" "unique")
  let noHistory ← coreAttribute s (kw "db" "noHistory")
  let many ← coreEntid s (kw "db.cardinality" "many")
  let one ← coreEntid s (kw "db.cardinality" "one")
  let identity ← coreEntid s (kw "db.unique" "identity")
  let value ← coreEntid s (kw "db.unique" "value")
  .ok ⟨version, ident, attr, cardinality, fulltext, index, isComponent, valueType, unique, noHistory,
    many, one, identity, value⟩

/-- vocabulary.rs:382 `describe_tempid("s")` -/
def tempidS : TempId := .external ['s']

/-- vocabulary.rs:392 `named_tempid(kw.to_string())` -/
def tempidOf (k : Keyword) : TempId := .external k.nname.displayKeyword

/-- vocabulary.rs:427-430, 442-447: the entity of a uniqueness. -/
def CoreIds.uniqueId (c : CoreIds) : Unique → Entid
  | .identity => c.identity
  | .value => c.value

/-- vocabulary.rs:426-449: the uniqueness is asserted, or the existing one retracted. -/
def uniqueTerms (c : CoreIds) (t : TempId) (new old : Option Unique) : List TTerm :=
  match new with
  | some u => [⟨.add, .inr t, c.unique, .inl (.ref (c.uniqueId u))⟩]
  | none =>
    match old with
    | some u => [⟨.retract, .inr t, c.unique, .inl (.ref (c.uniqueId u))⟩]
    | none => []

/-- vocabulary.rs:389-450: the terms for one attribute; `old` is the existing attribute of that
name if there is one in the vocabulary being upgraded. -/
def attributeTerms (s : Schema) (c : CoreIds) (old : Option Attribute) (k : Keyword) (at_ : Attribute) :
    Res (List TTerm) :=
  (coreEntid s at_.valueType.keyword').bind fun vt =>
  let t := tempidOf k
  .ok ([⟨.add, .inr t, c.ident, .inl (.keyword k)⟩,
    ⟨.add, .inr tempidS, c.attr, .inr t⟩,
    ⟨.add, .inr t, c.valueType, .inl (.ref vt)⟩,
    ⟨.add, .inr t, c.cardinality, .inl (.ref (if at_.multival then c.many else c.one))⟩,
    ⟨.add, .inr t, c.index, .inl (.boolean at_.index)⟩,
    ⟨.add, .inr t, c.fulltext, .inl (.boolean at_.fulltext)⟩,
    ⟨.add, .inr t, c.isComponent, .inl (.boolean at_.component)⟩,
    ⟨.add, .inr t, c.noHistory, .inl (.boolean at_.noHistory)⟩] ++
    uniqueTerms c t at_.unique (old.bind (·.unique)))

/-- The terms of all attributes. -/
def attributesTerms (s : Schema) (c : CoreIds) (old : Keyword → Option Attribute) :
    List (Keyword × Attribute) → Res (List TTerm)
  | [] => .ok []
  | (k, at_) :: r =>
    (attributeTerms s c (old k) k at_).bind fun ts =>
    (attributesTerms s c old r).bind fun rest => .ok (ts ++ rest)

/-- vocabulary.rs:348-453 `description_for_attributes` -/
def describe (s : Schema) (d : Definition) (attributes : List (Keyword × Attribute))
    (old : Keyword → Option Attribute) : Res (List TTerm) :=
  (coreIds s).bind fun c =>
  (attributesTerms s c old attributes).bind fun ts =>
  .ok ([⟨.add, .inr tempidS, c.version, .inl (.long d.version)⟩,
    ⟨.add, .inr tempidS, c.ident, .inl (.keyword d.name)⟩] ++ ts)

/-- internal_types.rs:89-95 `into_typed_value`, tx.rs: a tempid is a value of reference attributes
only. -/
def termTyped (s : Schema) (x : TTerm) : Bool :=
  match s.attr x.a with
  | none => false
  | some at_ =>
    match x.v with
    | .inl v => decide (v.valueType = at_.valueType)
    | .inr _ => decide (at_.valueType = .ref)

/-- The tempids of the terms, each once, as the entity stage interns them. -/
def tempidsOf (terms : List TTerm) : List TempId :=
  (terms.flatMap fun x =>
    (match x.e with | .inr t => [t] | .inl _ => []) ++ (match x.v with | .inr t => [t] | .inl _ => [])).eraseDups

/-- `InProgress::transact_entities`, for the terms of a `TermBuilder` -/
def transactBuilt (db : Db) (now : Int) (terms : List TTerm) : Res Db :=
  if terms.all (termTyped db.schema) then
    (transactTerms db now terms (tempidsOf terms)).bind fun p => .ok p.1
  else .err .badValuePair

/-! ### Installing and upgrading -/

/-- vocabulary.rs:510-524 `VocabularyOutcome` -/
inductive VOutcome where
  | installed | installedMissing | existed | upgraded
  deriving DecidableEq, Repr

/-- vocabulary.rs:851-855 `install_vocabulary` -/
def installVocabulary (db : Db) (now : Int) (d : Definition) : Res (Db × VOutcome) :=
  (describe db.schema d d.attributes fun _ => none).bind fun ts =>
  (transactBuilt db now ts).bind fun db' => .ok (db', .installed)

/-- vocabulary.rs:857-865 `install_attributes_for` -/
def installAttributesFor (db : Db) (now : Int) (d : Definition) (attributes : List (Keyword × Attribute)) :
    Res (Db × VOutcome) :=
  (describe db.schema d attributes fun _ => none).bind fun ts =>
  (transactBuilt db now ts).bind fun db' => .ok (db', .installedMissing)

/-- vocabulary.rs:869-887 `upgrade_vocabulary`, 456-474 `description_diff` -/
def upgradeVocabulary (db : Db) (now : Int) (d : Definition) (v : Vocabulary) : Res (Db × VOutcome) :=
  (d.pre db v).bind fun db1 =>
  (describe db1.schema d d.attributes (existingAttribute db1.schema v)).bind fun ts =>
  (transactBuilt db1 now ts).bind fun db2 =>
  (d.post db2 v).bind fun db3 => .ok (db3, .upgraded)

/-- vocabulary.rs:690-708 `ensure_vocabulary` -/
def ensureVocabulary (db : Db) (now : Int) (d : Definition) : Res (Db × VOutcome) :=
  (checkVocabulary db d).bind fun c =>
  match c with
  | .present => .ok (db, .existed)
  | .notPresent => installVocabulary db now d
  | .needsUpdate v => upgradeVocabulary db now d v
  | .missing m => installAttributesFor db now d m
  | .tooNew _ => .err .other

/-- vocabulary.rs:722-741: the definitions that need work, and the outcome of the others. -/
def checkAll (db : Db) : List Definition → AMap Keyword VOutcome → AMap Keyword (Definition × VCheck) →
    Res (AMap Keyword VOutcome × AMap Keyword (Definition × VCheck))
  | [], out, work => .ok (out, work)
  | d :: r, out, work =>
    (checkVocabulary db d).bind fun c =>
    match c with
    | .present => checkAll db r (AMap.insert out d.name .existed) work
    | .tooNew _ => .err .other
    | c => checkAll db r out (AMap.insert work d.name (d, c))

/-- The three rounds of vocabulary.rs:750-775, each a round over the work in the order of names:
`round` says what to do with a check, if it belongs to the round. -/
def workRound (now : Int) (act : Db → Definition → VCheck → Option (Res (Db × VOutcome))) :
    List (Keyword × Definition × VCheck) → Db → AMap Keyword VOutcome → Res (Db × AMap Keyword VOutcome)
  | [], db, out => .ok (db, out)
  | (name, d, c) :: r, db, out =>
    match act db d c with
    | none => workRound now act r db out
    | some res => res.bind fun (db', o) => workRound now act r db' (AMap.insert out name o)

/-- namespaceable_name.rs:175-179: by namespace, then by name. -/
def Keyword.le (a b : Keyword) : Bool := if a.ns = b.ns then Text.le a.name b.name else Text.le a.ns b.ns

/-- Iteration over a `BTreeMap` goes in the order of the keys. -/
def insertByName {α : Type} (x : Keyword × α) : List (Keyword × α) → List (Keyword × α)
  | [] => [x]
  | y :: r => if Keyword.le x.1 y.1 then x :: y :: r else y :: insertByName x r

/-- Iteration in the order of the keys. -/
def sortByName {α : Type} (l : List (Keyword × α)) : List (Keyword × α) := l.foldr insertByName []

/-- vocabulary.rs:710-779 `ensure_vocabularies` for a source that does nothing before and after. -/
def ensureVocabularies (db : Db) (now : Int) (ds : List Definition) : Res (Db × AMap Keyword VOutcome) :=
  (checkAll db ds [] []).bind fun (out, work) =>
  if work.isEmpty then .ok (db, out) else
  let items := sortByName work
  (workRound now (fun db d c => match c with
    | .notPresent => some (installVocabulary db now d)
    | _ => none) items db out).bind fun (db1, out1) =>
  (workRound now (fun db d c => match c with
    | .needsUpdate v => some (upgradeVocabulary db now d v)
    | _ => none) items db1 out1).bind fun (db2, out2) =>
  workRound now (fun db d c => match c with
    | .missing m => some (installAttributesFor db now d m)
    | _ => none) items db2 out2

/-- vocabulary.rs:608-623 `verify_core_schema`; `CORE_SCHEMA_VERSION` is 1 (db/src/bootstrap.rs:36). -/
def verifyCoreSchema (db : Db) : Res Unit :=
  (readVocabularyNamed db kwCore).bind fun o =>
  match o with
  | some v => if v.version = 1 then .ok () else .err .other
  | none => .err .other

end Mentat
