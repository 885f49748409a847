import Verif.Model.Transact
/-
The bootstrap store: db/src/bootstrap.rs and db.rs:279-372 `create_current_version`.
-/
namespace Mentat

/-- `ns_keyword!(ns, name)` -/
def kw (ns name : String) : Keyword := ⟨ns.toList, name.toList⟩

/-- bootstrap.rs:38-112 `V1_IDENTS`; entids.rs numbers them 1..40 in this order. -/
def bootIdents : List Keyword :=
  [ kw "db" "ident", kw "db.part" "db", kw "db" "txInstant", kw "db.install" "partition",
    kw "db.install" "valueType", kw "db.install" "attribute", kw "db" "valueType",
    kw "db" "cardinality", kw "db" "unique", kw "db" "isComponent", kw "db" "index",
    kw "db" "fulltext", kw "db" "noHistory", kw "db" "add", kw "db" "retract",
    kw "db.part" "user", kw "db.part" "tx", kw "db" "excise", kw "db.excise" "attrs",
    kw "db.excise" "beforeT", kw "db.excise" "before", kw "db.alter" "attribute",
    kw "db.type" "ref", kw "db.type" "keyword", kw "db.type" "long", kw "db.type" "double",
    kw "db.type" "string", kw "db.type" "uuid", kw "db.type" "uri", kw "db.type" "boolean",
    kw "db.type" "instant", kw "db.type" "bytes", kw "db.cardinality" "one",
    kw "db.cardinality" "many", kw "db.unique" "value", kw "db.unique" "identity",
    kw "db" "doc", kw "db.schema" "version", kw "db.schema" "attribute", kw "db.schema" "core" ]

/-- Number a list from `n`. -/
def numberFrom {α : Type} (n : Int) : List α → List (Int × α)
  | [] => []
  | x :: r => (n, x) :: numberFrom (n + 1) r

/-- db/src/entids.rs:22 -/
def DB_INSTALL_PARTITION : Entid := 4
/-- db/src/entids.rs:23 -/
def DB_INSTALL_VALUE_TYPE : Entid := 5
/-- db/src/entids.rs:24 -/
def DB_INSTALL_ATTRIBUTE : Entid := 6
/-- db/src/entids.rs:40 -/
def DB_ALTER_ATTRIBUTE : Entid := 22
/-- db/src/entids.rs:56 -/
def DB_SCHEMA_VERSION : Entid := 38
/-- db/src/entids.rs:57 -/
def DB_SCHEMA_ATTRIBUTE : Entid := 39
/-- db/src/entids.rs:58 -/
def DB_SCHEMA_CORE : Entid := 40

/-- bootstrap.rs:152-203 `V1_SYMBOLIC_SCHEMA`: entid, value type, cardinality many?, and the
other assertions. -/
def bootSchema : List (Entid × Entid × Bool × List (Entid × TypedValue)) :=
  [ (DB_IDENT, DB_TYPE_KEYWORD, false, [(DB_INDEX, .boolean true), (DB_UNIQUE, .ref DB_UNIQUE_IDENTITY)]),
    (DB_INSTALL_PARTITION, DB_TYPE_REF, true, []),
    (DB_INSTALL_VALUE_TYPE, DB_TYPE_REF, true, []),
    (DB_INSTALL_ATTRIBUTE, DB_TYPE_REF, true, []),
    (DB_TX_INSTANT, DB_TYPE_INSTANT, false, [(DB_INDEX, .boolean true)]),
    (DB_VALUE_TYPE, DB_TYPE_REF, false, []),
    (DB_CARDINALITY, DB_TYPE_REF, false, []),
    (DB_DOC, DB_TYPE_STRING, false, []),
    (DB_UNIQUE, DB_TYPE_REF, false, []),
    (DB_IS_COMPONENT, DB_TYPE_BOOLEAN, false, []),
    (DB_INDEX, DB_TYPE_BOOLEAN, false, []),
    (DB_FULLTEXT, DB_TYPE_BOOLEAN, false, []),
    (DB_NO_HISTORY, DB_TYPE_BOOLEAN, false, []),
    (DB_ALTER_ATTRIBUTE, DB_TYPE_REF, true, []),
    (DB_SCHEMA_VERSION, DB_TYPE_LONG, false, []),
    (DB_SCHEMA_ATTRIBUTE, DB_TYPE_REF, true, [(DB_INDEX, .boolean true), (DB_UNIQUE, .ref DB_UNIQUE_VALUE)]) ]

/-- bootstrap.rs:249-320 `symbolic_schema_to_triples` -/
def bootTriples : List EAV :=
  bootSchema.flatMap fun (e, vt, many, rest) =>
    (e, DB_VALUE_TYPE, .ref vt) ::
    (e, DB_CARDINALITY, .ref (if many then DB_CARDINALITY_MANY else DB_CARDINALITY_ONE)) ::
    rest.map fun (a, v) => (e, a, v)

/-- bootstrap.rs:355-360 `bootstrap_ident_map` -/
def bootIdentMap : AMap Keyword Entid := (numberFrom 1 bootIdents).map fun (n, k) => (k, n)

/-- bootstrap.rs:362-367 `bootstrap_schema`, schema.rs:296-330 `from_ident_map_and_triples` -/
def bootstrapSchema : Res Schema := do
  let (am, _) ← updateAttributeMap [] bootTriples []
  pure { entidMap := numberFrom 1 bootIdents, identMap := bootIdentMap, attributeMap := am }

/-- bootstrap.rs:369-382 `bootstrap_entities`, as terms (every entity is known). -/
def bootTerms : List TTerm :=
  (bootTriples.map fun (e, a, v) => ⟨.add, .inl e, a, .inl v⟩) ++
  ((numberFrom 1 bootIdents).map fun (n, k) => ⟨.add, .inl n, DB_IDENT, .inl (.keyword k)⟩) ++
  (bootSchema.map fun (e, _) => ⟨.add, .inl DB_SCHEMA_CORE, DB_SCHEMA_ATTRIBUTE, .inl (.ref e)⟩) ++
  [⟨.add, .inl DB_SCHEMA_CORE, DB_SCHEMA_VERSION, .inl (.long 1)⟩]

/-- db.rs:325-372 `create_current_version`: transact the bootstrap entities with an empty schema
for mutation and check that it produces the bootstrap schema. -/
def createCurrentVersion (now : Int) : Res Db := do
  let s ← bootstrapSchema
  let (db, _) ← transactTermsWith { schema := s, parts := Parts.bootstrap, store := {}, views := {} }
    {} now bootTerms [] .materializeAndCommit
  if Schema.same db.schema s then pure { db with schema := s } else .err .notYetImplemented

end Mentat
