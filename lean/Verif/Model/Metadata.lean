import Verif.Model.AddRetractAlter
import Verif.Model.Trie
import Verif.Model.SqlValue
/-
Schema maintenance: db/src/entids.rs, db/src/schema.rs (validation, AttributeBuilder),
db/src/metadata.rs, db/src/db.rs:1130-1300 (`committed_metadata_assertions`, `update_metadata`)
and db.rs:490-580 (reading the views back).
-/
namespace Mentat

/-! ### entids.rs:18-58 -/
def DB_IDENT : Entid := 1
/-- db/src/entids.rs:25 -/
def DB_VALUE_TYPE : Entid := 7
/-- db/src/entids.rs:26 -/
def DB_CARDINALITY : Entid := 8
/-- db/src/entids.rs:27 -/
def DB_UNIQUE : Entid := 9
/-- db/src/entids.rs:28 -/
def DB_IS_COMPONENT : Entid := 10
/-- db/src/entids.rs:29 -/
def DB_INDEX : Entid := 11
/-- db/src/entids.rs:30 -/
def DB_FULLTEXT : Entid := 12
/-- db/src/entids.rs:31 -/
def DB_NO_HISTORY : Entid := 13
/-- db/src/entids.rs:41 -/
def DB_TYPE_REF : Entid := 23
/-- db/src/entids.rs:42 -/
def DB_TYPE_KEYWORD : Entid := 24
/-- db/src/entids.rs:43 -/
def DB_TYPE_LONG : Entid := 25
/-- db/src/entids.rs:44 -/
def DB_TYPE_DOUBLE : Entid := 26
/-- db/src/entids.rs:45 -/
def DB_TYPE_STRING : Entid := 27
/-- db/src/entids.rs:46 -/
def DB_TYPE_UUID : Entid := 28
/-- db/src/entids.rs:48 -/
def DB_TYPE_BOOLEAN : Entid := 30
/-- db/src/entids.rs:49 -/
def DB_TYPE_INSTANT : Entid := 31
/-- db/src/entids.rs:51 -/
def DB_CARDINALITY_ONE : Entid := 33
/-- db/src/entids.rs:52 -/
def DB_CARDINALITY_MANY : Entid := 34
/-- db/src/entids.rs:53 -/
def DB_UNIQUE_VALUE : Entid := 35
/-- db/src/entids.rs:54 -/
def DB_UNIQUE_IDENTITY : Entid := 36
/-- db/src/entids.rs:55 -/
def DB_DOC : Entid := 37

/-- entids.rs:102-110 `SCHEMA_SQL_LIST` -/
def schemaList : List Entid :=
  [DB_CARDINALITY, DB_FULLTEXT, DB_INDEX, DB_IS_COMPONENT, DB_UNIQUE, DB_VALUE_TYPE]

/-- entids.rs:113-122 `METADATA_SQL_LIST` -/
def metadataList : List Entid :=
  [DB_CARDINALITY, DB_FULLTEXT, DB_IDENT, DB_INDEX, DB_IS_COMPONENT, DB_UNIQUE, DB_VALUE_TYPE]

/-- entids.rs:62-80 `might_update_metadata` -/
def mightUpdateMetadata (a : Entid) : Bool :=
  if a ≥ DB_DOC then false else
  decide (a ∈ [DB_IDENT, DB_CARDINALITY, DB_FULLTEXT, DB_INDEX, DB_IS_COMPONENT, DB_UNIQUE, DB_VALUE_TYPE])

/-- entids.rs:81-92 `is_a_schema_attribute` -/
def isASchemaAttribute (a : Entid) : Bool :=
  decide (a ∈ [DB_IDENT, DB_CARDINALITY, DB_FULLTEXT, DB_INDEX, DB_IS_COMPONENT, DB_UNIQUE, DB_VALUE_TYPE])

/-- schema.rs:30-70 `Attribute::validate` -/
def Attribute.valid (a : Attribute) : Bool :=
  (a.unique.isNone || a.index) &&
  (!a.fulltext || decide (a.valueType = .string)) &&
  (!a.fulltext || a.index) &&
  (!a.component || decide (a.valueType = .ref))

/-- schema.rs:85-95 `AttributeBuilder` (`helpful` is false on every transactor path). -/
structure AttributeBuilder where
  valueType : Option ValueType := none
  multival : Option Bool := none
  unique : Option (Option Unique) := none
  index : Option Bool := none
  fulltext : Option Bool := none
  component : Option Bool := none
  noHistory : Option Bool := none
  deriving DecidableEq, Repr

/-- schema.rs:108-114 `modify_attribute` -/
def AttributeBuilder.modify (a : Attribute) : AttributeBuilder :=
  { multival := some a.multival, unique := some a.unique, component := some a.component }

/-- Rust: `if let Some(x) = o { field = x }`. -/
def orKeep {α : Type} (o : Option α) (d : α) : α :=
  match o with
  | some x => x
  | none => d

/-- schema.rs:183-208 `build` -/
def AttributeBuilder.build (b : AttributeBuilder) : Attribute :=
  let d : Attribute := {}
  { valueType := orKeep b.valueType d.valueType
    fulltext := orKeep b.fulltext d.fulltext
    multival := orKeep b.multival d.multival
    unique := orKeep b.unique d.unique
    index := orKeep b.index d.index
    component := orKeep b.component d.component
    noHistory := orKeep b.noHistory d.noHistory }

/-- metadata.rs:46-60 `AttributeAlteration` -/
inductive Alteration where
  | index | unique | cardinality | noHistory | isComponent
  deriving DecidableEq, Repr

/-- schema.rs:210-250 `mutate`: note that a builder that does not mention uniqueness resets it. -/
def AttributeBuilder.mutate (b : AttributeBuilder) (a : Attribute) : Attribute × List Alteration :=
  let multival := orKeep b.multival a.multival
  let unique := match b.unique with
    | some u => u
    | none => none
  let index := orKeep b.index a.index
  let component := orKeep b.component a.component
  let noHistory := orKeep b.noHistory a.noHistory
  ({ a with multival := multival, unique := unique, index := index, component := component,
            noHistory := noHistory },
   (if multival ≠ a.multival then [.cardinality] else []) ++
   (if unique ≠ a.unique then [.unique] else []) ++
   (if index ≠ a.index then [.index] else []) ++
   (if component ≠ a.component then [.isComponent] else []) ++
   (if noHistory ≠ a.noHistory then [.noHistory] else []))

/-- metadata.rs:69-81 `MetadataReport` -/
structure MetadataReport where
  installed : List Entid := []
  altered : AMap Entid (List Alteration) := []
  identsAltered : List Entid := []
  deriving DecidableEq, Repr

/-- An entity, an attribute and a value. -/
abbrev EAV := Entid × Entid × TypedValue

/-- metadata.rs:97-156 `update_attribute_map_from_schema_retractions`: the new attribute map and
the retractions left to process. -/
def schemaRetractions (am : AMap Entid Attribute) (retractions : List EAV)
    (identRetractions : AMap Entid Keyword) : Res (AMap Entid Attribute × List EAV) :=
  let suspects := retractions.filter fun x => isASchemaAttribute x.2.1
  let filtered := retractions.filter fun x => !isASchemaAttribute x.2.1
  let rec go : List EAV → AMap Entid Attribute → List EAV → Res (AMap Entid Attribute × List EAV)
    | [], am, filtered => .ok (am, filtered)
    | (e, a, v) :: rest, am, filtered =>
      let attributes := (suspects.filter fun x => decide (x.1 = e)).map (·.2.1)
      if DB_CARDINALITY ∈ attributes ∧ DB_VALUE_TYPE ∈ attributes then
        if AMap.contains identRetractions e then go rest (AMap.erase am e) filtered
        else .err .badSchemaAssertion
      else go rest am (filtered ++ [(e, a, v)])
  go suspects am filtered

/-- metadata.rs:186-233: one retraction applied to its builder. -/
def retractBuilder (b : AttributeBuilder) (attr : Entid) (v : TypedValue) : Res AttributeBuilder :=
  if attr = DB_IS_COMPONENT then
    match v with
    | .boolean x => if b.component = some x then .ok { b with component := some false }
                    else .err .badSchemaAssertion
    | _ => .err .badSchemaAssertion
  else if attr = DB_UNIQUE then
    match v with
    | .ref u =>
      if (u = DB_UNIQUE_VALUE ∧ b.unique = some (some .value)) ∨
         (u = DB_UNIQUE_IDENTITY ∧ b.unique = some (some .identity)) then
        .ok { b with unique := some none }
      else .err .badSchemaAssertion
    | _ => .err .badSchemaAssertion
  else .err .badSchemaAssertion

/-- metadata.rs:242-251 -/
def decodeValueType (v : TypedValue) : Option ValueType :=
  match v with
  | .ref e =>
    if e = DB_TYPE_BOOLEAN then some .boolean
    else if e = DB_TYPE_DOUBLE then some .double
    else if e = DB_TYPE_INSTANT then some .instant
    else if e = DB_TYPE_KEYWORD then some .keyword
    else if e = DB_TYPE_LONG then some .long
    else if e = DB_TYPE_REF then some .ref
    else if e = DB_TYPE_STRING then some .string
    else if e = DB_TYPE_UUID then some .uuid
    else none
  | _ => none

/-- metadata.rs: the value of `:db/cardinality`; is it many? -/
def decodeCardinality (v : TypedValue) : Option Bool :=
  match v with
  | .ref e => if e = DB_CARDINALITY_MANY then some true
              else if e = DB_CARDINALITY_ONE then some false else none
  | _ => none

/-- metadata.rs: the value of `:db/unique`. -/
def decodeUnique (v : TypedValue) : Option Unique :=
  match v with
  | .ref e => if e = DB_UNIQUE_VALUE then some .value
              else if e = DB_UNIQUE_IDENTITY then some .identity else none
  | _ => none

/-- metadata.rs: the value of a flag. -/
def decodeBool (v : TypedValue) : Option Bool :=
  match v with
  | .boolean b => some b
  | _ => none

/-- metadata.rs:235-303: one assertion applied to its builder. -/
def assertBuilder (b : AttributeBuilder) (attr : Entid) (v : TypedValue) : Res AttributeBuilder :=
  if attr = DB_VALUE_TYPE then
    match decodeValueType v with
    | some t => .ok { b with valueType := some t }
    | none => .err .badSchemaAssertion
  else if attr = DB_CARDINALITY then
    match decodeCardinality v with
    | some m => .ok { b with multival := some m }
    | none => .err .badSchemaAssertion
  else if attr = DB_UNIQUE then
    match decodeUnique v with
    | some u => .ok { b with unique := some (some u) }
    | none => .err .badSchemaAssertion
  else if attr = DB_INDEX then
    match decodeBool v with
    | some x => .ok { b with index := some x }
    | none => .err .badSchemaAssertion
  else if attr = DB_FULLTEXT then
    match decodeBool v with
    | some x => .ok { b with fulltext := some x }
    | none => .err .badSchemaAssertion
  else if attr = DB_IS_COMPONENT then
    match decodeBool v with
    | some x => .ok { b with component := some x }
    | none => .err .badSchemaAssertion
  else if attr = DB_NO_HISTORY then
    match decodeBool v with
    | some x => .ok { b with noHistory := some x }
    | none => .err .badSchemaAssertion
  else .err .badSchemaAssertion

/-- metadata.rs:184-233 -/
def retractAll (am : AMap Entid Attribute) : List EAV → AMap Entid AttributeBuilder →
    Res (AMap Entid AttributeBuilder)
  | [], bs => .ok bs
  | (e, a, v) :: r, bs =>
    let b : AttributeBuilder := match AMap.get bs e with
      | some b => b
      | none => match AMap.get am e with
        | some at_ => AttributeBuilder.modify at_
        | none => {}
    match retractBuilder b a v with
    | .ok b' => retractAll am r (AMap.insert bs e b')
    | .err er => .err er
    | .panic => .panic

/-- metadata.rs:235-303 -/
def assertAll : List EAV → AMap Entid AttributeBuilder → Res (AMap Entid AttributeBuilder)
  | [], bs => .ok bs
  | (e, a, v) :: r, bs =>
    let b : AttributeBuilder := match AMap.get bs e with
      | some b => b
      | none => {}
    match assertBuilder b a v with
    | .ok b' => assertAll r (AMap.insert bs e b')
    | .err er => .err er
    | .panic => .panic

/-- metadata.rs:308-337: install or alter, builder by builder.  (The code visits builders in
entid order; each touches only its own entry, so the order decides only which error is
reported.) -/
def applyBuilders : AMap Entid AttributeBuilder → AMap Entid Attribute → MetadataReport →
    Res (AMap Entid Attribute × MetadataReport)
  | [], am, rep => .ok (am, rep)
  | (e, b) :: r, am, rep =>
    match AMap.get am e with
    | none =>
      -- validate_install_attribute, build, validate
      if b.valueType.isSome && b.build.valid then
        applyBuilders r (AMap.insert am e b.build) { rep with installed := rep.installed ++ [e] }
      else .err .badSchemaAssertion
    | some at_ =>
      -- validate_alter_attribute, mutate
      if b.valueType.isSome || b.fulltext.isSome then .err .badSchemaAssertion
      else
        let (at', ms) := b.mutate at_
        applyBuilders r (AMap.insert am e at') { rep with altered := AMap.insert rep.altered e ms }

/-- metadata.rs:164-345 `update_attribute_map_from_entid_triples` -/
def updateAttributeMap (am : AMap Entid Attribute) (assertions retractions : List EAV) :
    Res (AMap Entid Attribute × MetadataReport) := do
  let bs ← retractAll am retractions []
  let bs ← assertAll assertions bs
  applyBuilders bs am {}

/-- metadata.rs:373-389: sort the quadruples into ident and attribute changes. -/
def collectMeta : List (Entid × Entid × TypedValue × Bool) →
    ARASet (Entid × Entid) TypedValue → ARASet Entid Keyword →
    Res (ARASet (Entid × Entid) TypedValue × ARASet Entid Keyword)
  | [], as_, is => .ok (as_, is)
  | (e, a, v, added) :: r, as_, is =>
    if a = DB_IDENT then
      match v with
      | .keyword k => collectMeta r as_ (is.witness e k added)
      | _ => .panic
    else collectMeta r (as_.witness (e, a) v added) is

/-- metadata.rs:421-425 -/
def assertIdents : List (Entid × Keyword) → Schema → Schema
  | [], s => s
  | (e, k) :: r, s =>
    assertIdents r { s with entidMap := AMap.insert s.entidMap e k,
                            identMap := AMap.insert s.identMap k e }

/-- metadata.rs:427-432 -/
def alterIdents : List (Entid × Keyword × Keyword) → Schema → Schema
  | [], s => s
  | (e, old, new) :: r, s =>
    alterIdents r { s with entidMap := AMap.insert s.entidMap e new,
                           identMap := AMap.insert (AMap.erase s.identMap old) new e }

/-- metadata.rs:434-438 -/
def retractIdents : List (Entid × Keyword) → Schema → Schema
  | [], s => s
  | (e, k) :: r, s =>
    retractIdents r { s with entidMap := AMap.erase s.entidMap e,
                             identMap := AMap.erase s.identMap k }

/-- The entries of a map by entity and attribute. -/
def triplesOf (m : AMap (Entid × Entid) TypedValue) : List EAV :=
  m.map fun (p : (Entid × Entid) × TypedValue) => (p.1.1, p.1.2, p.2)

/-- metadata.rs:355-457 `update_schema_from_entid_quadruples` -/
def updateSchema (s : Schema) (quads : List (Entid × Entid × TypedValue × Bool)) :
    Res (Schema × MetadataReport) := do
  let (as_, is) ← collectMeta quads {} {}
  let altered : List EAV := as_.altered.map fun (p : (Entid × Entid) × TypedValue × TypedValue) =>
    (p.1.1, p.1.2, p.2.2)
  let (am, retr) ← schemaRetractions s.attributeMap (triplesOf as_.retracted) is.retracted
  let (am, rep) ← updateAttributeMap am (triplesOf as_.asserted ++ altered) retr
  let s := { s with attributeMap := am }
  let s := assertIdents (sortBy (·.1) is.asserted) s
  let s := alterIdents (sortBy (·.1) is.altered) s
  let s := retractIdents (sortBy (·.1) is.retracted) s
  pure (s, { rep with identsAltered := AMap.keys is.asserted ++ AMap.keys is.altered ++ AMap.keys is.retracted })

/-- `ORDER BY e, a, v, value_type_tag, added` (db.rs:1119, 1140): does `p` come before `q`? -/
def quadLt (p q : Entid × Entid × TypedValue × Bool) : Bool :=
  let v := p.2.2.1.toSql
  let w := q.2.2.1.toSql
  decide (p.1 < q.1) || decide (p.1 = q.1) && (
  decide (p.2.1 < q.2.1) || decide (p.2.1 = q.2.1) && (
  v.1.lt w.1 || !w.1.lt v.1 && (
  decide (v.2 < w.2) || decide (v.2 = w.2) && (!p.2.2.2 && q.2.2.2))))

/-- Stable insertion sort. -/
def insertQuad (x : Entid × Entid × TypedValue × Bool) :
    List (Entid × Entid × TypedValue × Bool) → List (Entid × Entid × TypedValue × Bool)
  | [] => [x]
  | y :: r => if quadLt y x then y :: insertQuad x r else x :: y :: r

/-- Stable insertion sort. -/
def sortQuads : List (Entid × Entid × TypedValue × Bool) → List (Entid × Entid × TypedValue × Bool)
  | [] => []
  | x :: r => insertQuad x (sortQuads r)

/-- db.rs:1130-1149 `committed_metadata_assertions`, db.rs:1098-1128 `resolved_metadata_assertions`:
this transaction's changes to metadata attributes, sorted. -/
def metadataAssertions (lr : List LogRow) : List (Entid × Entid × TypedValue × Bool) :=
  sortQuads ((lr.filter fun l => decide (l.a ∈ metadataList)).map fun l => (l.e, l.a, l.v, l.added))

theorem insertQuad_perm (x) : ∀ l, (insertQuad x l).Perm (x :: l)
  | [] => .refl _
  | y :: r => by
    unfold insertQuad; split
    · exact ((insertQuad_perm x r).cons y).trans (.swap ..)
    · exact .refl _

theorem sortQuads_perm : ∀ l, (sortQuads l).Perm l
  | [] => .refl _
  | x :: r => (insertQuad_perm x _).trans ((sortQuads_perm r).cons x)

@[simp] theorem mem_sortQuads {x l} : x ∈ sortQuads l ↔ x ∈ l := (sortQuads_perm l).mem_iff

/-! ### The materialized views -/

/-- The `idents` and `schema` tables (db.rs:243-246). -/
structure Views where
  idents : List (Entid × TypedValue) := []
  schema : List EAV := []
  deriving DecidableEq, Repr

/-- db.rs:1190-1197 -/
def identsOf (rows : List Row) : List (Entid × TypedValue) :=
  (rows.filter fun r => decide (r.a = DB_IDENT)).map fun r => (r.e, r.v)

/-- db.rs:1219-1229: schema datoms of the entities that have a :db/valueType.  (The join repeats a
row if an entity has two value types; the attribute is cardinality one.) -/
def schemaOf (rows : List Row) : List EAV :=
  (rows.filter fun r => decide (r.a ∈ schemaList) &&
      rows.any fun r' => decide (r'.a = DB_VALUE_TYPE ∧ r'.e = r.e)).map fun r => (r.e, r.a, r.v)

/-- db.rs:1248-1300: on-disk effects of one alteration. -/
def applyAlteration (at_ : Attribute) (e : Entid) (rows : List Row) : Alteration → Res (List Row)
  | .index => .ok (rows.map fun r => if r.a = e then { r with avet := at_.index } else r)
  | .unique =>
    let rows' := rows.map fun r => if r.a = e then { r with uniq := at_.unique.isSome } else r
    if uniqueOk rows' then .ok rows' else
      match at_.unique with
      | some _ => .err .schemaAlterationFailed
      | none => .panic
  | .cardinality =>
    -- `SELECT EXISTS (...)` always yields one row, so `rows.next()?.is_some()` holds.
    if at_.multival then .ok rows else .err .schemaAlterationFailed
  | .noHistory => .ok rows
  | .isComponent => .ok rows

/-- db.rs:1248-1300: the alterations of one attribute. -/
def applyAlterations (at_ : Attribute) (e : Entid) : List Alteration → List Row → Res (List Row)
  | [], rows => .ok rows
  | x :: xs, rows =>
    match applyAlteration at_ e rows x with
    | .ok rows' => applyAlterations at_ e xs rows'
    | .err er => .err er
    | .panic => .panic

/-- db.rs:1248-1300: all alterations. -/
def applyAllAlterations (s : Schema) : AMap Entid (List Alteration) → List Row → Res (List Row)
  | [], rows => .ok rows
  | (e, xs) :: r, rows =>
    match s.attr e with
    | none => .err .unrecognizedEntid
    | some at_ =>
      match applyAlterations at_ e xs rows with
      | .ok rows' => applyAllAlterations s r rows'
      | .err er => .err er
      | .panic => .panic

/-- db.rs:1173-1303 `update_metadata` -/
def updateMetadata (new : Schema) (rep : MetadataReport) (rows : List Row) (views : Views) :
    Res (List Row × Views) :=
  let views := if rep.identsAltered.isEmpty then views else { views with idents := identsOf rows }
  let views := if rep.installed.isEmpty && rep.altered.isEmpty && rep.identsAltered.isEmpty
    then views else { views with schema := schemaOf rows }
  match applyAllAlterations new rep.altered rows with
  | .ok rows' => .ok (rows', views)
  | .err e => .err e
  | .panic => .panic

/-- db.rs:550-563 `read_ident_map` -/
def readIdentMap : List (Entid × TypedValue) → AMap Keyword Entid → Res (AMap Keyword Entid)
  | [], m => .ok m
  | (e, v) :: r, m =>
    match v with
    | .keyword k => readIdentMap r (AMap.insert m k e)
    | _ => .err .other

/-- db.rs:565-572 `read_attribute_map`, 574-580 `read_db` and schema.rs:284-293
`from_ident_map_and_attribute_map`: the schema a fresh connection computes. -/
def readSchema (views : Views) : Res Schema := do
  let im ← readIdentMap views.idents []
  let (am, _) ← updateAttributeMap [] views.schema []
  if am.all fun (p : Entid × Attribute) => p.2.valid then
    pure { entidMap := im.foldl (fun (m : AMap Entid Keyword) p => AMap.insert m p.2 p.1) [],
           identMap := im, attributeMap := am }
  else .err .badSchemaAssertion

end Mentat
