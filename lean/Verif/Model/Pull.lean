import Verif.Model.Cache
/-
Pull (query-pull/src/lib.rs, query-projector/src/pull.rs,
query-projector/src/projectors/pull_two_stage.rs, db/src/cache.rs:1086-1250): fetching a set of
attributes for a set of entities into structured maps.

`PullAttributeSpec` has no nesting in this code, so neither has the result.  The text of the SQL and
the reading of the values back (`from_sql_value_pair(..).unwrap()`) are left out: rows hold values.
Fulltext attributes are read through `fulltext_datoms`, which shows the text; here rows hold it.
-/
namespace Mentat

/-- edn/src/query.rs:463-466 `PullConcreteAttribute` -/
inductive PullConcrete where
  | ident (k : Keyword)
  | entid (e : Entid)
  deriving DecidableEq, Repr

/-- edn/src/query.rs:469-490 `NamedPullAttribute`, `PullAttributeSpec` -/
inductive PullSpec where
  | wildcard
  | attr (x : PullConcrete) (alias_ : Option Keyword)
  deriving DecidableEq, Repr

/-- The two kinds of value a pulled attribute can have: core-traits/lib.rs `Binding::Scalar`,
`Binding::Vec` of scalars. -/
inductive PullVal where
  | scalar (v : TypedValue)
  | vec (l : List TypedValue)
  deriving DecidableEq, Repr

/-- core-traits/lib.rs `StructuredMap` -/
abbrev PullMap := AMap Keyword PullVal
/-- query-pull/src/lib.rs:82 `PullResults` -/
abbrev PullResults := AMap Entid PullMap

/-- `:db/id` -/
def dbIdKeyword : Keyword := ⟨"db".toList, "id".toList⟩

/-- query-pull/src/lib.rs:126-139 `Puller`: what `prepare` accumulates.  `names` is a `BTreeMap`;
where it is iterated the entries are sorted.  `attrs` is the argument of
`AttributeSpec::specified`. -/
structure Puller where
  names : AMap Entid Keyword := []
  attrs : List Entid := []
  dbIdAlias : Option Keyword := none
  deriving DecidableEq, Repr

/-- An attribute and the name it is to have. -/
def Puller.want (p : Puller) (a : Entid) (n : Keyword) : Puller :=
  { p with names := AMap.insert p.names a n, attrs := setInsert p.attrs a }

/-- query-pull/src/lib.rs:146-152 `lookup_name`; the error is `UnnamedAttribute`. -/
def pullName (s : Schema) (a : Entid) : Res Keyword :=
  match AMap.get s.entidMap a with
  | some k => .ok k
  | none => .err .other

/-- query-pull/src/lib.rs:161-166: the attributes of the schema, each under its own ident. -/
def Puller.wantAll (s : Schema) : List Entid → Puller → Res Puller
  | [], p => .ok p
  | a :: r, p => (pullName s a).bind fun n => Puller.wantAll s r (p.want a n)

/-- query-pull/src/lib.rs:175-195: one attribute.  An ident that is not known is passed over. -/
def Puller.wantOne (s : Schema) (p : Puller) (x : PullConcrete) (alias_ : Option Keyword) : Res Puller :=
  match x with
  | .ident k =>
    if k = dbIdKeyword then
      if p.dbIdAlias.isSome then .err .other else .ok { p with dbIdAlias := some (alias_.getD dbIdKeyword) }
    else match AMap.get s.identMap k with
      | some a => .ok (p.want a (alias_.getD k))
      | none => .ok p
  | .entid a =>
    match alias_ with
    | some n => .ok (p.want a n)
    | none => (pullName s a).bind fun n => .ok (p.want a n)

/-- query-pull/src/lib.rs:159-198: the loop, which a wildcard ends. -/
def Puller.prepareFrom (s : Schema) : List PullSpec → Puller → Res Puller
  | [], p => .ok p
  | .wildcard :: _, p => Puller.wantAll s (AMap.keys s.attributeMap) p
  | .attr x n :: r, p => (p.wantOne s x n).bind fun p' => Puller.prepareFrom s r p'

/-- query-pull/src/lib.rs:142-205 `Puller::prepare` -/
def Puller.prepare (s : Schema) (specs : List PullSpec) : Res Puller := Puller.prepareFrom s specs {}

/-- cache.rs:1101-1115 `AttributeSpec::specified`: those that are attributes (`fts` and `non_fts`
together). -/
def pullAttrs (s : Schema) (attrs : List Entid) : List Entid := attrs.filter fun a => (s.attr a).isSome

/-- The rows of the query at cache.rs:1136-1189: of the entities and attributes, by attribute and
entity.  (The order of the values of one entity for one attribute is SQLite's; here it is that of the
store.) -/
def pullRows (rows : List Row) (attrs entities : List Entid) : List Aev :=
  sortBy (·.1) (sortBy (·.2.1) ((rows.filter fun r => decide (r.e ∈ entities) && decide (r.a ∈ attrs)).map
    fun r => (r.a, r.e, r.v)))

/-- cache.rs:1118-1198 `populate_cache_for_entities_and_attributes`, cache.rs:1280-1290
`make_cache_for_entities_and_attributes` -/
def pullCaches (s : Schema) (rows : List Row) (attrs entities : List Entid) : Res Caches :=
  if (pullAttrs s attrs).isEmpty then .ok {} else
  Caches.accumulate { forward := pullAttrs s attrs } none s
    (pullRows rows (pullAttrs s attrs) entities) (.add false)

/-- cache.rs:1200-1219 `forward_attribute_cache_for_attribute`, cache.rs:265-273, 336-347
`binding_for_e` -/
def Caches.bindingFor (c : Caches) (s : Schema) (a e : Entid) : Option PullVal :=
  if a ∈ c.forward then
    match s.attr a with
    | some at_ =>
      if at_.multival then ((AMap.get c.multi a).bind fun m => AMap.get m e).map .vec
      else ((AMap.get c.single a).bind fun m => AMap.get m e).join.map .scalar
    | none => none
  else none

/-- `maps.entry(e).or_insert_with(..)` followed by `m.insert(n, b)` -/
def putPull (maps : PullResults) (e : Entid) (n : Keyword) (b : PullVal) : PullResults :=
  AMap.insert maps e (AMap.insert ((AMap.get maps e).getD []) n b)

/-- query-pull/src/lib.rs:236-246: `:db/id` -/
def pullIds (n : Keyword) : List Entid → PullResults → PullResults
  | [], maps => maps
  | e :: r, maps => pullIds n r (putPull maps e n (.scalar (.ref e)))

/-- query-pull/src/lib.rs:253-265: one attribute for every entity -/
def pullOne (n : Keyword) (look : Entid → Option PullVal) : List Entid → PullResults → PullResults
  | [], maps => maps
  | e :: r, maps =>
    pullOne n look r (match look e with
      | some b => putPull maps e n b
      | none => maps)

/-- query-pull/src/lib.rs:248-266: the attributes in order -/
def pullAll (look : Entid → Entid → Option PullVal) (entities : List Entid) :
    List (Entid × Keyword) → PullResults → PullResults
  | [], maps => maps
  | (a, n) :: r, maps => pullAll look entities r (pullOne n (look a) entities maps)

/-- query-pull/src/lib.rs:207-270 `Puller::pull` -/
def Puller.pull (p : Puller) (s : Schema) (rows : List Row) (entities : List Entid) : Res PullResults :=
  (pullCaches s rows p.attrs entities).bind fun c =>
    .ok (pullAll (fun a e => c.bindingFor s a e) entities (sortBy (·.1) p.names)
      (match p.dbIdAlias with
        | some n => pullIds n entities []
        | none => []))

/-- query-pull/src/lib.rs:106-122 `pull_attributes_for_entities` -/
def pullForEntities (s : Schema) (rows : List Row) (entities attrs : List Entid) : Res PullResults :=
  (Puller.prepare s (attrs.map fun a => .attr (.entid a) none)).bind fun p => p.pull s rows entities

/-- query-pull/src/lib.rs:84-104 `pull_attributes_for_entity`: the first (and only) entry, whose key the
code asserts to be the entity. -/
def pullForEntity (s : Schema) (rows : List Row) (entity : Entid) (attrs : List Entid) : Res PullMap :=
  (pullForEntities s rows [entity] attrs).bind fun m =>
    match m with
    | [] => .ok []
    | (k, vs) :: _ => if k = entity then .ok vs else .panic

/-! ### Pull in queries (query-projector/src/projectors/pull_two_stage.rs) -/

/-- One output of a query with pulls. -/
inductive PullCell where
  | val (v : TypedValue)
  | map (m : PullMap)
  deriving DecidableEq, Repr

/-- query-projector/src/pull.rs:92-96 `collect_entity`: the entity is read as an integer from the pull
element's column; the column is always a ref. -/
def cellEntity : Option TypedValue → Res Entid
  | some (.ref e) => .ok e
  | _ => .panic

/-- pull.rs:92-96 over all rows -/
def collectEntities (i : Nat) : List (List TypedValue) → Res (List Entid)
  | [] => .ok []
  | row :: r => (cellEntity row[i]?).bind fun e => (collectEntities i r).bind fun es => .ok (setInsert es e)

/-- pull.rs:60-90 `for_template`, `for_operation`; pull.rs:98-102 `pull`: the entities are a `BTreeSet`. -/
def pullConsumer (s : Schema) (rows : List Row) (i : Nat) (specs : List PullSpec)
    (values : List (List TypedValue)) : Res PullResults :=
  (Puller.prepare s specs).bind fun p => (collectEntities i values).bind fun es =>
    p.pull s rows (sortBy id es)

/-- pull.rs:104-113 `expand` -/
def expandCell (m : PullResults) : PullCell → PullCell
  | .val (.ref e) => .map ((AMap.get m e).getD [])
  | c => c

/-- pull.rs:104-113 `expand`, of each pulled column. -/
def expandRow (row : List PullCell) : List (Nat × PullResults) → List PullCell
  | [] => row
  | (i, m) :: r => expandRow (row.modify i (expandCell m)) r

/-- pull_two_stage.rs:275-296: every pull element's results (one element after the
other; the code prepares all, then collects, then pulls) -/
def runPulls (s : Schema) (rows : List Row) (values : List (List TypedValue)) :
    List (Nat × List PullSpec) → Res (List (Nat × PullResults))
  | [] => .ok []
  | (i, specs) :: r => (pullConsumer s rows i specs values).bind fun m =>
    (runPulls s rows values r).bind fun ms => .ok ((i, m) :: ms)

/-- pull_two_stage.rs:263-307 `RelTwoStagePullProjector::project`: `pulls` has the output index and the
specs of each pull element, `values` the rows as a query without pulls would return them. -/
def pullRel (s : Schema) (rows : List Row) (pulls : List (Nat × List PullSpec))
    (values : List (List TypedValue)) : Res (List (List PullCell)) :=
  (runPulls s rows values pulls).bind fun ms =>
    .ok (values.map fun row => expandRow (row.map .val) ms)

/-- pull_two_stage.rs:150-190 `TupleTwoStagePullProjector::project` -/
def pullTuple (s : Schema) (rows : List Row) (pulls : List (Nat × List PullSpec))
    (value : Option (List TypedValue)) : Res (Option (List PullCell)) :=
  match value with
  | none => .ok none
  | some row => (runPulls s rows [row] pulls).bind fun ms => .ok (some (expandRow (row.map .val) ms))

/-- pull_two_stage.rs:40-48, 65-92 `ScalarTwoStagePullProjector::project` -/
def pullScalar (s : Schema) (rows : List Row) (specs : List PullSpec) (value : Option TypedValue) :
    Res (Option PullMap) :=
  (Puller.prepare s specs).bind fun p =>
  match value with
  | none => .ok none
  | some v => (cellEntity (some v)).bind fun e => (p.pull s rows [e]).bind fun m =>
    .ok (some ((AMap.get m e).getD []))

/-- pull_two_stage.rs:342-368 `CollTwoStagePullProjector::project`, pull.rs:116-118 `into_coll_results` -/
def pullColl (s : Schema) (rows : List Row) (specs : List PullSpec) (values : List TypedValue) :
    Res (List PullMap) :=
  (pullConsumer s rows 0 specs (values.map fun v => [v])).bind fun m =>
    .ok ((sortBy (·.1) m).map (·.2))

end Mentat
