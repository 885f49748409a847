import Verif.Model.QueryParse
import Verif.Model.QueryResult
/-
Queries whose inputs are bound one at a time: src/query_builder.rs.  The store is what it is at each call: its
schema for `bind_ref_from_kw`, its schema, cache and tables for `execute`.
-/
namespace Mentat
open CC

/-- `BTreeMap::insert`: the map is kept in the order of the variables' names; a later value replaces an
earlier one. -/
def putVar {α : Type} (x : Var) (v : α) : AMap Var α → AMap Var α
  | [] => [(x, v)]
  | (y, w) :: r =>
    if y = x then (x, v) :: r
    else if CC.varLt y x then (y, w) :: putVar x v r
    else (x, v) :: (y, w) :: r

/-- query-algebrizer/src/clauses/inputs.rs:40-43 `with_value_sequence`: collected into a map. -/
def CC.Inputs.ofSequence (vs : List (Var × TypedValue)) : Inputs :=
  Inputs.ofValues (vs.foldl (fun m p => putVar p.1 p.2 m) [])

/-- inputs.rs:62-77 `new`: a type given for a variable must be that of its value. -/
def CC.Inputs.given : AMap Var ValueType → List (Var × TypedValue) → Res (AMap Var ValueType)
  | types, [] => .ok types
  | types, (x, v) :: r =>
    if (AMap.get types x).all fun t => decide (t = v.valueType) then
      CC.Inputs.given (putVar x v.valueType types) r
    else .err .inputError

/-- inputs.rs:62-77 `new` -/
def CC.Inputs.new (types : AMap Var ValueType) (values : AMap Var TypedValue) : Res Inputs :=
  (Inputs.given types values).bind fun types => .ok ⟨types, values⟩

/-- query_builder.rs:22-27 `QueryBuilder` -/
structure QueryBuilder where
  query : Text
  values : AMap Var TypedValue := []
  types : AMap Var ValueType := []
  deriving DecidableEq

namespace QueryBuilder

/-- query_builder.rs:30-40 `new` -/
def new (query : Text) : QueryBuilder := { query := query }

/-- edn/src/query.rs:59-63 `Variable::from_valid_name`: panics unless the name begins with a question
mark. -/
def validName (x : Text) : Res Var := if x.head? = some '?' then .ok x else .panic

/-- query_builder.rs:42-49 `bind_value` -/
def bindValue (b : QueryBuilder) (x : Text) (v : TypedValue) : Res QueryBuilder :=
  (validName x).bind fun x => .ok { b with values := putVar x v b.values }

/-- query_builder.rs:51-64 `bind_ref_from_kw`; the keyword is looked up before the variable is made. -/
def bindRefFromKw (b : QueryBuilder) (s : Schema) (x : Text) (k : Keyword) : Res QueryBuilder :=
  match AMap.get s.identMap k with
  | none => .err .unrecognizedIdent
  | some e => b.bindValue x (.ref e)

/-- query_builder.rs:66-75 `bind_ref` -/
def bindRef (b : QueryBuilder) (x : Text) (e : Entid) : Res QueryBuilder := b.bindValue x (.ref e)

/-- query_builder.rs:77-81 `bind_long` -/
def bindLong (b : QueryBuilder) (x : Text) (i : Int) : Res QueryBuilder := b.bindValue x (.long i)

/-- query_builder.rs:83-88 `bind_instant`, core-traits/lib.rs `TypedValue::instant` -/
def bindInstant (b : QueryBuilder) (x : Text) (micros : Int) : Res QueryBuilder :=
  b.bindValue x (.instant (DateTime.fromMicros micros).toMicros)

/-- query_builder.rs:90-94 `bind_date_time`.  Simplification: of the time only the microseconds are
kept, as in every instant of the model. -/
def bindDateTime (b : QueryBuilder) (x : Text) (t : DateTime) : Res QueryBuilder :=
  b.bindValue x (.instant t.toMicros)

/-- query_builder.rs:96-100 `bind_type` -/
def bindType (b : QueryBuilder) (x : Text) (t : ValueType) : Res QueryBuilder :=
  (validName x).bind fun x => .ok { b with types := putVar x t b.types }

/-- query_builder.rs:102-108 `execute`: the bindings are taken out of the builder (`mem::take`), so that
it is left without any, whatever becomes of the query. -/
def execute (b : QueryBuilder) (fl : Floats) (k : Known) (db : Tables) : QueryBuilder × Res QResult :=
  ({ b with values := [], types := [] },
    (Inputs.new b.types b.values).bind fun inputs => (QParse.parseFind b.query).bind fun q =>
      CC.runQuery fl k db q inputs)

/-- query_builder.rs:110-113 `execute_scalar` -/
def executeScalar (b : QueryBuilder) (fl : Floats) (k : Known) (db : Tables) : QueryBuilder × Res (Option TypedValue) :=
  ((b.execute fl k db).1, (b.execute fl k db).2.bind QResult.intoScalar)

/-- query_builder.rs:115-118 `execute_coll` -/
def executeColl (b : QueryBuilder) (fl : Floats) (k : Known) (db : Tables) : QueryBuilder × Res (List TypedValue) :=
  ((b.execute fl k db).1, (b.execute fl k db).2.bind QResult.intoColl)

/-- query_builder.rs:120-123 `execute_tuple`, into a vector; the specification is that of the query read. -/
def executeTuple (b : QueryBuilder) (fl : Floats) (k : Known) (db : Tables) :
    QueryBuilder × Res (Option (List TypedValue)) :=
  ((b.execute fl k db).1, (b.execute fl k db).2.bind fun r =>
    (QParse.parseFind b.query).bind fun q => CC.intoTuple none q.find r)

/-- query_builder.rs:125-128 `execute_rel` -/
def executeRel (b : QueryBuilder) (fl : Floats) (k : Known) (db : Tables) : QueryBuilder × Res (RelResult TypedValue) :=
  ((b.execute fl k db).1, (b.execute fl k db).2.bind QResult.intoRel)

end QueryBuilder

/-- A call that binds. -/
inductive BindCall where
  | value (x : Text) (v : TypedValue)
  | refFromKw (x : Text) (k : Keyword)
  | ref (x : Text) (e : Entid)
  | long (x : Text) (i : Int)
  | instant (x : Text) (micros : Int)
  | dateTime (x : Text) (t : DateTime)
  | type (x : Text) (t : ValueType)
  deriving DecidableEq

namespace QueryBuilder

/-- One call. -/
def call (s : Schema) (b : QueryBuilder) : BindCall → Res QueryBuilder
  | .value x v => b.bindValue x v
  | .refFromKw x k => b.bindRefFromKw s x k
  | .ref x e => b.bindRef x e
  | .long x i => b.bindLong x i
  | .instant x m => b.bindInstant x m
  | .dateTime x t => b.bindDateTime x t
  | .type x t => b.bindType x t

/-- The calls in order. -/
def calls (s : Schema) (b : QueryBuilder) : List BindCall → Res QueryBuilder
  | [] => .ok b
  | c :: r => (b.call s c).bind fun b => b.calls s r

end QueryBuilder
end Mentat
