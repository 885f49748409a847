import Verif.Model.Lookup
/-
Prepared queries: transaction/src/query.rs:51-90, 399-442; transaction/src/lib.rs:420-426, src/conn.rs:165-178.

A statement prepared is run against whatever the tables hold then.  What depends on the schema and on the caches is settled when the
query is prepared; the schema cloned into `PreparedQuery::Bound` is used for pulling only, which queries of the model do not do.
-/
namespace Mentat
open CC

/-- query.rs:57-63: the statement of a query that takes work, with the projector. -/
structure Statement where
  find : FindSpec
  select : Select
  /-- the statement around `select` that aggregates: names of the columns of `select`, its own columns, the grouping, the
  order and the limit -/
  outer : Option (List Col × List OuterCol × List Col × List (Bool × Col) × Option Nat)
  templates : List TIndex

/-- query.rs:51-64 `PreparedQuery` -/
inductive PreparedQuery where
  | empty (find : FindSpec)
  | constant (r : QResult)
  | bound (s : Statement)

/-- `sqlite.prepare`: refused if a column is named that there is not. -/
def Statement.prepare (s : Statement) : Res PreparedQuery :=
  if !scopedSelect [] s.select then .err .other
  else match s.outer with
    | none => .ok (.bound s)
    | some (names, cols, _, order, _) =>
      if order.all fun o => decide (o.2 ∈ cols.map fun c => c.col.getD (.var [])) || decide (o.2 ∈ names) then .ok (.bound s)
      else .err .other

/-- `run_statement` and `project` (query.rs:80-87) -/
def Statement.run (fl : Floats) (db : Tables) (s : Statement) : Res QResult :=
  match s.outer with
  | none => project s.find s.templates (evalSelect db [] s.select)
  | some (names, cols, gb, order, limit) =>
    (aggregateRows fl names cols gb order limit (evalSelect db [] s.select)).bind fun rows => project s.find s.templates rows

/-- query.rs:412-441, after the query has been algebrized. -/
def prepareAlgebrized (q : Algebraic) : Res PreparedQuery :=
  if q.cc.empty then .ok (.empty q.find)
  else if q.fullyUnitBound then (fromConstants q).bind fun r => .ok (.constant r)
  else (projectElements q).bind fun p => q.limit.number.bind fun limit => match p.outer with
    | none => (q.cc.toSelect p.cols (isDistinct q false) q.order limit).bind fun s =>
        Statement.prepare ⟨q.find, s, none, p.templates⟩
    | some (cols, gb) => (q.cc.toSelect p.cols true [] none).bind fun s =>
        Statement.prepare ⟨q.find, s, some (p.cols.map (·.2), cols, gb, q.order, limit), p.templates⟩

/-- query.rs:399-442 `q_prepare` -/
def prepareQuery (k : Known) (q : FindQuery) (inputs : Inputs) : Res PreparedQuery :=
  (algebrizeQuery k q inputs).bind prepareAlgebrized

/-- query.rs:67-89 `PreparedQuery::run`: the inputs given are not looked at. -/
def PreparedQuery.run (fl : Floats) (db : Tables) (p : PreparedQuery) (_inputs : Option Inputs) : Res QResult :=
  match p with
  | .empty find => .ok (.empty find)
  | .constant r => .ok r
  | .bound s => s.run fl db

/-- transaction/src/lib.rs:410-419 `q_once` of a transaction in progress. -/
def InProgress.qOnce (fl : Floats) (p : InProgress) (useCaching : Bool) (db : Tables) (q : FindQuery) (inputs : Inputs) : Res QResult :=
  runQuery fl (p.known useCaching) db q inputs

/-- transaction/src/lib.rs:421-427 `q_prepare`: the caches are used in any case. -/
def InProgress.qPrepare (p : InProgress) (_useCaching : Bool) (q : FindQuery) (inputs : Inputs) : Res PreparedQuery :=
  prepareQuery p.known q inputs

end Mentat
