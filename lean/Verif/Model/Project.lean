import Verif.Model.Algebrize
/-
Projection and running of queries: query-projector/src/{project,lib,translate,relresult}.rs and
projectors/{simple,constant}.rs, query-projector-traits/aggregates.rs, transaction/src/query.rs.

A `pull` element projects its entity; the pulling itself is in Model/Pull.
-/
namespace Mentat
namespace CC

/-! ### Aggregates -/

/-- aggregates.rs:60-140 `is_applicable_to_types`: the type of the result, or an error. -/
def _root_.Mentat.AggOp.resultType (op : AggOp) (ts : TypeSet) : Res ValueType :=
  if ts.isEmpty then .err .other else
  match op with
  | .count => .ok .long
  | .avg => if ts.onlyNumeric then .ok .double else .err .other
  | .sum => if ts.onlyNumeric then .ok (if ts .double then .double else .long) else .err .other
  | .max | .min =>
    if ts.isUnit then
      match ts.exemplar with
      | some .double => .ok .double
      | some .long => .ok .long
      | some .instant => .ok .instant
      | some .boolean => .ok .boolean
      | some .string => .ok .string
      | some _ => .err .other
      | none => .panic
    else if ts.onlyNumeric then .ok (if ts .double then .double else .long)
    else .err .other

/-- aggregates.rs:153-168 `use_static_value`, `is_nullable` -/
def _root_.Mentat.AggOp.nullable : AggOp → Bool
  | .avg | .max | .min => true
  | .count | .sum => false

/-- aggregates.rs:176-184 `to_simple` -/
def simpleAggregate (op : Option AggOp) (args : List FnArg) : Option (AggOp × Var) :=
  match op, args with
  | some op, [.var x] => some (op, x)
  | _, _ => none

/-- A column of the outer query: a name the inner one projects, a constant, or an aggregate of one of
these (aggregates.rs:198-231). -/
inductive OuterCol where
  | name (c : Col)
  | value (v : SqlValue)
  | agg (op : AggOp) (arg : Col ⊕ SqlValue)
  deriving Repr

/-- aggregates.rs:191-231 `projected_column_for_simple_aggregate` -/
def aggregateColumn (cc : CC) (op : AggOp) (x : Var) : Res (OuterCol × ValueType) :=
  (op.resultType (cc.knownTypeSet x)).bind fun t =>
    .ok (match AMap.get cc.vals x with
      | some v => if op.nullable then .value v.toSql.1 else .agg op (.inr v.toSql.1)
      | none => .agg op (.inl (.var x)), t)

/-! ### `project_elements` (project.rs:160-528) -/

/-- query-projector/src/lib.rs:318-321 `TypedIndex` -/
inductive TIndex where
  | known (i tag : Nat)
  | unknown (i j : Nat)
  deriving DecidableEq, Repr

/-- The locals of `project_elements`. -/
structure Proj where
  inner : List (SExpr × Col) := []
  outer : List OuterCol := []
  i : Nat := 0
  minMax : Nat := 0
  templates : List TIndex := []
  aggregates : Bool := false
  outerVars : List Var := []
  corrVars : List Var := []
  innerVars : List Var := []

/-- project.rs:90-103 `candidate_type_column` -/
def typeColumn (cc : CC) (x : Var) : Res (SExpr × Col) :=
  match AMap.get cc.extracted x with
  | some q => .ok (.col q.1 q.2, .varTag x)
  | none => .err .unboundVariable

/-- project.rs:244-263: a variable -/
def projectVar (cc : CC) (p : Proj) (x : Var) : Res Proj :=
  (cc.projectedColumn x).bind fun r =>
    let p : Proj := { p with innerVars := setInsert p.innerVars x, inner := p.inner ++ [(r.1, .var x)],
                             outer := p.outer ++ [.name (.var x)] }
    match r.2.uniqueTag with
    | some tag => .ok { p with templates := p.templates ++ [.known p.i tag], i := p.i + 1 }
    | none => (cc.typeColumn x).bind fun tc =>
      .ok { p with templates := p.templates ++ [.unknown p.i (p.i + 1)], i := p.i + 2,
                   inner := p.inner ++ [tc], outer := p.outer ++ [.name (.varTag x)] }

/-- project.rs:196-348: one element.  A pull of a variable whose type is not known is a panic. -/
def projectElement (cc : CC) (p : Proj) : Element → Res Proj
  | .var x =>
    if x ∈ p.outerVars ∨ x ∈ p.corrVars then .err .other
    else cc.projectVar { p with outerVars := p.outerVars ++ [x] } x
  | .corresponding x =>
    if x ∈ p.outerVars ∨ x ∈ p.corrVars then .err .other
    else cc.projectVar { p with corrVars := p.corrVars ++ [x] } x
  | .pull x =>
    (cc.projectedColumn x).bind fun r => match r.2.uniqueTag with
      | some _ => cc.projectVar { p with outerVars := setInsert p.outerVars x } x
      | none => .panic
  | .aggregate op args => match simpleAggregate op args with
    | none => .err .other
    | some (op, x) => (cc.aggregateColumn op x).bind fun r =>
      let p : Proj := { p with aggregates := true, outer := p.outer ++ [r.1],
                               minMax := p.minMax + if op = .max ∨ op = .min then 1 else 0 }
      let p' : Res Proj :=
        if x ∈ p.innerVars then .ok p
        else (cc.projectedColumn x).bind fun c =>
          let p : Proj := { p with innerVars := setInsert p.innerVars x, inner := p.inner ++ [(c.1, .var x)] }
          if (cc.knownTypeSet x).uniqueTag.isNone then
            (cc.typeColumn x).bind fun tc => .ok { p with inner := p.inner ++ [tc] }
          else .ok p
      p'.bind fun p => .ok { p with templates := p.templates ++ [.known p.i r.2.tag], i := p.i + 1 }

/-- project.rs:196-348: the elements in order. -/
def projectElementsLoop (cc : CC) (p : Proj) : List Element → Res Proj
  | [] => .ok p
  | e :: es => (cc.projectElement p e).bind fun p' => projectElementsLoop cc p' es

/-- project.rs:351-364: `the` needs exactly one `min` or `max`. -/
def checkCorresponding (p : Proj) : Bool := p.corrVars.isEmpty || p.minMax == 1

/-- project.rs:372-412: the columns `ORDER BY` needs. -/
def projectNamed (cc : CC) (p : Proj) : List Var → Res Proj
  | [] => .ok p
  | x :: xs =>
    if x ∈ p.outerVars ∨ (AMap.get cc.vals x).isSome then projectNamed cc p xs else
    match AMap.get cc.colb x with
    | some (q :: _) =>
      let already := decide (x ∈ p.innerVars)
      let p1 : Proj := { p with
        inner := if already then p.inner else p.inner ++ [(.col q.1 q.2, .var x)]
        innerVars := setInsert p.innerVars x
        outer := p.outer ++ [.name (.var x)], outerVars := p.outerVars ++ [x] }
      if (cc.knownTypeSet x).uniqueTag.isSome then projectNamed cc p1 xs
      else (cc.typeColumn x).bind fun tc => projectNamed cc { p1 with
        inner := if already then p1.inner else p1.inner ++ [tc]
        outer := p1.outer ++ [.name (.varTag x)] } xs
    | _ => .err .unboundVariable

/-- project.rs:437-480: the columns to group by.  The Boolean says whether to group by the variable. -/
def projectGroup (cc : CC) (p : Proj) (gb : List Col) : List (Var × Bool) → Res (Proj × List Col)
  | [] => .ok (p, gb)
  | (x, g) :: xs =>
    if (AMap.get cc.vals x).isSome then projectGroup cc p gb xs else
    let gb := if g then gb ++ [.var x] else gb
    let already := decide (x ∈ p.innerVars)
    let p1 : Res Proj := if already then .ok p else match AMap.get cc.colb x with
      | some (q :: _) => .ok { p with inner := p.inner ++ [(.col q.1 q.2, .var x)] }
      | _ => .err .unboundVariable
    p1.bind fun p1 =>
      if (cc.knownTypeSet x).uniqueTag.isSome then projectGroup cc p1 gb xs else
      let p2 : Res Proj := if already then .ok p1 else
        (cc.typeColumn x).bind fun tc => .ok { p1 with inner := p1.inner ++ [tc] }
      p2.bind fun p2 => projectGroup cc p2 (if g then gb ++ [.varTag x] else gb) xs

/-- project.rs:482-500: the columns `:with` needs. -/
def projectWith (cc : CC) (p : Proj) : List Var → Res Proj
  | [] => .ok p
  | x :: xs =>
    if (AMap.get cc.vals x).isSome ∨ x ∈ p.innerVars then projectWith cc p xs else
    (cc.projectedColumn x).bind fun r =>
      let p1 : Proj := { p with inner := p.inner ++ [(r.1, .var x)] }
      if r.2.uniqueTag.isSome then projectWith cc p1 xs
      else (cc.typeColumn x).bind fun tc => projectWith cc { p1 with inner := p1.inner ++ [tc] } xs

/-- What is run: the columns, and for an aggregating query the outer columns and the grouping
(project.rs:46-58 `ProjectedElements`). -/
structure Projected where
  cols : List (SExpr × Col)
  outer : Option (List OuterCol × List Col)
  templates : List TIndex

/-- project.rs:155-527 `project_elements` -/
def projectElements (q : Algebraic) : Res Projected :=
  (q.cc.projectElementsLoop {} q.find.elements).bind fun p =>
  if !checkCorresponding p then .err .other else
  (q.cc.projectNamed p q.named).bind fun p =>
  if !p.aggregates then .ok { cols := p.inner, outer := none, templates := p.templates } else
  (q.cc.projectGroup p [] (p.outerVars.map (·, true) ++ p.corrVars.map (·, false))).bind fun pg =>
  (q.cc.projectWith pg.1 q.withVars).bind fun p =>
  .ok { cols := p.inner, outer := some (p.outer, pg.2), templates := p.templates }

/-! ### Evaluation of the outer query -/

/-- SQLite's floating-point `sum` and `avg`, not specified further. -/
structure Floats where
  sum : List SqlValue → SqlValue
  avg : List SqlValue → SqlValue

/-- The values an aggregate of SQLite looks at. -/
def nonNull (l : List SqlValue) : List SqlValue := l.filter fun v => decide (v ≠ .null)

/-- The least value and the index of its first occurrence. -/
def pickLeast (lt : SqlValue → SqlValue → Bool) : List SqlValue → Option SqlValue
  | [] => none
  | v :: r => match pickLeast lt r with
    | none => some v
    | some w => if lt w v then some w else some v

/-- The integers in a list, if it contains nothing else. -/
def allIntegers : List SqlValue → Option (List Int)
  | [] => some []
  | .integer n :: r => (allIntegers r).map (n :: ·)
  | _ :: _ => none

/-- SQLite's aggregate functions, ignoring NULL.  The overflow of an integer sum is an error. -/
def _root_.Mentat.AggOp.eval (fl : Floats) (op : AggOp) (vals : List SqlValue) : Res SqlValue :=
  let l := nonNull vals
  match op with
  | .count => .ok (.integer l.length)
  | .sum =>
    if l.isEmpty then .ok .null else
    match allIntegers l with
    | some ns => if -(2 ^ 63) ≤ ns.sum ∧ ns.sum < 2 ^ 63 then .ok (.integer ns.sum) else .err .other
    | none => .ok (fl.sum l)
  | .avg => .ok (if l.isEmpty then .null else fl.avg l)
  | .max => .ok ((pickLeast (fun v w => w.lt v) l).getD .null)
  | .min => .ok ((pickLeast SqlValue.lt l).getD .null)

/-- The rows in groups having the same values in the columns. -/
def groupRows (names : List Col) (gb : List Col) (rows : List (List SqlValue)) :
    List (List (List SqlValue)) :=
  let key (r : List SqlValue) := gb.map (namedRow names r)
  (distinctRows (rows.map key)).map fun k => rows.filter fun r =>
    ((key r).zip k).all fun p => p.1.same p.2

/-- The row a bare column of a group is read from: with a single `min` or `max`, a row having the least
or greatest value; otherwise (SQLite does not say) the first. -/
def bareRow (names : List Col) (cols : List OuterCol) (group : List (List SqlValue)) :
    Option (List SqlValue) :=
  match cols.filterMap fun c => match c with
    | .agg .max (.inl n) => some (true, n)
    | .agg .min (.inl n) => some (false, n)
    | _ => none with
  | [(mx, n)] =>
    let l := nonNull (group.map fun r => namedRow names r n)
    match pickLeast (if mx then fun v w => w.lt v else SqlValue.lt) l with
    | some v => group.find? fun r => (namedRow names r n).eq v
    | none => group.head?
  | _ => group.head?

/-- The value of a column of the outer query for a group. -/
def outerColumn (fl : Floats) (names : List Col) (bare : Option (List SqlValue))
    (group : List (List SqlValue)) : OuterCol → Res SqlValue
  | .name c => .ok (match bare with
    | some r => namedRow names r c
    | none => .null)
  | .value v => .ok v
  | .agg op (.inl n) => op.eval fl (group.map fun r => namedRow names r n)
  | .agg op (.inr v) => op.eval fl (group.map fun _ => v)

/-- The columns of the row of a group. -/
def outerRow (fl : Floats) (names : List Col) (bare : Option (List SqlValue))
    (group : List (List SqlValue)) : List OuterCol → Res (List SqlValue)
  | [] => .ok []
  | c :: cs => (outerColumn fl names bare group c).bind fun v =>
      (outerRow fl names bare group cs).bind fun r => .ok (v :: r)

/-- A row for each group. -/
def outerRows (fl : Floats) (names : List Col) (cols : List OuterCol) :
    List (List (List SqlValue)) → Res (List (List SqlValue))
  | [] => .ok []
  | g :: gs => (outerRow fl names (bareRow names cols g) g cols).bind fun r =>
      (outerRows fl names cols gs).bind fun rs => .ok (r :: rs)

/-- The name a column of the outer query has; aggregates are not referred to by name. -/
def OuterCol.col : OuterCol → Option Col
  | .name c => some c
  | _ => none

/-- Is the column an aggregate? -/
def OuterCol.isAggregate : OuterCol → Bool
  | .agg _ _ => true
  | _ => false

/-- The condition that an aggregate that can be NULL is not (translate.rs:443-457). -/
def OuterCol.passes (c : OuterCol) (v : SqlValue) : Bool :=
  match c with
  | .agg op _ => !op.nullable || decide (v ≠ .null)
  | _ => true

/-- translate.rs:404-474 `re_project`: group, aggregate, order, limit, and leave out the rows in which
an aggregate that can be NULL is NULL (after the limit).  Without `GROUP BY`, or when nothing is
aggregated, SQLite makes a single group of all rows or a group of each row.  A column to order by that
neither query has is an error. -/
def aggregateRows (fl : Floats) (names : List Col) (cols : List OuterCol) (gb : List Col)
    (order : List (Bool × Col)) (limit : Option Nat) (rows : List (List SqlValue)) :
    Res (List (List SqlValue)) :=
  let groups := if gb.isEmpty then (if cols.any OuterCol.isAggregate then [rows] else rows.map ([·]))
    else groupRows names gb rows
  let onames := cols.map fun c => c.col.getD (.var [])
  if !(order.all fun o => decide (o.2 ∈ onames) || decide (o.2 ∈ names)) then .err .other else
  (outerRows fl names cols groups).bind fun out =>
    let l := finishRows false onames order limit out
    .ok (l.filter fun r => (cols.zip r).all fun p => p.1.passes p.2)

/-! ### Results -/

/-- query-projector/src/lib.rs:77-82 `QueryResults`; relresult.rs:30-33 `RelResult` -/
inductive QResult where
  | scalar (v : Option TypedValue)
  | tuple (l : Option (List TypedValue))
  | coll (l : List TypedValue)
  | rel (width : Nat) (values : List TypedValue)
  deriving DecidableEq, Repr

/-- lib.rs:116-128 `empty` -/
def QResult.empty : FindSpec → QResult
  | .scalar _ => .scalar none
  | .tuple _ => .tuple none
  | .coll _ => .coll []
  | .rel l => .rel l.length []

/-- lib.rs:336-360 `TypedIndex::lookup` -/
def TIndex.lookup (row : List SqlValue) : TIndex → Res TypedValue
  | .known i tag => match row[i]? with
    | some v => fromSql v tag
    | none => .panic
  | .unknown i j => match row[i]?, row[j]? with
    | some v, some (.integer t) => if t < 0 then .err .badSqlValuePair else fromSql v t.toNat
    | _, _ => .panic

/-- lib.rs:336-360 `TypedIndex::lookup`, for each column. -/
def lookupAll (row : List SqlValue) : List TIndex → Res (List TypedValue)
  | [] => .ok []
  | t :: ts => (t.lookup row).bind fun v => (lookupAll row ts).bind fun r => .ok (v :: r)

/-- The same, for each row. -/
def lookupRows (ts : List TIndex) : List (List SqlValue) → Res (List (List TypedValue))
  | [] => .ok []
  | r :: rs => (lookupAll r ts).bind fun v => (lookupRows ts rs).bind fun vs => .ok (v :: vs)

/-- projectors/simple.rs: scalar, tuple, rel and coll. -/
def project (spec : FindSpec) (ts : List TIndex) (rows : List (List SqlValue)) : Res QResult :=
  match spec with
  | .scalar _ => match rows with
    | [] => .ok (.scalar none)
    | r :: _ => match ts.getLast? with
      | some t => (t.lookup r).bind fun v => .ok (.scalar (some v))
      | none => .panic
  | .tuple _ => match rows with
    | [] => .ok (.tuple none)
    | r :: _ => (lookupAll r ts).bind fun l => .ok (.tuple (some l))
  | .coll _ => match ts.getLast? with
    | some t => (lookupRows [t] rows).bind fun l => .ok (.coll l.flatten)
    | none => .panic
  | .rel l => (lookupRows ts rows).bind fun vs => .ok (.rel l.length vs.flatten)

/-- query-algebrizer/src/lib.rs:167-187 `is_fully_bound`, `is_fully_unit_bound` -/
def Algebraic.fullyUnitBound (q : Algebraic) : Bool :=
  q.cc.wheres.isEmpty && q.find.elements.all fun e => match e with
    | .var x => (AMap.get q.cc.vals x).isSome
    | .corresponding x => (AMap.get q.cc.vals x).isSome
    | _ => false

/-- The values of the find elements (lib.rs:130-211 `from_constants`). -/
def constants (cc : CC) : List Element → Res (List TypedValue)
  | [] => .ok []
  | .var x :: r | .corresponding x :: r => match AMap.get cc.vals x with
    | some v => (constants cc r).bind fun vs => .ok (v :: vs)
    | none => .panic
  | _ :: _ => .panic

/-- lib.rs:130-211 `from_constants` -/
def fromConstants (q : Algebraic) : Res QResult :=
  (constants q.cc q.find.elements).bind fun vs => .ok (match q.find with
    | .scalar _ => .scalar vs.head?
    | .tuple _ => .tuple (some vs)
    | .coll _ => .coll vs
    | .rel l => .rel l.length vs)

/-- edn/src/query.rs:548-556 `is_unit` -/
def _root_.Mentat.Element.isUnit : Element → Bool
  | .aggregate _ _ => true
  | .corresponding _ => true
  | _ => false

/-- Does the statement say `DISTINCT` (projectors/simple.rs, lib.rs:390-397
`flip_distinct_for_limit`)? -/
def isDistinct (q : Algebraic) (aggregating : Bool) : Bool :=
  match q.find with
  | .scalar _ | .tuple _ => false
  | _ => !(aggregating || q.find.elements.all Element.isUnit) && !decide (q.limit = .fixed 1)

/-- The number of a limit (`Limit::Variable` is a bound parameter; not supplied, it is an error). -/
def _root_.Mentat.Limit.number : Limit → Res (Option Nat)
  | .none => .ok none
  | .fixed n => .ok (some n)
  | .var _ => .err .other

/-- translate.rs:479-520 `query_to_select`, and the run of the statement.  With aggregates the inner
query is `DISTINCT` and unlimited (translate.rs:404-413). -/
def selectRows (fl : Floats) (db : Tables) (q : Algebraic) (p : Projected) : Res (List (List SqlValue)) :=
  q.limit.number.bind fun limit => match p.outer with
    | none => (q.cc.toSelect p.cols (isDistinct q false) q.order limit).bind fun s => runSql db s
    | some (cols, gb) => (q.cc.toSelect p.cols true [] none).bind fun s => (runSql db s).bind fun rows =>
        aggregateRows fl (p.cols.map (·.2)) cols gb q.order limit rows

/-- transaction/src/query.rs:331-361 `run_algebrized_query`, query-projector/src/lib.rs:417-491
`query_projection` -/
def runAlgebrized (fl : Floats) (db : Tables) (q : Algebraic) : Res QResult :=
  if q.cc.empty then .ok (.empty q.find)
  else if q.fullyUnitBound then fromConstants q
  else (projectElements q).bind fun p => (selectRows fl db q p).bind fun rows =>
    project q.find p.templates rows

/-- transaction/src/query.rs:137-152 `algebrize_query` -/
def algebrizeQuery (k : Known) (q : FindQuery) (inputs : Inputs) : Res Algebraic :=
  (fromParsed q).bind fun q => (algebrize k q 0 inputs).bind fun a =>
    if a.unbound.isEmpty then .ok a else .err .unboundVariables

/-- transaction/src/query.rs:370-381 `q_once` -/
def runQuery (fl : Floats) (k : Known) (db : Tables) (q : FindQuery) (inputs : Inputs) : Res QResult :=
  (algebrizeQuery k q inputs).bind fun a => runAlgebrized fl db a

end CC
end Mentat
