import Verif.Model.SqlValue
import Verif.Model.Edn
import Verif.Model.QueryAst
/-
The text of the SQL: sql/src/lib.rs (the builder) and query-sql/src/lib.rs (printing a `SelectQuery`).

The tree printed here is that of query-sql/src/lib.rs, with names of aliases as text and typed values
as they are; the evaluation model (Model/Sql) has a smaller tree.
-/
namespace Mentat
namespace SqlText

/-- What is used of Rust's standard library and not modelled: `{:e}` of a (finite) double, and
`char::is_alphanumeric`, `char::is_numeric` beyond ASCII. -/
structure Rust where
  float : Int → Text
  wideAlphanumeric : Char → Bool
  wideNumeric : Char → Bool

/-- `char::is_alphanumeric` -/
def Rust.alphanumeric (R : Rust) (c : Char) : Bool :=
  if c.toNat < 128 then c.isAlphanum else R.wideAlphanumeric c

/-- `char::is_numeric` -/
def Rust.numeric (R : Rust) (c : Char) : Bool :=
  if c.toNat < 128 then c.isDigit else R.wideNumeric c

/-! ### The builder -/

/-- sql/src/lib.rs:75-107 `SQLiteQueryBuilder`; the counter does not overflow.  The two hash maps are
lists of their entries. -/
structure Builder where
  sql : Text := []
  pre : Text := ['$', 'v']
  counter : Nat := 0
  bytes : List (List Nat × Text) := []
  strings : List (Text × Text) := []
  args : List (Text × SqlValue) := []
  deriving DecidableEq, Repr

/-- sql/src/lib.rs:128-130 `push_sql` -/
def Builder.push (b : Builder) (t : Text) : Builder := { b with sql := b.sql ++ t }

/-- `replace("`", "``")` -/
def escape : Text → Text
  | [] => []
  | c :: r => if c = '`' then '`' :: '`' :: escape r else c :: escape r

/-- 132-137 `push_identifier` -/
def Builder.identifier (b : Builder) (t : Text) : Builder :=
  ((b.push ['`']).push (escape t)).push ['`']

/-- 109-113 `next_argument_name`: the name -/
def Builder.nextName (b : Builder) : Text := b.pre ++ decimal b.counter

/-- 115-124 `push_static_arg` -/
def Builder.staticArg (b : Builder) (v : SqlValue) : Builder :=
  { (b.push b.nextName) with counter := b.counter + 1, args := b.args ++ [(b.nextName, v)] }

/-- 139-192 `push_typed_value` -/
def Builder.value (R : Rust) (b : Builder) : TypedValue → Builder
  | .ref e => b.push (intText e)
  | .boolean x => b.push (if x then ['1'] else ['0'])
  | .long n => b.push (intText n)
  | .double d => b.push (R.float d)
  | .instant us => b.push (intText us)
  | .uuid u => match AMap.get b.bytes (toBytes 16 u) with
    | some n => b.push n
    | none => { (b.push b.nextName) with
        counter := b.counter + 1, bytes := b.bytes ++ [(toBytes 16 u, b.nextName)] }
  | .string s => match AMap.get b.strings s with
    | some n => b.push n
    | none => { (b.push b.nextName) with
        counter := b.counter + 1, strings := b.strings ++ [(s, b.nextName)] }
  | .keyword k => b.staticArg (TypedValue.keyword k).toSql.1

/-- 194-213 `push_bind_param` -/
def Builder.param (R : Rust) (b : Builder) (name : Text) : Res Builder :=
  if !(name.all fun c => R.alphanumeric c || decide (c = '_')) then .err .other
  else if b.pre.isPrefixOf name && (name.drop b.pre.length).all R.numeric then .err .other
  else .ok ((b.push ['$']).push name)

/-- The arguments collected, those of strings and bytes after the others. -/
def Builder.bindings (b : Builder) : List (Text × SqlValue) :=
  b.args ++ b.strings.map (fun p => (p.2, .text p.1)) ++ b.bytes.map fun p => (p.2, .blob p.1)

/-- Comparison of names by code point. -/
def nameLt : Text → Text → Bool
  | [], [] => false
  | [], _ :: _ => true
  | _ :: _, [] => false
  | c :: r, d :: s => decide (c.toNat < d.toNat) || (decide (c = d) && nameLt r s)

/-- Insertion in the order of the names. -/
def insertArg (p : Text × SqlValue) : List (Text × SqlValue) → List (Text × SqlValue)
  | [] => [p]
  | q :: r => if nameLt q.1 p.1 then q :: insertArg p r else p :: q :: r

/-- 215-242 `finish`: the arguments, in the order of their names. -/
def Builder.finish (b : Builder) : Text × List (Text × SqlValue) :=
  (b.sql, b.bindings.foldr insertArg [])

/-! ### What is printed -/

/-- query-algebrizer/src/types.rs:66-104 `Column`, with the texts of 124-136, 154-160,
211-222 -/
inductive Column where
  | e | a | v | tx | tag | added | rowid | text
  | var (x : Text)
  | varTag (x : Text)
  deriving DecidableEq, Repr

/-- types.rs:48-57 -/
inductive Table where
  | datoms | fulltextValues | fulltextDatoms | allDatoms | computed | transactions
  deriving DecidableEq, Repr

/-- types.rs:48-57 -/
def Table.name : Table → Text
  | .datoms => "datoms".toList
  | .fulltextValues => "fulltext_values".toList
  | .fulltextDatoms => "fulltext_datoms".toList
  | .allDatoms => "all_datoms".toList
  | .computed => "c".toList
  | .transactions => "transactions".toList

/-- aggregates.rs:31-40 `to_sql` -/
def aggName : AggOp → Text
  | .avg => "avg".toList
  | .count => "count".toList
  | .max => "max".toList
  | .min => "min".toList
  | .sum => "sum".toList

/-- query-sql/src/lib.rs:43-63 `ColumnOrExpression`, `Expression` -/
inductive Expr where
  | column (al : Text) (c : Column)
  | existing (name : Text)
  | entid (e : Int)
  | integer (i : Int)
  | long (i : Int)
  | value (v : TypedValue)
  | aggregate (op : AggOp) (arg : Expr)
  deriving Repr

/-- The operators that occur: query-sql/src/lib.rs:136-160, types.rs (`NumericComparison::to_sql_operator`). -/
inductive Op where
  | eq | ne | lt | le | gt | ge | «match»
  deriving DecidableEq, Repr

/-- The operator as written. -/
def Op.text : Op → Text
  | .eq => ['=']
  | .ne => ['<', '>']
  | .lt => ['<']
  | .le => ['<', '=']
  | .gt => ['>']
  | .ge => ['>', '=']
  | .match => "MATCH".toList

/-- core/src/sql_types.rs `SQLTypeAffinity` -/
inductive Affinity where
  | null | integer | real | text | blob
  deriving DecidableEq, Repr

/-- The name of the affinity, as `typeof` gives it (core/src/sql_types.rs:19-25). -/
def Affinity.name : Affinity → Text
  | .null => "null".toList
  | .integer => "integer".toList
  | .real => "real".toList
  | .text => "text".toList
  | .blob => "blob".toList

/-- query-sql/src/lib.rs:78-84 `ProjectedColumn`, `Projection` -/
inductive Projection where
  | columns (cs : List (Expr × Text))
  | star
  | one
  deriving Repr

/-- 191-200 `Values` -/
inductive Values where
  | unnamed (size : Nat) (vs : List TypedValue)
  | named (names : List Text) (vs : List TypedValue)
  deriving Repr

/-- 86-91 `GroupBy` -/
inductive Group where
  | projected (name : Text)
  | column (al : Text) (c : Column)
  deriving Repr

/-- types.rs:312 `OrderBy`: ascending, the variable, whether its type tag is meant -/
structure Order where
  ascending : Bool
  var : Text
  tag : Bool
  deriving DecidableEq, Repr

mutual
/-- 105-134 `Constraint` -/
inductive Cond where
  | infix (op : Op) (l r : Expr)
  | or (cs : List Cond)
  | and (cs : List Cond)
  | «in» (l : Expr) (list : List Expr)
  | isNull (e : Expr)
  | isNotNull (e : Expr)
  | notExists (t : Source)
  | typeCheck (e : Expr) (aff : Affinity)
/-- 183-189 `TableOrSubquery` -/
inductive Source where
  | table (t : Table) (al : Text)
  | union (qs : List Query) (al : Text)
  | subquery (q : Query)
  | values (v : Values) (al : Text)
/-- 208-216 `SelectQuery`; the tables of `FROM` (202-206; `Join` is never made). -/
inductive Query where
  | mk (distinct : Bool) (proj : Projection) (tables : List Source) (wh : List Cond) (group : List Group)
    (order : List Order) (limit : Limit)
end

/-! ### Printing -/

/-- `interpose!` (core/src/lib.rs:224-244): `f` of each, with `g` in between; the rest of the list. -/
def interRest {α : Type} (f : Builder → α → Res Builder) (sep : Text) : List α → Builder → Res Builder
  | [], b => .ok b
  | x :: xs, b => (f (b.push sep) x).bind fun b' => interRest f sep xs b'

/-- `interpose!` (core/src/lib.rs:224-244) -/
def inter {α : Type} (f : Builder → α → Res Builder) (sep : Text) : List α → Builder → Res Builder
  | [], b => .ok b
  | x :: xs, b => (f b x).bind fun b' => interRest f sep xs b'

/-- `format!("{}_value_type_tag", v.name())`; the name of a variable includes its `?`
(edn/src/query.rs:49-56). -/
def tagName (x : Text) : Text := x ++ "_value_type_tag".toList

/-- 218-225 `push_variable_column`, 227-243 `push_column` -/
def pushColumn (b : Builder) : Column → Builder
  | .e => b.push ['e']
  | .a => b.push ['a']
  | .v => b.push ['v']
  | .tx => b.push ['t', 'x']
  | .tag => b.push "value_type_tag".toList
  | .added => b.push "added".toList
  | .rowid => b.push "rowid".toList
  | .text => b.push "text".toList
  | .var x => b.identifier x
  | .varTag x => b.identifier (tagName x)

/-- 416-420 `qualified_alias_push_sql` -/
def pushQualified (b : Builder) (al : Text) (c : Column) : Builder :=
  pushColumn ((b.identifier al).push ['.']) c

/-- 248-287 `ColumnOrExpression`, `Expression`: `push_sql` -/
def pushExpr (R : Rust) : Builder → Expr → Builder
  | b, .column al c => pushQualified b al c
  | b, .existing n => b.identifier n
  | b, .entid e => b.push (intText e)
  | b, .integer i => b.push (intText i)
  | b, .long i => b.push (intText i)
  | b, .value v => b.value R v
  | b, .aggregate op arg => (pushExpr R ((b.push (aggName op)).push ['(']) arg).push [')']

/-- 296-307: a projected column -/
def pushProjected (R : Rust) (b : Builder) (c : Expr × Text) : Res Builder :=
  .ok (((pushExpr R b c.1).push " AS ".toList).identifier c.2)

/-- 289-311 `Projection`: `push_sql`; `cols[0]` of no columns is a panic. -/
def pushProjection (R : Rust) (b : Builder) : Projection → Res Builder
  | .one => .ok (b.push ['1'])
  | .star => .ok (b.push ['*'])
  | .columns cs => if cs.isEmpty then .panic else inter (pushProjected R) ", ".toList cs b

/-- 494-502: the name of a column of `VALUES` -/
def pushZeroAs (b : Builder) (x : Text) : Res Builder := .ok ((b.push "0 AS ".toList).identifier x)

/-- 515-521: a row of `VALUES` -/
def pushTuple (R : Rust) (b : Builder) (vs : List TypedValue) : Res Builder :=
  (inter (fun b v => Res.ok (b.value R v)) ", ".toList vs (b.push ['('])).bind fun b => .ok (b.push [')'])

/-- `slice::chunks`, for a positive size; `n` bounds the number of chunks. -/
def chunked {α : Type} (w : Nat) : Nat → List α → List (List α)
  | 0, _ => []
  | _ + 1, [] => []
  | n + 1, x :: l => (x :: l).take w :: chunked w n ((x :: l).drop w)

/-- 507-526: the rows of `VALUES`; chunks of size zero are a panic. -/
def pushRows (R : Rust) (b : Builder) (size : Nat) (vs : List TypedValue) : Res Builder :=
  if size = 0 then .panic
  else inter (pushTuple R) ", ".toList (chunked size vs.length vs) (b.push "VALUES ".toList)

/-- 479-527 `Values`: `push_sql` -/
def pushValues (R : Rust) (b : Builder) : Values → Res Builder
  | .unnamed size vs => pushRows R b size vs
  | .named names vs =>
    (inter pushZeroAs ", ".toList names (b.push "SELECT ".toList)).bind fun b =>
      pushRows R (b.push " WHERE 0 UNION ALL ".toList) names.length vs

/-- 93-101 `GroupBy`: `push_sql` -/
def pushGroup (b : Builder) : Group → Res Builder
  | .projected n => .ok (b.identifier n)
  | .column al c => .ok (pushQualified b al c)

/-- 603-620: a term of `ORDER BY` -/
def pushOrder (b : Builder) (o : Order) : Res Builder :=
  .ok ((b.identifier (if o.tag then tagName o.var else o.var)).push
    (if o.ascending then " ASC".toList else " DESC".toList))

/-- 553-562 `format_select_var`; `split_at(1)` of the empty string is a panic. -/
def selectVar : Text → Res Text
  | [] => .panic
  | _ :: r => .ok ('i' :: r.map fun c => if c.isAlphanum then c else '_')

/-- 623-635: the limit -/
def pushLimit (R : Rust) (b : Builder) : Limit → Res Builder
  | .none => .ok b
  | .fixed n => .ok ((b.push " LIMIT ".toList).push (decimal n))
  | .var x => (selectVar x).bind fun n => (b.push " LIMIT ".toList).param R n

mutual
/-- 321-406 `Constraint`: `push_sql` -/
def pushCond (R : Rust) : Builder → Cond → Res Builder
  | b, .infix op l r =>
    .ok (pushExpr R ((((pushExpr R b l).push [' ']).push op.text).push [' ']) r)
  | b, .isNull e => .ok ((pushExpr R b e).push " IS NULL".toList)
  | b, .isNotNull e => .ok ((pushExpr R b e).push " IS NOT NULL".toList)
  | b, .and cs =>
    match cs with
    | [] => .ok (b.push ['1'])
    | c :: cs => (pushCond R (b.push ['(']) c).bind fun b =>
        (pushConds R " AND ".toList b cs).bind fun b => .ok (b.push [')'])
  | b, .or cs =>
    match cs with
    | [] => .ok (b.push ['0'])
    | c :: cs => (pushCond R (b.push ['(']) c).bind fun b =>
        (pushConds R " OR ".toList b cs).bind fun b => .ok (b.push [')'])
  | b, .in l list =>
    (inter (fun b e => Res.ok (pushExpr R b e)) ", ".toList list
      ((pushExpr R b l).push " IN (".toList)).bind fun b => .ok (b.push [')'])
  | b, .notExists t => pushSource R (b.push "NOT EXISTS ".toList) t
  | b, .typeCheck e aff =>
    .ok (((pushExpr R (b.push "typeof(".toList) e).push ") = ".toList).push
      ('\'' :: aff.name ++ ['\'']))
/-- the constraints after the first, each after the separator -/
def pushConds (R : Rust) (sep : Text) : Builder → List Cond → Res Builder
  | b, [] => .ok b
  | b, c :: cs => (pushCond R (b.push sep) c).bind fun b => pushConds R sep b cs
/-- 423-428, 449-477 `TableOrSubquery`: `push_sql` -/
def pushSource (R : Rust) : Builder → Source → Res Builder
  | b, .table t al => .ok (((b.identifier t.name).push " AS ".toList).identifier al)
  | b, .union qs al =>
    (match qs with
    | [] => Res.ok (b.push ['('])
    | q :: qs => (pushQuery R (b.push ['(']) q).bind fun b => pushQueries R b qs).bind fun b =>
      .ok ((b.push ") AS ".toList).identifier al)
  | b, .subquery q => (pushQuery R (b.push ['(']) q).bind fun b => .ok (b.push [')'])
  | b, .values v al => (pushValues R (b.push ['(']) v).bind fun b =>
      .ok ((b.push ") AS ".toList).identifier al)
/-- The arms after the first, each after `UNION`. -/
def pushQueries (R : Rust) : Builder → List Query → Res Builder
  | b, [] => .ok b
  | b, q :: qs => (pushQuery R (b.push " UNION ".toList) q).bind fun b => pushQueries R b qs
/-- The sources after the first, each after a comma. -/
def pushSources (R : Rust) : Builder → List Source → Res Builder
  | b, [] => .ok b
  | b, t :: ts => (pushSource R (b.push ", ".toList) t).bind fun b => pushSources R b ts
/-- 529-548 `FromClause`: `push_sql` -/
def pushFrom (R : Rust) : Builder → List Source → Res Builder
  | b, [] => .ok b
  | b, t :: ts => (pushSource R (b.push " FROM ".toList) t).bind fun b => pushSources R b ts
/-- 581-589 -/
def pushWhere (R : Rust) : Builder → List Cond → Res Builder
  | b, [] => .ok b
  | b, c :: cs => (pushCond R (b.push " WHERE ".toList) c).bind fun b => pushConds R " AND ".toList b cs
/-- 571-637 `SelectQuery`: `push_sql`, with 430-439, 529-548 -/
def pushQuery (R : Rust) : Builder → Query → Res Builder
  | b, .mk distinct proj tables wh group order limit =>
    (pushProjection R (b.push (if distinct then "SELECT DISTINCT ".toList else "SELECT ".toList)) proj).bind
      fun b =>
    (pushFrom R b tables).bind fun b =>
    (pushWhere R b wh).bind fun b =>
    (if group.isEmpty then Res.ok b else inter pushGroup ", ".toList group (b.push " GROUP BY ".toList)).bind
      fun b =>
    (if order.isEmpty then Res.ok b else inter pushOrder ", ".toList order (b.push " ORDER BY ".toList)).bind
      fun b =>
    pushLimit R b limit
end

/-- 639-644 `to_sql_query` -/
def toSql (R : Rust) (q : Query) : Res (Text × List (Text × SqlValue)) :=
  (pushQuery R {} q).bind fun b => .ok b.finish

end SqlText
end Mentat
