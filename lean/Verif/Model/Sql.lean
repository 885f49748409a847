import Verif.Model.SqlValue
import Verif.Model.Store
/-
The SQL the query engine generates, as a syntax tree, and what SQLite makes of it:
query-sql/src/lib.rs (`SelectQuery`, `Constraint`, `TableOrSubquery`, `Values`), db/src/db.rs:169-240
(the tables and views queried).  The printing of this tree as text (`push_sql`) and SQLite's parsing
of the text are not modelled; the evaluation below is SQLite's documented behaviour and is trusted.
-/
namespace Mentat

/-- edn/src/query.rs `Variable`, by name. -/
abbrev Var := Text

/-- query-algebrizer/src/types.rs `DatomsTable`.  The index of `Computed` is the number of the alias. -/
inductive DTable where
  | datoms | fulltextValues | fulltextDatoms | allDatoms | transactions | computed
  deriving DecidableEq, Repr

/-- types.rs `SourceAlias`, `TableAlias`: the text of an alias is the name of its table followed by
a number (clauses/mod.rs:888-893 `next_alias_for_table`), `c00` for a computed table. -/
structure Alias where
  table : DTable
  n : Nat
  deriving DecidableEq, Repr

/-- types.rs `DatomsColumn`, `FulltextColumn`, `TransactionsColumn`, `VariableColumn`, by their SQL names. -/
inductive Col where
  | e | a | v | tx | added | tag | rowid | text
  | var (x : Var)
  | varTag (x : Var)
  deriving DecidableEq, Repr

/-- query-sql/src/lib.rs:44-57 `ColumnOrExpression`: a column, or a literal (an entid, an integer, or
a typed value, which sql/src/lib.rs:139-185 `push_typed_value` prints as, or binds to, the value
`to_sql_value_pair` stores). -/
inductive SExpr where
  | col (al : Alias) (c : Col)
  | const (v : SqlValue)
  deriving DecidableEq, Repr

/-- query-sql `Op` -/
inductive SqlOp where
  | eq | ne | lt | le | gt | ge
  deriving DecidableEq, Repr

mutual
/-- query-sql/src/lib.rs:105-133 `Constraint` (`In`, `IsNull` are never generated, `IsNotNull` only
for aggregates, Model/Project). -/
inductive Constraint where
  | infix (op : SqlOp) (l r : SExpr)
  | or (cs : List Constraint)
  | and (cs : List Constraint)
  /-- `typeof(e) = 'real'` or `typeof(e) = 'integer'` -/
  | typeCheck (e : SExpr) (real : Bool)
  /-- `text MATCH e` on `fulltext_values` -/
  | search (al : Alias) (e : SExpr)
  | notExists (q : Select)
/-- query-sql/src/lib.rs:184-189 `TableOrSubquery` as it appears in `FROM` -/
inductive STable where
  | table (al : Alias)
  | union (arms : List Select) (al : Alias)
  | values (names : List Var) (rows : List (List SqlValue)) (al : Alias)
/-- query-sql/src/lib.rs:208-216 `SelectQuery` (grouping is in Model/Project).  `SELECT 1` projects
a constant.  In `order`, `true` is ascending. -/
inductive Select where
  | mk (distinct : Bool) (cols : List (SExpr × Col)) (tables : List STable) (wh : List Constraint)
    (order : List (Bool × Col)) (limit : Option Nat)
end

/-- The alias of a table. -/
def STable.alias : STable → Alias
  | .table al => al
  | .union _ al => al
  | .values _ _ al => al

/-- The columns with their names. -/
def Select.cols : Select → List (SExpr × Col)
  | .mk _ cols _ _ _ _ => cols

/-! ### The tables -/

/-- What the queried tables hold.  `ft a`: the rows of attribute `a` are stored with `index_fulltext`
set, their value being a rowid of `fulltext_values`; `ftId s` is the rowid of the string `s`
(db.rs:169-215).  Simplification: the flag is a function of the attribute.  `texts` are the strings in
`fulltext_values`; `matches p s`: the full-text expression `p` is one that the string `s` matches.  What SQLite's
tokenizer makes of them is not modelled: any relation will do; an expression that is malformed (an error when
the statement runs) is one that nothing matches. -/
structure Tables where
  rows : List Row
  log : List LogRow
  ft : Entid → Bool
  ftId : Text → Int
  texts : List Text := []
  «matches» : Text → Text → Bool := fun _ _ => false

/-- A row of a `FROM` table. -/
abbrev SRow := Col → SqlValue

/-- The `v` column of `datoms` and `timelined_transactions`: for a fulltext attribute, the rowid. -/
def Tables.rawValue (db : Tables) (a : Entid) (v : TypedValue) : SqlValue :=
  match db.ft a, v with
  | true, .string s => .integer (db.ftId s)
  | _, _ => v.toSql.1

/-- A row with the columns of `datoms` and `transactions`. -/
def sqlRow (e a : Entid) (v : SqlValue) (tag : Nat) (tx : Entid) (added : Bool) : SRow
  | .e => .integer e
  | .a => .integer a
  | .v => v
  | .tx => .integer tx
  | .tag => .integer tag
  | .added => .integer (if added then 1 else 0)
  | _ => .null

/-- A datom as `datoms` shows it (db.rs:169-173). -/
def Tables.rawRow (db : Tables) (r : Row) : SRow :=
  sqlRow r.e r.a (db.rawValue r.a r.v) r.v.toSql.2 r.tx true

/-- A datom as `fulltext_datoms` and `all_datoms` show it: the string in place of the rowid
(db.rs:222-237). -/
def Tables.fullRow (r : Row) : SRow := sqlRow r.e r.a r.v.toSql.1 r.v.toSql.2 r.tx true

/-- A row of the view `transactions` (db.rs:198-200). -/
def Tables.logRow (db : Tables) (l : LogRow) : SRow :=
  sqlRow l.e l.a (db.rawValue l.a l.v) l.v.toSql.2 l.tx l.added

/-- A row of `fulltext_values` (db.rs:202-207). -/
def Tables.textRow (db : Tables) (s : Text) : SRow
  | .rowid => .integer (db.ftId s)
  | .text => .text s
  | _ => .null

/-- The rows of a table or view (db.rs:169-237).  SQLite's order of rows is not specified; no theorem
depends on it. -/
def Tables.tableRows (db : Tables) : DTable → List SRow
  | .datoms => db.rows.map db.rawRow
  | .fulltextValues => db.texts.map db.textRow
  | .fulltextDatoms => (db.rows.filter fun r => db.ft r.a).map Tables.fullRow
  | .allDatoms => (db.rows.filter fun r => !db.ft r.a).map Tables.fullRow ++
      (db.rows.filter fun r => db.ft r.a).map Tables.fullRow
  | .transactions => (db.log.filter fun l => decide (l.timeline = 0)).map db.logRow
  | .computed => []

/-! ### Values -/

/-- The integer an optional minus sign and decimal digits denote. -/
def digits? : Text → Nat → Option Nat
  | [], n => some n
  | c :: r, n => if c.isDigit then digits? r (n * 10 + (c.toNat - '0'.toNat)) else none

/-- The same, with the sign. -/
def textInt? : Text → Option Int
  | [] => none
  | '-' :: [] => none
  | '-' :: r => (digits? r 0).map fun n => - (n : Int)
  | r => (digits? r 0).map fun n => (n : Int)

/-- NUMERIC affinity applied to a value in a comparison.  Simplification: of the texts that look like
numbers only plain decimal integers are converted. -/
def SqlValue.numeric : SqlValue → SqlValue
  | .text s => match textInt? s with
    | some n => .integer n
    | none => .text s
  | v => v

/-- Does the column have INTEGER affinity?  `e INTEGER`, `a SMALLINT`, `tx INTEGER`,
`value_type_tag SMALLINT`, `added TINYINT` and a rowid do, `v BLOB` does not (db.rs:169-173, 198).  Simplification: a
column of a subquery is taken to have none. -/
def Col.integerAffinity : Col → Bool
  | .e | .a | .tx | .tag | .added | .rowid => true
  | _ => false

/-- Does the expression have INTEGER affinity?  Literals have none. -/
def SExpr.integerAffinity : SExpr → Bool
  | .col _ c => c.integerAffinity
  | .const _ => false

/-- Equality as `DISTINCT` and `UNION` use it (NULLs are equal). -/
def SqlValue.same (v w : SqlValue) : Bool := v.eq w || (decide (v = .null) && decide (w = .null))

/-- A comparison; NULL on either side makes it not true. -/
def SqlOp.eval (op : SqlOp) (v w : SqlValue) : Bool :=
  if v = .null ∨ w = .null then false else
  match op with
  | .eq => v.eq w
  | .ne => !v.eq w
  | .lt => v.lt w
  | .le => v.lt w || v.eq w
  | .gt => w.lt v
  | .ge => w.lt v || v.eq w

/-! ### Evaluation -/

/-- The rows the aliases in scope stand for, innermost first. -/
abbrev Env := List (Alias × SRow)

/-- The row of an alias. -/
def Env.get (env : Env) (al : Alias) : SRow := (AMap.get env al).getD fun _ => .null

/-- The value of an expression. -/
def SExpr.eval (env : Env) : SExpr → SqlValue
  | .col al c => Env.get env al c
  | .const v => v

/-- A comparison with SQLite's rule: if one side has INTEGER affinity and the other has none, NUMERIC
affinity is applied to the other. -/
def evalInfix (env : Env) (op : SqlOp) (l r : SExpr) : Bool :=
  let v := l.eval env
  let w := r.eval env
  op.eval (if r.integerAffinity && !l.integerAffinity then v.numeric else v)
    (if l.integerAffinity && !r.integerAffinity then w.numeric else w)

/-- Keep the first of the rows that are the same. -/
def distinctRows (l : List (List SqlValue)) : List (List SqlValue) :=
  l.foldl (fun acc r =>
    if acc.any fun s => (r.length == s.length) && (r.zip s).all fun p => p.1.same p.2
    then acc else acc ++ [r]) []

/-- A row of a subquery by the names of its columns. -/
def namedRow (names : List Col) (vals : List SqlValue) : SRow :=
  fun c => (AMap.get (names.zip vals) c).getD .null

/-- The comparison of `ORDER BY`: is `r` to come before `s`? -/
def orderLt (names : List Col) : List (Bool × Col) → List SqlValue → List SqlValue → Bool
  | [], _, _ => false
  | (asc, c) :: rest, r, s =>
    let v := namedRow names r c
    let w := namedRow names s c
    if asc then v.lt w || (!w.lt v && orderLt names rest r s)
    else w.lt v || (!v.lt w && orderLt names rest r s)

/-- Stable insertion sort. -/
def insertRow (lt : List SqlValue → List SqlValue → Bool) (x : List SqlValue) :
    List (List SqlValue) → List (List SqlValue)
  | [] => [x]
  | y :: r => if lt y x then y :: insertRow lt x r else x :: y :: r

/-- Stable insertion sort. -/
def sortRows (lt : List SqlValue → List SqlValue → Bool) : List (List SqlValue) → List (List SqlValue)
  | [] => []
  | x :: r => insertRow lt x (sortRows lt r)

/-- `DISTINCT`, `ORDER BY`, `LIMIT`, in that order. -/
def finishRows (distinct : Bool) (names : List Col) (order : List (Bool × Col)) (limit : Option Nat)
    (l : List (List SqlValue)) : List (List SqlValue) :=
  let l := if distinct then distinctRows l else l
  let l := if order.isEmpty then l else sortRows (orderLt names order) l
  match limit with
  | none => l
  | some n => l.take n

mutual
/-- Is the condition true in the environment? -/
def evalC (db : Tables) (env : Env) : Constraint → Bool
  | .infix op l r => evalInfix env op l r
  | .or cs => evalAny db env cs
  | .and cs => evalAll db env cs
  | .typeCheck e real => match e.eval env, real with
    | .integer _, false => true
    | .real _, true => true
    | _, _ => false
  | .search al e => match Env.get env al .text, e.eval env with
    | .text s, .text p => db.matches p s
    | _, _ => false
  | .notExists q => (evalSelect db env q).isEmpty
/-- `OR` -/
def evalAny (db : Tables) (env : Env) : List Constraint → Bool
  | [] => false
  | c :: cs => evalC db env c || evalAny db env cs
/-- `AND` -/
def evalAll (db : Tables) (env : Env) : List Constraint → Bool
  | [] => true
  | c :: cs => evalC db env c && evalAll db env cs
/-- The rows of a table in `FROM`; subqueries see the enclosing scopes but not their siblings. -/
def evalTable (db : Tables) (env : Env) : STable → List SRow
  | .table al => db.tableRows al.table
  | .union arms _ =>
    match arms with
    | [] => []
    | q :: qs =>
      let rows := evalSelect db env q ++ evalArms db env qs
      ((if qs.isEmpty then rows else distinctRows rows).map (namedRow (q.cols.map (·.2))))
  | .values names rows _ => rows.map (namedRow (names.map .var))
/-- The rows of the arms of a union. -/
def evalArms (db : Tables) (env : Env) : List Select → List (List SqlValue)
  | [] => []
  | q :: qs => evalSelect db env q ++ evalArms db env qs
/-- The combinations of rows of the tables in `FROM`. -/
def evalFrom (db : Tables) (env : Env) : List STable → List Env
  | [] => [[]]
  | t :: ts => (evalTable db env t).flatMap fun r =>
      (evalFrom db env ts).map fun loc => (t.alias, r) :: loc
/-- The rows of a `SELECT`. -/
def evalSelect (db : Tables) (env : Env) : Select → List (List SqlValue)
  | .mk distinct cols tables wh order limit =>
    finishRows distinct (cols.map (·.2)) order limit
      (((evalFrom db env tables).filter fun loc => evalAll db (loc ++ env) wh).map fun loc =>
        cols.map fun c => c.1.eval (loc ++ env))
end

/-! ### Scoping: a reference to a column that is not there is an error -/

/-- The columns of the tables and views (db.rs:169-237). -/
def DTable.columns : DTable → List Col
  | .transactions => [.e, .a, .v, .tx, .added, .tag]
  | .computed => []
  | .fulltextValues => [.rowid, .text]
  | _ => [.e, .a, .v, .tx, .tag]

/-- Are the columns of the expression there? -/
def SExpr.scoped (sc : AMap Alias (List Col)) : SExpr → Bool
  | .col al c => match AMap.get sc al with
    | some cs => decide (c ∈ cs)
    | none => false
  | .const _ => true

/-- The columns of a table in `FROM`. -/
def STable.columns : STable → List Col
  | .table al => al.table.columns
  | .union arms _ => match arms with
    | [] => []
    | q :: _ => q.cols.map (·.2)
  | .values names _ _ => names.map .var

mutual
/-- Are the columns that a condition refers to there? -/
def scopedC (sc : AMap Alias (List Col)) : Constraint → Bool
  | .infix _ l r => l.scoped sc && r.scoped sc
  | .or cs => scopedAll sc cs
  | .and cs => scopedAll sc cs
  | .typeCheck e _ => e.scoped sc
  | .search al e => (SExpr.col al .text).scoped sc && e.scoped sc
  | .notExists q => scopedSelect sc q
/-- Are the columns that conditions refer to there? -/
def scopedAll (sc : AMap Alias (List Col)) : List Constraint → Bool
  | [] => true
  | c :: cs => scopedC sc c && scopedAll sc cs
/-- Are the columns that a table in `FROM` refers to there? -/
def scopedTable (sc : AMap Alias (List Col)) : STable → Bool
  | .table _ => true
  | .union arms _ => scopedArms sc arms
  | .values _ _ _ => true
/-- Are the columns that the tables in `FROM` refer to there? -/
def scopedTables (sc : AMap Alias (List Col)) : List STable → Bool
  | [] => true
  | t :: ts => scopedTable sc t && scopedTables sc ts
/-- Are the columns that the arms of a union refer to there? -/
def scopedArms (sc : AMap Alias (List Col)) : List Select → Bool
  | [] => true
  | q :: qs => scopedSelect sc q && scopedArms sc qs
/-- Are the columns that a select refers to there? -/
def scopedSelect (sc : AMap Alias (List Col)) : Select → Bool
  | .mk _ cols tables wh order _ =>
    let sc' := (tables.map fun t => (t.alias, t.columns)) ++ sc
    scopedTables sc tables && scopedAll sc' wh && (cols.all fun c => c.1.scoped sc') &&
      (order.all fun o => decide (o.2 ∈ cols.map (·.2)))
end

/-- Preparing and running a statement. -/
def runSql (db : Tables) (q : Select) : Res (List (List SqlValue)) :=
  if scopedSelect [] q then .ok (evalSelect db [] q) else .err .other

end Mentat
