import Verif.Model.EdnParse
import Verif.Model.QueryAst
/-
The text of queries: the query rules of the PEG grammar (edn/src/lib.rs:321-523), the conversions of
EDN values they use and `ParsedQuery::from_parts` (edn/src/query.rs), and the step from a parsed
query to a find query (query-algebrizer/src/lib.rs:371-421).

As in Model/EdnParse, spans are not modelled.  A `BTreeSet` of
variables is the list of its members in the order they are written.
-/
namespace Mentat
namespace QParse
open EdnParse

/-! ### What the parser makes: edn/src/query.rs -/

/-- query.rs:151-154 `SrcVar` -/
inductive Src where
  | dflt
  | named (n : Text)
  deriving DecidableEq, Repr

/-- query.rs:182-189 `NonIntegerConstant` -/
inductive Const where
  | boolean (b : Bool)
  | bigInteger (n : Int)
  | float (f : FloatV)
  | text (s : Text)
  | instant (t : DateTime)
  | uuid (u : Nat)
  deriving DecidableEq, Repr

/-- query.rs:204-213 `FnArg` -/
inductive Arg where
  | var (x : Text)
  | src (s : Src)
  | int (n : Int)
  | kw (k : NName)
  | const (c : Const)
  | vec (l : List Arg)
  deriving Repr

/-- query.rs:277-282 `PatternNonValuePlace` -/
inductive NonVal where
  | placeholder
  | var (x : Text)
  | entid (n : Int)
  | ident (k : NName)
  deriving DecidableEq, Repr

/-- query.rs:352-358 `PatternValuePlace` -/
inductive Val where
  | placeholder
  | var (x : Text)
  | entidOrInteger (n : Int)
  | identOrKeyword (k : NName)
  | constant (c : Const)
  deriving DecidableEq, Repr

/-- query.rs:787-793 `Pattern` -/
structure Pat where
  source : Option Src
  e : NonVal
  a : NonVal
  v : Val
  tx : NonVal
  deriving DecidableEq, Repr

mutual
/-- query.rs:937-946 `WhereClause`; `none` is `UnifyVars::Implicit`.  The parser never makes a
`RuleExpr`. -/
inductive Clause where
  | pattern (p : Pat)
  | or (unify : Option (List Text)) (arms : List OrArm)
  | not (unify : Option (List Text)) (cs : List Clause)
  | typeAnno (x : Text) (ty : NName)
  | pred (op : Text) (args : List Arg)
  | whereFn (op : Text) (args : List Arg) (b : Binding)
/-- query.rs:890-893 `OrWhereClause` -/
inductive OrArm where
  | clause (c : Clause)
  | and (cs : List Clause)
end

/-- query.rs:463-490 `PullAttributeSpec`; the parser makes no entids. -/
inductive PullAttr where
  | wildcard
  | attr (k : NName) (alias_ : Option NName)
  deriving DecidableEq, Repr

/-- query.rs:533-545 `Element` -/
inductive Elem where
  | var (x : Text)
  | corresponding (x : Text)
  | pull (x : Text) (ps : List PullAttr)
  | aggregate (f : Text) (args : List Arg)
  deriving Repr

/-- query.rs:618-636 `FindSpec` -/
inductive Find where
  | rel (l : List Elem)
  | coll (e : Elem)
  | tuple (l : List Elem)
  | scalar (e : Elem)
  deriving Repr

/-- query.rs:960-967 `QueryPart`; in an order, `true` is ascending. -/
inductive Part where
  | find (f : Find)
  | withVars (l : List Text)
  | inVars (l : List Text)
  | limit (l : Limit)
  | clauses (l : List Clause)
  | order (l : List (Bool × Text))

/-- query.rs:949-958 `ParsedQuery`; the default source is always `$` and `in_sources` is empty. -/
structure Query where
  find : Find
  withVars : List Text
  inVars : List Text
  limit : Limit
  clauses : List Clause
  order : Option (List (Bool × Text))

/-! ### Values as parts of queries: the `FromValue` implementations -/

/-- symbols.rs:98-100 `is_var_symbol` -/
def isVarSym (x : Text) : Bool := x.head? = some '?'
/-- symbols.rs:103-105 `is_src_symbol` -/
def isSrcSym (x : Text) : Bool := x.head? = some '$'

/-- query.rs:73-82, 93-100 -/
def varOf : Edn → Option Text
  | .plainSymbol x => if isVarSym x then some x else none
  | _ => none

/-- query.rs:167-178 `SrcVar::from_symbol` -/
def srcOfSym (x : Text) : Option Src :=
  if isSrcSym x then (if x = ['$'] then some .dflt else some (.named (x.drop 1))) else none

/-- query.rs:156-164 -/
def srcOf : Edn → Option Src
  | .plainSymbol x => srcOfSym x
  | _ => none

/-- query.rs:215-242 -/
def argOf : Edn → Option Arg
  | .integer n => some (.int n)
  | .plainSymbol x => if isSrcSym x then (srcOfSym x).map .src else if isVarSym x then some (.var x) else none
  | .keyword k => some (.kw k)
  | .instant t => some (.const (.instant t))
  | .uuid u => some (.const (.uuid u))
  | .boolean b => some (.const (.boolean b))
  | .float f => some (.const (.float f))
  | .bigInteger n => some (.const (.bigInteger n))
  | .text s => some (.const (.text s))
  | _ => none

/-- query.rs:318-341 -/
def nonValOf : Edn → Option NonVal
  | .integer n => if 0 ≤ n then some (.entid n) else none
  | .plainSymbol x => if x = ['_'] then some .placeholder else if isVarSym x then some (.var x) else none
  | .keyword k => some (.ident k)
  | _ => none

/-- query.rs:373-414 -/
def valOf : Edn → Option Val
  | .integer n => some (.entidOrInteger n)
  | .plainSymbol x => if x = ['_'] then some .placeholder else if isVarSym x then some (.var x) else none
  | .keyword k => if k.isNamespaced then some (.identOrKeyword k) else none
  | .boolean b => some (.constant (.boolean b))
  | .float f => some (.constant (.float f))
  | .bigInteger n => some (.constant (.bigInteger n))
  | .instant t => some (.constant (.instant t))
  | .text s => some (.constant (.text s))
  | .uuid u => some (.constant (.uuid u))
  | _ => none

/-- query.rs:308-315 `to_pattern_value_place` -/
def NonVal.toVal : NonVal → Val
  | .placeholder => .placeholder
  | .var x => .var x
  | .entid n => .entidOrInteger n
  | .ident k => .identOrKeyword k

/-- query.rs:434-449 `to_pattern_non_value_place` -/
def Val.toNonVal : Val → Option NonVal
  | .placeholder => some .placeholder
  | .var x => some (.var x)
  | .entidOrInteger n => if 0 ≤ n then some (.entid n) else none
  | .identOrKeyword k => some (.ident k)
  | .constant _ => none

/-- query.rs:804-838 `Pattern::new`: a backward attribute swaps entity and value. -/
def Pat.new (src : Option Src) (e a : NonVal) (v : Val) (tx : NonVal) : Res (Option Pat) :=
  match a with
  | .ident k =>
    if k.isBackward then
      match v.toNonVal with
      | some ve => match k.toReversed with
        | .ok k' => .ok (some ⟨src, ve, .ident k', e.toVal, tx⟩)
        | .err x => .err x
        | .panic => .panic
      | none => .ok none
    else .ok (some ⟨src, e, a, v, tx⟩)
  | _ => .ok (some ⟨src, e, a, v, tx⟩)

/-! ### Combinators -/

/-- One rule after another. -/
def bind (r : PRes α) (f : α → Text → PRes β) : PRes β :=
  match r with
  | .ok a rest => f a rest
  | .fail => .fail
  | .panic => .panic
  | .stuck => .stuck

/-- A literal, and then the rest of a rule. -/
def expect (w : String) (s : Text) (k : Text → PRes α) : PRes α :=
  match lit w.toList s with
  | some r => k r
  | none => .fail

/-- An action `{? …ok_or(…) }`. -/
def accept (r : PRes α) (g : α → Option β) : PRes β :=
  bind r fun a rest => match g a with
    | some b => .ok b rest
    | none => .fail

/-- `r?` -/
def opt (p : Text → PRes α) (s : Text) : PRes (Option α) :=
  match p s with
  | .ok a rest => .ok (some a) rest
  | .fail => .ok none s
  | .panic => .panic
  | .stuck => .stuck

/-- `r*` -/
def manyN (p : Text → PRes α) : Nat → Text → PRes (List α)
  | 0, _ => .stuck
  | n + 1, s => match p s with
    | .ok a rest => bind (manyN p n rest) fun l rest => .ok (a :: l) rest
    | .fail => .ok [] s
    | .panic => .panic
    | .stuck => .stuck

/-- `r*` -/
def many (p : Text → PRes α) (s : Text) : PRes (List α) := manyN p (s.length + 1) s

/-- `r+` -/
def many1 (p : Text → PRes α) (s : Text) : PRes (List α) :=
  bind (p s) fun a rest => bind (many p rest) fun l rest => .ok (a :: l) rest

/-! ### The rules -/

/-- lib.rs:221-228 `value` -/
def val (s : Text) : PRes Edn := EdnParse.value (4 * s.length + 4) s

/-- lib.rs:509-510 `variable` -/
def variable_ (s : Text) : PRes Text := accept (val s) varOf

/-- lib.rs:512-513 `src_var` -/
def srcVar (s : Text) : PRes Src := accept (val s) srcOf

/-- lib.rs:329-330 `query_function` -/
def queryFunction (s : Text) : PRes Text :=
  match symbolName (skip s) with
  | some (n, rest) => .ok n (skip rest)
  | none => .fail

/-- lib.rs:332-334 `fn_arg` -/
def fnArgN : Nat → Text → PRes Arg
  | 0, _ => .stuck
  | n + 1, s =>
    EdnParse.PRes.orElse (accept (val s) argOf) fun _ =>
    expect "[" (skip s) fun r => bind (many1 (fnArgN n) r) fun l r => expect "]" r fun r => .ok (.vec l) (skip r)

/-- lib.rs:332-334 `fn_arg` -/
def fnArg (s : Text) : PRes Arg := fnArgN (s.length + 1) s

/-- The keyword a rule has made. -/
def kwOf : Edn → Option NName
  | .keyword k => some k
  | _ => none

/-- lib.rs:246-256 `raw_keyword`, which matches what `keyword` matches. -/
def rawKeyword (s : Text) : PRes NName := accept (EdnParse.keyword s) kwOf

/-- lib.rs:263-264 `raw_namespaced_keyword` -/
def rawNsKeyword (s : Text) : PRes NName :=
  expect ":" s fun s => match nsPart s with
    | some (ns, r) => match symbolName r with
      | some (n, rest) => accept (EdnParse.build (NName.namespaced ns n) .keyword rest) kwOf
      | none => .fail
    | none => .fail

/-- The actions of lib.rs:270-274, 280-284: forward keywords only. -/
def fwdOf (k : NName) : Option NName := if k.isForward then some k else none

/-- lib.rs:351 the optional alias of a pulled attribute -/
def pullAlias (s : Text) : PRes NName :=
  expect ":as" s fun r => bind (accept (rawKeyword (skip r)) fwdOf) fun k r => .ok k (skip r)

/-- lib.rs:348-358 `pull_attribute` -/
def pullAttribute (s : Text) : PRes PullAttr :=
  EdnParse.PRes.orElse (expect "*" (skip s) fun r => .ok .wildcard (skip r)) fun _ =>
  bind (accept (rawNsKeyword (skip s)) fwdOf) fun k r =>
  bind (opt pullAlias (skip r)) fun a r => .ok (.attr k a) r

/-- lib.rs:336-340 `find_elem` -/
def findElem (s : Text) : PRes Elem :=
  EdnParse.PRes.orElse (bind (variable_ (skip s)) fun x r => .ok (.var x) (skip r)) fun _ =>
  EdnParse.PRes.orElse (expect "(" (skip s) fun r => expect "the" (skip r) fun r =>
    bind (variable_ r) fun x r => expect ")" r fun r => .ok (.corresponding x) (skip r)) fun _ =>
  EdnParse.PRes.orElse (expect "(" (skip s) fun r => expect "pull" (skip r) fun r =>
    bind (variable_ r) fun x r => expect "[" r fun r => bind (many1 pullAttribute r) fun ps r =>
    expect "]" r fun r => expect ")" (skip r) fun r => .ok (.pull x ps) (skip r)) fun _ =>
  expect "(" (skip s) fun r => bind (queryFunction r) fun f r => bind (many (fnArg) r) fun args r =>
    expect ")" r fun r => .ok (.aggregate f args) (skip r)

/-- lib.rs:342-346 `find_spec` -/
def findSpec (s : Text) : PRes Find :=
  EdnParse.PRes.orElse (bind (findElem s) fun e r => expect "." r fun r => .ok (.scalar e) (skip r)) fun _ =>
  EdnParse.PRes.orElse (bind (many1 (findElem) s) fun l r => .ok (.rel l) r) fun _ =>
  EdnParse.PRes.orElse (expect "[" (skip s) fun r => bind (findElem r) fun e r =>
    expect "..." (skip r) fun r => expect "]" (skip r) fun r => .ok (.coll e) (skip r)) fun _ =>
  expect "[" (skip s) fun r => bind (many1 (findElem) r) fun l r => expect "]" r fun r => .ok (.tuple l) (skip r)

/-- The integers of lib.rs:362 -/
def limitInt (s : Text) : PRes Edn :=
  EdnParse.PRes.orElse (octalinteger s) fun _ => EdnParse.PRes.orElse (hexinteger s) fun _ =>
  EdnParse.PRes.orElse (basedinteger s) fun _ => EdnParse.integer s

/-- lib.rs:363-367 the action of `limit` -/
def limitOf : Edn → Option Limit
  | .integer n => if 0 < n then some (.fixed n.toNat) else none
  | _ => none

/-- lib.rs:360-368 `limit` -/
def limit (s : Text) : PRes Limit :=
  EdnParse.PRes.orElse (bind (variable_ (skip s)) fun x r => .ok (.var x) (skip r)) fun _ =>
  bind (accept (limitInt (skip s)) limitOf) fun l r => .ok l (skip r)

/-- lib.rs:370-373 `order` -/
def order (s : Text) : PRes (Bool × Text) :=
  EdnParse.PRes.orElse (expect "(" (skip s) fun r => expect "asc" (skip r) fun r =>
    bind (variable_ r) fun x r => expect ")" r fun r => .ok (true, x) (skip r)) fun _ =>
  EdnParse.PRes.orElse (expect "(" (skip s) fun r => expect "desc" (skip r) fun r =>
    bind (variable_ r) fun x r => expect ")" r fun r => .ok (false, x) (skip r)) fun _ =>
  bind (variable_ s) fun x r => .ok (true, x) r

/-- The action of lib.rs:390-413. -/
def patternOf (src : Option Src) (e a : NonVal) (v : Option Val) (tx : Option NonVal) (rest : Text) : PRes Clause :=
  match Pat.new src e a (v.getD .placeholder) (tx.getD .placeholder) with
  | .ok (some p) => .ok (.pattern p) rest
  | .ok none => .fail
  | _ => .panic

/-- lib.rs:382-414 `pattern` -/
def pattern (s : Text) : PRes Clause :=
  expect "[" (skip s) fun r =>
  bind (opt (srcVar) r) fun src r =>
  bind (accept (val r) nonValOf) fun e r =>
  bind (accept (val r) nonValOf) fun a r =>
  bind (opt (fun r => accept (val r) valOf) r) fun v r =>
  bind (opt (fun r => accept (val r) nonValOf) r) fun tx r =>
  expect "]" r fun r => patternOf src e a v tx (skip r)

/-- The action of lib.rs:418-427. -/
def uniqueOf (l : List Text) : Option (List Text) := if l.Nodup then some l else none

/-- lib.rs:418-427 `rule_vars` -/
def ruleVars (s : Text) : PRes (List Text) := accept (many1 (variable_) s) uniqueOf

/-- lib.rs:429-437 `or_where_clause` -/
def orWhere (wc : Text → PRes Clause) (s : Text) : PRes OrArm :=
  EdnParse.PRes.orElse (bind (wc s) fun c r => .ok (.clause c) r) fun _ =>
  expect "(" (skip s) fun r => expect "and" (skip r) fun r => bind (many1 wc r) fun l r =>
  expect ")" r fun r => .ok (.and l) (skip r)

/-- lib.rs:439-442 `or_clause` -/
def orClause (wc : Text → PRes Clause) (s : Text) : PRes Clause :=
  expect "(" (skip s) fun r => expect "or" (skip r) fun r => bind (many1 (orWhere wc) r) fun l r =>
  expect ")" r fun r => .ok (.or none l) (skip r)

/-- lib.rs:444-447 `or_join_clause` -/
def orJoinClause (wc : Text → PRes Clause) (s : Text) : PRes Clause :=
  expect "(" (skip s) fun r => expect "or-join" (skip r) fun r => expect "[" (skip r) fun r =>
  bind (ruleVars r) fun xs r => expect "]" r fun r => bind (many1 (orWhere wc) r) fun l r =>
  expect ")" r fun r => .ok (.or (some xs) l) (skip r)

/-- lib.rs:449-452 `not_clause` -/
def notClause (wc : Text → PRes Clause) (s : Text) : PRes Clause :=
  expect "(" (skip s) fun r => expect "not" (skip r) fun r => bind (many1 wc r) fun l r =>
  expect ")" r fun r => .ok (.not none l) (skip r)

/-- lib.rs:454-457 `not_join_clause` -/
def notJoinClause (wc : Text → PRes Clause) (s : Text) : PRes Clause :=
  expect "(" (skip s) fun r => expect "not-join" (skip r) fun r => expect "[" (skip r) fun r =>
  bind (ruleVars r) fun xs r => expect "]" r fun r => bind (many1 wc r) fun l r =>
  expect ")" r fun r => .ok (.not (some xs) l) (skip r)

/-- lib.rs:459-466 `type_annotation` -/
def typeAnnotation (s : Text) : PRes Clause :=
  expect "[" (skip s) fun r => expect "(" (skip r) fun r => expect "type" (skip r) fun r =>
  bind (variable_ r) fun x r => bind (rawKeyword (skip r)) fun k r => expect ")" (skip r) fun r =>
  expect "]" (skip r) fun r => .ok (.typeAnno x k) (skip r)

/-- lib.rs:468-475 `pred` -/
def pred (s : Text) : PRes Clause :=
  expect "[" (skip s) fun r => expect "(" (skip r) fun r => bind (queryFunction r) fun f r =>
  bind (many (fnArg) r) fun args r => expect ")" r fun r => expect "]" (skip r) fun r =>
  .ok (.pred f args) (skip r)

/-- lib.rs:515-517 `variable_or_placeholder` -/
def varOrPlaceholder (s : Text) : PRes (Option Text) :=
  EdnParse.PRes.orElse (bind (variable_ s) fun x r => .ok (some x) r) fun _ =>
  expect "_" (skip s) fun r => .ok none (skip r)

/-- lib.rs:519-523 `binding` -/
def binding (s : Text) : PRes Binding :=
  EdnParse.PRes.orElse (expect "[" (skip s) fun r => expect "[" (skip r) fun r =>
    bind (many1 (varOrPlaceholder) r) fun l r => expect "]" r fun r => expect "]" (skip r) fun r =>
    .ok (.rel l) (skip r)) fun _ =>
  EdnParse.PRes.orElse (expect "[" (skip s) fun r => bind (variable_ r) fun x r => expect "..." r fun r =>
    expect "]" (skip r) fun r => .ok (.coll x) (skip r)) fun _ =>
  EdnParse.PRes.orElse (expect "[" (skip s) fun r => bind (many1 (varOrPlaceholder) r) fun l r =>
    expect "]" r fun r => .ok (.tuple l) (skip r)) fun _ =>
  bind (variable_ s) fun x r => .ok (.scalar x) r

/-- lib.rs:477-485 `where_fn` -/
def whereFn (s : Text) : PRes Clause :=
  expect "[" (skip s) fun r => expect "(" (skip r) fun r => bind (queryFunction r) fun f r =>
  bind (many (fnArg) r) fun args r => expect ")" r fun r => bind (binding (skip r)) fun b r =>
  expect "]" r fun r => .ok (.whereFn f args b) (skip r)

/-- lib.rs:487-496 `where_clause` -/
def clauseN : Nat → Text → PRes Clause
  | 0, _ => .stuck
  | n + 1, s =>
    EdnParse.PRes.orElse (pattern s) fun _ =>
    EdnParse.PRes.orElse (orJoinClause (clauseN n) s) fun _ =>
    EdnParse.PRes.orElse (orClause (clauseN n) s) fun _ =>
    EdnParse.PRes.orElse (notJoinClause (clauseN n) s) fun _ =>
    EdnParse.PRes.orElse (notClause (clauseN n) s) fun _ =>
    EdnParse.PRes.orElse (typeAnnotation s) fun _ =>
    EdnParse.PRes.orElse (pred s) fun _ => whereFn s

/-- lib.rs:487-496 `where_clause` -/
def clause (s : Text) : PRes Clause := clauseN (s.length + 1) s

/-- lib.rs:498-504 `query_part` -/
def queryPart (s : Text) : PRes Part :=
  EdnParse.PRes.orElse (expect ":find" (skip s) fun r => bind (findSpec r) fun x r => .ok (.find x) r) fun _ =>
  EdnParse.PRes.orElse (expect ":in" (skip s) fun r => bind (many1 (variable_) r) fun x r => .ok (.inVars x) r) fun _ =>
  EdnParse.PRes.orElse (expect ":limit" (skip s) fun r => bind (limit r) fun x r => .ok (.limit x) r) fun _ =>
  EdnParse.PRes.orElse (expect ":order" (skip s) fun r => bind (many1 (order) r) fun x r => .ok (.order x) r) fun _ =>
  EdnParse.PRes.orElse (expect ":where" (skip s) fun r => bind (many1 (clause) r) fun x r => .ok (.clauses x) r) fun _ =>
  expect ":with" (skip s) fun r => bind (many1 (variable_) r) fun x r => .ok (.withVars x) r

/-- query.rs:979-984: the parts seen so far. -/
structure Slots where
  find : Option Find := none
  withVars : Option (List Text) := none
  inVars : Option (List Text) := none
  limit : Option Limit := none
  clauses : Option (List Clause) := none
  order : Option (List (Bool × Text)) := none

/-- query.rs:986-1025: a part seen twice is an error. -/
def Slots.add (t : Slots) : Part → Option Slots
  | .find x => if t.find.isSome then none else some { t with find := some x }
  | .withVars x => if t.withVars.isSome then none else some { t with withVars := some x }
  | .inVars x => if t.inVars.isSome then none else some { t with inVars := some x }
  | .limit x => if t.limit.isSome then none else some { t with limit := some x }
  | .clauses x => if t.clauses.isSome then none else some { t with clauses := some x }
  | .order x => if t.order.isSome then none else some { t with order := some x }

/-- query.rs:986-1025: the loop. -/
def Slots.addAll : Slots → List Part → Option Slots
  | t, [] => some t
  | t, p :: ps => (t.add p).bind fun t => t.addAll ps

/-- query.rs:976-1037 `ParsedQuery::from_parts`; the texts of the errors are not modelled. -/
def fromParts (ps : List Part) : Option Query :=
  (Slots.addAll {} ps).bind fun t => t.find.bind fun f => t.clauses.bind fun cs =>
    some { find := f, withVars := t.withVars.getD [], inVars := t.inVars.getD [],
           limit := t.limit.getD .none, clauses := cs, order := t.order }

/-- lib.rs:506-507 `parse_query`: the whole text is one query. -/
def parseQuery (s : Text) : PRes Query :=
  match expect "[" (skip s) fun r => bind (many1 (queryPart) r) fun ps r => expect "]" r fun r =>
      accept (.ok ps (skip r)) fromParts with
  | .ok q [] => .ok q []
  | .ok _ _ => .fail
  | r => r

/-! ### From a parsed query to a find query: query-algebrizer/src/lib.rs:371-421 -/

/-- types.rs:360-375 `from_datalog_operator` -/
def ineqOf (s : Text) : Option Ineq :=
  if s = "<".toList then some .lt
  else if s = "<=".toList then some .le
  else if s = ">".toList then some .gt
  else if s = ">=".toList then some .ge
  else if s = "!=".toList then some .ne
  else if s = "unpermute".toList then some .unpermute
  else if s = "differ".toList then some .differ
  else if s = "tx-after".toList then some .txAfter
  else if s = "tx-before".toList then some .txBefore
  else none

/-- clauses/where_fn.rs:30-36 -/
def fnOf (s : Text) : FnOp :=
  if s = "fulltext".toList then .fulltext
  else if s = "ground".toList then .ground
  else if s = "tx-data".toList then .txData
  else if s = "tx-ids".toList then .txIds
  else .other

/-- symbols.rs:89-95 `PlainSymbol::name`: without a leading `?` or `$`. -/
def symName (s : Text) : Text := if isSrcSym s || isVarSym s then s.drop 1 else s

/-- query-projector-traits/aggregates.rs:42-51 `for_function`, of the symbol's `name`. -/
def aggOf (s : Text) : Option AggOp :=
  let s := symName s
  if s = "avg".toList then some .avg
  else if s = "count".toList then some .count
  else if s = "max".toList then some .max
  else if s = "min".toList then some .min
  else if s = "sum".toList then some .sum
  else none

/-- core-traits/lib.rs:328-344 `ValueType::from_keyword` -/
def typeOf (k : NName) : Option ValueType :=
  if k.ns = some "db.type".toList then
    if k.name = "ref".toList then some .ref
    else if k.name = "boolean".toList then some .boolean
    else if k.name = "instant".toList then some .instant
    else if k.name = "long".toList then some .long
    else if k.name = "double".toList then some .double
    else if k.name = "string".toList then some .string
    else if k.name = "keyword".toList then some .keyword
    else if k.name = "uuid".toList then some .uuid
    else none
  else none

/-- The constants as Model/QueryAst has them.  Simplification: infinite floats and NaN, which that
model has not, become 0. -/
def Const.lower : Const → NIC
  | .boolean b => .boolean b
  | .bigInteger n => .bigInteger n
  | .float (.finite d) => .float d
  | .float _ => .float 0
  | .text s => .text s
  | .instant t => .instant t.toMicros
  | .uuid u => .uuid u

/-- Is a source named? -/
def Src.isNamed : Src → Bool
  | .dflt => false
  | .named _ => true

mutual
/-- As Model/QueryAst has it: an argument. -/
def Arg.lower : Arg → FnArg
  | .var x => .var x
  | .src s => .src s.isNamed
  | .int n => .int n
  | .kw k => .kw k.toKeyword
  | .const c => .const c.lower
  | .vec l => .vec (Arg.lowerAll l)
/-- As Model/QueryAst has it: arguments. -/
def Arg.lowerAll : List Arg → List FnArg
  | [] => []
  | a :: l => a.lower :: Arg.lowerAll l
end

/-- As Model/QueryAst has it: an entity, attribute or transaction place. -/
def NonVal.lower : NonVal → NonValue
  | .placeholder => .placeholder
  | .var x => .var x
  | .entid n => .entid n
  | .ident k => .ident k.toKeyword

/-- As Model/QueryAst has it: a value place. -/
def Val.lower : Val → PatValue
  | .placeholder => .placeholder
  | .var x => .var x
  | .entidOrInteger n => .entidOrInteger n
  | .identOrKeyword k => .identOrKeyword k.toKeyword
  | .constant c => .constant c.lower

/-- As Model/QueryAst has it: a pattern. -/
def Pat.lower (p : Pat) : Pattern :=
  { named := (p.source.map Src.isNamed).getD false, e := p.e.lower, a := p.a.lower, v := p.v.lower, tx := p.tx.lower }

mutual
/-- As Model/QueryAst has it: a clause. -/
def Clause.lower : Clause → WhereClause
  | .pattern p => .pattern p.lower
  | .or u arms => .or u (OrArm.lowerAll arms)
  | .not u cs => .not u (Clause.lowerAll cs)
  | .typeAnno x k => .typeAnno x (typeOf k)
  | .pred op args => .pred (ineqOf op) (Arg.lowerAll args)
  | .whereFn op args b => .whereFn (fnOf op) (Arg.lowerAll args) b
/-- As Model/QueryAst has it: clauses. -/
def Clause.lowerAll : List Clause → List WhereClause
  | [] => []
  | c :: cs => c.lower :: Clause.lowerAll cs
/-- As Model/QueryAst has it: an arm of an `or`. -/
def OrArm.lower : OrArm → OrClause
  | .clause c => .clause c.lower
  | .and cs => .and (Clause.lowerAll cs)
/-- As Model/QueryAst has it: arms of an `or`. -/
def OrArm.lowerAll : List OrArm → List OrClause
  | [] => []
  | a :: l => a.lower :: OrArm.lowerAll l
end

/-- Pull attributes are left out, as in Model/QueryAst. -/
def Elem.lower : Elem → Element
  | .var x => .var x
  | .corresponding x => .corresponding x
  | .pull x _ => .pull x
  | .aggregate f args => .aggregate (aggOf f) (Arg.lowerAll args)

/-- As Model/QueryAst has it: what is found. -/
def Find.lower : Find → FindSpec
  | .rel l => .rel (l.map Elem.lower)
  | .coll e => .coll e.lower
  | .tuple l => .tuple (l.map Elem.lower)
  | .scalar e => .scalar e.lower

/-- lib.rs:371-414 `FindQuery::from_parsed_query`: repeated `:in` and `:with` variables and a limit
variable that is not in `:in` are errors. -/
def Query.toFind (q : Query) : Res FindQuery :=
  if ¬ q.inVars.Nodup then .err .other
  else if ¬ q.withVars.Nodup then .err .other
  else
    let fq : FindQuery :=
      { find := q.find.lower, withVars := q.withVars, inVars := q.inVars, limit := q.limit, order := q.order,
        clauses := Clause.lowerAll q.clauses }
    match q.limit with
    | .var x => if x ∈ q.inVars then .ok fq else .err .other
    | _ => .ok fq

/-- lib.rs:417-421 `parse_find_string` -/
def parseFind (s : Text) : Res FindQuery :=
  match parseQuery s with
  | .ok q _ => q.toFind
  | .fail => .err .inputError
  | _ => .panic

end QParse
end Mentat
