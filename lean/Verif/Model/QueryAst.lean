import Verif.Model.Sql
import Verif.Model.Cache
/-
Parsed queries: edn/src/query.rs.  For the text, see Model/QueryParse.
-/
namespace Mentat

/-- edn/src/query.rs:182-189 `NonIntegerConstant`; a float is a multiple of `2^-1074`, an instant is in
microseconds. -/
inductive NIC where
  | boolean (b : Bool)
  | bigInteger (i : Int)
  | float (d : Int)
  | text (s : Text)
  | instant (us : Int)
  | uuid (u : Nat)
  deriving DecidableEq, Repr

/-- query.rs:277-282 `PatternNonValuePlace` -/
inductive NonValue where
  | placeholder
  | var (x : Var)
  | entid (i : Entid)
  | ident (k : Keyword)
  deriving DecidableEq, Repr

/-- query.rs:353-359 `PatternValuePlace` -/
inductive PatValue where
  | placeholder
  | var (x : Var)
  | entidOrInteger (i : Int)
  | identOrKeyword (k : Keyword)
  | constant (c : NIC)
  deriving DecidableEq, Repr

/-- query.rs:787-793 `Pattern`; `named` says that a source other than `$` is named. -/
structure Pattern where
  named : Bool := false
  e : NonValue
  a : NonValue
  v : PatValue
  tx : NonValue
  deriving DecidableEq, Repr

/-- query.rs:804-838 `Pattern::new`: an attribute `:ns/_name` is the reverse of `:ns/name` and swaps
the entity and the value; a constant cannot stand in an entity place, and then the pattern is not
parsed. -/
def PatValue.toNonValue : PatValue → Option NonValue
  | .placeholder => some .placeholder
  | .var x => some (.var x)
  | .entidOrInteger i => if 0 ≤ i then some (.entid i) else none
  | .identOrKeyword k => some (.ident k)
  | .constant _ => none

/-- query.rs:299-316 `to_pattern_value_place` -/
def NonValue.toValue : NonValue → PatValue
  | .placeholder => .placeholder
  | .var x => .var x
  | .entid i => .entidOrInteger i
  | .ident k => .identOrKeyword k

/-- query.rs:204-212 `FnArg` -/
inductive FnArg where
  | var (x : Var)
  | src (named : Bool)
  | int (i : Int)
  | kw (k : Keyword)
  | const (c : NIC)
  | vec (l : List FnArg)

/-- query.rs:715-720 `Binding`; `none` is the placeholder `_`. -/
inductive Binding where
  | scalar (x : Var)
  | coll (x : Var)
  | rel (l : List (Option Var))
  | tuple (l : List (Option Var))
  deriving DecidableEq, Repr

/-- query.rs:724-732 `variables` -/
def Binding.vars : Binding → List (Option Var)
  | .scalar x => [some x]
  | .coll x => [some x]
  | .rel l => l
  | .tuple l => l

/-- query.rs:734-741 `is_empty` -/
def Binding.isEmpty : Binding → Bool
  | .scalar _ => false
  | .coll _ => false
  | .rel l => l.all Option.isNone
  | .tuple l => l.all Option.isNone

/-- query.rs:761-779 `is_valid`: some variable, and none twice. -/
def Binding.isValid (b : Binding) : Bool := decide (b.vars.filterMap id).Nodup && !b.isEmpty

/-- query-algebrizer/src/types.rs:326-388 `Inequality` -/
inductive Ineq where
  | lt | le | gt | ge | ne | unpermute | differ | txAfter | txBefore
  deriving DecidableEq, Repr

/-- clauses/where_fn.rs:27-36: the functions; every unknown name is `other`. -/
inductive FnOp where
  | fulltext | ground | txIds | txData | other
  deriving DecidableEq, Repr

/-- query.rs:855-872 `UnifyVars`: `none` is `Implicit`. -/
abbrev UnifyVars := Option (List Var)

mutual
/-- query.rs:937-946 `WhereClause`.  `RuleExpr` is not modelled (the parser never makes one); an
operator or type that names none is `none`. -/
inductive WhereClause where
  | pattern (p : Pattern)
  | pred (op : Option Ineq) (args : List FnArg)
  | whereFn (op : FnOp) (args : List FnArg) (b : Binding)
  | or (unify : UnifyVars) (arms : List OrClause)
  | not (unify : UnifyVars) (cs : List WhereClause)
  | typeAnno (x : Var) (t : Option ValueType)
/-- query.rs:890-893 `OrWhereClause` -/
inductive OrClause where
  | clause (c : WhereClause)
  | and (cs : List WhereClause)
end

/-! ### Mentioned variables (query.rs:1071-1205), in order of mention, possibly repeated -/

/-- The variable in an entity, attribute or transaction place. -/
def NonValue.vars : NonValue → List Var
  | .var x => [x]
  | _ => []

/-- The variable in a value place. -/
def PatValue.vars : PatValue → List Var
  | .var x => [x]
  | _ => []

/-- query.rs:1148-1155 (the source is not looked at) -/
def Pattern.vars (p : Pattern) : List Var := p.e.vars ++ p.a.vars ++ p.v.vars ++ p.tx.vars

/-- query.rs:1158-1170: only arguments that are variables themselves, not those inside vectors. -/
def argVars (args : List FnArg) : List Var := args.filterMap fun
  | .var x => some x
  | _ => none

mutual
/-- query.rs:1080-1092 -/
def WhereClause.vars : WhereClause → List Var
  | .pattern p => p.vars
  | .pred _ args => argVars args
  | .whereFn _ args b => argVars args ++ b.vars.filterMap id
  | .or _ arms => OrClause.varsAll arms
  | .not _ cs => WhereClause.varsAll cs
  | .typeAnno x _ => [x]
/-- Those of all clauses. -/
def WhereClause.varsAll : List WhereClause → List Var
  | [] => []
  | c :: cs => c.vars ++ WhereClause.varsAll cs
/-- query.rs:1095-1106 -/
def OrClause.vars : OrClause → List Var
  | .clause c => c.vars
  | .and cs => WhereClause.varsAll cs
/-- Those of all arms. -/
def OrClause.varsAll : List OrClause → List Var
  | [] => []
  | c :: cs => c.vars ++ OrClause.varsAll cs
end

/-! ### Queries -/

/-- query.rs:533-545 `Element`.  `pull`'s attribute specs are modelled in Model/Pull; aggregates other
than the five simple ones in `AggOp` fail. -/
inductive AggOp where
  | avg | count | max | min | sum
  deriving DecidableEq, Repr

/-- query.rs:533-545 `Element` -/
inductive Element where
  | var (x : Var)
  | aggregate (op : Option AggOp) (args : List FnArg)
  | corresponding (x : Var)
  | pull (x : Var)

/-- query.rs:618-634 `FindSpec` -/
inductive FindSpec where
  | rel (l : List Element)
  | coll (x : Element)
  | scalar (x : Element)
  | tuple (l : List Element)

/-- query.rs:679-689 `columns` -/
def FindSpec.elements : FindSpec → List Element
  | .rel l => l
  | .coll x => [x]
  | .scalar x => [x]
  | .tuple l => l

/-- query.rs:638-645 `is_unit_limited` -/
def FindSpec.isUnitLimited : FindSpec → Bool
  | .scalar _ => true
  | .tuple _ => true
  | _ => false

/-- query.rs:589-593 `Limit` -/
inductive Limit where
  | none
  | fixed (n : Nat)
  | var (x : Var)
  deriving DecidableEq, Repr

/-- query.rs:949-960 `ParsedQuery`, query-algebrizer/src/types.rs:691-701 `FindQuery`.  Default sources
other than `$` are not modelled.  In `order`, `true` is ascending. -/
structure FindQuery where
  find : FindSpec
  withVars : List Var := []
  inVars : List Var := []
  limit : Limit := .none
  order : Option (List (Bool × Var)) := none
  clauses : List WhereClause

end Mentat
