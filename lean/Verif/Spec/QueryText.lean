import Verif.Spec.QueryForms
/-
How to write a query: the form of each query as the algebrizer has it (Model/QueryAst), with the words of the query
language for its operators, functions, aggregates and types.
-/
namespace Mentat
namespace QText
open QParse

def ineqWord : Ineq → String
  | .lt => "<" | .le => "<=" | .gt => ">" | .ge => ">=" | .ne => "!="
  | .unpermute => "unpermute" | .differ => "differ" | .txAfter => "tx-after" | .txBefore => "tx-before"

/-- An unknown function has no word here. -/
def fnWord : FnOp → Option String
  | .fulltext => some "fulltext" | .ground => some "ground" | .txIds => some "tx-ids" | .txData => some "tx-data"
  | .other => none

def aggWord : AggOp → String
  | .avg => "avg" | .count => "count" | .max => "max" | .min => "min" | .sum => "sum"

def typeWord : ValueType → String
  | .ref => "ref" | .boolean => "boolean" | .instant => "instant" | .long => "long" | .double => "double"
  | .string => "string" | .keyword => "keyword" | .uuid => "uuid"

/-- `:ns/name` or `:name` -/
def kwName (k : Keyword) : NName := if k.ns = [] then ⟨k.name, 0⟩ else ⟨k.ns ++ '/' :: k.name, k.ns.length⟩

/-- The instant so many microseconds after the start of 1970. -/
def instantOf (us : Int) : DateTime := ⟨us / 1000000, us % 1000000 * 1000⟩

def constForm : NIC → Edn
  | .boolean b => .boolean b
  | .bigInteger n => .bigInteger n
  | .float d => .float (.finite d)
  | .text s => .text s
  | .instant us => .instant (instantOf us)
  | .uuid u => .uuid u

mutual
/-- Only the default source is written. -/
def argForm : FnArg → Edn
  | .var x => .plainSymbol x
  | .src _ => symE "$"
  | .int n => .integer n
  | .kw k => .keyword (kwName k)
  | .const c => constForm c
  | .vec l => .vector (argForms l)
def argForms : List FnArg → List Edn
  | [] => []
  | a :: l => argForm a :: argForms l
end

mutual
def ArgOk : FnArg → Prop
  | .var x => IsVar x
  | .src named => named = false
  | .vec l => l ≠ [] ∧ ArgsOk l
  | _ => True
def ArgsOk : List FnArg → Prop
  | [] => True
  | a :: l => ArgOk a ∧ ArgsOk l
end

def nonValForm : NonValue → Edn
  | .placeholder => symE "_"
  | .var x => .plainSymbol x
  | .entid n => .integer n
  | .ident k => .keyword (kwName k)

def NonValOk : NonValue → Prop
  | .var x => IsVar x
  | .entid n => 0 ≤ n
  | _ => True

def valForm : PatValue → Edn
  | .placeholder => symE "_"
  | .var x => .plainSymbol x
  | .entidOrInteger n => .integer n
  | .identOrKeyword k => .keyword (kwName k)
  | .constant c => constForm c

/-- A keyword in a value place has a namespace (`C75_fails_keyword`). -/
def ValOk : PatValue → Prop
  | .var x => IsVar x
  | .identOrKeyword k => k.ns ≠ []
  | _ => True

/-- A pattern of the default source with the attribute read forward. -/
structure PatOk (p : Pattern) : Prop where
  source : p.named = false
  e : NonValOk p.e
  a : NonValOk p.a
  v : ValOk p.v
  tx : NonValOk p.tx
  forward : ∀ k, p.a = .ident k → k.name.head? ≠ some '_'

mutual
def clauseForm : WhereClause → Edn
  | .pattern p => .vector [nonValForm p.e, nonValForm p.a, valForm p.v, nonValForm p.tx]
  | .pred op args => .vector [.list ((match op with | some o => symE (ineqWord o) | none => .nil) :: argForms args)]
  | .whereFn op args b =>
    .vector [.list ((match fnWord op with | some w => symE w | none => .nil) :: argForms args), bindForm b]
  | .or none arms => .list (symE "or" :: armForms arms)
  | .or (some xs) arms => .list (symE "or-join" :: .vector (xs.map .plainSymbol) :: armForms arms)
  | .not none cs => .list (symE "not" :: clauseForms cs)
  | .not (some xs) cs => .list (symE "not-join" :: .vector (xs.map .plainSymbol) :: clauseForms cs)
  | .typeAnno x t => .vector [.list [symE "type", .plainSymbol x,
      match t with | some t => .keyword (kwName ⟨"db.type".toList, (typeWord t).toList⟩) | none => .nil]]
def clauseForms : List WhereClause → List Edn
  | [] => []
  | c :: cs => clauseForm c :: clauseForms cs
def armForm : OrClause → Edn
  | .clause c => clauseForm c
  | .and cs => .list (symE "and" :: clauseForms cs)
def armForms : List OrClause → List Edn
  | [] => []
  | c :: cs => armForm c :: armForms cs
end

def JoinOk (u : UnifyVars) : Prop := ∀ xs, u = some xs → xs ≠ [] ∧ xs.Nodup ∧ ∀ x ∈ xs, IsVar x

mutual
/-- A clause that can be written. -/
def ClauseOk : WhereClause → Prop
  | .pattern p => PatOk p
  | .pred op args => op ≠ none ∧ ArgsOk args
  | .whereFn op args b => op ≠ .other ∧ ArgsOk args ∧ BindOk b
  | .or u arms => JoinOk u ∧ arms ≠ [] ∧ ArmsOk arms
  | .not u cs => JoinOk u ∧ cs ≠ [] ∧ ClausesOk cs
  | .typeAnno x t => IsVar x ∧ t ≠ none
def ClausesOk : List WhereClause → Prop
  | [] => True
  | c :: cs => ClauseOk c ∧ ClausesOk cs
def ArmOk : OrClause → Prop
  | .clause c => ClauseOk c
  | .and cs => cs ≠ [] ∧ ClausesOk cs
def ArmsOk : List OrClause → Prop
  | [] => True
  | c :: cs => ArmOk c ∧ ArmsOk cs
end

/-- What is pulled is not part of these queries (it is modelled in Model/Pull); everything is written. -/
def elemForm : Element → Edn
  | .var x => .plainSymbol x
  | .corresponding x => .list [symE "the", .plainSymbol x]
  | .pull x => .list [symE "pull", .plainSymbol x, .vector [symE "*"]]
  | .aggregate op args => .list ((match op with | some o => symE (aggWord o) | none => .nil) :: argForms args)

def ElemOk : Element → Prop
  | .var x => IsVar x
  | .corresponding x => IsVar x
  | .pull x => IsVar x
  | .aggregate op args => op ≠ none ∧ ArgsOk args

def findForm : FindSpec → List Edn
  | .rel l => l.map elemForm
  | .scalar e => [elemForm e, symE "."]
  | .coll e => [.vector [elemForm e, symE "..."]]
  | .tuple l => [.vector (l.map elemForm)]

def orderForm (o : Bool × Var) : Edn := .list [symE (if o.1 then "asc" else "desc"), .plainSymbol o.2]

def limitForm : Limit → List Edn
  | .none => []
  | .fixed n => [kwdE "limit", .integer n]
  | .var x => [kwdE "limit", .plainSymbol x]

/-- A list of variables after a keyword, if there are any. -/
def varsForm (word : String) (xs : List Var) : List Edn := if xs = [] then [] else kwdE word :: xs.map .plainSymbol

/-- `[:find … :with … :in … :where … :order … :limit …]` -/
def queryForm (q : FindQuery) : Edn :=
  .vector (kwdE "find" :: findForm q.find ++ (varsForm "with" q.withVars ++ (varsForm "in" q.inVars ++
    (kwdE "where" :: clauseForms q.clauses ++
    ((match q.order with | none => [] | some os => kwdE "order" :: os.map orderForm) ++ limitForm q.limit)))))

/-- A query that can be written: variables are variables, no `:in` or `:with` variable is repeated, a limit is
positive or is one of the inputs. -/
structure QueryOk (q : FindQuery) : Prop where
  find : q.find.elements ≠ [] ∧ ∀ e ∈ q.find.elements, ElemOk e
  withVars : q.withVars.Nodup ∧ ∀ x ∈ q.withVars, IsVar x
  inVars : q.inVars.Nodup ∧ ∀ x ∈ q.inVars, IsVar x
  fixed : ∀ n, q.limit = .fixed n → 0 < n
  limit : ∀ x, q.limit = .var x → x ∈ q.inVars
  clauses : q.clauses ≠ [] ∧ ClausesOk q.clauses
  order : ∀ os, q.order = some os → os ≠ [] ∧ ∀ o ∈ os, IsVar o.2

end QText
end Mentat
