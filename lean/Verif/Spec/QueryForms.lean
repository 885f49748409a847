import Verif.Model.QueryParse
/-
The query language: which EDN forms denote which queries.  This is written from docs and the doc
comments of edn/src/query.rs, without the grammar: every construct has the forms a reader expects,
nested to any depth, and the parts of a query come in any order.
-/
namespace Mentat
namespace QParse

def symE (s : String) : Edn := .plainSymbol s.toList
/-- A keyword without namespace, such as `:find`. -/
def kwdE (s : String) : Edn := .keyword ⟨s.toList, 0⟩

/-- A variable's symbol begins with a question mark. -/
def IsVar (x : Text) : Prop := ∃ t, x = '?' :: t

/-! ### Places with one form each -/

def Const.form : Const → Edn
  | .boolean b => .boolean b
  | .bigInteger n => .bigInteger n
  | .float f => .float f
  | .text s => .text s
  | .instant t => .instant t
  | .uuid u => .uuid u

def Src.form : Src → Edn
  | .dflt => symE "$"
  | .named n => .plainSymbol ('$' :: n)

mutual
def Arg.form : Arg → Edn
  | .var x => .plainSymbol x
  | .src s => s.form
  | .int n => .integer n
  | .kw k => .keyword k
  | .const c => c.form
  | .vec l => .vector (Arg.forms l)
def Arg.forms : List Arg → List Edn
  | [] => []
  | a :: l => a.form :: Arg.forms l
end

mutual
/-- Variables are variables, sources have a name, vectors are not empty. -/
def Arg.Ok : Arg → Prop
  | .var x => IsVar x
  | .src (.named n) => n ≠ []
  | .vec l => l ≠ [] ∧ Arg.Oks l
  | _ => True
def Arg.Oks : List Arg → Prop
  | [] => True
  | a :: l => a.Ok ∧ Arg.Oks l
end

def NonVal.form : NonVal → Edn
  | .placeholder => symE "_"
  | .var x => .plainSymbol x
  | .entid n => .integer n
  | .ident k => .keyword k

/-- Entids are not negative. -/
def NonVal.Ok : NonVal → Prop
  | .var x => IsVar x
  | .entid n => 0 ≤ n
  | _ => True

def Val.form : Val → Edn
  | .placeholder => symE "_"
  | .var x => .plainSymbol x
  | .entidOrInteger n => .integer n
  | .identOrKeyword k => .keyword k
  | .constant c => c.form

/-- A keyword in a value place has a namespace (`C75_fails`: the grammar takes the others for the
transaction). -/
def Val.Ok : Val → Prop
  | .var x => IsVar x
  | .identOrKeyword k => k.isNamespaced = true
  | _ => True

def placeForm : Option Text → Edn
  | some x => .plainSymbol x
  | none => symE "_"

def bindForm : Binding → Edn
  | .scalar x => .plainSymbol x
  | .coll x => .vector [.plainSymbol x, symE "..."]
  | .rel l => .vector [.vector (l.map placeForm)]
  | .tuple l => .vector (l.map placeForm)

def BindOk (b : Binding) : Prop := b.vars ≠ [] ∧ ∀ x, some x ∈ b.vars → IsVar x

/-- A pulled attribute: `*`, `:a/b`, `:a/b :as :c`. -/
def PullAttr.forms : PullAttr → List Edn
  | .wildcard => [symE "*"]
  | .attr k none => [.keyword k]
  | .attr k (some a) => [.keyword k, kwdE "as", .keyword a]

def PullAttr.Ok : PullAttr → Prop
  | .wildcard => True
  | .attr k a => k.isNamespaced = true ∧ k.isForward = true ∧ ∀ a', a = some a' → a'.isForward = true

def Elem.form : Elem → Edn
  | .var x => .plainSymbol x
  | .corresponding x => .list [symE "the", .plainSymbol x]
  | .pull x ps => .list [symE "pull", .plainSymbol x, .vector (ps.flatMap PullAttr.forms)]
  | .aggregate f args => .list (.plainSymbol f :: Arg.forms args)

/-- The name of a function: a symbol other than `.` and `...`, and one that does not begin with a word
of the grammar. -/
def FnName (f : Text) (words : List String) : Prop :=
  f ≠ ['.'] ∧ f ≠ ['.', '.', '.'] ∧ ∀ w ∈ words, ¬ w.toList <+: f

def Elem.Ok : Elem → Prop
  | .var x => IsVar x
  | .corresponding x => IsVar x
  | .pull x ps => IsVar x ∧ ps ≠ [] ∧ ∀ p ∈ ps, p.Ok
  | .aggregate f args => FnName f ["the", "pull"] ∧ Arg.Oks args

/-! ### Clauses -/

/-- The forms of a pattern: the source may be left out, the transaction too, and then the value;
`[e :ns/_name v]` is `[v :ns/name e]`. -/
inductive PatForm : List Edn → Pat → Prop
  | full (src : Option Src) (e a : NonVal) (v : Val) (tx : NonVal) (l : List Edn) :
      (∀ s, src = some (.named s) → s ≠ []) → e.Ok → a.Ok → v.Ok → tx.Ok →
      (∀ k, a = .ident k → k.isForward = true) →
      (l = [e.form, a.form, v.form, tx.form] ∨
        tx = .placeholder ∧ (l = [e.form, a.form, v.form] ∨ v = .placeholder ∧ l = [e.form, a.form])) →
      PatForm (src.toList.map Src.form ++ l) ⟨src, e, a, v, tx⟩
  | reversed (src : Option Src) (e v tx : NonVal) (ns n : Text) (k k' : NName) (l : List Edn) :
      (∀ s, src = some (.named s) → s ≠ []) → e.Ok → v.toVal.Ok → v.Ok → tx.Ok →
      NName.namespaced ns n = .ok k → NName.namespaced ns ('_' :: n) = .ok k' →
      (l = [e.form, .keyword k', v.form, tx.form] ∨
        tx = .placeholder ∧ (l = [e.form, .keyword k', v.form] ∨
          v = .placeholder ∧ l = [e.form, .keyword k'])) →
      PatForm (src.toList.map Src.form ++ l) ⟨src, v, .ident k, e.toVal, tx⟩

mutual
inductive ClauseForm : Edn → Clause → Prop
  | pattern {l p} : PatForm l p → ClauseForm (.vector l) (.pattern p)
  | or {l arms} : ArmsForm l arms → arms ≠ [] → ClauseForm (.list (symE "or" :: l)) (.or none arms)
  | orJoin {xs l arms} : xs ≠ [] → xs.Nodup → (∀ x ∈ xs, IsVar x) → ArmsForm l arms → arms ≠ [] →
      ClauseForm (.list (symE "or-join" :: .vector (xs.map .plainSymbol) :: l)) (.or (some xs) arms)
  | not {l cs} : ClausesForm l cs → cs ≠ [] → ClauseForm (.list (symE "not" :: l)) (.not none cs)
  | notJoin {xs l cs} : xs ≠ [] → xs.Nodup → (∀ x ∈ xs, IsVar x) → ClausesForm l cs → cs ≠ [] →
      ClauseForm (.list (symE "not-join" :: .vector (xs.map .plainSymbol) :: l)) (.not (some xs) cs)
  | typeAnno {x k} : IsVar x →
      ClauseForm (.vector [.list [symE "type", .plainSymbol x, .keyword k]]) (.typeAnno x k)
  | pred {f args} : FnName f ["type"] → Arg.Oks args →
      ClauseForm (.vector [.list (.plainSymbol f :: Arg.forms args)]) (.pred f args)
  | whereFn {f args b} : FnName f ["type"] → Arg.Oks args → BindOk b →
      ClauseForm (.vector [.list (.plainSymbol f :: Arg.forms args), bindForm b]) (.whereFn f args b)
inductive ClausesForm : List Edn → List Clause → Prop
  | nil : ClausesForm [] []
  | cons {v c l cs} : ClauseForm v c → ClausesForm l cs → ClausesForm (v :: l) (c :: cs)
inductive ArmForm : Edn → OrArm → Prop
  | clause {v c} : ClauseForm v c → ArmForm v (.clause c)
  | and {l cs} : ClausesForm l cs → cs ≠ [] → ArmForm (.list (symE "and" :: l)) (.and cs)
inductive ArmsForm : List Edn → List OrArm → Prop
  | nil : ArmsForm [] []
  | cons {v c l cs} : ArmForm v c → ArmsForm l cs → ArmsForm (v :: l) (c :: cs)
end

/-! ### Queries -/

inductive FindForm : List Edn → Find → Prop
  | rel {l} : l ≠ [] → (∀ e ∈ l, Elem.Ok e) → FindForm (l.map Elem.form) (.rel l)
  | scalar {e} : e.Ok → FindForm [e.form, symE "."] (.scalar e)
  | coll {e} : e.Ok → FindForm [.vector [e.form, symE "..."]] (.coll e)
  | tuple {l} : l ≠ [] → (∀ e ∈ l, Elem.Ok e) → FindForm [.vector (l.map Elem.form)] (.tuple l)

/-- `?x` and `(asc ?x)` are ascending. -/
inductive OrderForm : Edn → Bool × Text → Prop
  | plain {x} : IsVar x → OrderForm (.plainSymbol x) (true, x)
  | asc {x} : IsVar x → OrderForm (.list [symE "asc", .plainSymbol x]) (true, x)
  | desc {x} : IsVar x → OrderForm (.list [symE "desc", .plainSymbol x]) (false, x)

inductive OrdersForm : List Edn → List (Bool × Text) → Prop
  | nil : OrdersForm [] []
  | cons {v o l os} : OrderForm v o → OrdersForm l os → OrdersForm (v :: l) (o :: os)

inductive PartForm : List Edn → Part → Prop
  | find {l f} : FindForm l f → PartForm (kwdE "find" :: l) (.find f)
  | inVars {xs} : xs ≠ [] → (∀ x ∈ xs, IsVar x) → PartForm (kwdE "in" :: xs.map .plainSymbol) (.inVars xs)
  | withVars {xs} : xs ≠ [] → (∀ x ∈ xs, IsVar x) → PartForm (kwdE "with" :: xs.map .plainSymbol) (.withVars xs)
  | limitFixed {n : Nat} : 0 < n → PartForm [kwdE "limit", .integer n] (.limit (.fixed n))
  | limitVar {x} : IsVar x → PartForm [kwdE "limit", .plainSymbol x] (.limit (.var x))
  | order {l os} : OrdersForm l os → os ≠ [] → PartForm (kwdE "order" :: l) (.order os)
  | clauses {l cs} : ClausesForm l cs → cs ≠ [] → PartForm (kwdE "where" :: l) (.clauses cs)

inductive PartsForm : List Edn → List Part → Prop
  | nil : PartsForm [] []
  | cons {v p l ps} : PartForm v p → PartsForm l ps → PartsForm (v ++ l) (p :: ps)

/-- A query made of parts: each kind of part at most once, `:find` and `:where` present, and what is
left out empty. -/
structure Assembled (ps : List Part) (q : Query) : Prop where
  find : ∀ f, .find f ∈ ps ↔ f = q.find
  clauses : ∀ cs, .clauses cs ∈ ps ↔ cs = q.clauses
  withVars : (∀ l, .withVars l ∉ ps) ∧ q.withVars = [] ∨ ∀ l, .withVars l ∈ ps ↔ l = q.withVars
  inVars : (∀ l, .inVars l ∉ ps) ∧ q.inVars = [] ∨ ∀ l, .inVars l ∈ ps ↔ l = q.inVars
  limit : (∀ l, .limit l ∉ ps) ∧ q.limit = .none ∨ ∀ l, .limit l ∈ ps ↔ l = q.limit
  order : ∀ l, .order l ∈ ps ↔ q.order = some l
  once : ps.Pairwise fun p p' => p.ctorIdx ≠ p'.ctorIdx

/-- The form of a query. -/
def QueryForm (v : Edn) (q : Query) : Prop :=
  ∃ l ps, v = .vector l ∧ PartsForm l ps ∧ Assembled ps q

/-! ### Well-formed queries -/

def SrcOk (s : Option Src) : Prop := ∀ n, s = some (.named n) → n ≠ []

/-- A value in a pattern: its variables are variables. -/
def Val.VarOk (v : Val) : Prop := ∀ x, v = .var x → IsVar x

structure Pat.Wf (p : Pat) : Prop where
  source : SrcOk p.source
  e : p.e.Ok
  a : p.a.Ok
  v : p.v.VarOk
  tx : p.tx.Ok

mutual
/-- Everything a clause says can be asked: variables are variables, the joined variables of a rule are
some and differ, no list of clauses or arms is empty. -/
def Clause.Wf : Clause → Prop
  | .pattern p => p.Wf
  | .or u arms => (∀ xs, u = some xs → xs ≠ [] ∧ xs.Nodup ∧ ∀ x ∈ xs, IsVar x) ∧ arms ≠ [] ∧ OrArm.WfAll arms
  | .not u cs => (∀ xs, u = some xs → xs ≠ [] ∧ xs.Nodup ∧ ∀ x ∈ xs, IsVar x) ∧ cs ≠ [] ∧ Clause.WfAll cs
  | .typeAnno x _ => IsVar x
  | .pred op args => op ≠ [] ∧ Arg.Oks args
  | .whereFn op args b => op ≠ [] ∧ Arg.Oks args ∧ BindOk b
def Clause.WfAll : List Clause → Prop
  | [] => True
  | c :: cs => c.Wf ∧ Clause.WfAll cs
def OrArm.Wf : OrArm → Prop
  | .clause c => c.Wf
  | .and cs => cs ≠ [] ∧ Clause.WfAll cs
def OrArm.WfAll : List OrArm → Prop
  | [] => True
  | c :: cs => c.Wf ∧ OrArm.WfAll cs
end

def Elem.Wf : Elem → Prop
  | .var x => IsVar x
  | .corresponding x => IsVar x
  | .pull x ps => IsVar x ∧ ps ≠ [] ∧ ∀ p ∈ ps, p.Ok
  | .aggregate f args => f ≠ [] ∧ Arg.Oks args

def Find.Wf : Find → Prop
  | .rel l => l ≠ [] ∧ ∀ e ∈ l, e.Wf
  | .tuple l => l ≠ [] ∧ ∀ e ∈ l, e.Wf
  | .coll e => e.Wf
  | .scalar e => e.Wf

def LimitOk : Limit → Prop
  | .none => True
  | .fixed n => 0 < n
  | .var x => IsVar x

structure Query.Wf (q : Query) : Prop where
  find : q.find.Wf
  withVars : ∀ x ∈ q.withVars, IsVar x
  inVars : ∀ x ∈ q.inVars, IsVar x
  limit : LimitOk q.limit
  clauses : q.clauses ≠ [] ∧ Clause.WfAll q.clauses
  order : ∀ l, q.order = some l → l ≠ [] ∧ ∀ o ∈ l, IsVar o.2

end QParse
end Mentat
