import Verif.Model.QueryAst
import Verif.Props.Values
/-
What a query means, stated on assignments of typed values to variables, without SQL, columns, type
sets or the algebrizer.
-/
namespace Mentat

/-- An assignment of values to variables. -/
abbrev Assign := Var → TypedValue

/-- An assignment of values the store can hold. -/
def Assign.Proper (ρ : Assign) : Prop := ∀ x, (ρ x).Proper

/-- The value a constant that is not an integer denotes, if it denotes one (big integers do not). -/
def NIC.denotes : NIC → Option TypedValue
  | .boolean b => some (.boolean b)
  | .bigInteger _ => none
  | .float d => some (.double d)
  | .text s => some (.string s)
  | .instant us => some (.instant us)
  | .uuid u => some (.uuid u)

/-- A place for an entity, an attribute or a transaction is matched by the entity `e`. -/
def NonValue.Matches (s : Schema) (ρ : Assign) (e : Entid) : NonValue → Prop
  | .placeholder => True
  | .var x => ρ x = .ref e
  | .entid i => e = i
  | .ident k => AMap.get s.identMap k = some e

/-- A place for a value is matched by `v`: an integer literal by a reference, a long or a double of
that number, a keyword by itself or by a reference to what it names. -/
def PatValue.Matches (s : Schema) (ρ : Assign) (v : TypedValue) : PatValue → Prop
  | .placeholder => True
  | .var x => ρ x = v
  | .entidOrInteger i => v = .ref i ∨ v = .long i ∨ v = .double (i * 2 ^ 1074)
  | .identOrKeyword k => v = .keyword k ∨ ∃ e, AMap.get s.identMap k = some e ∧ v = .ref e
  | .constant c => c.denotes = some v

/-- A datom matches a pattern. -/
def Pattern.Matches (s : Schema) (ρ : Assign) (p : Pattern) (r : Row) : Prop :=
  p.e.Matches s ρ r.e ∧ p.a.Matches s ρ r.a ∧ p.v.Matches s ρ r.v ∧ p.tx.Matches s ρ r.tx

/-- A number as a multiple of `2^-1074`. -/
def TypedValue.number? : TypedValue → Option Int
  | .long n => some (n * 2 ^ 1074)
  | .double d => some d
  | _ => none

/-- The comparison an operator stands for. -/
def Ineq.compares : Ineq → Int → Int → Prop
  | .lt, a, b => a < b
  | .le, a, b => a ≤ b
  | .gt, a, b => b < a
  | .ge, a, b => b ≤ a
  | .ne, a, b => a ≠ b
  | .unpermute, a, b => a < b
  | .differ, a, b => a ≠ b
  | .txAfter, a, b => b < a
  | .txBefore, a, b => a < b

/-- The operators on numbers and instants; the others are on references. -/
def Ineq.ordinary : Ineq → Bool
  | .lt | .le | .gt | .ge | .ne => true
  | _ => false

/-- Two values compare: both numbers, both instants, or both references. -/
def Ineq.Relates (op : Ineq) (v w : TypedValue) : Prop :=
  if op.ordinary then
    (∃ a b, v.number? = some a ∧ w.number? = some b ∧ op.compares a b) ∨
    (∃ a b, v = .instant a ∧ w = .instant b ∧ op.compares a b)
  else ∃ a b, v = .ref a ∧ w = .ref b ∧ op.compares a b

/-- An argument denotes a value. -/
def FnArg.Denotes (s : Schema) (ρ : Assign) : FnArg → TypedValue → Prop
  | .var x, v => ρ x = v
  | .int i, v => v = .long i ∨ v = .ref i
  | .kw k, v => v = .keyword k ∨ ∃ e, AMap.get s.identMap k = some e ∧ v = .ref e
  | .const c, v => c.denotes = some v
  | .src _, _ => False
  | .vec _, _ => False

/-- What is queried: the datoms, the log of the main timeline, and which strings an expression finds. -/
structure Facts where
  rows : List Row
  log : List LogRow
  finds : Text → Text → Bool

/-- A bound variable has the value; a placeholder is satisfied by anything. -/
def Holds? (ρ : Assign) (v : TypedValue) : Option (Option Var) → Prop
  | some (some x) => ρ x = v
  | _ => True

/-- The functions that read the log or search the strings.  (`ground` is not among them.)  The score is
always zero. -/
def FnSat (s : Schema) (db : Facts) (ρ : Assign) : FnOp → List FnArg → Binding → Prop
  | .fulltext, [_, a, p], b => ∃ r ∈ db.rows, ∃ at_ t e, a.Denotes s ρ (.ref r.a) ∧ s.attr r.a = some at_ ∧
      at_.fulltext = true ∧ r.v = .string t ∧ p.Denotes s ρ (.string e) ∧ db.finds e t = true ∧
      Holds? ρ (.ref r.e) b.vars[0]? ∧ Holds? ρ (.string t) b.vars[1]? ∧ Holds? ρ (.ref r.tx) b.vars[2]? ∧
      Holds? ρ (.double 0) b.vars[3]?
  | .txIds, [_, t1, t2], b => ∃ l ∈ db.log, ∃ a z, t1.Denotes s ρ (.ref a) ∧ t2.Denotes s ρ (.ref z) ∧
      a ≤ l.tx ∧ l.tx < z ∧ Holds? ρ (.ref l.tx) b.vars.head?
  | .txData, [_, t], b => ∃ l ∈ db.log, t.Denotes s ρ (.ref l.tx) ∧
      Holds? ρ (.ref l.e) b.vars[0]? ∧ Holds? ρ (.ref l.a) b.vars[1]? ∧ Holds? ρ l.v b.vars[2]? ∧
      Holds? ρ (.ref l.tx) b.vars[3]? ∧ Holds? ρ (.boolean l.added) b.vars[4]?
  | _, _, _ => False

mutual
/-- The assignment satisfies the clause.  Variables of an `or-join` or `not-join` that are not in its
list are local to it. -/
def Sat (s : Schema) (db : Facts) (ρ : Assign) : WhereClause → Prop
  | .pattern p => ∃ r ∈ db.rows, p.Matches s ρ r
  | .pred (some op) [l, r] => ∃ v w, l.Denotes s ρ v ∧ r.Denotes s ρ w ∧ op.Relates v w
  | .pred _ _ => False
  | .whereFn op args b => FnSat s db ρ op args b
  | .or none arms => SatAny s db ρ arms
  | .or (some vs) arms => ∃ ρ' : Assign, ρ'.Proper ∧ (∀ x ∈ vs, ρ' x = ρ x) ∧ SatAny s db ρ' arms
  | .not none cs => ¬ SatAll s db ρ cs
  | .not (some vs) cs => ¬ ∃ ρ' : Assign, ρ'.Proper ∧ (∀ x ∈ vs, ρ' x = ρ x) ∧ SatAll s db ρ' cs
  | .typeAnno x t => t = some (ρ x).valueType
def SatAll (s : Schema) (db : Facts) (ρ : Assign) : List WhereClause → Prop
  | [] => True
  | c :: cs => Sat s db ρ c ∧ SatAll s db ρ cs
def SatArm (s : Schema) (db : Facts) (ρ : Assign) : OrClause → Prop
  | .clause c => Sat s db ρ c
  | .and cs => SatAll s db ρ cs
def SatAny (s : Schema) (db : Facts) (ρ : Assign) : List OrClause → Prop
  | [] => False
  | a :: as => SatArm s db ρ a ∨ SatAny s db ρ as
end

end Mentat
