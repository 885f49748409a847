import Verif.Model.QueryBuilder
/-
What a sequence of bindings binds: for every variable the last value, and the last type, given for it.
-/
namespace Mentat

namespace BindCall

/-- The name of the variable that is bound. -/
def name : BindCall → Text
  | .value x _ | .refFromKw x _ | .ref x _ | .long x _ | .instant x _ | .dateTime x _ | .type x _ => x

/-- The value that is bound to the variable `x`. -/
def valueOf (s : Schema) (x : Var) : BindCall → Option TypedValue
  | .value y v => if y = x then some v else none
  | .refFromKw y k => if y = x then (AMap.get s.identMap k).map .ref else none
  | .ref y e => if y = x then some (.ref e) else none
  | .long y i => if y = x then some (.long i) else none
  | .instant y m => if y = x then some (.instant m) else none
  | .dateTime y t => if y = x then some (.instant t.toMicros) else none
  | .type _ _ => none

/-- The type that is bound to the variable `x`. -/
def typeOf (x : Var) : BindCall → Option ValueType
  | .type y t => if y = x then some t else none
  | _ => none

/-- An instant before 1970 is given in whole seconds. -/
def Exact : BindCall → Prop
  | .instant _ m => 0 ≤ m ∨ m % 1000000 = 0
  | _ => True

/-- The name is that of a variable, and a keyword that is to be replaced by its entity is known. -/
def Allowed (s : Schema) (c : BindCall) : Prop :=
  c.name.head? = some '?' ∧ ∀ x k, c = .refFromKw x k → (AMap.get s.identMap k).isSome

end BindCall

/-- The value last bound to `x`. -/
def lastValue (s : Schema) (cs : List BindCall) (x : Var) : Option TypedValue :=
  cs.reverse.findSome? (·.valueOf s x)

/-- The type last bound to `x`. -/
def lastType (cs : List BindCall) (x : Var) : Option ValueType :=
  cs.reverse.findSome? (·.typeOf x)

end Mentat
