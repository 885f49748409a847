import Verif.Model.Base
/-
Interning (edn/src/intern_set.rs).
-/
namespace Mentat

/-- edn/src/value_rc.rs `ValueRc`: a reference-counted value, here with the address of its
allocation.  (Counts are not modelled: nothing is freed while a handle is in scope.) -/
structure Rc (T : Type) where
  ptr : Nat
  val : T
  deriving DecidableEq, Repr

/-- intern_set.rs:27-33 `InternSet`: the elements of the hash set; equality and hashing look at the
value, not at the address. -/
abbrev InternSet (T : Type) := List (Rc T)

/-- `HashSet::get` -/
def InternSet.get {T : Type} [DecidableEq T] (s : InternSet T) (k : Rc T) : Option (Rc T) :=
  s.find? fun r => r.val = k.val

/-- `HashSet::insert`, which keeps the old element when there is an equal one. -/
def InternSet.insert {T : Type} [DecidableEq T] (s : InternSet T) (k : Rc T) : Bool × InternSet T :=
  match s.get k with
  | none => (true, s ++ [k])
  | some _ => (false, s)

/-- intern_set.rs:84-91 `intern`: `unwrap` panics if the element is not there. -/
def InternSet.intern {T : Type} [DecidableEq T] (s : InternSet T) (k : Rc T) :
    Res (InternSet T × Rc T) :=
  match s.insert k with
  | (true, s') => .ok (s', k)
  | (false, s') => match s'.get k with
    | some r => .ok (s', r)
    | none => .panic

/-- Interning one value after another. -/
def InternSet.internAll {T : Type} [DecidableEq T] (s : InternSet T) : List (Rc T) →
    Res (InternSet T × List (Rc T))
  | [] => .ok (s, [])
  | k :: r => (s.intern k).bind fun (s', h) => (s'.internAll r).bind fun (s'', hs) => .ok (s'', h :: hs)

end Mentat
