import Verif.Model.Project
/-
What a caller can do with the results of a query: query-projector/src/relresult.rs, lib.rs:77-316 and
binding_tuple.rs.
-/
namespace Mentat

/-- relresult.rs:32-36 `RelResult` -/
structure RelResult (α : Type) where
  width : Nat
  values : List α
  deriving DecidableEq, Repr

namespace RelResult
variable {α : Type}

/-- relresult.rs:41-46 `empty` -/
def empty (width : Nat) : RelResult α := ⟨width, []⟩

/-- relresult.rs:48-50 `is_empty` -/
def isEmpty (r : RelResult α) : Bool := r.values.isEmpty

/-- relresult.rs:52-54 `row_count`; division by zero is a panic. -/
def rowCount (r : RelResult α) : Res Nat :=
  if r.width = 0 then .panic else .ok (r.values.length / r.width)

/-- `slice::Chunks`, for a positive width; `n` bounds the number of chunks. -/
def chunksUpTo (w : Nat) : Nat → List α → List (List α)
  | 0, _ => []
  | _ + 1, [] => []
  | n + 1, x :: l => (x :: l).take w :: chunksUpTo w n ((x :: l).drop w)

/-- relresult.rs:56-59 `rows`; `chunks` of width zero is a panic. -/
def rows (r : RelResult α) : Res (List (List α)) :=
  if r.width = 0 then .panic else .ok (chunksUpTo r.width r.values.length r.values)

/-- relresult.rs:61-69 `row` -/
def row (r : RelResult α) (i : Nat) : Option (List α) :=
  if r.width * (i + 1) > r.values.length then none
  else some ((r.values.drop (r.width * i)).take r.width)

/-- relresult.rs:153-167: the items of `SubvecIntoIterator`, which stops at the first empty one. -/
def iterUpTo (w : Nat) : Nat → List α → List (List α)
  | 0, _ => []
  | n + 1, l => if (l.take w).isEmpty then [] else l.take w :: iterUpTo w n (l.drop w)

/-- relresult.rs:169-179 `into_iter`, collected -/
def intoIter (r : RelResult α) : List (List α) := iterUpTo r.width (r.values.length + 1) r.values

/-- relresult.rs:132-151: `From<Vec<Vec<TypedValue>>>` -/
def ofRows : List (List α) → RelResult α
  | [] => empty 0
  | r :: rs => ⟨r.length, (r :: rs).flatten⟩

end RelResult

/-- `expected_column_count` (edn/src/query.rs:648-655) -/
def FindSpec.columnCount : FindSpec → Nat
  | .scalar _ => 1
  | .coll _ => 1
  | .tuple l => l.length
  | .rel l => l.length

namespace CC

/-- lib.rs:231-247 `QueryResults::len` -/
def QResult.len : QResult → Res Nat
  | .scalar o => .ok (if o.isSome then 1 else 0)
  | .tuple o => .ok (if o.isSome then 1 else 0)
  | .coll l => .ok l.length
  | .rel w vs => RelResult.rowCount ⟨w, vs⟩

/-- lib.rs:265-273 `is_empty` -/
def QResult.isEmpty : QResult → Bool
  | .scalar o => o.isNone
  | .tuple o => o.isNone
  | .coll l => l.isEmpty
  | .rel w vs => RelResult.isEmpty ⟨w, vs⟩

/-- lib.rs:275-284 `into_scalar` -/
def QResult.intoScalar : QResult → Res (Option TypedValue)
  | .scalar o => .ok o
  | _ => .err .other
/-- lib.rs:286-295 `into_coll` -/
def QResult.intoColl : QResult → Res (List TypedValue)
  | .coll l => .ok l
  | _ => .err .other
/-- lib.rs:297-306 `QueryResults::into_tuple` -/
def QResult.intoTuple : QResult → Res (Option (List TypedValue))
  | .tuple o => .ok o
  | _ => .err .other
/-- lib.rs:308-317 `into_rel` -/
def QResult.intoRel : QResult → Res (RelResult TypedValue)
  | .rel w vs => .ok ⟨w, vs⟩
  | _ => .err .other

/-- binding_tuple.rs: `from_binding_vec`, for a vector (`none`, lines 24-40) or a Rust tuple of `n`
(lines 43-201, `n` from 1 to 6; the components are taken from the vector in turn). -/
def fromBindingVec (arity : Option Nat) (expected : Nat) (vec : Option (List TypedValue)) :
    Res (Option (List TypedValue)) :=
  if arity.any fun n => decide (expected ≠ n) then .err .other
  else match vec with
    | none => .ok none
    | some v => if expected ≠ v.length then .err .other else .ok (some v)

/-- lib.rs:227-235 `QueryOutput::into_tuple` -/
def intoTuple (arity : Option Nat) (spec : FindSpec) (r : QResult) : Res (Option (List TypedValue)) :=
  r.intoTuple.bind fun v => fromBindingVec arity spec.columnCount v

end CC
end Mentat
