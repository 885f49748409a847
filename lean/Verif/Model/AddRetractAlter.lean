import Verif.Model.Base
/- db/src/add_retract_alter_set.rs -/
namespace Mentat

/-- add_retract_alter_set.rs:21 `AddRetractAlterSet` -/
structure ARASet (K V : Type) where
  asserted : AMap K V := []
  retracted : AMap K V := []
  altered : AMap K (V × V) := []
  deriving DecidableEq, Repr

variable {K V : Type} [DecidableEq K]

/-- add_retract_alter_set.rs:44-56 `witness` -/
def ARASet.witness (s : ARASet K V) (key : K) (value : V) (added : Bool) : ARASet K V :=
  if added then
    match AMap.get s.retracted key with
    | some rv => { s with retracted := AMap.erase s.retracted key,
                          altered := AMap.insert s.altered key (rv, value) }
    | none => { s with asserted := AMap.insert s.asserted key value }
  else
    match AMap.get s.asserted key with
    | some av => { s with asserted := AMap.erase s.asserted key,
                          altered := AMap.insert s.altered key (value, av) }
    | none => { s with retracted := AMap.insert s.retracted key value }

/-- A sequence of `witness` calls. -/
def ARASet.witnessAll (s : ARASet K V) : List (K × V × Bool) → ARASet K V
  | [] => s
  | (k, v, added) :: r => (s.witness k v added).witnessAll r

end Mentat
