import Verif.Model.Base
/- Entid partitions: db/src/types.rs:30-86 and db/src/db.rs:1306-1327. -/
namespace Mentat

/-- db/src/types.rs:30-40 `struct Partition` (`end` is `fin`; `allow_excision` has no effect). -/
structure Partition where
  start : Entid
  fin : Entid
  next : Entid
  deriving DecidableEq, Repr

/-- types.rs:43-59 `Partition::new`. -/
def Partition.new (start fin next : Entid) : Res Partition :=
  if start ≤ next ∧ next ≤ fin then .ok ⟨start, fin, next⟩ else .panic

/-- types.rs:64 -/
def Partition.containsEntid (p : Partition) (e : Entid) : Bool := decide (p.start ≤ e ∧ e < p.next)

/-- types.rs:68 -/
def Partition.allowsEntid (p : Partition) (e : Entid) : Bool := decide (p.start ≤ e ∧ e ≤ p.fin)

/-- types.rs:73-79 `set_next_entid` (asserts). -/
def Partition.setNext (p : Partition) (e : Entid) : Res Partition :=
  if p.allowsEntid e then .ok { p with next := e } else .panic

/-- types.rs:81-85 `allocate_entids`: the returned range is `[p.next, p.next + n)`. -/
def Partition.allocate (p : Partition) (n : Nat) : Res (Entid × Partition) :=
  match p.setNext (p.next + n) with
  | .ok p' => .ok (p.next, p')
  | .err e => .err e
  | .panic => .panic

/-- types.rs:91 `PartitionMap`.  The code's map is keyed by name; a store always has exactly the
three bootstrap partitions (bootstrap.rs:114-132 `V1_PARTS`), so they are three fields. -/
structure Parts where
  db : Partition
  user : Partition
  tx : Partition
  deriving DecidableEq, Repr

/-- db.rs:1323 `PartitionMap::contains_entid`. -/
def Parts.containsEntid (p : Parts) (e : Entid) : Bool :=
  p.db.containsEntid e || p.user.containsEntid e || p.tx.containsEntid e

/-- bootstrap.rs:30-33 -/
def USER0 : Entid := 0x10000
/-- bootstrap.rs:30 -/
def TX0 : Entid := 0x10000000
/-- `i64::max_value()` -/
def I64MAX : Entid := 0x7fffffffffffffff

/-- bootstrap.rs:114-132 `V1_PARTS` -/
def Parts.bootstrap : Parts :=
  { db := ⟨0, USER0 - 1, 41⟩, user := ⟨USER0, TX0 - 1, USER0⟩, tx := ⟨TX0, I64MAX, TX0⟩ }

/-! ### The partition map by name

The transactor model uses the three fields of `Parts`; this is the general map with allocation by
partition name. -/

/-- types.rs:91 `PartitionMap(BTreeMap<String, Partition>)`. -/
abbrev PMap := AMap Text Partition

/-- db.rs:1312-1321 `PartitionMap::allocate_entids`: an unknown partition panics. -/
def PMap.allocate (m : PMap) (name : Text) (n : Nat) : Res (Entid × PMap) :=
  match AMap.get m name with
  | none => .panic
  | some p => match p.allocate n with
    | .ok (e, p') => .ok (e, AMap.insert m name p')
    | .err er => .err er
    | .panic => .panic

/-- db.rs:1323 `PartitionMap::contains_entid`. -/
def PMap.containsEntid (m : PMap) (e : Entid) : Bool := m.any fun x => x.2.containsEntid e

/-- One allocation made: the partition, the first entid and how many. -/
structure Allocation where
  name : Text
  first : Entid
  n : Nat
  deriving DecidableEq, Repr

/-- Any sequence of `allocate_entids` calls. -/
def PMap.allocateAll (m : PMap) : List (Text × Nat) → Res (List Allocation × PMap)
  | [] => .ok ([], m)
  | (name, n) :: r =>
    match m.allocate name n with
    | .ok (e, m') => match PMap.allocateAll m' r with
      | .ok (as_, m'') => .ok (⟨name, e, n⟩ :: as_, m'')
      | .err er => .err er
      | .panic => .panic
    | .err er => .err er
    | .panic => .panic

/-- bootstrap.rs:114-132 `V1_PARTS`, as the map it becomes. -/
def PMap.bootstrap : PMap :=
  [(":db.part/db".toList, Parts.bootstrap.db), (":db.part/user".toList, Parts.bootstrap.user),
   (":db.part/tx".toList, Parts.bootstrap.tx)]

end Mentat
