import Verif.Model.Names
/-
Typed values as SQLite stores them: db/src/db.rs:406-480, core/src/sql_types.rs:41-60,
edn/src/types.rs:650-692, core-traits/lib.rs:690-704.
-/
namespace Mentat

/-- chrono `DateTime<Utc>`: whole seconds since 1970 and nanoseconds in the second (1e9 and above
for a leap second).  Simplification: chrono's bounds on years are not modelled (chrono panics
outside them). -/
structure DateTime where
  secs : Int
  nanos : Int
  deriving DecidableEq, Repr

namespace DateTime

/-- types.rs:654-658 `from_micros`; Rust `/` and `%` truncate toward zero. -/
def fromMicros (ts : Int) : DateTime :=
  ⟨Int.tdiv ts 1000000, ((Int.tmod ts 1000000).natAbs : Int) * 1000⟩

/-- types.rs:664-670 `to_micros`; `timestamp_subsec_micros` is the nanoseconds over 1000. -/
def toMicros (t : DateTime) : Int := t.secs * 1000000 + t.nanos / 1000

/-- types.rs:676-680 `from_millis` -/
def fromMillis (ts : Int) : DateTime :=
  ⟨Int.tdiv ts 1000, ((Int.tmod ts 1000).natAbs : Int) * 1000⟩

/-- types.rs:686-692 `to_millis` -/
def toMillis (t : DateTime) : Int := t.secs * 1000 + t.nanos / 1000000

/-- core-traits/lib.rs:694-703 `microsecond_precision` -/
def microsecondPrecision (t : DateTime) : DateTime :=
  if t.nanos % 1000 = 0 then t else ⟨t.secs, t.nanos / 1000 * 1000⟩

end DateTime

/-- rusqlite `types::Value`; reals as in `TypedValue.double`, blobs as lists of bytes. -/
inductive SqlValue where
  | null
  | integer (n : Int)
  | real (d : Int)
  | text (s : Text)
  | blob (b : List Nat)
  deriving DecidableEq, Repr

/-- `n` bytes of `u`, most significant first (uuid `as_bytes`). -/
def toBytes : Nat → Nat → List Nat
  | 0, _ => []
  | n + 1, u => toBytes n (u / 256) ++ [u % 256]

/-- `Uuid::from_bytes` -/
def ofBytes (l : List Nat) : Nat := l.foldl (fun a b => a * 256 + b) 0

/-- core/src/sql_types.rs:41-60 `sql_representation`, the tag. -/
def ValueType.tag : ValueType → Nat
  | .ref => 0
  | .boolean => 1
  | .instant => 4
  | .long => 5
  | .double => 5
  | .string => 10
  | .uuid => 11
  | .keyword => 13

/-- db.rs:461-474 `to_sql_value_pair`.  `instant us` is the instant whose `to_micros` is `us`. -/
def TypedValue.toSql : TypedValue → SqlValue × Nat
  | .ref x => (.integer x, 0)
  | .boolean x => (.integer (if x then 1 else 0), 1)
  | .instant us => (.integer us, 4)
  | .long x => (.integer x, 5)
  | .double x => (.real x, 5)
  | .string x => (.text x, 10)
  | .uuid u => (.blob (toBytes 16 u), 11)
  | .keyword k => (.text k.nname.displayKeyword, 13)

/-- A parsed keyword as a typed value. -/
def NName.toKeyword (k : NName) : Keyword := ⟨k.parts.1, k.parts.2⟩

/-- db.rs:406-438 `from_sql_value_pair` -/
def fromSql : SqlValue → Nat → Res TypedValue
  | .integer x, 0 => .ok (.ref x)
  | .integer x, 1 => .ok (.boolean (decide (0 ≠ x)))
  | .integer x, 4 => .ok (.instant (DateTime.fromMicros x).toMicros)
  | .integer x, 5 => .ok (.long x)
  | .real x, 5 => .ok (.double x)
  | .text x, 10 => .ok (.string x)
  | .blob x, 11 =>
    if x.length ≠ 16 then .panic
    else if ofBytes x = 0 then .err .badSqlValuePair
    else .ok (.uuid (ofBytes x))
  | .text x, 13 =>
    match toNamespacedKeyword x with
    | .ok k => .ok (.keyword k.toKeyword)
    | .err e => .err e
    | .panic => .panic
  | _, _ => .err .badSqlValuePair

/-- SQLite's `=` on stored values: integers and reals compare as numbers, everything else only
within its storage class; NULL is equal to nothing. -/
def SqlValue.eq : SqlValue → SqlValue → Bool
  | .integer a, .integer b => decide (a = b)
  | .integer a, .real b => decide (a * 2 ^ 1074 = b)
  | .real a, .integer b => decide (a = b * 2 ^ 1074)
  | .real a, .real b => decide (a = b)
  | .text a, .text b => decide (a = b)
  | .blob a, .blob b => decide (a = b)
  | _, _ => false

/-- Rank of the storage class in SQLite's ordering. -/
def SqlValue.rank : SqlValue → Nat
  | .null => 0
  | .integer _ => 1
  | .real _ => 1
  | .text _ => 2
  | .blob _ => 3

/-- Lexicographic order on codes. -/
def lexLt : List Nat → List Nat → Bool
  | [], [] => false
  | [], _ :: _ => true
  | _ :: _, [] => false
  | a :: r, b :: s => decide (a < b) || (decide (a = b) && lexLt r s)

/-- SQLite's order on values: NULL, numbers, text (by code point, as the `BINARY` collation orders
UTF-8), blobs. -/
def SqlValue.lt : SqlValue → SqlValue → Bool
  | .integer a, .integer b => decide (a < b)
  | .integer a, .real b => decide (a * 2 ^ 1074 < b)
  | .real a, .integer b => decide (a < b * 2 ^ 1074)
  | .real a, .real b => decide (a < b)
  | .text a, .text b => lexLt (a.map Char.toNat) (b.map Char.toNat)
  | .blob a, .blob b => lexLt a b
  | v, w => decide (v.rank < w.rank)

/-- Equality of (v, value_type_tag), as the indices of `datoms` (db.rs:175-194) and joins use it. -/
def sqlPairEq (p q : SqlValue × Nat) : Bool := decide (p.2 = q.2) && p.1.eq q.1

end Mentat
