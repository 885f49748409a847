import Verif.Model.SqlValue
/-
Dates of the proleptic Gregorian calendar and the texts of instants and UUIDs, which the code takes from the chrono and
uuid crates: edn/src/types.rs:545-549, 572, edn/src/lib.rs:134-173.
-/
namespace Mentat

/-- A year, a month (from 1) and a day (from 1). -/
structure Date where
  y : Int
  m : Int
  d : Int
  deriving DecidableEq, Repr

namespace Date

/-- A leap year of the proleptic Gregorian calendar (`chrono`). -/
def isLeap (y : Int) : Bool := y % 4 = 0 && (y % 100 ≠ 0 || y % 400 = 0)

/-- The days of a month. -/
def daysIn (y m : Int) : Int :=
  if m = 2 then (if isLeap y then 29 else 28) else if m = 4 ∨ m = 6 ∨ m = 9 ∨ m = 11 then 30 else 31

/-- Days since 1970-01-01 (chrono `NaiveDate::num_days_from_ce`, less 719163).  The crate looks up ordinals in tables; here
a year begins in March, so that the leap day is its last. -/
def dayNumber (t : Date) : Int :=
  let y := if t.m ≤ 2 then t.y - 1 else t.y
  let mp := if t.m ≤ 2 then t.m + 9 else t.m - 3
  365 * y + y / 4 - y / 100 + y / 400 + (153 * mp + 2) / 5 + (t.d - 1) - 719468

/-- The date of a day (chrono `NaiveDate::from_num_days_from_ce`). -/
def ofDayNumber (n : Int) : Date :=
  let z := n + 719468
  let doe := z % 146097
  let c := min 3 (doe / 36524)
  let q := doe - 36524 * c
  let r := q % 1461
  let yy := min 3 (r / 365)
  let doy := r - 365 * yy
  let y := 400 * (z / 146097) + 100 * c + 4 * (q / 1461) + yy
  let mp := (5 * doy + 2) / 153
  let d := doy - (153 * mp + 2) / 5 + 1
  if mp < 10 then ⟨y, mp + 3, d⟩ else ⟨y + 1, mp - 9, d⟩

end Date

/-! ### Digits -/

/-- The digit character of a number below ten. -/
def digitChar (d : Nat) : Char := Char.ofNat (48 + d)

/-- `{}` of a natural number: decimal, by repeated division (`fuel` above the number). -/
def decimalAux : Nat → Nat → Text
  | 0, _ => []
  | f + 1, n => if n < 10 then [digitChar n] else decimalAux f (n / 10) ++ [digitChar (n % 10)]

/-- `{}` of a natural number. -/
def decimal (n : Nat) : Text := decimalAux (n + 1) n

/-- `{}` of an integer. -/
def intText (n : Int) : Text := if n < 0 then '-' :: decimal n.natAbs else decimal n.natAbs

/-- A hexadecimal digit, in lower case. -/
def hexChar (d : Nat) : Char := if d < 10 then digitChar d else Char.ofNat (87 + d)

/-- The last `w` digits. -/
def padded (base : Nat) : Nat → Nat → Text
  | 0, _ => []
  | w + 1, n => padded base w (n / base) ++ [hexChar (n % base)]

/-! ### Texts -/

/-- A year: four digits, or a sign and at least four where these do not do. -/
def yearText (y : Int) : Text :=
  if 0 ≤ y ∧ y < 10000 then padded 10 4 y.toNat
  else (if y < 0 then '-' else '+') :: (if y.natAbs < 1000 then padded 10 4 y.natAbs else decimal y.natAbs)

/-- The fraction of `SecondsFormat::AutoSi`: none, milliseconds, microseconds or nanoseconds. -/
def fracText (n : Nat) : Text :=
  if n = 0 then [] else if n % 1000000 = 0 then '.' :: padded 10 3 (n / 1000000)
  else if n % 1000 = 0 then '.' :: padded 10 6 (n / 1000) else '.' :: padded 10 9 n

/-- `to_rfc3339_opts(SecondsFormat::AutoSi, true)`.  A leap second is the second 60. -/
def DateTime.rfc3339 (t : DateTime) : Text :=
  let date := Date.ofDayNumber (t.secs / 86400)
  let s := t.secs % 86400
  yearText date.y ++ '-' :: padded 10 2 date.m.toNat ++ '-' :: padded 10 2 date.d.toNat ++ 'T' ::
  padded 10 2 (s / 3600).toNat ++ ':' :: padded 10 2 (s / 60 % 60).toNat ++ ':' :: padded 10 2 (s % 60 + t.nanos / 1000000000).toNat ++
  fracText (t.nanos % 1000000000).toNat ++ ['Z']

/-- `to_hyphenated` of a UUID, which is its 128 bits as a number. -/
def uuidText (u : Nat) : Text :=
  padded 16 8 (u / 16 ^ 24) ++ '-' :: padded 16 4 (u / 16 ^ 20) ++ '-' :: padded 16 4 (u / 16 ^ 16) ++ '-' ::
  padded 16 4 (u / 16 ^ 12) ++ '-' :: padded 16 12 u

end Mentat
