import Verif.Model.Calendar
/-
The text of doubles: `{}` of an `f64` and `str::parse::<f64>`, as used at edn/src/types.rs:556 and edn/src/lib.rs:101-102.

Both are in Rust's standard library, which is not in the repository.  What is modelled is its documented behaviour: reading
gives the nearest double, ties to the even significand, infinity beyond the largest; printing gives the shortest digits that
read back, of those the closest, without an exponent and without a point when there is no fraction.

A double is a multiple of `2^-1074`, as in `TypedValue.double`; the two zeros are one.
-/
namespace Mentat

/-- The double nearest to `num / den` times `2^-1074`, `none` when it is infinite. -/
def roundDouble (num den : Nat) : Option Nat :=
  let k := (num / den).log2 - 52
  let u := den * 2 ^ k
  let m := num / u
  let r := num % u
  let m' := if u < 2 * r || (2 * r == u && m % 2 == 1) then m + 1 else m
  if m' * 2 ^ k < 2 ^ 2098 then some (m' * 2 ^ k) else none

/-- The double read for `c * 10^-1074`. -/
def readUnits (c : Nat) : Option Nat := roundDouble (c * 2 ^ 1074) (10 ^ 1074)

/-- The shortest decimal that reads as the double `v`, in units of `10^-1074`: `v` is exactly `v * 5^1074` of them, and as many
as possible of its last digits, at most `k`, are rounded to zeros. -/
def shortestFrom (v : Nat) : Nat → Nat
  | 0 => v * 5 ^ 1074
  | k + 1 =>
    let p := 10 ^ (k + 1)
    let lo := v * 5 ^ 1074 / p * p
    let down := readUnits lo == some v
    let up := readUnits (lo + p) == some v
    if up && (!down || p ≤ 2 * (v * 5 ^ 1074 - lo)) then lo + p else if down then lo else shortestFrom v k

/-- The largest double is below `10^309`. -/
def shortest (v : Nat) : Nat := shortestFrom v (1074 + 309)

/-- Without the zeros at the end: the digits and their number. -/
def dropZeros : Nat → Nat → Nat × Nat
  | 0, f => (f, 0)
  | w + 1, f => if f % 10 = 0 then dropZeros w (f / 10) else (f, w + 1)

/-- The digits of `c * 10^-1074`, in positional notation. -/
def unitsText (c : Nat) : Text :=
  let f := dropZeros 1074 (c % 10 ^ 1074)
  decimal (c / 10 ^ 1074) ++ if f.2 = 0 then [] else '.' :: padded 10 f.2 f.1

/-- `{}` of a finite double. -/
def floatText (d : Int) : Text := (if d < 0 then ['-'] else []) ++ unitsText (shortest d.natAbs)

end Mentat
