import Verif.Spec.Calendar
/- What the text of an instant says: RFC 3339, edn/src/lib.rs:134-163. -/
namespace Mentat.InstText

/-- The number that decimal digits are. -/
def numeral (s : Text) : Nat := s.foldl (fun a c => 10 * a + (c.toNat - 48)) 0

/-- Exactly `w` decimal digits. -/
def Digits (w : Nat) (s : Text) : Prop := s.length = w ∧ ∀ c ∈ s, '0' ≤ c ∧ c ≤ '9'

/-- Spaces, commas and line ends, at least one. -/
def Spaces (s : Text) : Prop := s ≠ [] ∧ ∀ c ∈ s, c = ' ' ∨ c = '\r' ∨ c = '\n' ∨ c = '\t' ∨ c = ','

/-- UTC, or hours and minutes ahead of or behind it. -/
inductive Zone where
  | utc
  | ahead (h m : Text)
  | behind (h m : Text)

def Zone.text : Zone → Text
  | .utc => ['Z']
  | .ahead h m => '+' :: h ++ ':' :: m
  | .behind h m => '-' :: h ++ ':' :: m

def Zone.Ok : Zone → Prop
  | .utc => True
  | .ahead h m => Digits 2 h ∧ Digits 2 m
  | .behind h m => Digits 2 h ∧ Digits 2 m

/-- The offset exists: less than a day. -/
def Zone.Real : Zone → Prop
  | .utc => True
  | .ahead h m => numeral h ≤ 23 ∧ numeral m ≤ 59
  | .behind h m => numeral h ≤ 23 ∧ numeral m ≤ 59

/-- In seconds. -/
def Zone.secs : Zone → Int
  | .utc => 0
  | .ahead h m => 3600 * numeral h + 60 * numeral m
  | .behind h m => -(3600 * numeral h + 60 * numeral m)

/-- The texts of the fields; `frac` is what follows the point. -/
structure Fields where
  year : Text
  month : Text
  day : Text
  hour : Text
  minute : Text
  second : Text
  frac : Option Text
  zone : Zone

/-- Each field has the digits it needs. -/
structure Fields.Ok (f : Fields) : Prop where
  year : Digits 4 f.year
  month : Digits 2 f.month
  day : Digits 2 f.day
  hour : Digits 2 f.hour
  minute : Digits 2 f.minute
  second : Digits 2 f.second
  frac : ∀ s, f.frac = some s → s ≠ [] ∧ ∀ c ∈ s, '0' ≤ c ∧ c ≤ '9'
  zone : f.zone.Ok

/-- The text of the fraction. -/
def fracOf : Option Text → Text
  | none => []
  | some s => '.' :: s

/-- The fraction of the second in whole nanoseconds. -/
def nanosOf : Option Text → Nat
  | none => 0
  | some s => numeral s * 10 ^ 9 / 10 ^ s.length

/-- `1985-04-12T23:20:50.52Z` -/
def Fields.text (f : Fields) : Text :=
  f.year ++ '-' :: f.month ++ '-' :: f.day ++ 'T' :: f.hour ++ ':' :: f.minute ++ ':' :: f.second ++
  fracOf f.frac ++ f.zone.text

/-- The fields are a day of the calendar, a time of day (a leap second is the second 60) and an offset. -/
def Fields.On (f : Fields) (a : Gregorian.Day) : Prop :=
  a.year = numeral f.year ∧ a.month = numeral f.month ∧ a.day = numeral f.day ∧
  numeral f.hour ≤ 23 ∧ numeral f.minute ≤ 59 ∧ numeral f.second ≤ 60 ∧ f.zone.Real

def Fields.nanos (f : Fields) : Nat := nanosOf f.frac

end Mentat.InstText
