import Verif.Model.SqlValue
/- The Gregorian calendar, said by its rules: the length of the months, and which day follows which. -/
namespace Mentat.Gregorian

/-- Every fourth year is a leap year, but not every hundredth, but every four hundredth. -/
def Leap (y : Int) : Prop := 4 ∣ y ∧ (100 ∣ y → 400 ∣ y)

instance (y : Int) : Decidable (Leap y) := inferInstanceAs (Decidable (_ ∧ _))

/-- Thirty days hath September… -/
def monthDays (y : Int) : Int → Int
  | 1 => 31
  | 2 => if Leap y then 29 else 28
  | 3 => 31
  | 4 => 30
  | 5 => 31
  | 6 => 30
  | 7 => 31
  | 8 => 31
  | 9 => 30
  | 10 => 31
  | 11 => 30
  | _ => 31

/-- A day of the calendar. -/
structure Day where
  year : Int
  month : Int
  day : Int
  month_pos : 1 ≤ month
  month_le : month ≤ 12
  day_pos : 1 ≤ day
  day_le : day ≤ monthDays year month

/-- One day is the day after another. -/
def Follows (a b : Day) : Prop :=
  (b.year = a.year ∧ b.month = a.month ∧ b.day = a.day + 1) ∨
  (a.day = monthDays a.year a.month ∧ b.year = a.year ∧ b.month = a.month + 1 ∧ b.day = 1) ∨
  (a.month = 12 ∧ a.day = 31 ∧ b.year = a.year + 1 ∧ b.month = 1 ∧ b.day = 1)

/-- `DaysAfter a n b`: counting day by day, `b` is `n` days after `a`; negative if it is before. -/
inductive DaysAfter (a : Day) : Int → Day → Prop
  | zero : DaysAfter a 0 a
  | next {n b c} : DaysAfter a n b → Follows b c → DaysAfter a (n + 1) c
  | prev {n b c} : DaysAfter a n b → Follows c b → DaysAfter a (n - 1) c

/-- The first of January 1970. -/
def epoch : Day := ⟨1970, 1, 1, by decide, by decide, by decide, by decide⟩

end Mentat.Gregorian
