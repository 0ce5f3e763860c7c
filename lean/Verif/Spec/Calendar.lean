/-!
# The Gregorian calendar
-/

namespace Mjs.Spec

/-- Every fourth year is a leap year, but of the full centuries only every fourth. -/
def Leap (y : Nat) : Prop := y % 4 = 0 ∧ (y % 100 ≠ 0 ∨ y % 400 = 0)

instance (y : Nat) : Decidable (Leap y) := by unfold Leap; infer_instance

/-- The days of a month; January is month 0. -/
def monthDays (y m : Nat) : Nat :=
  if m = 1 then (if Leap y then 29 else 28)
  else if m = 3 ∨ m = 5 ∨ m = 8 ∨ m = 10 then 30 else 31

/-- The `n`-th day after the first of January 1970 is day `d` of month `m` of year `y`: by going from each day to the next. -/
inductive DayNo : Nat → Nat → Nat → Nat → Prop
  | start : DayNo 1970 0 1 0
  | day {y m d n} : DayNo y m d n → d < monthDays y m → DayNo y m (d + 1) (n + 1)
  | month {y m n} : DayNo y m (monthDays y m) n → m < 11 → DayNo y (m + 1) 1 (n + 1)
  | year {y n} : DayNo y 11 31 n → DayNo (y + 1) 0 1 (n + 1)

end Mjs.Spec
