import Mathlib.Tactic.SplitIfs

/-!
# Model of `cs_timegm` (`src/common/cs_time.c`)

`none` is undefined behaviour: an operation of type `int` whose value does not fit in 32 bits.  `cs_time`, which asks the
operating system, is not modelled.
-/

namespace Mjs.Time

/-- The fields of `struct tm` that are read. -/
structure Tm where
  sec : Int
  min : Int
  hour : Int
  mday : Int
  mon : Int
  year : Int

/-- The value of an operation of type `int`. -/
def int (n : Int) : Option Int := if -2 ^ 31 ≤ n ∧ n < 2 ^ 31 then some n else none

/-- `month_day`, cs_time.c:64-65; the index is from 0 to 11. -/
def monthDay (m : Int) : Int :=
  ([0, 31, 59, 90, 120, 151, 181, 212, 243, 273, 304, 334] : List Int).getD m.toNat 0

/-- `month` and `year`, cs_time.c:68-76. -/
def normal (tm : Tm) : Option (Int × Int) := do
  let month := tm.mon.tmod 12
  let year ← int (tm.year + tm.mon.tdiv 12)
  if month < 0 then do
    let year' ← int (year - 1)
    pure (month + 12, year')
  else pure (month, year)

/-- The number of days, cs_time.c:89-93.  The order in which the sum is taken is that of C, from the left. -/
def days (month year yl mday : Int) : Option Int := do
  let a ← int (monthDay month + mday)
  let a ← int (a - 1)
  let y ← int (year - 70)
  let y ← int (365 * y)
  let a ← int (a + y)
  let q ← int (yl - 69)
  let a ← int (a + q.tdiv 4)
  let c ← int (yl - 1)
  let a ← int (a - c.tdiv 100)
  let f ← int (yl + 299)
  int (a + f.tdiv 400)

/-- `cs_timegm`, cs_time.c:62-95.  The result fits in 32 bits, so that the conversion to `double` is exact. -/
def timegm (tm : Tm) : Option Int := do
  let (month, year) ← normal tm
  let yl ← (if month > 1 then int (year + 1) else some year)
  let d ← days month year yl tm.mday
  let d ← int (24 * d)
  let h ← int (tm.hour + d)
  let h ← int (60 * h)
  let m ← int (tm.min + h)
  let m ← int (60 * m)
  let rt ← int (tm.sec + m)
  pure (if rt < 0 then -1 else rt)

end Mjs.Time
