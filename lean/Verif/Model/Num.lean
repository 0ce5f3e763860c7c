import Verif.Model.Value
import Verif.Spec.Double

/-!
# Model of the conversions between numbers and C integers: `src/mjs_primitive.c`
-/

namespace Mjs
open Spec.Double

/-- Conversion of a finite double to an integer in C: truncation toward zero. -/
def truncD (d : Val) : Int := (scaled d).tdiv (2 ^ 1074)

/-- `(unsigned int) d` and then `(int)` of it, as a number in `[-2^31, 2^31)`.  In the range of `unsigned int` this is C;
for all other arguments it is undefined in C, and the code relies on what x86-64 compilers generate: a conversion to a
64-bit integer (2^63 if it does not fit, or for a NaN) of which the lower 32 bits are taken. -/
def cvtInt (d : Val) : Int :=
  if Finite d ∧ -2 ^ 63 ≤ truncD d ∧ truncD d < 2 ^ 63 then (BitVec.ofInt 32 (truncD d)).toInt else 0

/-- `mjs_get_int`, mjs_primitive.c:58-65. -/
def getInt (v : Val) : Int := cvtInt (getDouble v)

/-- `a / 2^s` rounded to nearest, ties to even. -/
def roundEven (a s : Nat) : Nat :=
  let q := a / 2 ^ s
  let r := a % 2 ^ s
  if 2 * r > 2 ^ s ∨ (2 * r = 2 ^ s ∧ q % 2 = 1) then q + 1 else q

/-- The double with the value of a C integer (implicit conversion in calls such as `mjs_mk_number(mjs, n)`), rounded to
nearest even as IEEE 754 prescribes when it has more than 53 significant bits. -/
def ofIntD (n : Int) : Val :=
  if n = 0 then 0#64
  else
    let a := n.natAbs
    let k := a.log2
    BitVec.ofNat 64 ((if n < 0 then 2 ^ 63 else 0) + (1023 + k) * 2 ^ 52 +
      ((if k ≤ 52 then a * 2 ^ (52 - k) else roundEven a (k - 52)) - 2 ^ 52))

/-- `mjs_mk_number(mjs, n)` for a C integer `n`, mjs_primitive.c:26-41. -/
def mkInt (n : Int) : Val := mkNumber (ofIntD n)

end Mjs
