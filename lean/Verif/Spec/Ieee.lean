import Verif.Spec.Double

/-!
# Rounding to the nearest double

`scaled d` is the value of a double times 2^1074 (Spec/Double).  For the infinities it gives plus and minus 2^1024 times
2^1074, which is the place IEEE 754 gives them when it says what is too large: a number is rounded to an infinity if that
place is nearer than every finite double (or as near as the largest one, whose last bit is odd).
-/

namespace Mjs.Spec.Double

/-- `d` is the double nearest to `num / den` (in units of 2^-1074): every other double is farther away, or as far, and then
the last bit of `d` is 0. -/
def Nearest (num : Int) (den : Nat) (d : BitVec 64) : Prop :=
  ¬ IsNaN d ∧ ∀ e, ¬ IsNaN e → scaled e ≠ scaled d →
    (scaled d * den - num).natAbs < (scaled e * den - num).natAbs ∨
    ((scaled d * den - num).natAbs = (scaled e * den - num).natAbs ∧ frac d % 2 = 0)

end Mjs.Spec.Double
