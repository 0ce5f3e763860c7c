/-!
# IEEE 754 doubles, as far as the properties need them

A double is its 64 bits.  Every double that is not a NaN stands for a number; `scaled` is that number times 2^1074, which
is an integer for every finite double (and gives the infinities a place above and below all finite ones).
-/

namespace Mjs.Spec.Double

/-- The 11 exponent bits. -/
def expo (d : BitVec 64) : Nat := d.toNat / 2 ^ 52 % 2 ^ 11
/-- The 52 fraction bits. -/
def frac (d : BitVec 64) : Nat := d.toNat % 2 ^ 52
/-- The sign bit. -/
def negative (d : BitVec 64) : Prop := 2 ^ 63 ≤ d.toNat

instance (d : BitVec 64) : Decidable (negative d) := inferInstanceAs (Decidable (_ ≤ _))

def IsNaN (d : BitVec 64) : Prop := expo d = 2047 ∧ frac d ≠ 0
def IsInf (d : BitVec 64) : Prop := expo d = 2047 ∧ frac d = 0
def Finite (d : BitVec 64) : Prop := expo d ≠ 2047

instance (d : BitVec 64) : Decidable (IsNaN d) := inferInstanceAs (Decidable (_ ∧ _))
instance (d : BitVec 64) : Decidable (IsInf d) := inferInstanceAs (Decidable (_ ∧ _))
instance (d : BitVec 64) : Decidable (Finite d) := inferInstanceAs (Decidable (_ ≠ _))

/-- The magnitude times 2^1074: subnormals have exponent field 0 and no hidden bit. -/
def magnitude (d : BitVec 64) : Nat := if expo d = 0 then frac d else (2 ^ 52 + frac d) * 2 ^ (expo d - 1)

/-- The value times 2^1074. -/
def scaled (d : BitVec 64) : Int := if negative d then - (magnitude d : Int) else magnitude d

/-- `d` is one of the two zeros. -/
def IsZero (d : BitVec 64) : Prop := expo d = 0 ∧ frac d = 0

/-- The finite double `d` is the integer `n`. -/
def IsInt (d : BitVec 64) (n : Int) : Prop := Finite d ∧ scaled d = n * 2 ^ 1074

end Mjs.Spec.Double
