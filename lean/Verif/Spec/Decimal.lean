import Verif.Spec.Numeral
import Verif.Spec.Ieee

/-!
# Decimal numbers in text
-/

namespace Mjs.Spec.Decimal
open Mjs.Spec

/-- An exponent: nothing, or the letter `e`, a sign and digits. -/
inductive Exponent : List UInt8 → Int → Prop
  | none : Exponent [] 0
  | plain {c ds k} : c = 101 ∨ c = 69 → ds ≠ [] → Numeral.Value 10 ds k → Exponent (c :: ds) k
  | plus {c ds k} : c = 101 ∨ c = 69 → ds ≠ [] → Numeral.Value 10 ds k → Exponent (c :: 43 :: ds) k
  | minus {c ds k} : c = 101 ∨ c = 69 → ds ≠ [] → Numeral.Value 10 ds k → Exponent (c :: 45 :: ds) (-(k : Int))

/-- The text writes the number `n * 10 ^ e`: digits, and behind a point more digits, which together write `n`, and an exponent; each
digit behind the point lowers the exponent by one. -/
inductive Decimal : List UInt8 → Nat → Int → Prop
  | whole {i x n m} : i ≠ [] → Numeral.Value 10 i n → Exponent x m → Decimal (i ++ x) n m
  | point {i f x n m} : i ≠ [] → Numeral.Value 10 (i ++ f) n → Exponent x m → Decimal (i ++ 46 :: (f ++ x)) n (m - f.length)

/-- `d` is the double nearest to `n * 10 ^ e`, with the sign. -/
def NearestDecimal (neg : Bool) (n : Nat) (e : Int) (d : BitVec 64) : Prop :=
  Double.Nearest ((if neg then -1 else 1) * n * 10 ^ e.toNat * 2 ^ 1074) (10 ^ (-e).toNat) d

/-- What follows a number in a script: no letter, digit or point. -/
def Ends (rest : List UInt8) : Prop := ∀ c r, rest = c :: r →
  ¬ (48 ≤ c.toNat ∧ c.toNat ≤ 57) ∧ ¬ (65 ≤ c.toNat ∧ c.toNat ≤ 90) ∧ ¬ (97 ≤ c.toNat ∧ c.toNat ≤ 122) ∧ c.toNat ≠ 46

end Mjs.Spec.Decimal
