import Verif.Spec.Double
import Verif.Spec.Numeral

/-!
# How numbers and strings are to be printed
-/

namespace Mjs.Spec.Print
open Mjs.Spec.Double Mjs.Spec

/-- `n` millionths are nearest to the absolute value of `d`; if two are equally near, `n` is the even one. -/
def Millionths (d : BitVec 64) (n : Nat) : Prop :=
  2 * ((magnitude d * 10 ^ 6 : Int) - n * 2 ^ 1074).natAbs ≤ 2 ^ 1074 ∧
    (2 * ((magnitude d * 10 ^ 6 : Int) - n * 2 ^ 1074).natAbs = 2 ^ 1074 → n % 2 = 0)

/-- A decimal fraction with six digits after the point: the sign of `d`, a numeral, a point and six digits, which together write the
millionths of `d`. -/
def Fixed (d : BitVec 64) (text : List UInt8) : Prop :=
  ∃ whole part n, text = (if negative d then [45] else []) ++ (whole ++ 46 :: part) ∧ part.length = 6 ∧
    Numeral.Value 10 (whole ++ part) n ∧ Millionths d n ∧ whole ≠ [] ∧ (whole.head? = some 48 → whole = [48])

/-- The bytes `bs` of a string as they are shown: characters of ASCII as they are, any other byte as `\x` and two hexadecimal digits. -/
inductive Shown : List UInt8 → List UInt8 → Prop
  | nil : Shown [] []
  | plain {c bs text} : 32 ≤ c.toNat → c.toNat ≤ 126 → Shown bs text → Shown (c :: bs) (c :: text)
  | hex {c bs text x y a b} : c.toNat < 32 ∨ 126 < c.toNat → Numeral.digit x = some a → Numeral.digit y = some b → a < 16 → b < 16 →
      c.toNat = 16 * a + b → Shown bs text → Shown (c :: bs) (92 :: 120 :: x :: y :: text)

end Mjs.Spec.Print
