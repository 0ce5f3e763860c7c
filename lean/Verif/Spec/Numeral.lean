/-!
# Numerals: how integers are written in text
-/

namespace Mjs.Spec.Numeral

/-- The value of a digit: `0`-`9`, then `a`-`z`. -/
def digit (c : UInt8) : Option Nat :=
  if 48 ≤ c.toNat ∧ c.toNat ≤ 57 then some (c.toNat - 48)
  else if 97 ≤ c.toNat ∧ c.toNat ≤ 122 then some (c.toNat - 87)
  else none

/-- `Value base text n`: the digits of the text, most significant first, write the number `n`. -/
inductive Value (base : Nat) : List UInt8 → Nat → Prop
  | nil : Value base [] 0
  | snoc {text n c d} : Value base text n → digit c = some d → d < base → Value base (text ++ [c]) (n * base + d)

/-- The standard numeral of a natural number: no superfluous leading zero. -/
def Nat (base : Nat) (n : Nat) (text : List UInt8) : Prop :=
  Value base text n ∧ text ≠ [] ∧ (text.head? = some 48 → text = [48])

/-- The standard numeral of an integer: a minus sign before the numeral of the absolute value. -/
def Int (base : _root_.Nat) (n : _root_.Int) (text : List UInt8) : Prop :=
  if n < 0 then ∃ t, text = 45 :: t ∧ Nat base n.natAbs t else Nat base n.natAbs text

end Mjs.Spec.Numeral
