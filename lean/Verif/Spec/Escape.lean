/-!
# What the body of a string literal denotes
-/

namespace Mjs.Spec.Escape

/-- The escapes of one letter after the backslash: `b t n v f r \ " '`, and an escaped line end. -/
def letter (c : UInt8) : Option UInt8 :=
  match c with
  | 98 => some 8       -- \b
  | 116 => some 9      -- \t
  | 110 => some 10     -- \n
  | 118 => some 11     -- \v
  | 102 => some 12     -- \f
  | 114 => some 13     -- \r
  | 92 => some 92      -- \\
  | 34 => some 34      -- \"
  | 39 => some 39      -- \'
  | 10 => some 10
  | _ => none

/-- The value of a hex digit. -/
def digit (c : UInt8) : Option Nat :=
  if 48 ≤ c.toNat ∧ c.toNat ≤ 57 then some (c.toNat - 48)          -- 0-9
  else if 97 ≤ c.toNat ∧ c.toNat ≤ 102 then some (c.toNat - 87)    -- a-f
  else if 65 ≤ c.toNat ∧ c.toNat ≤ 70 then some (c.toNat - 55)     -- A-F
  else none

/-- `Denotes body bytes`: the literal with this body stands for these bytes. -/
inductive Denotes : List UInt8 → List UInt8 → Prop
  | nil : Denotes [] []
  | plain {c s t} : c ≠ 92 → Denotes s t → Denotes (c :: s) (c :: t)
  | escape {c b s t} : letter c = some b → Denotes s t → Denotes (92 :: c :: s) (b :: t)
  | hex {c d x y s t} : digit c = some x → digit d = some y → Denotes s t →
      Denotes (92 :: 120 :: c :: d :: s) (UInt8.ofNat (16 * x + y) :: t)

end Mjs.Spec.Escape
