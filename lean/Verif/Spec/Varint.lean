/-!
# Specification: little-endian base-128 numbers

Independent of the model: what a varint byte sequence denotes.
-/

namespace Mjs.Spec.Varint

/-- The number denoted by a byte sequence: seven bits per byte, least significant group first. -/
def value : List UInt8 → Nat
  | [] => 0
  | b :: bs => b.toNat % 128 + 128 * value bs

/-- A complete encoding: every byte but the last has its top bit set, the last has it clear. -/
def Complete : List UInt8 → Prop
  | [] => False
  | [b] => b.toNat < 128
  | b :: bs => 128 ≤ b.toNat ∧ Complete bs

end Mjs.Spec.Varint
