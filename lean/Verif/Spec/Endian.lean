/-!
# Multi-byte integers in memory
-/

namespace Mjs.Spec.Endian

/-- The number written by bytes, least significant first. -/
def leValue : List UInt8 → Nat
  | [] => 0
  | b :: bs => b.toNat + 256 * leValue bs

/-- The number a field holds: big endian fields have their most significant byte first. -/
def fieldValue (bigendian : Bool) (bs : List UInt8) : Nat := if bigendian then leValue bs.reverse else leValue bs

/-- The same field read as a two's complement number of `w` bytes. -/
def signedValue (w : Nat) (x : Nat) : Int := if x < 2 ^ (8 * w - 1) then x else (x : Int) - 2 ^ (8 * w)

end Mjs.Spec.Endian
