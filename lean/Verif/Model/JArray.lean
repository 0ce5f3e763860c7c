import Verif.Model.JPrintf

/-!
# Printing an array of C values as JSON: `json_printf_array` of src/frozen/frozen.c

The result, the number of bytes printed, is not modelled.
-/

namespace Mjs.JPrintf
open Mjs

/-- The union `val` on a little-endian machine. -/
def little : List UInt8 → Nat
  | [] => 0
  | b :: bs => b.toNat + 256 * little bs

/-- `val` after the `memcpy`, frozen.c:763-768, for element `i` of `m`: its first bytes, and then what was on the stack before. -/
def valBytes (m : List UInt8) (esz i : Nat) (fill : List UInt8) : List UInt8 :=
  (m.drop (i * esz)).take (if esz > 8 then 8 else esz) ++ fill.drop (if esz > 8 then 8 else esz)

/-- `strpbrk(fmt, "efg") != NULL`, frozen.c:770. -/
def hasEfg (fmt : List UInt8) : Bool := fmt.any fun c => c == 101 || c == 102 || c == 103

/-- The argument for the format, frozen.c:770-774. -/
def elemArg (fmt bs : List UInt8) : Arg :=
  if hasEfg fmt then .dbl (BitVec.ofNat 64 (little bs)) else .long (BitVec.ofNat 64 (little bs)).toInt

/-- The loop, frozen.c:762-775, for the next `n` elements from `i` on; `fill i` is what is on the stack.  Reading behind the memory is `none`. -/
def elems (E : Env) (fill : Nat → List UInt8) (m : List UInt8) (esz : Nat) (fmt : List UInt8) : Nat → Nat → Option (List (List UInt8))
  | 0, _ => some []
  | n + 1, i =>
    if i * esz + (if esz > 8 then 8 else esz) > m.length then none
    else (print E fmt [elemArg fmt (valBytes m esz i (fill i))]).bind fun ps => (elems E fill m esz fmt n (i + 1)).map fun qs =>
      (if i > 0 then [[44], [32]] else []) ++ (ps ++ qs)

/-- `json_printf_array`, frozen.c:755-778; an element size of 0 divides by zero. -/
def array (E : Env) (fill : Nat → List UInt8) (arr : Option (List UInt8)) (size esz : Nat) (fmt : List UInt8) : Option (List (List UInt8)) :=
  match arr with
  | none => some [[91], [93]]
  | some m => if esz = 0 then none else (elems E fill m esz fmt (size / esz) 0).map fun ps => [91] :: (ps ++ [[93]])

end Mjs.JPrintf
