import Verif.Model.Num

/-!
# Model of the floating point unit

The `+`, `-`, `*` and `/` on `double` in `do_arith_op` (mjs_exec.c:99-153) are those of the machine: IEEE 754 binary64 with the
default rounding (to nearest, ties to even).  The model of the interpreter (`Exec.Env`) leaves them open; here they are
computed, on integers.  A double is its 64 bits, `scaled` is its value times 2^1074.
-/

namespace Mjs.Ieee
open Spec.Double

instance (d : Val) : Decidable (IsZero d) := inferInstanceAs (Decidable (_ ∧ _))

/-- `n / d` rounded to nearest, ties to even. -/
def roundDiv (n d : Nat) : Nat :=
  let q := n / d
  let r := n % d
  if 2 * r > d ∨ (2 * r = d ∧ q % 2 = 1) then q + 1 else q

/-- The bits, without the sign, of the double for `n / d` units of 2^-1074: 53 significant bits are kept, and what is too
large becomes the infinity. -/
def ofQuot (n d : Nat) : Nat :=
  let k := (n / d).log2 - 52
  min (k * 2 ^ 52 + roundDiv n (d * 2 ^ k)) (2047 * 2 ^ 52)

/-- Sign and magnitude bits. -/
def pack (neg : Bool) (u : Nat) : Val := BitVec.ofNat 64 ((if neg then 2 ^ 63 else 0) + u)

/-- The sign bit. -/
def sign (d : Val) : Bool := decide (negative d)

/-- The default NaN of x86-64 (`mjs_mk_number` replaces any NaN by its own). -/
def nan : Val := 0xFFF8000000000000#64

/-- The infinities. -/
def inf (neg : Bool) : Val := pack neg (2047 * 2 ^ 52)

/-- `a + b`, mjs_exec.c:109 (`case TOK_PLUS`).  A sum that is exactly zero is `-0` only for two negative zeros. -/
def add (a b : Val) : Val :=
  if IsNaN a ∨ IsNaN b then nan
  else if IsInf a then (if IsInf b ∧ sign a ≠ sign b then nan else a)
  else if IsInf b then b
  else
    let s := scaled a + scaled b
    pack (if s = 0 then sign a && sign b else decide (s < 0)) (ofQuot s.natAbs 1)

/-- `-a`: the sign bit is changed. -/
def neg (a : Val) : Val := a ^^^ 0x8000000000000000#64

/-- `a - b`, mjs_exec.c:108 (`case TOK_MINUS`). -/
def sub (a b : Val) : Val := add a (neg b)

/-- `a * b`, mjs_exec.c:110 (`case TOK_MUL`). -/
def mul (a b : Val) : Val :=
  let s := sign a != sign b
  if IsNaN a ∨ IsNaN b then nan
  else if IsInf a ∨ IsInf b then (if IsZero a ∨ IsZero b then nan else inf s)
  else pack s (ofQuot (magnitude a * magnitude b) (2 ^ 1074))

/-- `a / b`, mjs_exec.c:111-118 (`case TOK_DIV`). -/
def div (a b : Val) : Val :=
  let s := sign a != sign b
  if IsNaN a ∨ IsNaN b then nan
  else if IsInf a then (if IsInf b then nan else inf s)
  else if IsInf b then pack s 0
  else if IsZero b then (if IsZero a then nan else inf s)
  else pack s (ofQuot (magnitude a * 2 ^ 1074) (magnitude b))

end Mjs.Ieee
