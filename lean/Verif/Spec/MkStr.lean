import Verif.Model.Value
import Verif.Model.Num
import Verif.Model.Str
import Verif.Model.Convert
import Verif.Model.Core

/-!
# What a call of `mkstr` asks for
-/

namespace Mjs.Spec.MkStr
open Mjs Mjs.Str Mjs.Core

/-- The offset an argument stands for: a number, or undefined for 0. -/
def IsOffset (o : Val) (k : Int) : Prop := (o = mkUndefined ∧ k = 0) ∨ (isNumber o = true ∧ k = getInt o)

/-- The arguments are a pointer, perhaps an offset, a length, and perhaps whether to copy: they ask for a string of `len` bytes
from the address `a`. -/
inductive Asks (st : Store) : List Val → Nat → Int → Bool → Prop
  | two {p l a} : isForeign p = true → isNumber l = true → a = (getPtr p).toNat → Asks st [p, l] a (getInt l) false
  | three {p o l k} {a : Nat} : isForeign p = true → IsOffset o k → isNumber l = true → (a : Int) = (getPtr p).toNat + k →
      Asks st [p, o, l] a (getInt l) false
  | four {p o l c b k} {a : Nat} : isForeign p = true → IsOffset o k → isNumber l = true → (a : Int) = (getPtr p).toNat + k →
      isTruthy st c = some b → Asks st [p, o, l, c] a (getInt l) b

/-- The memory holds these bytes at the address; the length is theirs, or it is -1 and they are a C string. -/
def Named (cmem : Nat → Option UInt8) (a : Nat) (len : Int) (bs : List UInt8) : Prop :=
  readC cmem a bs.length = some bs ∧
    (len = bs.length ∨ (len = -1 ∧ a ≠ 0 ∧ (0 : UInt8) ∉ bs ∧ cmem (a + bs.length) = some 0))

/-- What is wrong with the arguments. -/
inductive Wrong : List Val → List UInt8 → Prop
  | count {vs} : vs.length < 2 ∨ 4 < vs.length →
      Wrong vs (txt "mkstr takes 2, 3 or 4 arguments: (ptr, len), (ptr, offset, len) or (ptr, offset, len, copy)")
  | ptr {p vs} : 1 ≤ vs.length → vs.length ≤ 3 → isForeign p = false → Wrong (p :: vs) (txt "ptr should be a foreign pointer")
  | offset {p o l c} : isForeign p = true → o ≠ mkUndefined → isNumber o = false → c.length ≤ 1 → Wrong (p :: o :: l :: c) (txt "offset should be a number")
  | len2 {p l} : isForeign p = true → isNumber l = false → Wrong [p, l] (txt "len should be a number")
  | len {p o l c} : isForeign p = true → (o = mkUndefined ∨ isNumber o = true) → isNumber l = false → c.length ≤ 1 →
      Wrong (p :: o :: l :: c) (txt "len should be a number")

end Mjs.Spec.MkStr
