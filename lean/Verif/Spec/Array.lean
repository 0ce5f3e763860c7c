import Verif.Spec.ObjMap
import Verif.Spec.Numeral

/-!
# What a history of array operations means
-/

namespace Mjs.Spec

/-- Which object an operation is about. -/
def ObjOp.target : ObjOp → Val
  | .new v => v
  | .set v _ _ => v
  | .del v _ => v

/-- Indices an array can have. -/
def IsIndex (i : Nat) : Prop := i < 2 ^ 32 - 1

/-- The element map with `i` changed. -/
def setAt (f : Nat → Option Val) (i : Nat) (x : Option Val) : Nat → Option Val := fun j => if j = i then x else f j

/-- `v` is an array which the operations fill with the elements `f`: since its creation its keys were always decimal
numerals of indices. -/
inductive ArrayOps (v : Val) : List ObjOp → (Nat → Option Val) → Prop
  | new {ops} : ArrayOps v (.new v :: ops) fun _ => none
  | set {ops f i t x} : ArrayOps v ops f → IsIndex i → Numeral.Nat 10 i t → ArrayOps v (.set v t x :: ops) (setAt f i (some x))
  | del {ops f i t} : ArrayOps v ops f → IsIndex i → Numeral.Nat 10 i t → ArrayOps v (.del v t :: ops) (setAt f i none)
  | other {ops f op} : ArrayOps v ops f → op.target ≠ v → ArrayOps v (op :: ops) f

/-- `n` is one more than the greatest index present, 0 if there is none. -/
def IsLength (f : Nat → Option Val) (n : Nat) : Prop := (∀ i, f i ≠ none → i < n) ∧ (n = 0 ∨ f (n - 1) ≠ none)

/-- The elements of a list, without holes. -/
def elems (l : List Val) : Nat → Option Val := fun i => l[i]?

/-- Where an edit of a list of length `n` begins: a negative start counts from the end; never beyond either end. -/
def editStart (n : Nat) (s : Int) : Nat := if s < 0 then (n + s).toNat else min s.toNat n

/-- How many elements an edit removes: `c` of them, all that are left if `c` is absent; never more than there are. -/
def editCount (n start : Nat) : Option Int → Nat
  | none => n - start
  | some c => min c.toNat (n - start)

/-- The number a text denotes for `strtoul`: blanks, a sign, at least one digit.  -/
def ulong (k : Key) : Option Nat :=
  let t := afterSign k
  if t ≠ [] ∧ t.all isDecimal = true then
    let n := t.foldl (fun a c => a * 10 + (c.toNat - 48)) 0
    some (if n ≥ 2 ^ 64 then 2 ^ 64 - 1
      else if (k.dropWhile isBlank).head? = some 45 then (2 ^ 64 - n) % 2 ^ 64 else n)
  else none

end Mjs.Spec
