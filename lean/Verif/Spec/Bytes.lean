/-!
# Specification: a byte sequence under insert, append, remove, clear
-/

namespace Mjs.Spec.Bytes

/-- Insert `data` at position `off`. -/
def insertAt (bs : List UInt8) (off : Nat) (data : List UInt8) : List UInt8 :=
  bs.take off ++ data ++ bs.drop off

/-- The operations a user can ask for. -/
inductive Req where
  | insert (off : Nat) (data : List UInt8)
  | insertGap (off len : Nat)
  | append (data : List UInt8)
  | remove (n : Nat)
  | keep          -- resize, trim: no visible effect
  | clear         -- clear, free

/-- The request may be made on content `bs`: offsets inside the content and sizes below 2^52. -/
def Req.Legal (bs : List UInt8) : Req → Prop
  | .insert off d => off ≤ bs.length ∧ bs.length + d.length < 2 ^ 52
  | .insertGap off n => off ≤ bs.length ∧ bs.length + n < 2 ^ 52
  | .append d => bs.length + d.length < 2 ^ 52
  | _ => True

/-- `Step bs q ret bs'`: the request `q` may turn the sequence `bs` into `bs'` and return `ret`.
A write is done in full and returns the number of bytes, or nothing happens and it returns 0. -/
def Step (bs : List UInt8) : Req → Nat → List UInt8 → Prop
  | .insert off d, ret, bs' =>
      (ret = d.length ∧ bs' = insertAt bs off d) ∨ (ret = 0 ∧ bs' = bs)
  | .insertGap off n, ret, bs' =>
      (ret = n ∧ ∃ gap : List UInt8, gap.length = n ∧ bs' = insertAt bs off gap) ∨ (ret = 0 ∧ bs' = bs)
  | .append d, ret, bs' => (ret = d.length ∧ bs' = bs ++ d) ∨ (ret = 0 ∧ bs' = bs)
  | .remove n, _, bs' => bs' = if n ≤ bs.length then bs.drop n else bs
  | .keep, _, bs' => bs' = bs
  | .clear, _, bs' => bs' = []

end Mjs.Spec.Bytes
