/-!
# Specification of `slice`, `indexOf` and `at` on byte sequences
-/

namespace Mjs.Spec.Slice

/-- A position given by a script: negative ones count from the end, everything is clamped to `0 .. len`. -/
def position (i : Int) (len : Nat) : Nat :=
  if 0 ≤ i then min i.toNat len else len - i.natAbs

/-- The bytes with indices `k`, `b ≤ k < e`. -/
def sub (x : List UInt8) (b e : Nat) : List UInt8 := (x.drop b).take (e - b)

/-- `t` occurs in `x` at index `i`. -/
def OccursAt (x t : List UInt8) (i : Nat) : Prop := ∃ pre post, x = pre ++ t ++ post ∧ pre.length = i

end Mjs.Spec.Slice
