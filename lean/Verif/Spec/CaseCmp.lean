import Verif.Spec.Glob

/-!
# Specification: texts that differ in case only, and their order
-/

namespace Mjs.Spec

/-- The texts are the same but for the case of letters. -/
inductive SameText : List UInt8 → List UInt8 → Prop
  | nil : SameText [] []
  | cons {c d s t} : SameLetter c d → SameText s t → SameText (c :: s) (d :: t)

/-- The code of a byte, of the small letter if it is a capital letter. -/
def smallCode (c : UInt8) : Nat := if 65 ≤ c.toNat ∧ c.toNat ≤ 90 then c.toNat + 32 else c.toNat

/-- The first text comes before the second one in a dictionary that does not know capital letters. -/
inductive Precedes : List UInt8 → List UInt8 → Prop
  | shorter {d t} : Precedes [] (d :: t)
  | less {c d s t} : smallCode c < smallCode d → Precedes (c :: s) (d :: t)
  | same {c d s t} : SameLetter c d → Precedes s t → Precedes (c :: s) (d :: t)

end Mjs.Spec
