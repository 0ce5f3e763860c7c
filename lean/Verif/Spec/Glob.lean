import Verif.Model.Glob

/-!
# Specification of patterns and comma separated lists

What a pattern stands for, and what walking over a list is, without reference to how either is computed.  (The import is for
the type of list entries and for `next`, which a walk calls.)
-/

namespace Mjs.Spec

/-- The same letter in either case, or the same byte. -/
def SameLetter (c d : UInt8) : Prop := c = d ∨ (65 ≤ c ∧ c ≤ 90 ∧ d = c + 32) ∨ (65 ≤ d ∧ d ≤ 90 ∧ c = d + 32)

/-- The pattern stands for the text: `?` for any byte, `*` for any text without a slash, `**` for any text, every other
byte for itself in either case. -/
inductive Stands : List UInt8 → List UInt8 → Prop
  | done : Stands [] []
  | any {p t d} : Stands p t → Stands (63 :: p) (d :: t)
  | star {p t u} : 47 ∉ u → Stands p t → Stands (42 :: p) (u ++ t)
  | stars {p t u} : Stands p t → Stands (42 :: 42 :: p) (u ++ t)
  | same {p t c d} : c ≠ 63 → c ≠ 42 → SameLetter c d → Stands p t → Stands (c :: p) (d :: t)

/-- The alternatives of a pattern, which `|` or `,` separate. -/
inductive Alternatives : List UInt8 → List (List UInt8) → Prop
  | one {a} : 124 ∉ a → 44 ∉ a → Alternatives a [a]
  | more {a c p as} : 124 ∉ a → 44 ∉ a → c = 124 ∨ c = 44 → Alternatives p as → Alternatives (a ++ c :: p) (a :: as)

/-- What a loop that asks for one entry after the other, until there is none, sees of a list. -/
inductive Walk : List UInt8 → List (List UInt8 × Option (List UInt8)) → Prop
  | stop {l} : Glob.next l = none → Walk l []
  | step {l e es} : Glob.next l = some e → Walk e.rest es → Walk l ((e.val, e.eq) :: es)

/-- The list with these parts. -/
def commas : List (List UInt8) → List UInt8
  | [] => []
  | [x] => x
  | x :: y :: r => x ++ 44 :: commas (y :: r)

/-- The text of an entry: `x`, or `x=y`. -/
def entryText : List UInt8 × Option (List UInt8) → List UInt8
  | (x, none) => x
  | (x, some y) => x ++ 61 :: y

end Mjs.Spec
