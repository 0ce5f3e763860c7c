import Verif.Spec.JsonDoc

/-!
# Deleting a member of a JSON text

Together with the member the comma before it goes, or the one behind it if it is the first.
-/

namespace Mjs.Spec.Json
open Mjs.Spec

/-- Without the member `k`, which is not the first: what stands between the value before it and its own end goes. -/
def Members.drop (k : Key) : Members → Members
  | .cons k' u u' d w w' (.cons k2 u2 u2' d2 w2 w2' l) =>
    if k2 = k then .cons k' u u' d w2 w2' l else .cons k' u u' d w w' (Members.drop k (.cons k2 u2 u2' d2 w2 w2' l))
  | l => l

/-- The blanks that stand before what follows the first member: those behind its comma, or those behind its value if nothing follows. -/
def Members.lead (w w' : List UInt8) : Members → List UInt8
  | .nil => w
  | .cons .. => w'

/-- Words, numbers, and arrays and objects with nothing inside. -/
def Doc.flat : Doc → Bool
  | .atom raw => raw.head? ≠ some 34
  | .list _ .nil => true
  | .record _ .nil => true
  | _ => false

end Mjs.Spec.Json
