import Verif.Model.Value

/-!
# Specifications for the engine core: registers, error reports
-/

namespace Mjs.Spec.Core

/-- What a host does with registrations. -/
inductive RegOp where
  /-- register the variable at `p`; `room`: there was memory for it -/
  | own (p : Nat) (room : Bool)
  | disown (p : Nat)

/-- How often each variable is registered, and the answers of the disown calls: registering adds one, disowning removes
one if there is one and says so. -/
def register : (Nat → Nat) → List RegOp → (Nat → Nat) × List Bool
  | n, [] => (n, [])
  | n, .own p room :: ops => register (fun q => if q = p ∧ room then n q + 1 else n q) ops
  | n, .disown p :: ops =>
    let r := register (fun q => if q = p then n q - 1 else n q) ops
    (r.1, decide (0 < n p) :: r.2)

/-- A disown never comes before the first successful own. -/
def Started : List RegOp → Prop
  | [] => True
  | .own _ true :: _ => True
  | .own _ false :: ops => Started ops
  | .disown _ :: _ => False

/-- Error reports: `report c m` adds a report on top, `replace c m` starts over, `clear` removes all.  Codes `c` are of a type with a code for
"no error". -/
inductive ErrOp (ε : Type) where
  | clear
  | replace (c : ε) (m : List UInt8)
  | report (c : ε) (m : List UInt8)

/-- The reports in force after a history, latest first: those since the last replacement or clearing. -/
def inForce {ε} : List (ε × List UInt8) → List (ErrOp ε) → List (ε × List UInt8)
  | s, [] => s
  | _, .clear :: ops => inForce [] ops
  | _, .replace c m :: ops => inForce [(c, m)] ops
  | s, .report c m :: ops => inForce ((c, m) :: s) ops

/-- The messages joined by `": "`. -/
def joined : List (List UInt8) → List UInt8
  | [] => []
  | [m] => m
  | m :: ms => m ++ [58, 32] ++ joined ms

end Mjs.Spec.Core
