import Verif.Spec.Invisible
import Verif.Model.GcBuiltin

/-!
# Where an engine may be in memory when a script calls `gc`
-/

namespace Mjs.Spec.Invisible
open Mjs Mjs.Str Mjs.Arena Mjs.Obj Mjs.Spec Mjs.Spec.Gc Mjs.Gc Mjs.Core

/-- The variables of the engine are at different places of memory, none of them in a block of properties; the arena of FFI
signatures is in order and nothing is marked; no prototype of data views is set; the values that wait in `arg_stack` are no long
strings, and the objects among them can be reached otherwise (C26 shows what happens to others). -/
structure Placed (pl : Places) (sigs : Arena Unit) (vm : Vm) : Prop where
  apart : ((slotsOf pl vm).map (·.1)).Nodup
  outside : ∀ s ∈ slotsOf pl vm, 0 < s.1 ∧ s.1 < 2 ^ 48 ∧ vm.heap.props.mem (s.1 - 8) = none ∧ vm.heap.props.mem (s.1 - 16) = none
  dataview : pl.dataviewVal = mkUndefined
  sigsOk : ∃ fs, Ok sigs fs
  clean : ∀ a c, sigs.mem a = some c → c.head % 2 = 0
  waiting : ∀ v ∈ vm.argStack, v &&& tagMask ≠ tagStringO ∧
    (isObject v = true → Reach (memOf pl vm sigs) (rootsOf pl vm).all (.obj (getPtrRaw v).toNat))

end Mjs.Spec.Invisible
