import Verif.Model.Gc
import Verif.Model.Core

/-!
# What `mjs_gc` sees of an engine that executes a script (src/mjs_gc.c:488-500)
-/

namespace Mjs.Gc
open Mjs Mjs.Mbuf Mjs.Str Mjs.Arena Mjs.Obj Mjs.Core

/-- Where the variables of the engine are: `mjs->vals` (mjs_core.h:77-87, with the value of `dataview_proto`, which `Vm` does
not have), and the blocks of the buffers `scopes`, `stack` and `call_stack`. -/
structure Places where
  this : Nat
  dataview : Nat
  dataviewVal : Val
  last : Nat
  scopes : Nat
  stack : Nat
  callStack : Nat

/-- The values of a stack with their addresses. -/
def bufSlots (base : Nat) : List Val → List (Nat × Val)
  | [] => []
  | v :: l => (base, v) :: bufSlots (base + 8) l

/-- `mjs->vals` with the addresses. -/
def valSlots (pl : Places) (vm : Vm) : List (Nat × Val) :=
  [(pl.this, vm.this), (pl.dataview, pl.dataviewVal), (pl.last, vm.lastGetprop)]

/-- All of these variables. -/
def slotsOf (pl : Places) (vm : Vm) : List (Nat × Val) :=
  valSlots pl vm ++ bufSlots pl.scopes vm.scopes ++ bufSlots pl.stack vm.stack ++ bufSlots pl.callStack vm.callStack

/-- The memory of the engine. -/
def memOf {σ : Type} (pl : Places) (vm : Vm) (sigs : Arena σ) : Mem σ :=
  ⟨vm.heap, sigs, (slotsOf pl vm).foldr (fun s f => upd f s.1 (some s.2)) fun _ => none⟩

/-- The variables `mjs_gc` starts from, mjs_gc.c:490-498, without registered variables and FFI callbacks.  `arg_stack` and
`loop_addresses` are not among them. -/
def rootsOf (pl : Places) (vm : Vm) : Roots where
  vals := (valSlots pl vm).map (·.1)
  owned := []
  scopes := (bufSlots pl.scopes vm.scopes).map (·.1)
  stack := (bufSlots pl.stack vm.stack).map (·.1)
  callStack := (bufSlots pl.callStack vm.callStack).map (·.1)
  cbArgs := []

end Mjs.Gc
