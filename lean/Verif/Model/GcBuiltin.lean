import Verif.Model.GcVm

/-!
# `gc()` called by a script (src/mjs_builtin.c:118-122)
-/

namespace Mjs.Gc
open Mjs Mjs.Mbuf Mjs.Str Mjs.Arena Mjs.Obj Mjs.Core

/-- The engine whose variables are at the places `pl`, with what the memory now holds: the fields of `struct mjs` that `mjs_gc`
writes through the pointers it has to them (`mjs->vals`, `scopes`, `stack`, `call_stack`, mjs_core.h:77-101).  The lengths of the
buffers are those of `vm`. -/
def vmOf {σ : Type} (pl : Places) (vm : Vm) (m : Mem σ) : Vm :=
  { vm with
    heap := m.heap
    this := (m.vars pl.this).getD 0
    lastGetprop := (m.vars pl.last).getD 0
    scopes := (bufSlots pl.scopes vm.scopes).map fun s => (m.vars s.1).getD 0
    stack := (bufSlots pl.stack vm.stack).map fun s => (m.vars s.1).getD 0
    callStack := (bufSlots pl.callStack vm.callStack).map fun s => (m.vars s.1).getD 0 }

/-- `mjs_do_gc`, mjs_builtin.c:118-122: the argument is read into a local variable, which is no root, before the collection, and
returned after it.  `n` bounds the recursion of marking as in `mjsGc`; `al` is the allocator's answer when a full collection
shrinks the string buffer. -/
def doGc (n : Nat) (pl : Places) (sigs : Arena Unit) (al : Alloc) (vm : Vm) : Option (Vm × Arena Unit) := do
  let arg0 ← arg vm 0                                                             -- line 119
  let m ← mjsGc n (memOf pl vm sigs) (rootsOf pl vm) (isBoolean arg0 && getBool arg0) al -- line 120
  let vm' ← ret (vmOf pl vm m) arg0                                               -- line 121
  some (vm', m.sigs)

end Mjs.Gc
