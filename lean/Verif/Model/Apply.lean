import Verif.Model.Exec
import Verif.Model.Array
/-!
# Functions of C that call functions of scripts

`mjs_call` (mjs_exec.c:1101-1120) copies its arguments to an array and calls `mjs_apply`: it is `Exec.apply`.
-/
namespace Mjs.Exec
open Mjs Mjs.Str Mjs.Obj Mjs.Core

/-- The elements of an array, mjs_exec.c:511-513.  Simplification: the array has fewer than 2^31 elements and there is memory
for them. -/
def itemsOf (h : Heap) (v : Val) : Option (List Val) := do
  let n ← Arr.length h v
  (List.range n).mapM (Arr.get h v)

/-- `mjs_apply_` (the method `apply` of functions), mjs_exec.c:506-518. -/
def applyMethod (E : Env) (vm : Vm) : Option Vm := do
  let func := vm.this
  let v ← arg vm 1
  let args ← if isArray v then itemsOf vm.heap v else some []
  let this ← arg vm 0
  let (vm1, r, _) ← apply E vm func this args
  ret vm1 (r.getD mkUndefined)

end Mjs.Exec
