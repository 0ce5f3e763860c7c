import Verif.Model.Builtin
import Verif.Spec.Means

/-!
# Built-in functions in scripts

`Bodies` says which C functions an engine has whose code is a `Body` (Model/Builtin.lean): at which address.  `run` of such a
function is its body, applied to `this` and the values of the arguments, in the heap as it is then.
-/

namespace Mjs.Sem
open Mjs Mjs.Str Mjs.Obj Mjs.Core Mjs.Exec Mjs.Code Mjs.Builtin

/-- The functions with a body. -/
class Bodies (E : Env) where
  body : Nat → Option Body
  code : ∀ {a b}, body a = some b → E.cfun a = cfunction b

/-- The body, as part of a script: its value, or its error. -/
def bodyRun (b : Body) (args : List Val) : Sem Val := fun vm => do
  let r ← b vm.this args vm.heap fun k => vm.al (2 * k)
  let vm1 ← leave vm r
  some (if r.err.isNone then .ok vm1 r.val else .err vm1)

/-- What a call of a C function does: nothing is said about functions without a body. -/
def bodiesRun (E : Env) [Bodies E] (f : Val) (args : List Val) : Sem Val :=
  if isForeign f then
    match Bodies.body E (getPtr f).toNat with
    | some b => bodyRun b args
    | none => undefinedBehaviour
  else undefinedBehaviour

/-- The engine has the methods of strings and arrays, at the addresses it uses. -/
structure Methods (E : Env) [Bodies E] : Prop where
  atFn : E.atFn < 2 ^ 48 ∧ Bodies.body E E.atFn = some Builtin.charCodeAt
  indexOfFn : E.indexOfFn < 2 ^ 48 ∧ Bodies.body E E.indexOfFn = some Builtin.indexOf
  sliceFn : E.sliceFn < 2 ^ 48 ∧ Bodies.body E E.sliceFn = some Builtin.slice
  spliceFn : E.spliceFn < 2 ^ 48 ∧ Bodies.body E E.spliceFn = some Builtin.splice
  pushFn : E.pushFn < 2 ^ 48 ∧ Bodies.body E E.pushFn = some Builtin.push

/-- The parts of the call `f(args)` are evaluated, in this order: the called value `fv` with its `this`, the values `vs` of the
arguments.  Then the engine is `vm'`. -/
def Called (E : Env) [Natives E] (F : Nat → Option Fn) (d : Nat) (f : Expr) (args : List Expr) (vm : Vm) (fv t : Val) (vs : List Val)
    (vm' : Vm) : Prop :=
  ∃ n vm1 vm2, eval E F n d f vm = some (.ok vm1 fv) ∧ calleeThis f vm1 = some (.ok vm2 t) ∧
    evalArgs E F n d args vm2 = some (.ok vm' vs)

end Mjs.Sem
