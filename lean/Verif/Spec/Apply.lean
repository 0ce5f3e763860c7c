import Verif.Spec.Layout
/-!
# Calling a function of a loaded program from C

What the body of a function does with `this` and the arguments, in the semantics of `Spec/Sem.lean`: `this` is set, a scope is
opened, the parameters get the arguments in order, missing ones get `undefined`, and the statements are evaluated.
-/
namespace Mjs.Code
open Mjs Mjs.Core Mjs.Exec Mjs.Sem

/-- The body of a function, with `this` and the arguments. -/
def runBody (E : Env) [Natives E] (F : Nat → Option Fn) (n d : Nat) (fn : Fn) (this : Val) (args : List Val) : Sem Comp := do
  setThis this
  enterScope
  bindParams E args 0 fn.params
  evalSs E F n d fn.body

/-- The functions of the loaded scripts, by address. -/
def functions (ss : List Script) : Nat → Option Fn := fnAt (funsFrom 0 ss)

/-- What the engine contains afterwards: the objects, strings and error of `vm'`, and stacks, scopes, `this` and code of `vm`. -/
structure After (vm vm' vm2 : Vm) : Prop where
  heap : vm2.heap = vm'.heap
  al : vm2.al = vm'.al
  error : vm2.error = vm'.error
  msg : vm2.msg = vm'.msg
  this : vm2.this = vm.this
  stacks : SameStacks vm2 vm
  code : SameCode vm2 vm

/-- Values that `mjs_apply` calls as C code: C functions and imported functions. -/
def isCFun (f : Val) : Bool := isForeign f || isFfiSig f

/-- What a C function called with `this` and `args` gets from `mjs_get_this`, `mjs_nargs` and `mjs_arg`.  (Indexes for which
`mjs_arg` would overflow an `int` are left out.) -/
structure Delivered (vm : Vm) (this : Val) (args : List Val) : Prop where
  this : vm.this = this
  nargs : nargs vm = some (args.length : Int)
  arg : ∀ i : Nat, vm.stack.length + i < 2 ^ 31 → arg vm i = some (args.getD i mkUndefined)

end Mjs.Code
