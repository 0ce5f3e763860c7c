import Verif.Model.Load
import Verif.Spec.Layout

/-!
# What `load` has to do

The engine calls `load` with the arguments on top of its stack of values; the result has to replace the called value and the
arguments.
-/

namespace Mjs.Spec.Load
open Mjs Mjs.Str Mjs.Obj Mjs.Core Mjs.Exec Mjs.Bcode Mjs.Sem

/-- The engine is in the call `f(args)`; below are the values `pre`. -/
structure InCall (vm : Vm) (pre : List Val) (f : Val) (args : List Val) : Prop where
  stack : vm.stack = pre ++ f :: args
  frame : ∃ frames, vm.callStack = frames ++ [mkInt (pre.length + 1 : Nat)]
  small : vm.stack.length < 2 ^ 31 - 1
  smallFrames : vm.callStack.length < 2 ^ 31 - 1

/-- The call has returned `v` to the engine `vm'`: all stacks are as they were, with the result in place of the call. -/
structure Returned (vm vm' : Vm) (pre : List Val) (v : Val) : Prop where
  stack : vm'.stack = pre ++ [v]
  callStack : vm'.callStack = vm.callStack
  argStack : vm'.argStack = vm.argStack
  scopes : vm'.scopes = vm.scopes
  loopAddrs : vm'.loopAddrs = vm.loopAddrs

/-- The argument number `i`. -/
def argument (args : List Val) (i : Nat) : Val := args[i]?.getD mkUndefined

/-- Where the file is run: the second argument, if it is an object, is a further scope. -/
def within (vm : Vm) (args : List Val) : Vm :=
  if isObject (argument args 1) then { vm with scopes := vm.scopes ++ [argument args 1] } else vm

/-- The first loaded script with this file name is `p`. -/
def FirstOf (parts : List Part) (path : List UInt8) (p : Part) : Prop :=
  ∃ before rest, parts = before ++ p :: rest ∧ fileName p = some path ∧ ∀ q ∈ before, ∃ n, fileName q = some n ∧ n ≠ path

/-- No loaded script has this file name. -/
def NotLoaded (parts : List Part) (path : List UInt8) : Prop := ∀ q ∈ parts, ∃ n, fileName q = some n ∧ n ≠ path

/-- The text before the error of a file. -/
def failed (path : List UInt8) : List UInt8 := txt "failed to exec file \"" ++ path ++ txt "\""

end Mjs.Spec.Load
