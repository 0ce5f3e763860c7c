import Verif.Spec.Layout

/-!
# Meanings without a count of steps, and loops as rules

`eval` and its companions (Spec/Sem.lean) stop after `n` steps.  Here `n` is left out: a program has a meaning if some number
of steps is enough.  `d`, the nesting, stays: it is what the stacks need room for.  The meaning of a loop is also given by
rules, one for each way an iteration can end.
-/

namespace Mjs.Sem
open Mjs Mjs.Str Mjs.Obj Mjs.Core Mjs.Exec Mjs.Code

section
variable (E : Env) [Natives E] (F : Nat → Option Fn) (d : Nat)

/-- The expression `e`, in the state `vm`, ends with `out`. -/
def Means (e : Expr) (vm : Vm) (out : Out Val) : Prop := ∃ n, eval E F n d e vm = some out

/-- The statement `s`, in the state `vm`, ends with `out`. -/
def MeansS (s : Stmt) (vm : Vm) (out : Out Comp) : Prop := ∃ n, evalS E F n d s vm = some out

/-- The statements `ss`, one after the other, end with `out`. -/
def MeansSs (ss : List Stmt) (vm : Vm) (out : Out Comp) : Prop := ∃ n, evalSs E F n d ss vm = some out

/-- The condition `c` is the truth value `b`, and the state after it is `vm'`. -/
def Cond (c : Expr) (vm vm' : Vm) (b : Bool) : Prop :=
  ∃ x, Means E F d c vm (.ok vm' x) ∧ truthy x vm' = some (.ok vm' b)

/-- How the iterations of `while (c) { body }` go. -/
inductive Loops (c : Expr) (body : List Stmt) : Vm → Out Comp → Prop where
  /-- the condition is false: the loop ends -/
  | stop {vm vm1 : Vm} (hc : Cond E F d c vm vm1 false) : Loops c body vm (.ok vm1 (.normal mkUndefined))
  /-- the body runs to its end: next iteration -/
  | next {vm vm1 vm2 : Vm} {v : Val} {out : Out Comp} (hc : Cond E F d c vm vm1 true)
      (hb : MeansSs E F d body vm1 (.ok vm2 (.normal v))) (hn : Loops c body vm2 out) : Loops c body vm out
  /-- `continue`: next iteration -/
  | cont {vm vm1 vm2 : Vm} {out : Out Comp} (hc : Cond E F d c vm vm1 true)
      (hb : MeansSs E F d body vm1 (.ok vm2 .cont)) (hn : Loops c body vm2 out) : Loops c body vm out
  /-- `break`: the loop ends -/
  | brk {vm vm1 vm2 : Vm} (hc : Cond E F d c vm vm1 true) (hb : MeansSs E F d body vm1 (.ok vm2 .brk)) :
      Loops c body vm (.ok vm2 (.normal mkUndefined))
  /-- `return`: so does the function -/
  | ret {vm vm1 vm2 : Vm} {v : Val} (hc : Cond E F d c vm vm1 true) (hb : MeansSs E F d body vm1 (.ok vm2 (.ret v))) :
      Loops c body vm (.ok vm2 (.ret v))
  /-- an error in the condition or in the body ends the loop -/
  | errCond {vm vm' : Vm} (hc : Means E F d c vm (.err vm')) : Loops c body vm (.err vm')
  | errBody {vm vm1 vm' : Vm} (hc : Cond E F d c vm vm1 true) (hb : MeansSs E F d body vm1 (.err vm')) :
      Loops c body vm (.err vm')

/-- How the iterations of `for (..; c; inc) { body }` go: `inc` is evaluated between iterations, also after `continue`. -/
inductive ForLoops (c inc : Expr) (body : List Stmt) : Vm → Out Comp → Prop where
  | stop {vm vm1 : Vm} (hc : Cond E F d c vm vm1 false) : ForLoops c inc body vm (.ok vm1 (.normal mkUndefined))
  | next {vm vm1 vm2 vm3 : Vm} {v w : Val} {out : Out Comp} (hc : Cond E F d c vm vm1 true)
      (hb : MeansSs E F d body vm1 (.ok vm2 (.normal v))) (hi : Means E F d inc vm2 (.ok vm3 w)) (hn : ForLoops c inc body vm3 out) :
      ForLoops c inc body vm out
  | cont {vm vm1 vm2 vm3 : Vm} {w : Val} {out : Out Comp} (hc : Cond E F d c vm vm1 true)
      (hb : MeansSs E F d body vm1 (.ok vm2 .cont)) (hi : Means E F d inc vm2 (.ok vm3 w)) (hn : ForLoops c inc body vm3 out) :
      ForLoops c inc body vm out
  | brk {vm vm1 vm2 : Vm} (hc : Cond E F d c vm vm1 true) (hb : MeansSs E F d body vm1 (.ok vm2 .brk)) :
      ForLoops c inc body vm (.ok vm2 (.normal mkUndefined))
  | ret {vm vm1 vm2 : Vm} {v : Val} (hc : Cond E F d c vm vm1 true) (hb : MeansSs E F d body vm1 (.ok vm2 (.ret v))) :
      ForLoops c inc body vm (.ok vm2 (.ret v))
  | errCond {vm vm' : Vm} (hc : Means E F d c vm (.err vm')) : ForLoops c inc body vm (.err vm')
  | errBody {vm vm1 vm' : Vm} (hc : Cond E F d c vm vm1 true) (hb : MeansSs E F d body vm1 (.err vm')) :
      ForLoops c inc body vm (.err vm')
  | errInc {vm vm1 vm2 vm' : Vm} {r : Comp} (hc : Cond E F d c vm vm1 true) (hb : MeansSs E F d body vm1 (.ok vm2 r))
      (hr : r = .cont ∨ ∃ v, r = .normal v) (hi : Means E F d inc vm2 (.err vm')) : ForLoops c inc body vm (.err vm')
end

end Mjs.Sem
