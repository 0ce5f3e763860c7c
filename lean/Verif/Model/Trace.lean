import Verif.Model.Print
import Verif.Model.Bcode

/-!
# Model of the stack trace and the error text (`src/mjs_core.c`, `src/mjs_exec.c`), and of call frame lookup (`src/mjs_util.c`)

Simplified: `mg_asprintf` finds memory.  What `mjs_append_stack_trace_line` writes to `stderr` (mjs_core.c:247-249) is left out.
`stack_trace` is `none` for NULL.
-/

namespace Mjs.Trace
open Mjs Mjs.Str Mjs.Core Mjs.Exec Mjs.Bcode Mjs.Print

/-- A `size_t` given to a function that takes an `int` and gives it on as a `size_t` (mjs_util.c:363, 372, mjs_bcode.c:103). -/
def viaInt (n : Nat) : Nat := wrap (cInt n)

/-- `mjs_append_stack_trace_line`, mjs_core.c:239-264.  Outer `none`: the header or the map of the part is cut short. -/
def appendLine (vm : Vm) (trace : Option (List UInt8)) (offset : Nat) : Option (Option (List UInt8)) :=
  if offset ≠ offsetExit then do
    let name ← fileNameAt vm (viaInt offset)
    let lineNo ← lineno vm (viaInt offset)
    let fileName := match name with
      | none => txt "<unknown-filename>"
      | some f => f
    let newLine := txt "  at " ++ fileName ++ txt ":" ++ decInt lineNo ++ txt "\n"
    match trace with
    | some old => some (some (old ++ newLine))
    | none => some (some newLine)
  else some trace

/-- Taking five values from the call stack, mjs_core.c:277-279; `none` for the failed assert. -/
def popFrame (cs : List Val) : Option (List Val) := do
  let (_, c1) ← popVal cs
  let (_, c2) ← popVal c1
  let (_, c3) ← popVal c2
  let (_, c4) ← popVal c3
  let (_, c5) ← popVal c4
  some c5

/-- The loop of `mjs_gen_stack_trace`, mjs_core.c:268-282, with the call stack `cs`. -/
def genLoop (vm : Vm) (trace : Option (List UInt8)) (cs : List Val) : Option (Option (List UInt8)) :=
  if cs.length ≥ 5 then do
    let a ← at? cs (-1 - 3)
    let cs' ← popFrame cs
    let t ← appendLine vm trace (wrap (getInt a))
    genLoop vm t cs'
  else some trace
partial_fixpoint

/-- `mjs_gen_stack_trace`, mjs_core.c:266-283.  It empties the call stack, but only by its length: the caller sets the length again and
has the values back (mjs_exec.c:976), so the call stack of `vm` is left as it is. -/
def genTrace (vm : Vm) (trace : Option (List UInt8)) (offset : Nat) : Option (Option (List UInt8)) := do
  let t ← appendLine vm trace offset
  genLoop vm t vm.callStack

/-- The loop of `mjs_execute`, mjs_exec.c:574-990, with the stack trace.  Simplified: the C functions called from it leave the trace
alone; those that run other scripts, as `load` does, set it (`mjs_execute` clears it, mjs_exec.c:569-570, and may make a new one). -/
def loop (E : Env) (s : Saved) (m : Mach) (trace : Option (List UInt8)) : Option (Vm × Option (List UInt8)) :=
  if m.i < m.bp.data.length then do
    let op ← m.bp.data[m.i]?
    let r ← execOp E { m with op := op } m.op
    match r with
    | .clean vm => some (vm, trace)
    | .go m' =>
      if m'.vm.error ≠ .ok then do
        let t ← genTrace m'.vm trace (wrap ((m'.bp.startIdx : Int) + m'.i - 1))
        let vm ← unwind s m'.vm
        some (vm, t)
      else loop E s { m' with i := wrap ((m'.i : Int) + 1) } trace
  else some (m.vm, trace)
partial_fixpoint

/-- `mjs_execute`, mjs_exec.c:550-993, with the stack trace in place of the value. -/
def execute (E : Env) (vm : Vm) (off : Nat) : Option (Vm × Option (List UInt8)) := do
  let bp ← partAt vm off
  loop E (save vm) { vm := setErrorf vm .ok none, bp := bp, i := wrap ((off : Int) - bp.startIdx) } none

/-- `mjs_print_error`, mjs_core.c:157-168: what is written to the file.  A message of `none` is NULL. -/
def printError (vm : Vm) (trace : Option (List UInt8)) (msg : Option (List UInt8)) (printTrace : Bool) : List UInt8 :=
  (if printTrace then trace.getD [] else []) ++ (match msg with | none => txt "MJS error" | some m => m) ++ txt ": " ++
    strerror vm vm.error ++ txt "\n"

/-- `mjs_get_offset_by_call_frame_num`, mjs_util.c:416-431, with `cur` for `mjs->cur_bcode_offset`. -/
def offsetByFrame (vm : Vm) (cur : Nat) (n : Int) : Option Int :=
  if n = 0 then some (cInt cur)
  else if n > 0 ∧ (vm.callStack.length : Int) ≥ 5 * n then
    (at? vm.callStack (-1 - (3 + 5 * (n - 1)))).map getInt
  else some (-1)

end Mjs.Trace
