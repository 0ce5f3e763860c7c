import Verif.Model.Object
import Verif.Model.StrApi

/-!
# Model of `src/mjs_core.c`: the engine state, its stacks, owned values, errors, arguments of C functions

The stacks of the engine are buffers of packed 8-byte values.  `pushValM`, `popValM` and `vptrM` are the operations on the
bytes; everything else works on lists of values (bottom first), which `Lemmas/Core.lean` shows to be the same.
-/

namespace Mjs.Core
open Mjs Mjs.Mbuf Mjs.Str Mjs.Obj

/-! ## Stacks as bytes -/

/-- `push_mjs_val`, mjs_core.c:366-368; the result of `mbuf_append` is ignored. -/
def pushValM (hr : Nat) (m : Mbuf) (v : Val) (al1 al2 : Alloc) : Option Mbuf :=
  (Mbuf.append hr m (some (bytesFrom v 0)) 8 al1 al2).map (·.1)

/-- `mjs_stack_size`, mjs_core.c:347-349. -/
def stackSizeM (m : Mbuf) : Nat := m.len / 8

/-- `mjs_pop_val`, mjs_core.c:370-378; `none` is the failed assert. -/
def popValM (m : Mbuf) : Option (Val × Mbuf) :=
  if 8 ≤ m.len ∧ m.len ≤ m.mem.length then
    some (BitVec.ofNat 64 (packLE ((m.mem.drop (m.len - 8)).take 8)), { m with len := m.len - 8 })
  else none

/-- `vptr`, mjs_core.c:351-355: the index of the value pointed to, `none` for NULL. -/
def vptrIdx (size idx : Int) : Option Nat :=
  let idx := if idx < 0 then size + idx else idx
  if idx ≥ 0 ∧ idx < size then some idx.toNat else none

/-- `*vptr(m, idx)`; `none` if the pointer is NULL or the value is not in the block. -/
def vptrM (m : Mbuf) (idx : Int) : Option Val := do
  let i ← vptrIdx (cInt (stackSizeM m)) idx
  if (i + 1) * 8 ≤ m.mem.length then some (BitVec.ofNat 64 (packLE ((m.mem.drop (i * 8)).take 8))) else none

/-! ## Stacks as lists -/

/-- `vptr`, mjs_core.c:351-355, as an index: `none` for NULL. -/
def vptr (s : List Val) (idx : Int) : Option Nat := vptrIdx (cInt s.length) idx

/-- `*vptr(m, idx)`: `none` for a NULL dereference. -/
def at? (s : List Val) (idx : Int) : Option Val := (vptr s idx).bind fun i => s[i]?

/-- `vtop`, mjs_core.c:342-345. -/
def vtop (s : List Val) : Val := s.getLast?.getD mkUndefined

/-- `mjs_pop_val`, mjs_core.c:370-378; `none` is the failed assert. -/
def popVal (s : List Val) : Option (Val × List Val) := s.getLast?.map fun v => (v, s.dropLast)

/-! ## The engine state -/

/-- `struct mjs_bcode_part`, mjs_core.h:89-109, without `in_rom`; `execRes` is `none` for `MJS_ERRS_CNT`. -/
structure Part where
  startIdx : Nat
  data : List UInt8
  execRes : Option Err := none

/-- `struct mjs`, mjs_core.h:111-139, without the buffers of the code generator, the FFI and JSON parts and the flags of
the garbage collector. -/
structure Vm where
  heap : Heap
  parts : List Part := []
  bcodeLen : Nat := 0
  stack : List Val := []
  callStack : List Val := []
  argStack : List Val := []
  scopes : List Val := []
  loopAddrs : List Val := []
  this : Val := mkUndefined
  lastGetprop : Val := 0#64
  error : Err := .ok
  msg : Option (List UInt8) := none
  /-- the answers the C allocator will give to the coming operations -/
  al : Nat → Allocs := fun _ => ⟨0, fun _ => none, none, none⟩

/-- The bytes of a C string literal. -/
def txt (s : String) : List UInt8 := s.toList.map fun c => UInt8.ofNat c.toNat

/-! ## Errors -/

/-- `mjs_set_errorf`, mjs_core.c:116-127.  `msg` is the formatted text; `none` when the format is NULL (or memory ran
out). -/
def setErrorf (vm : Vm) (err : Err) (msg : Option (List UInt8)) : Vm := { vm with error := err, msg := msg }

/-- `mjs_prepend_errorf`, mjs_core.c:129-155.  `new` is the formatted text (a C string, without its NUL), `none` if memory
ran out; `room` says whether memory for the joined text is found.  Result `none`: the assert of line 137 fails, or NULL is
formatted with `%s` in line 148. -/
def prependErrorf (vm : Vm) (err : Err) (new : Option (List UInt8)) (room : Bool := true) : Option Vm :=
  if err = .ok then none                                                            -- line 137
  else
    let e := if vm.error = .ok then err else vm.error                               -- lines 141-143
    match vm.msg with
    | some old => new.map fun n =>                                                  -- lines 147-150
        { vm with error := e, msg := if room then some (n ++ txt ": " ++ old) else none }
    | none => some { vm with error := e, msg := new }                               -- line 152

/-- The table of `mjs_strerror`, mjs_core.c:190-193. -/
def errName : Err → List UInt8
  | .ok => txt "NO_ERROR"
  | .syntax => txt "SYNTAX_ERROR"
  | .reference => txt "REFERENCE_ERROR"
  | .type => txt "TYPE_ERROR"
  | .outOfMemory => txt "OUT_OF_MEMORY"
  | .internal => txt "INTERNAL_ERROR"
  | .notImplemented => txt "NOT_IMPLEMENTED"
  | .fileRead => txt "FILE_OPEN_ERROR"
  | .badArgs => txt "BAD_ARGUMENTS"

/-- `mjs_strerror`, mjs_core.c:189-196. -/
def strerror (vm : Vm) (err : Err) : List UInt8 :=
  match vm.msg with
  | none => errName err
  | some [] => errName err
  | some (c :: m) => c :: m

/-! ## Data stack -/

/-- `mjs_push`, mjs_core.c:380-382. -/
def push (vm : Vm) (v : Val) : Vm := { vm with stack := vm.stack ++ [v] }

/-- `mjs_pop`, mjs_core.c:357-364. -/
def pop (vm : Vm) : Val × Vm :=
  match popVal vm.stack with
  | none => (mkUndefined, setErrorf vm .internal (some (txt "stack underflow")))
  | some (v, s) => (v, { vm with stack := s })

/-- `mjs_getretvalpos`, mjs_core.c:307-315; `none` for a failed assert. -/
def getretvalpos (vm : Vm) : Option Int := do
  let ppos ← at? vm.callStack (-1)
  if ¬ isNumber ppos then none
  else
    let pos := (BitVec.ofInt 32 (getInt ppos - 1)).toInt
    if pos < cInt vm.stack.length then some pos else none

/-- `mjs_nargs`, mjs_core.c:317-322. -/
def nargs (vm : Vm) : Option Int := do
  let top := cInt vm.stack.length
  let pos := (← getretvalpos vm) + 1
  some (if pos > 0 ∧ pos < top then top - pos else 0)

/-- `mjs_arg`, mjs_core.c:324-333. -/
def arg (vm : Vm) (i : Int) : Option Val := do
  let top := cInt vm.stack.length
  let pos := (← getretvalpos vm) + 1
  if pos > 0 ∧ pos + i < top then at? vm.stack (pos + i) else some mkUndefined

/-- `mjs_return`, mjs_core.c:335-340.  A position below 0 would make the buffer length wrap around: `none`. -/
def ret (vm : Vm) (v : Val) : Option Vm := do
  let pos ← getretvalpos vm
  if pos < 0 then none else some (push { vm with stack := vm.stack.take pos.toNat } v)

/-! ## Owned values -/

/-- `mjs->owned_values`: whether its `buf` is NULL (before the first successful append), and the pointers in it. -/
structure Owned where
  isNull : Bool := true
  ptrs : List Nat := []

/-- `mjs_own`, mjs_core.c:283-285; `room`: memory was found. -/
def own (o : Owned) (p : Nat) (room : Bool) : Owned :=
  if room then { isNull := false, ptrs := o.ptrs ++ [p] } else o

/-- The loop of `mjs_disown`, mjs_core.c:291-298, at the slots below `i`. -/
def disownLoop (ptrs : List Nat) (p : Nat) : Nat → Option (List Nat)
  | 0 => none
  | i + 1 =>
    if ptrs[i]? = some p then
      some ((ptrs.set i (ptrs.getLast?.getD 0)).dropLast)                           -- lines 293-295
    else disownLoop ptrs p i

/-- `mjs_disown`, mjs_core.c:287-301.  With a NULL buffer the first slot visited is at address -8, which is above NULL:
`none`. -/
def disown (o : Owned) (p : Nat) : Option (Owned × Bool) :=
  if o.isNull then none
  else match disownLoop o.ptrs p o.ptrs.length with
    | some l => some ({ o with ptrs := l }, true)
    | none => some (o, false)

end Mjs.Core
