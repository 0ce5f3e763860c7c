import Verif.Model.Core
import Verif.Model.Array
import Verif.Model.Convert
import Verif.Model.Varint
import Verif.Model.Tok

/-!
# Model of `src/mjs_exec.c`: the interpreter

What is outside the engine is a parameter (`Env`): the floating point unit, the texts of numbers, and the C functions a
script may call.  Garbage collection (mjs_exec.c:577-584), the stack trace text (line 976) and `cur_bcode_offset` (line
575) are left out.  Texts of error messages are those of the C code without addresses and numbers.  `none` is undefined
behaviour, a failed assert or an endless loop.
-/

namespace Mjs.Exec
open Mjs Mjs.Str Mjs.Obj Mjs.Core

/-- The world around the engine. -/
structure Env where
  /-- the text of a number (`mjs_to_string`, mjs_conversion.c:12-31, through `%lld` or `%f` of the C library; `Print.numText` on Linux) -/
  numText : Val → List UInt8
  /-- the double that `strtod` reads from a numeral -/
  numVal : List UInt8 → Val
  /-- `+`, `-`, `*`, `/` of the floating point unit -/
  add : Val → Val → Val
  sub : Val → Val → Val
  mul : Val → Val → Val
  div : Val → Val → Val
  /-- the C function at an address, called with the engine -/
  cfun : Nat → Vm → Option Vm
  /-- `mjs_ffi_call2` -/
  ffi : Vm → Option Vm
  /-- addresses of `mjs_string_char_code_at`, `mjs_string_index_of`, `mjs_string_slice`, `mjs_array_splice`,
  `mjs_array_push_internal`, `mjs_apply_` -/
  atFn : Nat
  indexOfFn : Nat
  sliceFn : Nat
  spliceFn : Nat
  pushFn : Nat
  applyFn : Nat

/-! ## Doubles -/

/-- The order of doubles that are not NaN, as integers (sign and magnitude). -/
def ordKey (d : Val) : Int := if 2 ^ 63 ≤ d.toNat then -((d.toNat - 2 ^ 63 : Nat) : Int) else d.toNat

/-- C's `a < b` on doubles. -/
def ltD (a b : Val) : Bool := !isnan a && !isnan b && decide (ordKey a < ordKey b)

/-- C's `a <= b` on doubles. -/
def leD (a b : Val) : Bool := !isnan a && !isnan b && decide (ordKey a ≤ ordKey b)

/-- C's `-a` on doubles. -/
def negD (a : Val) : Val := a ^^^ 0x8000000000000000#64

/-- `(int64_t) d`; outside of the range (undefined in C) what x86-64 computes. -/
def toI64 (d : Val) : Int :=
  if Spec.Double.Finite d ∧ -2 ^ 63 ≤ truncD d ∧ truncD d < 2 ^ 63 then truncD d else -2 ^ 63

/-- `(int) d`; outside of the range (undefined in C) what x86-64 computes. -/
def toI32 (d : Val) : Int :=
  if Spec.Double.Finite d ∧ -2 ^ 31 ≤ truncD d ∧ truncD d < 2 ^ 31 then truncD d else -2 ^ 31

/-- `(uint32_t) d`; outside of the range (undefined in C) what x86-64 computes. -/
def toU32 (d : Val) : Nat := (toI64 d % 2 ^ 32).toNat

/-- `(uintptr_t) d`; outside of the range (undefined in C) what x86-64 computes. -/
def toUptr (d : Val) : Val :=
  if Spec.Double.Finite d ∧ truncD d < 2 ^ 64 then
    (if -2 ^ 63 ≤ truncD d then BitVec.ofInt 64 (truncD d) else BitVec.ofNat 64 (2 ^ 63))
  else if Spec.Double.negative d then BitVec.ofNat 64 (2 ^ 63) else 0#64

/-- `do_arith_op`, mjs_exec.c:99-153, on the operator numbers of the tokenizer.  `some none` is `*resnan`; `none` is a shift
by a negative or too large count. -/
def doArith (E : Env) (op : Nat) (da db : Val) : Option (Option Val) :=
  if isnan da || isnan db then some none                                              -- lines 102-105
  else match op with
    | 14 => some (some (E.sub da db))                                                 -- TOK_MINUS
    | 13 => some (some (E.add da db))                                                 -- TOK_PLUS
    | 12 => some (some (E.mul da db))                                                 -- TOK_MUL
    | 15 => if neZero db then some (some (E.div da db)) else some none                -- TOK_DIV
    | 16 =>                                                                           -- TOK_REM
      let b := toI32 db
      if b ≠ 0 then
        let neg := ltD da 0#64
        let a := toI64 (if neg then negD da else da)
        let r := ofIntD (a.tmod (if b < 0 then -b else b))
        some (some (if neg then negD r else r))
      else some none
    | 17 => some (some (ofIntD (BitVec.ofInt 64 (toI64 da) &&& BitVec.ofInt 64 (toI64 db)).toInt))   -- TOK_AND
    | 18 => some (some (ofIntD (BitVec.ofInt 64 (toI64 da) ||| BitVec.ofInt 64 (toI64 db)).toInt))   -- TOK_OR
    | 19 => some (some (ofIntD (BitVec.ofInt 64 (toI64 da) ^^^ BitVec.ofInt 64 (toI64 db)).toInt))   -- TOK_XOR
    | 26 =>                                                                           -- TOK_LSHIFT
      if 0 ≤ toI64 db ∧ toI64 db < 64 then
        some (some (ofIntD (BitVec.ofInt 64 (toI64 da) <<< (toI64 db).toNat).toInt)) else none
    | 27 =>                                                                           -- TOK_RSHIFT
      if 0 ≤ toI64 db ∧ toI64 db < 64 then
        some (some (ofIntD ((BitVec.ofInt 64 (toI64 da)).sshiftRight (toI64 db).toNat).toInt)) else none
    | 48 =>                                                                           -- TOK_URSHIFT
      if toU32 db < 32 then some (some (ofIntD (toU32 da / 2 ^ toU32 db : Nat))) else none
    | _ => some none

/-! ## Heap operations of the engine -/

/-- `mjs_prepend_errorf` with a text that fits into memory. -/
def prepend (vm : Vm) (err : Err) (text : List UInt8) : Vm :=
  { vm with
    error := if vm.error = .ok then err else vm.error
    msg := some (match vm.msg with | some old => text ++ txt ": " ++ old | none => text) }

/-- The allocations of the next operation are used up. -/
def used (vm : Vm) (n : Nat := 1) : Vm := { vm with al := fun k => vm.al (k + n) }

/-- `mjs_mk_object`. -/
def mkObj (vm : Vm) : Option (Vm × Val) :=
  (mkObject vm.heap (vm.al 0)).map fun r => ({ used vm with heap := r.1 }, r.2)

/-- `mjs_mk_array`. -/
def mkArr (vm : Vm) : Option (Vm × Val) :=
  (mkArray vm.heap (vm.al 0)).map fun r => ({ used vm with heap := r.1 }, r.2)

/-- `mjs_mk_string(mjs, p, len, 1)`. -/
def mkStrP (vm : Vm) (p : Ptr) (len : Nat) : Option (Vm × Val) :=
  (mkStringCopy (vm.al 0).hr vm.heap.str p len (vm.al 0).strs).map fun r =>
    ({ used vm with heap := { vm.heap with str := r.1 } }, r.2)

/-- `mjs_mk_string` of bytes outside the engine's string memory (code, literals). -/
def mkStr (vm : Vm) (bs : List UInt8) : Option (Vm × Val) := mkStrP vm (.loc bs) bs.length

/-- The error `mjs_to_string` sets for a value without text, mjs_conversion.c:50-60. -/
def keyErr (E : Env) (vm : Vm) (key : Val) : Option Vm :=
  (toStr E.numText vm.heap.str key).map fun r =>
    match r with
    | some _ => vm
    | none => setErrorf vm .type (some (if isObject key then txt "conversion from object to string is not supported"
        else txt "unknown type to convert to string"))

/-- `mjs_get_v`, with the error of `mjs_to_string`. -/
def getVm (E : Env) (vm : Vm) (obj key : Val) : Option (Vm × Val) := do
  let vm1 ← keyErr E vm key
  let v ← getV E.numText vm1.heap obj key
  some (vm1, v)

/-- `mjs_set_v`, with the error of `mjs_to_string`; all callers in mjs_exec.c ignore the result. -/
def setVm (E : Env) (vm : Vm) (obj key val : Val) : Option Vm := do
  let vm1 ← keyErr E vm key
  let (h, _) ← setV E.numText vm1.heap obj key val (vm1.al 0)
  some { used vm1 with heap := h }

/-- `s_concat`. -/
def concat (vm : Vm) (a b : Val) : Option (Vm × Val) :=
  (sConcat (vm.al 0).hr vm.heap.str a b (vm.al 0).strs).map fun r =>
    ({ used vm with heap := { vm.heap with str := r.1 } }, r.2)

/-! ## Frames -/

/-- `i` as a `size_t`. -/
def wrap (i : Int) : Nat := (i % 2 ^ 64).toNat

/-- `stack.len = n * sizeof(mjs_val_t)`.  `none`: the stack would grow over values that are no longer there. -/
def setLen (s : List Val) (n : Nat) : Option (List Val) := if n ≤ s.length then some (s.take n) else none

/-- `call_stack_push_frame`, mjs_exec.c:30-48; `none` for the failed assert in `mjs_pop_val`. -/
def pushFrame (vm : Vm) (offset : Nat) (retIdx : Val) : Option Vm := do
  let (this, as) ← popVal vm.argStack
  some { vm with
    argStack := as
    this := this
    callStack := vm.callStack ++
      [vm.this, mkInt offset, mkInt vm.scopes.length, mkInt vm.loopAddrs.length, retIdx] }

/-- `call_stack_restore_frame`, mjs_exec.c:53-81: the return address. -/
def restoreFrame (vm : Vm) : Option (Vm × Nat) := do
  let (retv, c1) ← popVal vm.callStack
  let (loopv, c2) ← popVal c1
  let (scopev, c3) ← popVal c2
  let (addrv, c4) ← popVal c3
  let (this, c5) ← popVal c4
  let st ← setLen vm.stack (wrap (getInt retv))
  some ({ vm with
    callStack := c5
    this := this
    scopes := vm.scopes.take (wrap (getInt scopev))
    loopAddrs := vm.loopAddrs.take (wrap (getInt loopv))
    stack := st }, wrap (getInt addrv))

/-- `MJS_BCODE_OFFSET_EXIT`, mjs_core.h. -/
def offsetExit : Nat := 0x7fffffff

/-- `mjs_bcode_part_get_by_offset`, mjs_bcode.c:103-124, and the use of its result: the number of the part.  `none`: NULL, or
the failed assert. -/
def partIdx (vm : Vm) (offset : Nat) : Option Nat :=
  if offset ≥ vm.bcodeLen then none
  else vm.parts.findIdx? fun p => decide (offset < p.startIdx + p.data.length)

def partAt (vm : Vm) (offset : Nat) : Option Part := (partIdx vm offset).bind fun n => vm.parts[n]?

/-! ## Operators -/

/-- The innermost of the scopes (given innermost first) that has the key, mjs_exec.c:84-89. -/
def findIn (E : Env) (h : Heap) (key : Val) : List Val → Option (Option Val)
  | [] => some none
  | s :: r => (getOwnPropertyV E.numText h s key).bind fun p => if p ≠ 0 then some (some s) else findIn E h key r

/-- `mjs_find_scope`, mjs_exec.c:83-93.  The key is a name, so `mjs_get_cstring` has it. -/
def findScope (E : Env) (vm : Vm) (key : Val) : Option (Vm × Val) := do
  let vm1 ← keyErr E vm key
  let r ← findIn E vm1.heap key vm1.scopes.reverse
  match r with
  | some s => some (vm1, s)
  | none => do
    let bs ← strBytes vm1.heap.str key
    some (setErrorf vm1 .reference (some (txt "[" ++ bs ++ txt "] is not defined")), mkUndefined)

/-- `do_op`, mjs_exec.c:160-204.  The text of the error of `mjs_mk_foreign` is without the address. -/
def doOp (E : Env) (vm : Vm) (a b : Val) (op : Nat) : Option (Vm × Val) :=
  if (isForeign a || isNumber a) && (isForeign b || isNumber b) then do
    let vm1 :=
      if isForeign a && isForeign b then                                              -- lines 168-172
        (if op ≠ Tok.MINUS then prepend vm .type (txt "invalid operands") else vm)
      else if isForeign a || isForeign b then                                         -- lines 173-180
        (if op ≠ Tok.MINUS ∧ op ≠ Tok.PLUS then prepend vm .type (txt "invalid operands") else vm)
      else vm
    let isPtr := (isForeign a || isForeign b) && !(isForeign a && isForeign b)
    let da := if isNumber a then getDouble a else ofIntD (getPtr a).toNat
    let db := if isNumber b then getDouble b else ofIntD (getPtr b).toNat
    let r ← doArith E op da db
    match r with
    | none => some (vm1, tagNan)
    | some d =>
      if isPtr then
        let (f, bad) := mkForeign (toUptr d)
        some (if bad then prepend vm1 .type (txt "invalid pointer value") else vm1, f)
      else some (vm1, mkNumber d)
  else if isString a && isString b && op == Tok.PLUS then concat vm a b
  else some (prepend vm .type (txt "implicit type conversion is prohibited"), mkUndefined)

/-- What an operator number of `OP_EXPR` asks for: the `switch` of `exec_expr`, mjs_exec.c:243-434. -/
inductive ExprOp where
  | skip                        -- no effect
  | arith (op : Nat)            -- two operands
  | neg | not | tilda
  | useTriple (ne : Bool)       -- `==`, `!=`
  | equal (ne : Bool)           -- `===`, `!==`
  | less (swap eq : Bool)       -- `<` `<=`, swapped `>` `>=`
  | assign
  | incr (post : Bool) (op : Nat)
  | opAssign (op : Nat)
  | typeof
deriving DecidableEq

def classify : Nat → ExprOp
  | 14 => .arith 14 | 13 => .arith 13 | 12 => .arith 12 | 15 => .arith 15 | 16 => .arith 16 | 19 => .arith 19
  | 17 => .arith 17 | 18 => .arith 18 | 26 => .arith 26 | 27 => .arith 27 | 48 => .arith 48
  | 51 => .neg | 22 => .not | 23 => .tilda
  | 38 => .useTriple false | 39 => .useTriple true
  | 44 => .equal false | 45 => .equal true
  | 24 => .less false false | 25 => .less true false | 40 => .less false true | 41 => .less true true
  | 5 => .assign
  | 52 => .incr true 13 | 53 => .incr true 14 | 28 => .incr false 14 | 29 => .incr false 13
  | 31 => .opAssign 14 | 30 => .opAssign 13 | 32 => .opAssign 12 | 33 => .opAssign 15 | 36 => .opAssign 16
  | 34 => .opAssign 17 | 35 => .opAssign 18 | 37 => .opAssign 19 | 46 => .opAssign 26 | 47 => .opAssign 27
  | 49 => .opAssign 48
  | 227 => .typeof
  | _ => .skip                  -- TOK_DOT, TOK_UNARY_PLUS, TOK_COMMA, and unknown numbers (only logged)

/-- `mjs_stringify_type`, mjs_util.c:22-45. -/
def typeName : Ty → List UInt8
  | .number => txt "number"
  | .boolean => txt "boolean"
  | .string => txt "string"
  | .objectArray => txt "array"
  | .objectGeneric => txt "object"
  | .foreign => txt "foreign_ptr"
  | .objectFunction => txt "function"
  | .null => txt "null"
  | .undefined => txt "undefined"

/-- The text of an invalid operand, mjs_exec.c:350, 362, 374, 386. -/
def incrText (op : Nat) : List UInt8 :=
  if op = Tok.PLUS then txt "invalid operand for ++" else txt "invalid operand for --"

/-- `case TOK_ASSIGN`, mjs_exec.c:308-340, after the operands are popped: the value to be pushed. -/
def assign (E : Env) (vm : Vm) (val obj key : Val) : Option (Vm × Val) :=
  if isObject obj then (setVm E vm obj key val).map fun vm1 => (vm1, val)
  else if isForeign obj then
    if ¬ isNumber key then some (prepend vm .type (txt "index must be a number"), mkUndefined)
    else if ¬ isNumber val ∨ getInt val < 0 ∨ getInt val > 0xff then
      some (prepend vm .type (txt "only number 0 .. 255 can be assigned"), mkUndefined)
    else
      let a := wrap ((getPtr obj).toNat + getInt key)
      if (vm.heap.str.cmem a).isSome then                                             -- the byte is there
        some ({ vm with heap := { vm.heap with str := { vm.heap.str with
          cmem := fun b => if b = a then some (UInt8.ofNat (getInt val).toNat) else vm.heap.str.cmem b } } }, val)
      else none
  else some (prepend vm .type (txt "unsupported object type"), val)

/-- `v = obj[key] op val`, stored back: mjs_exec.c:211-213, 343-346 and the like: the old and the new value. -/
def update (E : Env) (vm : Vm) (obj key val : Val) (op : Nat) : Option (Vm × Val × Val) := do
  let (vm, v) ← getVm E vm obj key
  let (vm, v1) ← doOp E vm v val op
  let vm ← setVm E vm obj key v1
  some (vm, v, v1)

/-- `++` and `--`, mjs_exec.c:341-388, after the operands are popped; without a result nothing is pushed. -/
def incr (E : Env) (vm : Vm) (post : Bool) (op : Nat) (obj key : Val) : Option (Vm × Option Val) :=
  if isObject obj && isString key then
    (update E vm obj key (mkInt 1) op).map fun (vm, v, v1) => (vm, some (if post then v else v1))
  else some (setErrorf vm .type (some (incrText op)), none)

/-- `op_assign`, mjs_exec.c:206-217, after the operands are popped: it pushes the old value. -/
def opAssign (E : Env) (vm : Vm) (op : Nat) (val obj key : Val) : Option (Vm × Option Val) :=
  if isObject obj && isString key then
    (update E vm obj key val op).map fun (vm, v, _) => (vm, some v)
  else some (setErrorf vm .type (some (txt "invalid operand")), none)

/-- Push a result if there is one. -/
def pushOpt (r : Vm × Option Val) : Vm :=
  match r.2 with
  | some v => push r.1 v
  | none => r.1

/-- `exec_expr`, mjs_exec.c:243-434, and `op_assign`, mjs_exec.c:206-217. -/
def execExpr (E : Env) (vm : Vm) (op : Nat) : Option Vm :=
  match classify op with
  | .skip => some vm
  | .arith op =>
    let (b, vm) := pop vm
    let (a, vm) := pop vm
    (doOp E vm a b op).map fun r => push r.1 r.2
  | .neg => let (a, vm) := pop vm; some (push vm (mkNumber (negD (getDouble a))))
  | .not => let (a, vm) := pop vm; (isTruthy vm.heap.str a).map fun b => push vm (mkBoolean !b)
  | .tilda => let (a, vm) := pop vm; some (push vm (mkNumber (ofIntD (-toI64 (getDouble a) - 1))))
  | .useTriple ne => some (setErrorf vm .notImplemented
      (some (if ne then txt "Use !==, not !=" else txt "Use ===, not ==")))
  | .equal ne =>
    let (a, vm) := pop vm
    let (b, vm) := pop vm
    (checkEqual vm.heap.str a b).map fun r => push vm (mkBoolean (if ne then !r else r))
  | .less swap eq =>
    let (b, vm) := pop vm
    let (a, vm) := pop vm
    let (x, y) := if swap then (b, a) else (a, b)
    some (push vm (mkBoolean (if eq then leD (getDouble x) (getDouble y) else ltD (getDouble x) (getDouble y))))
  | .assign =>
    let (val, vm) := pop vm
    let (obj, vm) := pop vm
    let (key, vm) := pop vm
    (assign E vm val obj key).map fun r => push r.1 r.2
  | .incr post op =>
    let (obj, vm) := pop vm
    let (key, vm) := pop vm
    (incr E vm post op obj key).map pushOpt
  | .opAssign op =>
    let (val, vm) := pop vm
    let (obj, vm) := pop vm
    let (key, vm) := pop vm
    (opAssign E vm op val obj key).map pushOpt
  | .typeof =>
    let (a, vm) := pop vm
    (getType a).bind fun t => (mkStr vm (typeName t)).map fun r => push r.1 r.2

/-! ## Property access -/

/-- The bytes of a key as C string functions see them. -/
def cstr (bs : List UInt8) : List UInt8 := bs.takeWhile (· ≠ 0)

/-- `cstr_to_ulong`, mjs_string.c:230-239, on a terminated text: the number and `ok`. -/
def cstrToUlong (bs : List UInt8) : Option (Nat × Bool) :=
  (Arr.strtoul fun i => if i < bs.length then bs[i]? else if i = bs.length then some 0 else none).map fun (n, e) =>
    (n, e == bs.length && bs.length != 0)

/-- A C function as a value (`mjs_mk_foreign_func`); function addresses are always representable. -/
def mkFn (a : Nat) : Val := (mkForeign (BitVec.ofNat 64 a)).1

/-- `getprop_builtin_string`, mjs_exec.c:436-471. -/
def builtinString (E : Env) (vm : Vm) (val : Val) (bs : List UInt8) : Option (Vm × Option Val) := do
  let (n, isnum) ← cstrToUlong bs
  let idx := cInt n
  let (p, len) ← getString vm.heap.str val
  if cstr bs = txt "length" then some (vm, some (mkInt len))
  else if cstr bs = txt "at" ∨ cstr bs = txt "charCodeAt" then some (vm, some (mkFn E.atFn))
  else if cstr bs = txt "indexOf" then some (vm, some (mkFn E.indexOfFn))
  else if cstr bs = txt "slice" then some (vm, some (mkFn E.sliceFn))
  else if isnum then
    (if idx ≥ 0 ∧ idx < cInt len then (mkStrP vm (p.add idx.toNat) 1).map fun r => (r.1, some r.2)
     else some (vm, some mkUndefined))
  else some (vm, none)

/-- `getprop_builtin_array`, mjs_exec.c:473-490. -/
def builtinArray (E : Env) (vm : Vm) (val : Val) (bs : List UInt8) : Option (Vm × Option Val) :=
  if cstr bs = txt "splice" then some (vm, some (mkFn E.spliceFn))
  else if cstr bs = txt "push" then some (vm, some (mkFn E.pushFn))
  else if cstr bs = txt "length" then (Arr.length vm.heap val).map fun n => (vm, some (mkInt n))
  else some (vm, none)

/-- `getprop_builtin_foreign`, mjs_exec.c:492-505. -/
def builtinForeign (vm : Vm) (val : Val) (bs : List UInt8) : Option (Vm × Option Val) := do
  let (n, isnum) ← cstrToUlong bs
  if ¬ isnum then some (prepend vm .type (txt "index must be a number"), some mkUndefined)
  else (vm.heap.str.cmem (wrap ((getPtr val).toNat + cInt n))).map fun b => (vm, some (mkInt b.toNat))

/-- `getprop_builtin`, mjs_exec.c:521-548; `none` in the result is "not handled". -/
def builtin (E : Env) (vm : Vm) (val name : Val) : Option (Vm × Option Val) := do
  let vm1 ← keyErr E vm name
  let r ← toStr E.numText vm1.heap.str name
  match r with
  | none => some (vm1, none)
  | some (p, n) => do
    let bs ← load vm1.heap.str.cmem vm1.heap.str.owned p n
    if isString val then builtinString E vm1 val bs
    else if bs = txt "apply" then some (vm1, some (mkFn E.applyFn))
    else if isArray val then builtinArray E vm1 val bs
    else if isForeign val then builtinForeign vm1 val bs
    else some (vm1, none)

/-- The value fetched by `OP_GET`, mjs_exec.c:676-684. -/
def getProp (E : Env) (vm : Vm) (obj key : Val) : Option (Vm × Val) := do
  let (vm1, r) ← builtin E vm obj key
  match r with
  | some v => some (vm1, v)
  | none =>
    if isObject obj then (getVProto E.numText vm1.heap obj key).map fun v => (vm1, v)
    else some (prepend vm1 .type (txt "type error"), mkUndefined)

/-! ## The machine -/

/-- The opcodes: `enum mjs_opcode`, mjs_bcode.h. -/
abbrev NOP : UInt8 := 0
abbrev DROP : UInt8 := 1
abbrev DUP : UInt8 := 2
abbrev SWAP : UInt8 := 3
abbrev JMP : UInt8 := 4
abbrev JMP_TRUE : UInt8 := 5
abbrev JMP_NEUTRAL_TRUE : UInt8 := 6
abbrev JMP_FALSE : UInt8 := 7
abbrev JMP_NEUTRAL_FALSE : UInt8 := 8
abbrev FIND_SCOPE : UInt8 := 9
abbrev PUSH_SCOPE : UInt8 := 10
abbrev PUSH_STR : UInt8 := 11
abbrev PUSH_TRUE : UInt8 := 12
abbrev PUSH_FALSE : UInt8 := 13
abbrev PUSH_INT : UInt8 := 14
abbrev PUSH_DBL : UInt8 := 15
abbrev PUSH_NULL : UInt8 := 16
abbrev PUSH_UNDEF : UInt8 := 17
abbrev PUSH_OBJ : UInt8 := 18
abbrev PUSH_ARRAY : UInt8 := 19
abbrev PUSH_FUNC : UInt8 := 20
abbrev PUSH_THIS : UInt8 := 21
abbrev GET : UInt8 := 22
abbrev CREATE : UInt8 := 23
abbrev EXPR : UInt8 := 24
abbrev APPEND : UInt8 := 25
abbrev SET_ARG : UInt8 := 26
abbrev NEW_SCOPE : UInt8 := 27
abbrev DEL_SCOPE : UInt8 := 28
abbrev CALL : UInt8 := 29
abbrev RETURN : UInt8 := 30
abbrev LOOP : UInt8 := 31
abbrev BREAK : UInt8 := 32
abbrev CONTINUE : UInt8 := 33
abbrev SETRETVAL : UInt8 := 34
abbrev EXIT : UInt8 := 35
abbrev BCODE_HEADER : UInt8 := 36
abbrev ARGS : UInt8 := 37
abbrev FOR_IN_NEXT : UInt8 := 38
abbrev OP_MAX : UInt8 := 39

/-- The local variables of `mjs_execute`, with the engine. -/
structure Mach where
  vm : Vm
  /-- the copy of the part being executed -/
  bp : Part
  i : Nat
  /-- `opcode`: the last opcode executed -/
  op : UInt8 := OP_MAX

/-- What an instruction leads to: the next round of the loop, or `goto clean`. -/
inductive Next where
  | go (m : Mach)
  | clean (vm : Vm)

/-- `cs_varint_decode_unsafe(&code[at], &llen)`: number and length. -/
def operand (code : List UInt8) (at_ : Nat) : Option (Nat × Nat) :=
  match Varint.decodeUnsafe (code.drop at_) with
  | .ok n l => some (n, l)
  | _ => none

/-- `n` bytes of the code; `none` beyond its end. -/
def bytesAt (code : List UInt8) (at_ n : Nat) : Option (List UInt8) :=
  if at_ + n ≤ code.length then some ((code.drop at_).take n) else none

/-- A number of bytes that was decoded into an `int`. -/
def sizeOfInt (n : Nat) : Option Nat := if 0 ≤ cInt n then some (cInt n).toNat else none

/-- `OP_CALL`, mjs_exec.c:827-873. -/
def call (E : Env) (m : Mach) : Option Mach := do
  let vm := m.vm
  let retIdx := vtop vm.argStack
  let pos ← vptr vm.stack (getInt retIdx - 1)
  let func ← vm.stack[pos]?
  let (_, as) ← popVal vm.argStack
  let vm := { vm with argStack := as }
  if isFunction func then do
    let vm ← pushFrame vm (m.bp.startIdx + m.i) retIdx
    let off := wrap ((getFuncAddr func).toNat - 1 : Int)
    let bp ← partAt vm off
    some { m with vm := { vm with stack := vm.stack.set pos mkUndefined }, bp := bp, i := wrap ((off : Int) - bp.startIdx) }
  else if isString func || isFfiSig func then do
    let vm ← pushFrame vm (m.bp.startIdx + m.i) retIdx
    let vm ← E.ffi vm
    let (vm, _) ← restoreFrame vm
    some { m with vm := vm }
  else if isForeign func then do
    let vm ← pushFrame vm (m.bp.startIdx + m.i) retIdx
    let vm ← E.cfun (getPtr func).toNat vm
    let (vm, _) ← restoreFrame vm
    some { m with vm := vm }
  else some { m with vm := setErrorf vm .type (some (txt "calling non-callable")) }

/-- `OP_CREATE`, mjs_exec.c:653-660, after the operands are popped. -/
def createIn (E : Env) (vm : Vm) (obj key : Val) : Option Vm := do
  let vm ← keyErr E vm key
  let p ← getOwnPropertyV E.numText vm.heap obj key
  if p = 0 then setVm E vm obj key mkUndefined else some vm

/-- `OP_APPEND`, mjs_exec.c:661-669, after the operands are popped. -/
def append (vm : Vm) (arr val : Val) : Option Vm := do
  let (h, err) ← Arr.push vm.heap arr val (vm.al 0)
  let vm := { used vm with heap := h }
  some (if err ≠ .ok then setErrorf vm .type (some (txt "append to non-array")) else vm)

/-- One round of `for .. in`, mjs_exec.c:767-778: the next key is assigned to the variable; the new iterator. -/
def forInStep (E : Env) (vm : Vm) (var obj iter : Val) : Option (Vm × Val) :=
  if isObject obj then do
    let (key, it) ← Obj.next vm.heap obj iter
    if key ≠ mkUndefined then do
      let (vm, scope) ← findScope E vm var
      let vm ← setVm E vm scope var key
      some (vm, it)
    else some (vm, it)
  else some (setErrorf vm .type (some (txt "can't iterate over non-object value")), iter)

/-- `OP_FOR_IN_NEXT`, mjs_exec.c:758-783. -/
def forInNext (E : Env) (vm : Vm) : Option Vm := do
  let pos ← vptr vm.stack (-1)
  let iter ← vm.stack[pos]?
  let obj ← at? vm.stack (-2)
  let var ← if isObject obj then at? vm.stack (-3) else some mkUndefined
  let (vm, it) ← forInStep E vm var obj iter
  some { vm with stack := vm.stack.set pos it }

/-- `OP_SETRETVAL`, mjs_exec.c:886-898. -/
def setRetval (vm : Vm) : Option Vm :=
  if vm.callStack.length < 5 then some (setErrorf vm .internal (some (txt "cannot return")))
  else do
    let rp ← at? vm.callStack (-1)
    let (v, vm) := pop vm
    let pos ← vptr vm.stack (BitVec.ofInt 32 (getInt rp - 1)).toInt
    some { vm with stack := vm.stack.set pos v }

/-- `OP_SET_ARG`, mjs_exec.c:874-885. -/
def setArg (E : Env) (m : Mach) : Option Mach := do
  let (argNo, l1) ← operand m.bp.data (m.i + 1)
  let (n, l2) ← operand m.bp.data (m.i + l1 + 1)
  let n ← sizeOfInt n
  let bs ← bytesAt m.bp.data (m.i + 1 + l1 + l2) n
  let (vm, key) ← mkStr m.vm bs
  let v ← arg vm (cInt argNo)
  let vm ← setVm E vm (vtop vm.scopes) key v
  some { m with vm := vm, i := m.i + l1 + l2 + n }

/-- The `switch` over opcodes, mjs_exec.c:592-973; `m.i` is the index of the opcode, and of the last byte of the
instruction (or of the byte before the jump target) in the result.  `prev` is the opcode executed before. -/
def execOp (E : Env) (m : Mach) (prev : UInt8) : Option Next :=
  let vm := m.vm
  let code := m.bp.data
  let go (vm : Vm) : Option Next := some (.go { m with vm := vm })
  match m.op.toNat with
  | 36 => do                                                                          -- OP_BCODE_HEADER
    let bs ← bytesAt code (m.i + 1 + 4) 4
    some (.go { m with i := m.i + packLE bs })
  | 16 => go (push vm mkNull)
  | 17 => go (push vm mkUndefined)
  | 13 => go (push vm (mkBoolean false))
  | 12 => go (push vm (mkBoolean true))
  | 18 => do                                                                          -- OP_PUSH_OBJ
    let (vm, v) ← mkObj vm
    go (push vm v)
  | 19 => do                                                                          -- OP_PUSH_ARRAY
    let (vm, v) ← mkArr vm
    go (push vm v)
  | 20 => do                                                                          -- OP_PUSH_FUNC
    let (n, l) ← operand code (m.i + 1)
    some (.go { m with
      vm := push vm (mkFunction (BitVec.ofInt 64 ((m.bp.startIdx : Int) + m.i - cInt n))), i := m.i + l })
  | 21 => go (push vm vm.this)
  | 4 => do                                                                           -- OP_JMP
    let (n, l) ← operand code (m.i + 1)
    some (.go { m with i := wrap ((m.i : Int) + cInt n + l) })
  | 7 => do                                                                           -- OP_JMP_FALSE
    let (n, l) ← operand code (m.i + 1)
    let (v, vm) := pop vm
    let b ← isTruthy vm.heap.str v
    if ¬ b then some (.go { m with vm := push vm mkUndefined, i := wrap ((m.i : Int) + l + cInt n) })
    else some (.go { m with vm := vm, i := m.i + l })
  | 6 => do                                                                           -- OP_JMP_NEUTRAL_TRUE
    let (n, l) ← operand code (m.i + 1)
    let b ← isTruthy vm.heap.str (vtop vm.stack)
    if b then some (.go { m with i := wrap ((m.i : Int) + l + cInt n) }) else some (.go { m with i := m.i + l })
  | 8 => do                                                                           -- OP_JMP_NEUTRAL_FALSE
    let (n, l) ← operand code (m.i + 1)
    let b ← isTruthy vm.heap.str (vtop vm.stack)
    if ¬ b then some (.go { m with i := wrap ((m.i : Int) + l + cInt n) }) else some (.go { m with i := m.i + l })
  | 9 => do                                                                           -- OP_FIND_SCOPE
    let (vm, s) ← findScope E vm (vtop vm.stack)
    go (push vm s)
  | 23 => do                                                                          -- OP_CREATE
    let (obj, vm) := pop vm
    let (key, vm) := pop vm
    let vm ← createIn E vm obj key
    go vm
  | 25 => do                                                                          -- OP_APPEND
    let (val, vm) := pop vm
    let (arr, vm) := pop vm
    let vm ← append vm arr val
    go vm
  | 22 => do                                                                          -- OP_GET
    let (obj, vm) := pop vm
    let (key, vm) := pop vm
    let (vm, v) ← getProp E vm obj key
    go { push vm v with lastGetprop := if prev ≠ FIND_SCOPE then obj else mkUndefined }
  | 28 =>                                                                             -- OP_DEL_SCOPE
    if 8 * vm.scopes.length ≤ 1 then go (setErrorf vm .internal (some (txt "scopes underflow")))
    else go { vm with scopes := vm.scopes.dropLast }
  | 27 => do                                                                          -- OP_NEW_SCOPE
    let (vm, v) ← mkObj vm
    go { vm with scopes := vm.scopes ++ [v] }
  | 10 => if vm.scopes.length > 0 then go (push vm (vtop vm.scopes)) else none         -- OP_PUSH_SCOPE
  | 11 => do                                                                          -- OP_PUSH_STR
    let (n, l) ← operand code (m.i + 1)
    let n ← sizeOfInt n
    let bs ← bytesAt code (m.i + 1 + l) n
    let (vm, v) ← mkStr vm bs
    some (.go { m with vm := push vm v, i := m.i + l + n })
  | 14 => do                                                                          -- OP_PUSH_INT
    let (n, l) ← operand code (m.i + 1)
    some (.go { m with vm := push vm (mkInt (BitVec.ofNat 64 n).toInt), i := m.i + l })
  | 15 => do                                                                          -- OP_PUSH_DBL
    let (n, l) ← operand code (m.i + 1)
    let rest := code.drop (m.i + 1 + l)
    some (.go { m with
      vm := push vm (mkNumber (E.numVal (rest.take (Tok.strtodLen rest)))), i := wrap ((m.i : Int) + l + cInt n) })
  | 38 => do                                                                          -- OP_FOR_IN_NEXT
    let vm ← forInNext E vm
    go vm
  | 30 => do                                                                          -- OP_RETURN
    let (vm, off) ← restoreFrame vm
    if off ≠ offsetExit then do
      let bp ← partAt vm off
      some (.go { m with vm := vm, bp := bp, i := wrap ((off : Int) - bp.startIdx) })
    else some (.clean vm)
  | 37 =>                                                                             -- OP_ARGS
    let vm := if prev ≠ GET then { vm with lastGetprop := mkUndefined } else vm
    go { vm with argStack := vm.argStack ++ [vm.lastGetprop, mkInt vm.stack.length] }
  | 29 => (call E m).map .go                                                          -- OP_CALL
  | 26 => (setArg E m).map .go                                                        -- OP_SET_ARG
  | 34 => do                                                                          -- OP_SETRETVAL
    let vm ← setRetval vm
    go vm
  | 24 => do                                                                          -- OP_EXPR
    let op ← code[m.i + 1]?
    let vm ← execExpr E vm op.toNat
    some (.go { m with vm := vm, i := m.i + 1 })
  | 1 => go (pop vm).2                                                                -- OP_DROP
  | 2 => go (push vm (vtop vm.stack))                                                 -- OP_DUP
  | 3 =>                                                                              -- OP_SWAP
    let (a, vm) := pop vm
    let (b, vm) := pop vm
    go (push (push vm a) b)
  | 31 => do                                                                          -- OP_LOOP
    let (o1, l1) ← operand code (m.i + 1)
    let (o2, l2) ← operand code (m.i + 1 + l1)
    some (.go { m with
      vm := { vm with loopAddrs := vm.loopAddrs ++
        [mkInt vm.scopes.length, mkInt (wrap ((m.i : Int) + 1 + l1 + cInt o1)),
         mkInt (wrap ((m.i : Int) + 1 + l1 + l2 + cInt o2))] },
      i := m.i + l1 + l2 })
  | 33 =>                                                                             -- OP_CONTINUE
    if vm.loopAddrs.length ≥ 3 then do
      let sv ← at? vm.loopAddrs (-3)
      let sc ← setLen vm.scopes (wrap (getInt sv))
      some (.go { m with vm := { vm with scopes := sc }, i := wrap (getInt (vtop vm.loopAddrs) - 1) })
    else go (setErrorf vm .syntax (some (txt "misplaced 'continue'")))
  | 32 =>                                                                             -- OP_BREAK
    if vm.loopAddrs.length ≥ 3 then do
      let (_, l1) ← popVal vm.loopAddrs
      let (bv, l2) ← popVal l1
      let (sv, l3) ← popVal l2
      let sc ← setLen vm.scopes (wrap (getInt sv))
      some (.go { m with vm := { vm with scopes := sc, loopAddrs := l3 }, i := wrap (getInt bv - 1) })
    else go (setErrorf vm .syntax (some (txt "misplaced 'break'")))
  | 0 => go vm                                                                        -- OP_NOP
  | 35 => some (.go { m with i := code.length })                                      -- OP_EXIT
  | _ => some (.go { m with                                                           -- unknown, and OP_JMP_TRUE
      vm := setErrorf vm .internal (some (txt "Unknown opcode")), i := code.length })

/-- The stack lengths `mjs_execute` remembers, mjs_exec.c:558-562. -/
structure Saved where
  stack : Nat
  callStack : Nat
  argStack : Nat
  scopes : Nat
  loopAddrs : Nat

def save (vm : Vm) : Saved :=
  ⟨vm.stack.length, vm.callStack.length, vm.argStack.length, vm.scopes.length, vm.loopAddrs.length⟩

/-- What happens after an instruction that set an error, mjs_exec.c:975-988. -/
def unwind (s : Saved) (vm : Vm) : Option Vm := do
  let a ← setLen vm.stack s.stack
  let b ← setLen vm.callStack s.callStack
  let c ← setLen vm.argStack s.argStack
  let d ← setLen vm.scopes s.scopes
  let e ← setLen vm.loopAddrs s.loopAddrs
  some (push { vm with stack := a, callStack := b, argStack := c, scopes := d, loopAddrs := e } mkUndefined)

/-- The loop of `mjs_execute`, mjs_exec.c:574-990. -/
def loop (E : Env) (s : Saved) (m : Mach) : Option Vm :=
  if m.i < m.bp.data.length then do
    let op ← m.bp.data[m.i]?
    let r ← execOp E { m with op := op } m.op
    match r with
    | .clean vm => some vm
    | .go m' => if m'.vm.error ≠ .ok then unwind s m'.vm else loop E s { m' with i := wrap ((m'.i : Int) + 1) }
  else some m.vm
partial_fixpoint

/-- `mjs_execute`, mjs_exec.c:550-993: the value of `*res`; the result code is the error of the engine. -/
def execute (E : Env) (vm : Vm) (off : Nat) : Option (Vm × Val) := do
  let bp ← partAt vm off
  let vm1 ← loop E (save vm) { vm := setErrorf vm .ok none, bp := bp, i := wrap ((off : Int) - bp.startIdx) }
  let n ← partIdx vm1 off
  let part ← vm1.parts[n]?
  let (r, vm2) := pop { vm1 with parts := vm1.parts.set n { part with execRes := some vm1.error } }
  some (vm2, r)

/-- `mjs_exec_internal`, mjs_exec.c:995-1077, once the code `data` of the source has been generated and committed; without
the `.jsc` files. -/
def execCode (E : Env) (vm : Vm) : Option (Vm × Val) := execute E vm vm.bcodeLen

/-- `mjs_apply`, mjs_exec.c:1122-1179.  Result: the value of `*res` and the result code.  `resp` (line 1137) points into the
buffer of the data stack; `moved` says whether that buffer was reallocated before line 1157 or 1160 reads it. -/
def apply (E : Env) (vm : Vm) (func this : Val) (args : List Val) (moved : Bool := false) : Option (Vm × Option Val × Err) :=
  if ¬ isFunction func ∧ ¬ isForeign func ∧ ¬ isFfiSig func then
    some (setErrorf vm .type (some (txt "calling non-callable")), none, .type)
  else do
    let prevThis := vm.this
    let pos := vm.stack.length
    let vm1 := { vm with stack := vm.stack ++ [func] ++ args, argStack := vm.argStack ++ [this] }
    let vm2 ← pushFrame vm1 offsetExit (mkInt (pos + 1 : Nat))
    let (vm3, r) ←
      (if isForeign func then do
        let v ← E.cfun (getPtr func).toNat vm2
        if moved then none else (v.stack[pos]?).map fun x => (v, x)
      else if isFfiSig func then do
        let v ← E.ffi vm2
        if moved then none else (v.stack[pos]?).map fun x => (v, x)
      else execute E vm2 (getFuncAddr func).toNat)
    let vm4 ← (if vm3.error ≠ .ok then (restoreFrame vm3).map fun x => (pop x.1).2 else some vm3)
    some ({ vm4 with this := prevThis }, some r, vm4.error)

end Mjs.Exec
