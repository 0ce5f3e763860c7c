import Verif.Model.Ffi
import Verif.Model.Num

/-!
# Model of calls through FFI: `src/mjs_ffi.c` (calls and callbacks) and `src/ffi/ffi.c`

What is passed to a C function is a list of arguments, each in the class (word, double, float) of the C function type
the call is made through.  Pointers that the engine makes are kept symbolic (`Cell`).  What the C function does is not
modelled: a call ends at the C function, and `toJs` says what becomes of its result.  Error messages are left out.
-/

namespace Mjs.Ffi

/-- The content of the union in `struct ffi_arg`, ffi.h:36-42: 64 bits, or a pointer that the engine made: to the text of
a string (`mjs_get_string`), to a `struct mg_str` for a string, to a function, to a registration of a callback. -/
inductive Cell where
  | bits (b : BitVec 64) | text (v : Val) | mgText (v : Val) | code (f : Fn) | reg (id : Nat)
deriving DecidableEq

/-- `enum ffi_ctype`, ffi.h:27-32. -/
inductive FfiType where
  | word | bool | float | double
deriving DecidableEq

/-- `struct ffi_arg`, ffi.h:34-42. -/
structure Arg where
  ctype : FfiType
  v : Cell

/-- An argument of a C call with the class that the type of the function expression gives it: `W`, `D` and `F` of
ffi.c:12-14. -/
inductive Passed where
  | word (c : Cell) | double (c : Cell) | float (c : Cell)
deriving DecidableEq

/-- `IS_D`, ffi.c:9. -/
def isD (a : Arg) : Bool := a.ctype == .double
/-- `IS_F`, ffi.c:10. -/
def isF (a : Arg) : Bool := a.ctype == .float
/-- `IS_W`, ffi.c:8. -/
def isW (a : Arg) : Bool := a.ctype == .word

/-- The call with word arguments only, ffi.c:190-203 (and 312-325, 433-446, 504-517). -/
def wordCall (nargs : Nat) (a : Nat → Arg) : Except Stop (Option (List Passed)) :=
  let w i := Passed.word (a i).v
  if nargs ≤ 4 then .ok (some [w 0, w 1, w 2, w 3])
  else if nargs = 5 then .ok (some [w 0, w 1, w 2, w 3, w 4])
  else if nargs = 6 then .ok (some [w 0, w 1, w 2, w 3, w 4, w 5])
  else .error .abort

/-- The call with at least one argument of class `x` (double or float, recognised by `is`), ffi.c:205-251 for floats and
253-300 for doubles (and 327-373, 375-422, 448-495, 519-567).  `none`: `return -1`. -/
def fpCall (is : Arg → Bool) (x : Cell → Passed) (nargs : Nat) (a : Nat → Arg) : Except Stop (Option (List Passed)) :=
  let w i := Passed.word (a i).v
  let x i := x (a i).v
  if nargs ≤ 2 then
    if is (a 0) && is (a 1) then .ok (some [x 0, x 1])
    else if is (a 0) then .ok (some [x 0, w 1])
    else .ok (some [w 0, x 1])
  else if nargs = 3 then
    if isW (a 0) && isW (a 1) && is (a 2) then .ok (some [w 0, w 1, x 2])
    else if isW (a 0) && is (a 1) && isW (a 2) then .ok (some [w 0, x 1, w 2])
    else if isW (a 0) && is (a 1) && is (a 2) then .ok (some [w 0, x 1, x 2])
    else if is (a 0) && isW (a 1) && isW (a 2) then .ok (some [x 0, w 1, w 2])
    else if is (a 0) && isW (a 1) && is (a 2) then .ok (some [x 0, w 1, x 2])
    else if is (a 0) && is (a 1) && isW (a 2) then .ok (some [x 0, x 1, w 2])
    else if is (a 0) && is (a 1) && is (a 2) then .ok (some [x 0, x 1, x 2])
    else .error .abort
  else .ok none

/-- `ffi_call`, ffi.c:168-573: what it passes to the function, or `none` if it returns -1 without calling. -/
def ffiCall (res : FfiType) (nargs : Nat) (a : Nat → Arg) : Except Stop (Option (List Passed)) :=
  if nargs > 6 then .ok none
  else
    let doubles := ((List.range nargs).filter fun i => isD (a i)).length
    let floats := ((List.range nargs).filter fun i => isF (a i)).length
    if doubles > 0 ∧ floats > 0 then .ok none
    else
      match res with
      | .word | .bool =>
        if doubles = 0 then
          if floats = 0 then wordCall nargs a else fpCall isF .float nargs a
        else fpCall isD .double nargs a
      | .double => if doubles = 0 then wordCall nargs a else fpCall isD .double nargs a
      | .float => if floats = 0 then wordCall nargs a else fpCall isF .float nargs a

/-- The conversions between `double` and `float` of the C compiler. -/
structure Fpu where
  narrow : BitVec 64 → BitVec 32
  widen : BitVec 32 → BitVec 64

/-- `struct mjs_ffi_cb_args`, mjs_ffi.h:114-120, without the link and the engine; `id` is its address. -/
structure Node where
  id : Nat
  sig : Sig
  func : Val
  userdata : Val

/-- `ffi_get_matching`, mjs_ffi.c:517-527: the first registration of that function with that user data. -/
def matching (l : List Node) (f u : Val) : Option Node := l.find? fun n => n.func == f && n.userdata == u

/-- mjs_ffi.c:875-900: the registration for the callback, the one there is or a new one at the end of the list.  `al` is
what `calloc` returns; `none` is NULL, which is written to.  `mjs_ffi_sig_copy` is a deep copy. -/
def register (al : Option Nat) (l : List Node) (cb : Sig) (f u : Val) : Except Stop (List Node × Nat) :=
  match matching l f u with
  | some n => .ok (l, n.id)
  | none =>
    match al with
    | none => .error .ub
    | some id => .ok (l ++ [{ id := id, sig := cb, func := f, userdata := u }], id)

/-- `mjs_ffi_cb_free`, mjs_ffi.c:971-992: the list and the number returned; `none` is the TypeError for a value that is no
JavaScript function (0 is returned with it). -/
def cbFree (l : List Node) (f u : Val) : List Node × Option Nat :=
  if isFunction f then
    match matching l f u with
    | some _ => (l.eraseP fun n => n.func == f && n.userdata == u, some 1)
    | none => (l, some 0)
  else (l, none)

/-- The local variables of `mjs_ffi_call2`, mjs_ffi.c:660-676: `args`, `ret` (has an error been set) and `cbdata`. -/
structure Conv where
  args : Nat → Arg
  err : Bool
  ud : Option (Nat × Val)
  fn : Option (Nat × Val)

/-- `ffi_set_…(&args[i], …)`, ffi.c:16-38. -/
def Conv.set (s : Conv) (i : Nat) (t : FfiType) (c : Cell) : Conv :=
  { s with args := fun j => if j = i then { ctype := t, v := c } else s.args j }

/-- `ffi_set_word(&args[i], n)` for an `int`: sign extension. -/
def Conv.setInt (s : Conv) (i : Nat) (n : Int) : Conv := s.set i .word (.bits (BitVec.ofInt 64 n))

/-- The conversion of one argument, mjs_ffi.c:728-868; `none` is `goto clean` with a TypeError.  The upper half of the union that
holds a `float` is not set in C; it is 0 here. -/
def convArg (P : Fpu) (t : CType) (i : Nat) (v : Val) (s : Conv) : Except Stop (Option Conv) :=
  match t with
  | .none => .ok none
  | .userdata => .ok (if s.ud.isSome then none else some { s with ud := some (i, v) })
  | .int =>
    .ok (some (if isNumber v then s.setInt i (getInt v)
      else if isBoolean v then s.setInt i (if getBool v then 1 else 0)
      else { s.setInt i 0 with err := true }))
  | .mgStrPtr => .ok (if isString v then some (s.set i .word (.mgText v)) else none)
  | .bool =>
    .ok (some (if isNumber v then s.setInt i (if getInt v ≠ 0 then 1 else 0)
      else if isBoolean v then s.setInt i (if getBool v then 1 else 0)
      else { s.setInt i 0 with err := true }))
  | .double => .ok (some (s.set i .double (.bits (getDouble v))))
  | .float => .ok (some (s.set i .float (.bits ((P.narrow (getDouble v)).setWidth 64))))
  | .charPtr =>
    .ok (if isString v then some (s.set i .word (.text v))
      else if isNull v then some (s.set i .word (.bits 0#64)) else none)
  | .voidPtr =>
    .ok (if isString v then some (s.set i .word (.text v))
      else if isForeign v then some (s.set i .word (.bits (getPtr v)))
      else if isNull v then some (s.set i .word (.bits 0#64)) else none)
  | .callback =>
    .ok (if isFunction v ∨ isForeign v ∨ isFfiSig v then some { s with fn := some (i, v) } else none)
  | .mgStr => .error .abort

/-- The loop over the arguments, mjs_ffi.c:724-869, from argument `i` on. -/
def convArgs (P : Fpu) (vals : List CType) : (i : Nat) → List Val → Conv → Except Stop (Option Conv)
  | _, [], s => .ok (some s)
  | i, v :: vs, s =>
    match vals[1 + i]? with
    | none => .error .ub
    | some t =>
      match convArg P t i v s with
      | .error e => .error e
      | .ok none => .ok none
      | .ok (some s) => convArgs P vals (i + 1) vs s

/-- `res.ctype` for the type of the result, mjs_ffi.c:689-715; for the two types that the `switch` leaves out it is not
initialised. -/
def resType : CType → Option FfiType
  | .double => some .double
  | .float => some .float
  | .bool => some .bool
  | .userdata | .int | .charPtr | .voidPtr | .none => some .word
  | .callback | .mgStrPtr | .mgStr => none

/-- How `mjs_ffi_call2` ends: with a TypeError before anything was called; or after `ffi_call`, which called the function
with arguments or did not call it (`none`), with a TypeError set or not, and with the registrations. -/
inductive Outcome where
  | refused
  | ran (passed : Option (List Passed)) (err : Bool) (regs : List Node)

/-- mjs_ffi.c:871-919: the callback and its user data are replaced by the function made up for it and its registration. -/
def passCb (al : Option Nat) (regs : List Node) (sig : Sig) (s : Conv) : Except Stop (Conv × List Node) :=
  match s.ud, s.fn with
  | some (iu, u), some (i, f) =>
    match sig.cb with
    | none => .error .ub
    | some cb =>
      match register al regs cb f u with
      | .error e => .error e
      | .ok (regs, id) =>
        match cb.fn with
        | none => .error .ub
        | some g => .ok ((s.set i .word (.code g)).set iu .word (.reg id), regs)
  | none, none => .ok (s, regs)
  | _, _ => .error .abort

/-- `mjs_ffi_call2`, mjs_ffi.c:654-921, for a function made by `ffi`, up to the call.  `junk` is what the uninitialised array
`args` holds. -/
def call2 (P : Fpu) (junk : Nat → Arg) (al : Option Nat) (regs : List Node) (sig : Sig) (vs : List Val) : Except Stop Outcome :=
  if vs.length ≠ sig.argsCnt then .ok .refused
  else
    match convArgs P sig.vals 0 vs { args := junk, err := false, ud := none, fn := none } with
    | .error e => .error e
    | .ok none => .ok .refused
    | .ok (some s) =>
      match passCb al regs sig s with
      | .error e => .error e
      | .ok (s, regs) =>
        match resType (sig.vals.headD .none) with
        | none => .error .ub
        | some rt =>
          match ffiCall rt vs.length s.args with
          | .error e => .error e
          | .ok p => if p.isSome ∧ sig.fn = none then .error .ub else .ok (.ran p s.err regs)

/-- A value for JavaScript: a value, or a new string with the bytes at an address, up to the NUL or as many as a `struct mg_str`
there says. -/
inductive Ret where
  | val (v : Val) | copyOf (p : BitVec 64) | copyOfMg (p : BitVec 64) | empty

/-- What becomes of the result (the 64 bits of the union in `res`, 0 if nothing was called), mjs_ffi.c:923-951. -/
def toJs (P : Fpu) (t : CType) (c : BitVec 64) : Ret :=
  match t with
  | .charPtr => if c ≠ 0#64 then .copyOf c else .val mkNull
  | .voidPtr => .val (mkForeign c).1
  | .int => .val (mkInt (c.setWidth 32).toInt)
  | .bool => .val (mkBoolean (c != 0#64))
  | .double => .val (mkNumber c)
  | .float => .val (mkNumber (P.widen (c.setWidth 32)))
  | _ => .val mkUndefined

/-! ## Callbacks -/

/-- The words among the arguments of a C call, in order: what a function finds in its integer registers. -/
def words : List Passed → List Cell
  | [] => []
  | .word c :: r => c :: words r
  | _ :: r => words r

/-- The floating point values among them: what a function finds in its floating point registers. -/
def fps : List Passed → List Cell
  | [] => []
  | .word _ :: r => fps r
  | .double c :: r => c :: fps r
  | .float c :: r => c :: fps r

/-- The functions made up for callbacks, mjs_ffi.c:442-513, called by C with arguments `l`: the array `data.args` and the cell
that is taken for the registration.  The C caller and the callee agree about types only if the signature of the callback is the
one of the function; otherwise the arguments are taken from the registers, as on x86-64, and a register that the caller did
not set holds `junk`. -/
def implData (junk : Nat → Cell) (k : CbImpl) (l : List Passed) : List Cell × Cell :=
  let w i := (words l)[i]?.getD (junk i)
  let d i := (fps l)[i]?.getD (junk (6 + i))
  match k with
  | .words k => ([w 0, w 1, w 2, w 3, w 4, w 5], w (k - 1))
  | .wpd => ([w 0, d 0, .bits 0#64, .bits 0#64, .bits 0#64, .bits 0#64], w 0)
  | .wdp => ([d 0, w 0, .bits 0#64, .bits 0#64, .bits 0#64, .bits 0#64], w 0)

/-- The 64 bits in a cell; `addr` gives the addresses of what the engine made. -/
def Cell.num (addr : Cell → BitVec 64) : Cell → BitVec 64
  | .bits b => b
  | c => addr c

/-- The JavaScript value for one argument, mjs_ffi.c:346-384. -/
def jsArg (P : Fpu) (addr : Cell → BitVec 64) (userdata : Val) (t : CType) (c : Cell) : Except Stop Ret :=
  let w := c.num addr
  match t with
  | .userdata => .ok (.val userdata)
  | .int => .ok (.val (mkInt w.toNat))
  | .bool => .ok (.val (mkBoolean (w != 0#64)))
  | .charPtr => .ok (if w = 0#64 then .empty else .copyOf w)
  | .voidPtr => .ok (.val (mkForeign w).1)
  | .double => .ok (.val (mkNumber w))
  | .float => .ok (.val (mkNumber (P.widen (w.setWidth 32))))
  | .mgStrPtr => if w = 0#64 then .error .ub else .ok (.copyOfMg w)
  | .none | .callback | .mgStr => .error .abort

/-- The loop over the arguments, mjs_ffi.c:343-385. -/
def jsArgs (P : Fpu) (addr : Cell → BitVec 64) (userdata : Val) : List CType → List Cell → Except Stop (List Ret)
  | [], _ => .ok []
  | _ :: _, [] => .error .ub
  | t :: ts, c :: cs =>
    match jsArg P addr userdata t c with
    | .error e => .error e
    | .ok a =>
      match jsArgs P addr userdata ts cs with
      | .error e => .error e
      | .ok as => .ok (a :: as)

/-- `ffi_cb_impl_generic`, mjs_ffi.c:326-399, up to the call: the JavaScript function that is called and its arguments.  A cell that
is not the address of a registration is used as one: undefined behaviour. -/
def generic (P : Fpu) (addr : Cell → BitVec 64) (regs : List Node) (data : List Cell) (param : Cell) : Except Stop (Val × List Ret) :=
  match param with
  | .reg id =>
    match regs.find? (·.id == id) with
    | none => .error .ub
    | some n =>
      if n.sig.argsCnt > 0 then
        match jsArgs P addr n.userdata ((n.sig.vals.drop 1).take n.sig.argsCnt) data with
        | .error e => .error e
        | .ok as => .ok (n.func, as)
      else .error .abort
  | _ => .error .ub

/-- A callback called from C. -/
def callback (P : Fpu) (addr : Cell → BitVec 64) (junk : Nat → Cell) (regs : List Node) (k : CbImpl) (l : List Passed) :
    Except Stop (Val × List Ret) :=
  let p := implData junk k l
  generic P addr regs p.1 p.2

/-- What the callback returns to C, mjs_ffi.c:401-437: `res` is the value, or none if the JavaScript function failed. -/
def cbReturn (P : Fpu) (t : CType) (res : Option Val) : Except Stop (BitVec 64) :=
  match res with
  | none => .ok 0#64
  | some v =>
    match t with
    | .none => .ok 0#64
    | .int => .ok (BitVec.ofInt 64 (getInt v))
    | .bool => .ok (if getBool v then 1#64 else 0#64)
    | .voidPtr => .ok (getPtr v)
    | .double => .ok (getDouble v)
    | .float => .ok ((P.narrow (getDouble v)).setWidth 64)
    | _ => .error .abort

end Mjs.Ffi
