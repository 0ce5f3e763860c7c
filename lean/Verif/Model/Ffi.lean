import Verif.Model.Value

/-!
# Model of FFI signatures (`src/mjs_ffi.c`)

A signature is parsed from a counted string.  The parser holds pointers into that string; here each pointer is the
list of bytes from it to the end of the readable memory, so that a read past the string is visible (`Stop.ub`).
`assert` is modelled as compiled in (no `NDEBUG`): a failed `assert`, like `abort()`, ends the process (`Stop.abort`).
Left out: error messages, `calloc` failing, strings of 2^31 bytes or more (`int sig_len`), and the C stack the parser
uses (one C call per nesting level of function pointers).
-/

namespace Mjs.Ffi

/-- The ways a C function can stop without returning a result: a reported JS error, `abort()`/`assert`, undefined
behaviour (a read outside the string; also used for running out of the fuel that stands for `while`). -/
inductive Stop where
  | error | abort | ub
deriving DecidableEq, Repr

/-- `enum mjs_ffi_ctype`, mjs_ffi_public.h:15-28 (`MJS_FFI_CTYPE_INVALID` is `none` where it can occur). -/
inductive CType where
  | none | userdata | callback | int | bool | double | float | charPtr | voidPtr | mgStrPtr | mgStr
deriving DecidableEq, Repr

/-- `enum ffi_sig_type`, mjs_ffi.h:24-27. -/
inductive SigKind where
  | func | callback
deriving DecidableEq, Repr

/-- The built-in callback implementations, mjs_ffi.c:455-513: `words k` is the function of six words whose `k`-th
(from 1) is the user data (`ffi_cb_impl_wpwwwww` is `words 1`, …, `ffi_cb_impl_wwwwwwp` is `words 6`). -/
inductive CbImpl where
  | words (k : Nat) | wpd | wdp
deriving DecidableEq, Repr

/-- `ffi_fn_t *fn` of a signature: what the resolver returned, or a callback implementation. -/
inductive Fn where
  | sym (addr : Nat) | impl (i : CbImpl)
deriving DecidableEq, Repr

/-- `struct mjs_ffi_sig`, mjs_ffi.h:32-66.  `cb` is what `cb_sig` points to; `vals` is `val_types`. -/
structure Sig where
  cb : Option Sig
  vals : List CType
  fn : Option Fn
  argsCnt : Nat
  isCallback : Bool
  isValid : Bool

/-- `MJS_CB_SIGNATURE_MAX_SIZE`, mjs_ffi.h:20. -/
def maxSize : Nat := 7

/-- `mjs_ffi_sig_init`, mjs_ffi.c:1004-1006: every byte 0, and `MJS_FFI_CTYPE_NONE` is 0. -/
def sigInit : Sig :=
  { cb := none, vals := List.replicate maxSize .none, fn := none, argsCnt := 0, isCallback := false, isValid := false }

/-- `isspace` of the C library in its `"C"` locale. -/
def isspace (c : UInt8) : Bool := c == 32 || (9 ≤ c && c ≤ 13)

/-- `isalnum` of the C library in its `"C"` locale (also for bytes from 128 on, which `char` makes negative). -/
def isalnum (c : UInt8) : Bool := (48 ≤ c && c ≤ 57) || (65 ≤ c && c ≤ 90) || (97 ≤ c && c ≤ 122)

/-- Trimming of leading and trailing whitespace, mjs_ffi.c:50-51. -/
def trim (s : List UInt8) : List UInt8 := ((s.dropWhile isspace).reverse.dropWhile isspace).reverse

/-- `parse_cval_type`, mjs_ffi.c:46-80, on the bytes from `s` to `e`; `none` is `MJS_FFI_CTYPE_INVALID`.  `mg_vcmp`
of a counted string and a literal gives 0 exactly when the bytes are the same. -/
def parseCval (s : List UInt8) : Option CType :=
  let ms := trim s
  if ms = [118, 111, 105, 100] then some .none                                                        -- void
  else if ms = [117, 115, 101, 114, 100, 97, 116, 97] then some .userdata                             -- userdata
  else if ms = [105, 110, 116] then some .int                                                         -- int
  else if ms = [98, 111, 111, 108] then some .bool                                                    -- bool
  else if ms = [100, 111, 117, 98, 108, 101] then some .double                                        -- double
  else if ms = [102, 108, 111, 97, 116] then some .float                                              -- float
  else if ms = [99, 104, 97, 114, 42] ∨ ms = [99, 104, 97, 114, 32, 42] then some .charPtr            -- char*, char *
  else if ms = [118, 111, 105, 100, 42] ∨ ms = [118, 111, 105, 100, 32, 42] then some .voidPtr        -- void*, void *
  else if ms = [115, 116, 114, 117, 99, 116, 32, 109, 103, 95, 115, 116, 114] then some .mgStr        -- struct mg_str
  else if ms = [115, 116, 114, 117, 99, 116, 32, 109, 103, 95, 115, 116, 114, 32, 42] ∨
      ms = [115, 116, 114, 117, 99, 116, 32, 109, 103, 95, 115, 116, 114, 42] then some .mgStrPtr     -- struct mg_str *
  else none

/-- `find_paren`, mjs_ffi.c:82-87, between `s` and `e`: the bytes before the first `(` and those after it. -/
def findParen : List UInt8 → Option (List UInt8 × List UInt8)
  | [] => none
  | c :: r => if c = 40 then some ([], r) else (findParen r).map fun p => (c :: p.1, p.2)

/-- `find_closing_paren`, mjs_ffi.c:89-100, with `nesting` parentheses open: the bytes before the `)` that closes the
outermost one and those after it. -/
def findClosing : Nat → List UInt8 → Option (List UInt8 × List UInt8)
  | _, [] => none
  | nesting, c :: r =>
    if c = 40 then (findClosing (nesting + 1) r).map fun p => (c :: p.1, p.2)
    else if c = 41 then
      if nesting - 1 = 0 then some ([], r) else (findClosing (nesting - 1) r).map fun p => (c :: p.1, p.2)
    else (findClosing nesting r).map fun p => (c :: p.1, p.2)

/-- `while (fn.p > cur && isspace(*fn.p)) fn.p--`, mjs_ffi.c:140, on the bytes from `cur` to `fn.p` in reverse. -/
def backSpace : List UInt8 → List UInt8
  | c :: d :: r => if isspace c then backSpace (d :: r) else c :: d :: r
  | l => l

/-- The loop of mjs_ffi.c:141-144 that goes back over the name: the name, and the rest in reverse. -/
def backName : List UInt8 → List UInt8 × List UInt8
  | c :: d :: r =>
    if isalnum c || c == 95 then
      let p := backName (d :: r)
      (p.1 ++ [c], p.2)
    else ([], c :: d :: r)
  | l => ([], l)

/-- `strchr(p, ')')`, mjs_ffi.c:198: is there one before the terminating NUL? -/
def strchrClose : List UInt8 → Except Stop Bool
  | [] => .error .ub
  | c :: r => if c = 41 then .ok true else if c = 0 then .ok false else strchrClose r

/-- Advancing to the next argument separator, mjs_ffi.c:214-230: the bytes of the argument, whether it has a
parenthesis (`is_fp`), and the memory from the separator on. -/
def scanArg : Nat → Bool → List UInt8 → Except Stop (List UInt8 × Bool × List UInt8)
  | _, _, [] => .error .ub
  | level, fp, c :: r =>
    if c ≠ 0 ∧ (level > 0 ∨ (c ≠ 44 ∧ c ≠ 41)) then
      let level' := if c = 40 then level + 1 else if c = 41 then level - 1 else level
      let fp' := if c = 40 then true else fp
      match scanArg level' fp' r with
      | .error x => .error x
      | .ok (a, f, t) => .ok (c :: a, f, t)
    else .ok ([], fp, c :: r)

/-- `while (*cur == ' ') cur++`, mjs_ffi.c:277. -/
def skipBlank : List UInt8 → Except Stop (List UInt8)
  | [] => .error .ub
  | c :: r => if c = 32 then skipBlank r else .ok (c :: r)

/-- `mjs_ffi_sig_set_val_type`, mjs_ffi.c:1024-1033. -/
def setValType (sig : Sig) (idx : Nat) (t : CType) : Option Sig :=
  if idx < maxSize then some { sig with vals := sig.vals.set idx t } else none

/-- The loop over the argument types in `mjs_ffi_sig_validate`, mjs_ffi.c:1072-1115, from index `i` on: the positions
of the callback and of the user data (0: none) and the number of arguments counted. -/
def validateArgs (kind : SigKind) : List CType → (i cb ud cnt : Nat) → Except Stop (Nat × Nat × Nat)
  | [], _, cb, ud, cnt => .ok (cb, ud, cnt)
  | t :: ts, i, cb, ud, cnt =>
    match t with
    | .userdata => if ud ≠ 0 then .error .error else validateArgs kind ts (i + 1) cb i (cnt + 1)
    | .callback =>
      match kind with
      | .func => validateArgs kind ts (i + 1) i ud (cnt + 1)
      | .callback => .error .error
    | .int | .bool | .voidPtr | .charPtr | .mgStrPtr | .double | .float => validateArgs kind ts (i + 1) cb ud (cnt + 1)
    | .none => .ok (cb, ud, cnt)
    | .mgStr => .error .error

/-- The return types allowed by `mjs_ffi_sig_validate`, mjs_ffi.c:1044-1069. -/
def returnOk (kind : SigKind) (t : CType) : Bool :=
  match kind with
  | .func => t == .none || t == .int || t == .bool || t == .double || t == .float || t == .voidPtr || t == .charPtr
  | .callback => t == .none || t == .int || t == .bool || t == .double || t == .float || t == .voidPtr

/-- A callback comes with user data and the other way round; a callback takes user data, mjs_ffi.c:1118-1137. -/
def pairOk (kind : SigKind) (cb ud : Nat) : Bool :=
  match kind with
  | .func => (0 < cb && 0 < ud) || (cb == 0 && ud == 0)
  | .callback => ud != 0

/-- `mjs_ffi_sig_validate`, mjs_ffi.c:1035-1144; the caller makes an error of a signature left invalid
(mjs_ffi.c:286-290).  `args_cnt` is added to, from 0. -/
def validate (kind : SigKind) (sig : Sig) : Except Stop Sig :=
  if returnOk kind (sig.vals.headD .none) then
    match validateArgs kind sig.vals.tail 1 0 0 sig.argsCnt with
    | .error e => .error e
    | .ok (cb, ud, cnt) =>
      if pairOk kind cb ud then .ok { sig with argsCnt := cnt, isValid := true } else .error .error
  else .error .error

/-- The counting loop of `get_cb_impl_by_signature`, mjs_ffi.c:536-553, from index `i` on. -/
def countTypes : List CType → (i dbl flt ud : Nat) → Except Stop (Nat × Nat × Nat)
  | [], _, dbl, flt, ud => .ok (dbl, flt, ud)
  | t :: ts, i, dbl, flt, ud =>
    match t with
    | .double => countTypes ts (i + 1) (dbl + 1) flt ud
    | .float => countTypes ts (i + 1) dbl (flt + 1) ud
    | .userdata => if ud = 0 then countTypes ts (i + 1) dbl flt i else .error .abort
    | _ => countTypes ts (i + 1) dbl flt ud

/-- `mjs_ffi_is_regular_word_or_void`, mjs_ffi.c:1146-1158. -/
def wordOrVoid (t : CType) : Bool := t == .none || t == .int || t == .bool

/-- `get_cb_impl_by_signature`, mjs_ffi.c:529-604. -/
def getCbImpl (sig : Sig) : Except Stop (Option CbImpl) :=
  if sig.isValid then
    match countTypes sig.vals.tail 1 0 0 0 with
    | .error e => .error e
    | .ok (dbl, flt, ud) =>
      if flt > 0 then .ok none
      else if ud = 0 then .error .abort                                -- assert(userdata_idx > 0)
      else if sig.argsCnt ≤ 6 then
        if wordOrVoid (sig.vals.headD .none) then
          if dbl = 0 then
            if ud ≤ 6 then .ok (some (.words ud)) else .error .abort
          else if dbl = 1 then
            if ud = 1 then .ok (some .wpd) else if ud = 2 then .ok (some .wdp) else .ok none
          else .ok none
        else .ok none
      else .ok none
  else .ok none

/-- What is left of the signature before its arguments are parsed: the type of the result, the name (unless it is a
function pointer) and, as one list each, the argument text and the memory from the arguments on. -/
structure Head where
  rt : List UInt8
  name : List UInt8
  isCallback : Bool
  args : List UInt8
  mem : List UInt8
  paren : List UInt8

/-- mjs_ffi.c:117-171: finding the parts of a signature.  `body` is the string, `beyond` the memory after it. -/
def split (body beyond : List UInt8) : Except Stop Head :=
  let cur := body.dropWhile isspace                                    -- lines 117-119
  match findParen cur with
  | none => .error .error
  | some (head, r1) =>
    if (body.length - cur.length) + head.length < 2 then .error .error -- line 123: tmp_e - s < 2
    else
      match findClosing 1 r1 with
      | none => .error .error
      | some (inner, post) =>
        match findParen post with
        | none =>                                                      -- lines 137-150: a function
          let p := backName (backSpace head.reverse)
          .ok { rt := p.2.reverse, name := p.1, isCallback := false, args := inner, mem := r1 ++ beyond,
                paren := 40 :: r1 ++ beyond }
        | some (_, r2) =>                                              -- lines 151-171: a function pointer
          match findClosing 1 r2 with
          | none => .error .error
          | some (args, _) =>
            .ok { rt := head, name := [], isCallback := true, args := args, mem := r2 ++ beyond,
                  paren := 40 :: r1 ++ beyond }

/-- `mjs->dlsym`: the resolver set by `mjs_set_ffi_resolver`, if any, and what it gives for each name. -/
abbrev Resolver := Option (List UInt8 → Option Nat)

/-- mjs_ffi.c:181-203: the name of a function is looked up, cut to the 99 bytes `buf` holds. -/
def resolve (res : Resolver) (h : Head) : Except Stop (Option Fn) :=
  if h.isCallback then
    match strchrClose h.paren with
    | .error x => .error x
    | .ok true => .ok none
    | .ok false => .error .error
  else
    match res with
    | none => .error .error
    | some f =>
      match f (h.name.take 99) with
      | none => .error .error
      | some a => .ok (some (.sym a))

/-- Parsing one argument with text `a`, mjs_ffi.c:235-264; `t` is the memory after it, `sub` the recursive call for a
function pointer (given its text and the memory after it).  The signature, with its callback, and the type. -/
def oneArg (sub : List UInt8 → List UInt8 → Except Stop Sig) (sig : Sig) (a : List UInt8) (fp : Bool) (t : List UInt8) :
    Except Stop (Sig × CType) :=
  if fp then
    match sig.cb with
    | some _ => .error .error                                          -- only one callback is allowed
    | none =>
      match sub a t with
      | .error e => .error e
      | .ok c => .ok ({ sig with cb := some c }, .callback)
  else
    match parseCval a with
    | none => .error .error
    | some vt => .ok (sig, vt)

/-- The loop over the arguments, mjs_ffi.c:205-283.  `vtidx` is the next index; `tmpE` and `cur` are the memory from those
two pointers on, and `stop` is how much memory there is from the end of the arguments (`args.p + args.len`) on. -/
def argsLoop (sub : List UInt8 → List UInt8 → Except Stop Sig) (stop : Nat) : (fuel : Nat) → Sig → (vtidx : Nat) →
    (tmpE cur : List UInt8) → Except Stop Sig
  | 0, _, _, _, _ => .error .ub
  | fuel + 1, sig, vtidx, tmpE, cur =>
    if tmpE.length > stop then                                         -- line 209
      match scanArg 0 false cur with
      | .error e => .error e
      | .ok (a, fp, t) =>
        if a = [] then .ok sig                                         -- line 232
        else
          match oneArg sub sig a fp t with
          | .error e => .error e
          | .ok (sig, vt) =>
            match setValType sig vtidx vt with
            | none => .error .error                                    -- too many callback args
            | some sig =>
              match t with
              | [] => .error .ub
              | c :: r =>
                if c = 44 then
                  match skipBlank r with
                  | .error e => .error e
                  | .ok cur => argsLoop sub stop fuel sig (vtidx + 1) (c :: r) cur
                else .ok sig
    else .ok sig

/-- The signature before its arguments are parsed, mjs_ffi.c:115-203. -/
def startSig (rt : CType) (fn : Option Fn) (isCallback : Bool) : Sig :=
  { sigInit with vals := sigInit.vals.set 0 rt, fn := fn, isCallback := isCallback }

/-- `mjs_parse_ffi_signature`, mjs_ffi.c:102-310; the fuel bounds the nesting of function pointers. -/
def parseSig (res : Resolver) : (fuel : Nat) → SigKind → (body beyond : List UInt8) → Except Stop Sig
  | 0, _, _, _ => .error .ub
  | fuel + 1, kind, body, beyond =>
    match split body beyond with
    | .error e => .error e
    | .ok h =>
      match parseCval h.rt with
      | none => .error .error
      | some rt =>
        match resolve res h with
        | .error e => .error e
        | .ok fn =>
          match argsLoop (parseSig res fuel .callback) (h.mem.length - h.args.length) (h.mem.length + 1)
              (startSig rt fn h.isCallback) 1 h.mem h.mem with
          | .error e => .error e
          | .ok sig =>
            match validate kind sig with
            | .error e => .error e
            | .ok sig =>
              if sig.isCallback then                                   -- lines 293-302
                match getCbImpl sig with
                | .error e => .error e
                | .ok none => .error .error
                | .ok (some i) => .ok { sig with fn := some (.impl i) }
              else .ok sig

/-- `mjs_ffi_call` (the function `ffi`), mjs_ffi.c:636-652, on the bytes of its argument (none for an argument that is
not a string: `mjs_get_string` gives length 0). -/
def ffi (res : Resolver) (s : List UInt8) : Except Stop Sig := parseSig res (s.length + 1) .func s []

end Mjs.Ffi
