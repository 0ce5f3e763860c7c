import Verif.Model.Exec
import Verif.Model.Tok

/-!
# `JSON.parse`: the parser of src/frozen/frozen.c and the callback of src/mjs_json.c

The text is a buffer of known length that need not be NUL-terminated (`mjs_json_parse` copies the string to `malloc(len)`
bytes, mjs_json.c:448-450).  Lengths are below `2^31` (`json_walk` takes an `int`).  `ub` stands for undefined behaviour,
among it reading outside the buffer, and for a failed `assert`.
-/

namespace Mjs.Json
open Mjs Mjs.Str Mjs.Obj Mjs.Core Mjs.Exec

/-- The two error codes, frozen.h:67-68. -/
inductive Fail where
  | invalid
  | incomplete
  deriving DecidableEq

/-- `enum json_token_type`, frozen.h:38-51, without the unused ones. -/
inductive TokT where
  | string | number | true | false | null | objectStart | objectEnd | arrayStart | arrayEnd
  deriving DecidableEq

/-- The arguments of the callback, frozen.h:96-98 and frozen.c:102-106: the name (`none` for a null pointer), the type of the
token, the buffer from the start of the token to its end, the length of the token, the path. -/
structure Event where
  name : Option (List UInt8)
  type : TokT
  ptr : List UInt8
  len : Nat
  path : List UInt8

/-- `struct frozen`, frozen.c:75-87: the bytes from `cur` to `end`, the path, the name; `ctx` is what `callback_data` points to.
A name that points into `path` (frozen.c:306) is read when it is set: the callbacks that use the name come before the
path changes. -/
structure S (σ : Type) where
  rest : List UInt8
  path : List UInt8
  name : Option (List UInt8)
  ctx : σ

/-- Results of the functions that return 0 or a negative code.  `deep`: the C stack is exhausted; `endless`: a loop did not
end within its bound. -/
inductive Res (σ : Type) where
  | ok (s : S σ)
  | err (e : Fail) (c : σ)
  | ub
  | deep
  | endless

/-- `TRY`, frozen.c:137-141. -/
def Res.bind {σ : Type} : Res σ → (S σ → Res σ) → Res σ
  | .ok s, f => f s
  | .err e c, _ => .err e c
  | .ub, _ => .ub
  | .deep, _ => .deep
  | .endless, _ => .endless

section
variable {σ : Type} (cb : σ → Event → Option σ)

/-- `CALL_BACK`, frozen.c:98-112: nothing happens if the path ends in a dot. -/
def callBack (s : S σ) (t : TokT) (ptr : List UInt8) (len : Nat) : Res σ :=
  if s.path.getLast? = some 46 then .ok s
  else match cb s.ctx ⟨s.name, t, ptr, len, s.path⟩ with
    | none => .ub
    | some c => .ok { s with ctx := c, name := none }

/-- `json_append_to_path`, frozen.c:114-122, with `JSON_MAX_PATH_LEN` 256 (frozen.h:310). -/
def append (s : S σ) (str : List UInt8) : S σ := { s with path := s.path ++ str.take (255 - s.path.length) }

/-- `json_truncate_path`, frozen.c:124-127.  A length above the present one would bring back old bytes: `ub`. -/
def truncate (s : S σ) (n : Nat) : Res σ := if n ≤ s.path.length then .ok { s with path := s.path.take n } else .ub

/-- `json_isspace`, frozen.c:149-151. -/
def isSpace (c : UInt8) : Bool := c == 32 || c == 9 || c == 13 || c == 10

/-- `json_skip_whitespaces`, frozen.c:153-155. -/
def skip (s : S σ) : S σ := { s with rest := s.rest.dropWhile isSpace }

/-- `f->cur += n`. -/
def advance (s : S σ) (n : Nat) : S σ := { s with rest := s.rest.drop n }

/-- What a function returns when it finds `ch`, `none` for `END_OF_STRING`: frozen.c:168, 377, 391. -/
def unexpected (ch : Option UInt8) : Fail := match ch with
  | none => .incomplete
  | some _ => .invalid

/-- `json_test_and_skip`, frozen.c:162-169; `json_cur` (157-160) is `skip` and the head of what remains. -/
def testAndSkip (s : S σ) (c : UInt8) : Res σ :=
  let s := skip s
  if s.rest.head? = some c then .ok (advance s 1) else .err (unexpected s.rest.head?) s.ctx

/-- `json_isalpha`, frozen.c:171-173. -/
def isAlpha (c : UInt8) : Bool := (97 ≤ c.toNat && c.toNat ≤ 122) || (65 ≤ c.toNat && c.toNat ≤ 90)

/-- `json_isdigit`, frozen.c:175-177. -/
def isDigit (c : UInt8) : Bool := 48 ≤ c.toNat && c.toNat ≤ 57

/-- `json_isxdigit`, frozen.c:179-182. -/
def isXDigit (c : UInt8) : Bool := isDigit c || (97 ≤ c.toNat && c.toNat ≤ 102) || (65 ≤ c.toNat && c.toNat ≤ 70)

/-- Results of scanning a string body: `close k` if the closing quote is `k` bytes further. -/
inductive Scan where
  | close (k : Nat)
  | fail (e : Fail)
  | ub
  | endless
  deriving DecidableEq

/-- `json_get_escape_len`, frozen.c:184-204, on the bytes after the backslash; `len` counts from the backslash.  Reading the
first of them when there is none is undefined. -/
def escapeLen (s : List UInt8) (len : Nat) : Option (Except Fail Nat) :=
  match s with
  | [] => none
  | c :: t =>
    some <|
      if c = 117 then                                                           -- u
        if len < 6 then .error .incomplete
        else if (t.take 4).all isXDigit then .ok 5 else .error .invalid
      else if c = 34 ∨ c = 92 ∨ c = 47 ∨ c = 98 ∨ c = 102 ∨ c = 110 ∨ c = 114 ∨ c = 116 then   -- " \ / b f n r t
        if len < 2 then .error .incomplete else .ok 1
      else .error .invalid

/-- `json_get_utf8_char_len`, frozen.c:221-231. -/
def charLen (c : UInt8) : Nat :=
  if c &&& 0x80 = 0 then 1 else if c &&& 0xf0 = 0xf0 then 4 else if c &&& 0xf0 = 0xe0 then 3 else 2

/-- The loop of `json_parse_string`, frozen.c:239-253, at `k` bytes after the opening quote. -/
def scanStr : Nat → List UInt8 → Nat → Scan
  | 0, _, _ => .endless
  | _ + 1, [], _ => .fail .incomplete
  | n + 1, c :: t, k =>
    let len := charLen c
    if c.toNat < 32 then .fail .invalid
    else if (c :: t).length < len then .fail .incomplete
    else if c = 92 then
      match escapeLen t (c :: t).length with
      | none => .ub
      | some (.error e) => .fail e
      | some (.ok m) => scanStr n ((c :: t).drop (len + m)) (k + (len + m))
    else if c = 34 then .close k
    else scanStr n ((c :: t).drop len) (k + len)

/-- `json_parse_string`, frozen.c:234-256.  `SET_STATE` with an empty string and the truncation to the same length do not
change the path, here and below. -/
def parseString (s : S σ) : Res σ :=
  (testAndSkip s 34).bind fun s =>
    match scanStr (s.rest.length + 1) s.rest 0 with
    | .close k => (callBack cb s .string s.rest k).bind fun s => .ok (advance s (k + 1))
    | .fail e => .err e s.ctx
    | .ub => .ub
    | .endless => .endless

/-- `json_parse_identifier`, frozen.c:207-219. -/
def parseIdentifier (s : S σ) : Res σ :=
  let s := skip s
  match s.rest with
  | c :: _ =>
    if isAlpha c then
      let k := (s.rest.takeWhile fun c => c == 95 || isAlpha c || isDigit c).length
      (callBack cb s .string s.rest k).bind fun s => .ok (advance s k)
    else .err .invalid s.ctx
  | [] => .err .invalid s.ctx

/-- The number of bytes a loop over digits passes. -/
def run (f : UInt8 → Bool) (r : List UInt8) : Nat := (r.takeWhile f).length

/-- At least one digit, frozen.c:266-268, 270-271, 274-276 and 282-284: the number of digits. -/
def digits1 (f : UInt8 → Bool) (r : List UInt8) : Except Fail Nat :=
  match r with
  | [] => .error .incomplete
  | c :: _ => if f c then .ok (run f r) else .error .invalid

/-- The fraction, frozen.c:272-277. -/
def fraction (r : List UInt8) : Except Fail Nat :=
  match r with
  | 46 :: t => (digits1 isDigit t).map (1 + ·)
  | _ => .ok 0

/-- The exponent, frozen.c:278-285. -/
def exponent (r : List UInt8) : Except Fail Nat :=
  match r with
  | c :: t =>
    if c = 101 ∨ c = 69 then
      match t with
      | [] => .error .incomplete
      | d :: u => if d = 43 ∨ d = 45 then (digits1 isDigit u).map (2 + ·) else (digits1 isDigit t).map (1 + ·)
    else .ok 0
  | [] => .ok 0

/-- The scanning part of `json_parse_number`, frozen.c:262-286: the length of the number. -/
def scanNumber (r : List UInt8) : Except Fail Nat := do
  let m := if r.head? = some 45 then 1 else 0
  let r := r.drop m
  if r = [] then .error .incomplete
  else if r.take 2 = [48, 120] then do
    let n ← digits1 isXDigit (r.drop 2)
    .ok (m + (2 + n))
  else do
    let n ← digits1 isDigit r
    let f ← fraction (r.drop n)
    let e ← exponent (r.drop (n + f))
    .ok (m + (n + f + e))

/-- `json_parse_number`, frozen.c:259-290. -/
def parseNumber (s : S σ) : Res σ :=
  let s := skip s
  match scanNumber s.rest with
  | .error e => .err e s.ctx
  | .ok k => (callBack cb s .number s.rest k).bind fun s => .ok (advance s k)

/-- `json_expect`, frozen.c:322-336. -/
def expect (s : S σ) (w : List UInt8) (t : TokT) : Res σ :=
  if s.rest.take w.length = w then (callBack cb s t s.rest w.length).bind fun s => .ok (advance s w.length)
  else if s.rest.take w.length = w.take s.rest.length then .err .incomplete s.ctx
  else .err .invalid s.ctx

/-- `"[%d]"`, frozen.c:303, of an index that is not negative; it fits into the 20 bytes of `buf`. -/
def indexText (i : Nat) : List UInt8 := 91 :: ((Nat.toDigits 10 i).map fun c => UInt8.ofNat c.toNat) ++ [93]

/-- The name of an array element, frozen.c:306-308: it is searched at the end of the path as a C string.  A pointer before the
path is undefined. -/
def elemName (path buf : List UInt8) : Option (List UInt8) :=
  let z := (path.takeWhile (· ≠ 0)).length
  if z + 1 < buf.length then none else some ((path.drop (z + 1 - buf.length)).take (buf.length - 2))

/-- A comma is skipped, but need not be there: frozen.c:311 and 422. -/
def skipComma (s : S σ) : S σ :=
  let s := skip s
  if s.rest.head? = some 44 then advance s 1 else s

/-- The loop of `json_parse_array`, frozen.c:302-312; `pv` is `json_parse_value`. -/
def arrLoop (pv : S σ → Res σ) : Nat → Nat → S σ → Res σ
  | 0, _, _ => .endless
  | n + 1, i, s =>
    let s := skip s
    if s.rest.head? = some 93 then .ok s
    else
      let buf := indexText i
      let s1 := append s buf
      match elemName s1.path buf with
      | none => .ub
      | some nm =>
        (pv { s1 with name := some nm }).bind fun s2 => (truncate s2 s.path.length).bind fun s3 =>
          arrLoop pv n (i + 1) (skipComma s3)

/-- `json_parse_array`, frozen.c:294-319. -/
def parseArray (pv : S σ → Res σ) (s : S σ) : Res σ :=
  (callBack cb s .arrayStart [] 0).bind fun s => (testAndSkip s 91).bind fun s1 =>
    (arrLoop pv (s1.rest.length + 1) 0 s1).bind fun s2 => (testAndSkip s2 93).bind fun s3 =>
      (truncate s3 s1.path.length).bind fun s4 =>
        callBack cb s4 .arrayEnd (91 :: s1.rest) (s1.rest.length + 1 - s4.rest.length)

/-- `json_parse_key`, frozen.c:384-394. -/
def parseKey (s : S σ) : Res σ :=
  let s := skip s
  match s.rest.head? with
  | some c => if isAlpha c then parseIdentifier cb s else if c = 34 then parseString cb s else .err .invalid s.ctx
  | none => .err .incomplete s.ctx

/-- The name of a member, frozen.c:404-405: the bytes of the key as they are written, without the quotes. -/
def keyName (tok : List UInt8) (used : Nat) : List UInt8 :=
  if tok.head? = some 34 then (tok.drop 1).take (used - 2) else tok.take used

/-- `json_parse_pair`, frozen.c:397-412. -/
def parsePair (pv : S σ → Res σ) (s : S σ) : Res σ :=
  let s := skip s
  (parseKey cb s).bind fun s1 =>
    let nm := keyName s.rest (s.rest.length - s1.rest.length)
    (testAndSkip (append { s1 with name := some nm } nm) 58).bind fun s2 =>
      (pv s2).bind fun s3 => truncate s3 s1.path.length

/-- The loop of `json_parse_object`, frozen.c:420-423. -/
def objLoop (pv : S σ → Res σ) : Nat → S σ → Res σ
  | 0, _ => .endless
  | n + 1, s =>
    let s := skip s
    if s.rest.head? = some 125 then .ok s
    else (parsePair cb pv s).bind fun s => objLoop pv n (skipComma s)

/-- `json_parse_object`, frozen.c:415-429. -/
def parseObject (pv : S σ → Res σ) (s : S σ) : Res σ :=
  (callBack cb s .objectStart [] 0).bind fun s => (testAndSkip s 123).bind fun s1 =>
    (objLoop cb pv (s1.rest.length + 1) (append s1 [46])).bind fun s2 => (testAndSkip s2 125).bind fun s3 =>
      (truncate s3 s1.path.length).bind fun s4 =>
        callBack cb s4 .objectEnd (123 :: s1.rest) (s1.rest.length + 1 - s4.rest.length)

/-- `json_parse_value`, frozen.c:339-381.  The number is how many nested calls there is room for on the C stack. -/
def parseValue : Nat → S σ → Res σ
  | 0, _ => .deep
  | d + 1, s =>
    let s := skip s
    match s.rest.head? with
    | none => .err .incomplete s.ctx
    | some c =>
      if c = 34 then parseString cb s
      else if c = 123 then parseObject cb (parseValue d) s
      else if c = 91 then parseArray cb (parseValue d) s
      else if c = 110 then expect cb s [110, 117, 108, 108] .null
      else if c = 116 then expect cb s [116, 114, 117, 101] .true
      else if c = 102 then expect cb s [102, 97, 108, 115, 101] .false
      else if c = 45 ∨ isDigit c = true then parseNumber cb s
      else .err .invalid s.ctx

/-- `json_walk` and `json_doit`, frozen.c:431-435 and 805-818: what follows the value is not looked at. -/
def walk (d : Nat) (text : List UInt8) (c : σ) : Res σ :=
  if text = [] then .err .incomplete c else parseValue cb d ⟨text, [], none, c⟩

end

/-! ## The callback -/

/-- `HEXTOI(tolower(c))` of `hexdec`, frozen.c:549-554, modulo 256 (the result is an `unsigned char`; a negative number is shifted
as two's complement). -/
def hexTo (c : UInt8) : UInt8 :=
  let l := if 65 ≤ c.toNat ∧ c.toNat ≤ 90 then c + 32 else c
  if 48 ≤ l.toNat ∧ l.toNat ≤ 57 then l - 48 else l - 87

/-- The pairs of `esc1` and `esc2`, frozen.c:865. -/
def escChar (c : UInt8) : Option UInt8 :=
  if c = 34 ∨ c = 92 ∨ c = 47 then some c
  else if c = 98 then some 8 else if c = 102 then some 12 else if c = 110 then some 10
  else if c = 114 then some 13 else if c = 116 then some 9
  else if c = 0 then some 0                                  -- `strchr` finds the terminating NUL
  else none

/-- `json_unescape`, frozen.c:863-892, with a destination as long as the source: the bytes, `none` for an error. -/
def unescape : List UInt8 → Option (List UInt8)
  | [] => some []
  | 92 :: 117 :: a :: b :: x :: y :: t =>
    if a = 48 ∧ b = 48 then (unescape t).map ((hexTo x * 16 ||| hexTo y) :: ·) else none
  | 92 :: c :: t => if c = 117 then none else (escChar c).bind fun e => (unescape t).map (e :: ·)
  | [92] => none
  | c :: t => (unescape t).map (c :: ·)

/-- `strtod(p, NULL)` on the rest of a buffer that is not NUL-terminated, for a text that begins with a digit, or a minus sign
and a digit.  If a digit just behind the buffer would change what is read, it is read: undefined. -/
def strtod (E : Env) (r : List UInt8) : Option Val :=
  let t := if r.head? = some 45 then r.drop 1 else r
  let n := Tok.strtodLen t
  if Tok.strtodLen (t ++ [48]) ≠ n then none
  else if r.head? = some 45 then some (negD (E.numVal (t.take n))) else some (E.numVal (t.take n))

/-- `struct json_parse_ctx`, mjs_json.c:303-308, with the heap of the engine, the answers of the allocator and `mjs->error`.
`frames` are the values of the chain of `struct json_parse_frame` (295-298), the innermost first.  The registrations
with `mjs_own` are left out: no collection happens during the parse. -/
structure Ctx where
  heap : Heap
  al : Nat → Allocs
  frames : List Val
  result : Val
  error : Err

/-- The next answer of the allocator has been used. -/
def Ctx.used (c : Ctx) : Ctx := { c with al := fun k => c.al (k + 1) }

/-- The value made for a token, mjs_json.c:339-387: the new context and the value, `mkUndefined` if there is none.  An
allocation failure of the temporary buffer (342) is left out. -/
def tokenValue (E : Env) (c : Ctx) (e : Event) : Option (Ctx × Val) :=
  match e.type with
  | .string =>
    match unescape (e.ptr.take e.len) with
    | none => some ({ c with error := .type }, mkUndefined)
    | some bs => (mkStringCopy (c.al 0).hr c.heap.str (.loc bs) bs.length (c.al 0).strs).map fun r =>
        ({ c.used with heap := { c.heap with str := r.1 } }, r.2)
  | .number => (strtod E e.ptr).map fun v => (c, mkNumber v)
  | .true => some (c, mkBoolean true)
  | .false => some (c, mkBoolean false)
  | .null => some (c, mkNull)
  | .objectStart => (mkObject c.heap (c.al 0)).map fun r => ({ c.used with heap := r.1 }, r.2)
  | .arrayStart => (mkArray c.heap (c.al 0)).map fun r => ({ c.used with heap := r.1 }, r.2)
  | .objectEnd | .arrayEnd => match c.frames with
    | [] => none
    | _ :: fs => some ({ c with frames := fs }, mkUndefined)

/-- Linking the value, mjs_json.c:390-413.  `mjs_is_object` holds for arrays too, so the branch for arrays (394-400) is never
taken.  The result of `mjs_set` is not looked at. -/
def link (c : Ctx) (name : Option (List UInt8)) (v : Val) : Option Ctx :=
  match name with
  | some (k :: ks) => match c.frames with
    | [] => none
    | f :: _ =>
      if isObject f then (set c.heap f (.loc (k :: ks)) (k :: ks).length v (c.al 0)).map fun r => { c.used with heap := r.1 }
      else some c
  | _ => if c.frames = [] then some { c with result := v } else none

/-- `frozen_cb`, mjs_json.c:330-426. -/
def frozenCb (E : Env) (c : Ctx) (e : Event) : Option Ctx :=
  (tokenValue E c e).bind fun (c, v) =>
    if isUndefined v then some c
    else (link c e.name v).bind fun c =>
      some (if e.type = .objectStart ∨ e.type = .arrayStart then { c with frames := v :: c.frames } else c)

/-- What `mjs_json_parse` leaves: its return code, `*res`, the context (heap and `mjs->error`). -/
inductive Parsed where
  | done (rc : Err) (res : Val) (c : Ctx)
  | ub
  | deep
  | endless

/-- `mjs_json_parse`, mjs_json.c:428-484, called in lines 507-510 of `mjs_op_json_parse`: `*res` is undefined before.  An allocation failure
of the copy (448) is left out. -/
def parse (E : Env) (d : Nat) (h : Heap) (al : Nat → Allocs) (text : List UInt8) : Parsed :=
  match walk (frozenCb E) d text ⟨h, al, [], mkUndefined, .ok⟩ with
  | .ok s => if s.ctx.frames = [] then .done .ok s.ctx.result s.ctx else .ub
  | .err _ c => .done .type mkUndefined { c with frames := [], error := .type }
  | .ub => .ub
  | .deep => .deep
  | .endless => .endless

end Mjs.Json
