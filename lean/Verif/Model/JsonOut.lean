import Verif.Model.Array

/-!
# Model of `JSON.stringify` (`src/mjs_json.c`)

The target is a block of memory `mem`; the C function gets the address `off` in it and a size.  A write outside of the block is `none`.
Pointers that would point behind the block or start from NULL are offsets here.  `is_debug` is 0 in every call of the library and left out.
-/

namespace Mjs.JsonOut
open Mjs Mjs.Str Mjs.Obj Mjs.Arr

/-- One byte to the block. -/
def poke (mem : List UInt8) (a : Nat) (c : UInt8) : Option (List UInt8) := if a < mem.length then some (mem.set a c) else none

/-! ## Strings -/

/-- The variables of `snquote`: the memory, `buf` counted from the start of the target, `i`. -/
structure Q where
  mem : List UInt8
  pos : Nat
  i : Nat

/-- `if (buf < limit) *buf++ = c;`, as in mjs_json.c:77. -/
def putc (off size : Nat) (q : Q) (c : UInt8) : Option Q :=
  if q.pos < size then (poke q.mem (off + q.pos) c).map fun m => { q with mem := m, pos := q.pos + 1 } else some q

/-- `hex_digits[n]`, mjs_json.c:43. -/
def hexDigits : List UInt8 := [48, 49, 50, 51, 52, 53, 54, 55, 56, 57, 97, 98, 99, 100, 101, 102]

/-- `append_hex`, mjs_json.c:44-51. -/
def appendHex (off size : Nat) (q : Q) (c : UInt8) : Option Q := do
  let q ← putc off size q 117
  let q ← putc off size q 48
  let q ← putc off size q 48
  let q ← putc off size q (hexDigits.getD (((c >>> 4).toNat) % 0xf) 0)
  putc off size q (hexDigits.getD ((c &&& 0xf).toNat) 0)

/-- `specials`, mjs_json.c:73. -/
def specials : List UInt8 := [98, 116, 110, 118, 102, 114]

/-- The body of the loop, mjs_json.c:80-97.  For bytes from 128 on the comparisons give the same with signed and unsigned characters. -/
def quoteChar (off size : Nat) (q : Q) (c : UInt8) : Option Q :=
  if c = 34 ∨ c = 92 then do
    let q ← putc off size { q with i := q.i + 1 } 92
    putc off size { q with i := q.i + 1 } c
  else if 8 ≤ c.toNat ∧ c.toNat ≤ 13 then do
    let q ← putc off size { q with i := q.i + 2 } 92
    putc off size q (specials.getD (c.toNat - 8) 0)
  else if c.toNat < 8 ∨ (13 < c.toNat ∧ c.toNat < 32) then do
    let q ← putc off size { q with i := q.i + 6 } 92
    appendHex off size q c
  else putc off size { q with i := q.i + 1 } c

/-- `snquote`, mjs_json.c:59-112: the memory and the return value (an `int`). -/
def snquote (mem : List UInt8) (off size : Nat) (bs : List UInt8) : Option (List UInt8 × Nat) := do
  let q ← putc off size ⟨mem, 0, 1⟩ 34
  let q ← bs.foldlM (quoteChar off size) q
  let q ← putc off size { q with i := q.i + 1 } 34
  if q.pos < size then (poke q.mem (off + q.pos) 0).map fun m => (m, q.i)
  else if size ≠ 0 then (poke q.mem (off + q.pos - 1) 0).map fun m => (m, q.i)
  else some (q.mem, q.i)

/-! ## Values -/

/-- `should_skip_for_json`, mjs_json.c:24-41. -/
def skipped : Ty → Bool
  | .null | .boolean | .number | .string | .objectGeneric | .objectArray => false
  | _ => true

/-- `BUF_LEFT`, mjs_json.c:15. -/
def left (size used : Nat) : Nat := if used < size then size - used else 0

/-- What a call leaves: the memory and the length, or the C stack is used up. -/
inductive Out where
  | done (mem : List UInt8) (len : Nat)
  | deep

/-- `c_snprintf(mem + off, size, ...)`. -/
def snprintf (mem : List UInt8) (off size : Nat) (fmt : List UInt8) (args : List Printf.Arg) : Option (List UInt8 × Nat) :=
  (Printf.vsnprintf (mem.drop off) size fmt args).map fun r => (mem.take off ++ r.1, r.2)

/-- `b += c_snprintf(b, BUF_LEFT(size, b - buf), ...)`, as in mjs_json.c:177; `st` is the memory and `b - buf`. -/
def add (off size : Nat) (st : List UInt8 × Nat) (fmt : List UInt8) (args : List Printf.Arg) : Option (List UInt8 × Nat) :=
  (snprintf st.1 (off + st.2) (left size st.2) fmt args).map fun r => (r.1, st.2 + r.2)

/-- `"%.*s"`, mjs_json.c:152. -/
def fmtStr : List UInt8 := [37, 46, 42, 115]

/-- `"\"%.*s\":"`, mjs_json.c:189. -/
def fmtKey : List UInt8 := [34, 37, 46, 42, 115, 34, 58]

/-- `"[Circular]"`, mjs_json.c:136. -/
def circular : List UInt8 := [91, 67, 105, 114, 99, 117, 108, 97, 114, 93]

/-- `strncpy(buf, "[Circular]", size)`, mjs_json.c:136: the text, and NUL up to the size. -/
def copyCircular (mem : List UInt8) (off size : Nat) : Option (List UInt8) :=
  if size = 0 then some mem
  else if off + size ≤ mem.length then some (mem.take off ++ (circular ++ List.replicate size 0).take size ++ mem.drop (off + size)) else none

/-- The two arguments of `%.*s`: `(int) n` and the bytes.  At least one byte is readable: that of the empty string is NUL, and without a
precision it is looked at. -/
def strArgs (st : Store) (p : Ptr) (n : Nat) : Option (List Printf.Arg) :=
  (load st.cmem st.owned p (max n 1)).map fun bs => [.int (BitVec.ofNat 32 n).toInt, .str (some bs)]

/-- The loop over the properties, mjs_json.c:179-200. -/
def propLoop (rec : Val → List UInt8 → Nat → Nat → Option Out) (h : Heap) (off size : Nat) (p : Nat) (st : List UInt8 × Nat) : Option (Option (List UInt8 × Nat)) :=
  if p = 0 then some (some st)
  else do
    let c ← h.props.mem p
    let t ← getType c.body.2
    if skipped t then propLoop rec h off size c.head st
    else do
      let st ← if st.2 ≠ 1 then add off size st [44] [] else some st
      let (s, n) ← getString h.str c.body.1
      let args ← strArgs h.str s n
      let st ← add off size st fmtKey args
      match ← rec c.body.2 st.1 (off + st.2) (left size st.2) with
      | .done mem len => propLoop rec h off size c.head (mem, st.2 + len)
      | .deep => some none
partial_fixpoint

/-- The loop over the elements, mjs_json.c:213-234, with `n = alen - i`. -/
def elemLoop (rec : Val → List UInt8 → Nat → Nat → Option Out) (h : Heap) (v : Val) (off size i : Nat) (st : List UInt8 × Nat) :
    Nat → Option (Option (List UInt8 × Nat))
  | 0 => some (some st)
  | n + 1 => do
    let (el, has) ← get2 h v i
    let r ← (if has then do
        let t ← getType el
        if skipped t then (add off size st [110, 117, 108, 108] []).map some
        else match ← rec el st.1 (off + st.2) (left size st.2) with
          | .done mem len => some (some (mem, st.2 + len))
          | .deep => some none
      else (add off size st [110, 117, 108, 108] []).map some)
    match r with
    | none => some none
    | some st => do
      let st ← if n ≠ 0 then add off size st [44] [] else some st
      elemLoop rec h v off size (i + 1) st n

/-- `to_json_or_debug`, mjs_json.c:114-259, with `is_debug` 0; `d` is the depth of C calls there is room for, `visited` is
`mjs->json_visited_stack`, of which an allocation failure is left out.  No call returns an error: `mjs_to_string` gets null, booleans
and numbers only.  Where `mjs_get_type` does not abort, the type is one of the cases. -/
def toJson (numText : Val → List UInt8) (h : Heap) : Nat → List Val → Val → List UInt8 → Nat → Nat → Option Out
  | 0, _, _, _, _, _ => some .deep
  | d + 1, visited, v, mem, off, size => do
    let mem ← if size > 0 then poke mem off 0 else some mem
    let t ← getType v
    if skipped t then some (.done mem 0)
    else if v ∈ visited then (copyCircular mem off size).map fun m => .done m 10
    else match t with
      | .string => do
        let (s, n) ← getString h.str v
        let bs ← load h.str.cmem h.str.owned s n
        (snquote mem off size bs).map fun r => .done r.1 r.2
      | .objectGeneric => do
        let st ← add off size (mem, 0) [123] []
        let o ← getObjectStruct v
        let c ← h.objs.mem o
        match ← propLoop (toJson numText h d (v :: visited)) h off size c.head st with
        | none => some .deep
        | some st => (add off size st [125] []).map fun st => .done st.1 st.2
      | .objectArray => do
        let n ← Arr.length h v
        let st ← add off size (mem, 0) [91] []
        match ← elemLoop (toJson numText h d (v :: visited)) h v off size 0 st n with
        | none => some .deep
        | some st => (add off size st [93] []).map fun st => .done st.1 st.2
      | _ => do
        let r ← toStr numText h.str v
        let (p, n) ← r
        let args ← strArgs h.str p n
        (snprintf mem off size fmtStr args).map fun r => .done r.1 n

/-- What `mjs_json_stringify` leaves: the text in the buffer of the caller, or in a new block. -/
inductive Res where
  | given (mem : List UInt8) (len : Nat)
  | block (mem : List UInt8) (len : Nat)
  | deep

/-- `mjs_json_stringify`, mjs_json.c:261-292, with the buffer of the caller at `off`; `fresh n` is what a new block of `n` bytes holds
before it is written to.  The call in line 272 calls `malloc` again only if the length is not the same as before (that, and a failing
`malloc`, is `none`). -/
def stringify (numText : Val → List UInt8) (h : Heap) (d : Nat) (v : Val) (mem : List UInt8) (off size : Nat) (fresh : Nat → List UInt8) : Option Res := do
  match ← toJson numText h d [] v mem off size with
  | .deep => some .deep
  | .done mem len =>
    if len ≥ size then
      match ← toJson numText h d [] v (fresh (len + 1)) 0 (len + 1) with
      | .deep => some .deep
      | .done mem len' => if len' ≥ len + 1 then none else some (.block mem len')
    else some (.given mem len)

end Mjs.JsonOut
