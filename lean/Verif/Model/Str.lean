import Verif.Model.Mbuf
import Verif.Model.Varint
import Verif.Model.Value

/-!
# Model of `src/mjs_string.c`: making, reading, comparing and concatenating strings

Strings of up to 5 bytes live inside the value.  Longer copied strings live in the buffer `owned_strings` as
`varint length, bytes, NUL`; strings made without copy are described in `foreign_strings` by `varint length, pointer`.
-/

namespace Mjs.Str
open Mjs Mjs.Mbuf Mjs.Varint

/-- A `const char *`, with the object it points into.  Simplification: pointers into C memory outside the engine are
addresses `ext`, pointers into `owned_strings` are addresses `own` which are only valid while they lie in the current
block, and a pointer into a local `mjs_val_t` is the list of bytes from there to the end of the value. -/
inductive Ptr where
  | null
  | ext (addr : Nat)
  | own (addr : Nat)
  | loc (bytes : List UInt8)

/-- The parts of `struct mjs` (mjs_core.h:111-139) used for strings.  `cmem` is the readable C memory outside the
engine. -/
structure Store where
  owned : Mbuf
  foreign : Mbuf
  cmem : Nat → Option UInt8

/-- The string part of `mjs_create`, mjs_core.c:78-79 and 93-96: `owned_strings` starts with one NUL byte. -/
def createStore (hr : Nat) (cmem : Nat → Option UInt8) (al1 al2 : Alloc) : Option Store := do
  let (m, _) ← Mbuf.append hr (Mbuf.init 0 none) (some [0]) 1 al1 al2
  some { owned := m, foreign := Mbuf.init 0 none, cmem := cmem }

/-- Read `n` bytes of C memory. -/
def readC (cmem : Nat → Option UInt8) (a : Nat) : Nat → Option (List UInt8)
  | 0 => some []
  | n + 1 => do
    let b ← cmem a
    let bs ← readC cmem (a + 1) n
    some (b :: bs)

/-- Read `n` bytes at a pointer; `none`: some byte is not readable.  `m` is the current state of `owned_strings`: only
its content (not the reserved space behind it) has defined values. -/
def load (cmem : Nat → Option UInt8) (m : Mbuf) (p : Ptr) (n : Nat) : Option (List UInt8) :=
  match p with
  | .null => if n = 0 then some [] else none
  | .ext a => readC cmem a n
  | .own a => if m.addr ≤ a ∧ (a - m.addr) + n ≤ m.len then some ((m.content.drop (a - m.addr)).take n) else none
  | .loc bs => if n ≤ bs.length then some (bs.take n) else none

/-- Write bytes at offset `off` of the block; `none`: outside the block. -/
def store (m : Mbuf) (off : Nat) (bs : List UInt8) : Option Mbuf :=
  (memcpyFrom m.mem off bs bs.length).map fun mem' => { m with mem := mem' }

/-- `p >= m->buf && p < m->buf + m->len`, mjs_string.c:102 and 564. -/
def backedBy (m : Mbuf) : Ptr → Bool
  | .own a => m.addr ≤ a && a < m.addr + m.len
  | _ => false

/-- `p += new_buf - old_buf`, mjs_string.c:103 and 578. -/
def relocate (p : Ptr) (oldAddr newAddr : Nat) : Ptr :=
  match p with
  | .own a => .own (a - oldAddr + newAddr)
  | p => p

/-- `p != 0`, mjs_string.c:67, 75, 585. -/
def Ptr.isNull : Ptr → Bool
  | .null => true
  | _ => false

/-- Copying the string, mjs_string.c:585-591 (without `EMBSTR_UNESCAPE`): nothing for a NULL source. -/
def copySource (cmem : Nat → Option UInt8) (m : Mbuf) (off : Nat) (p : Ptr) (len : Nat) : Option Mbuf :=
  if p.isNull then some m else (load cmem m p len).bind fun bs => store m off bs

/-- `embed_string` without `EMBSTR_UNESCAPE`, mjs_string.c:561-597.  The variant with `EMBSTR_UNESCAPE` is
`embedUnescaped` in `Model/Unescape.lean`. -/
def embedString (hr : Nat) (cmem : Nat → Option UInt8) (m : Mbuf) (offset : Nat) (p : Ptr) (len : Nat)
    (zeroTerm : Bool) (al1 al2 : Alloc) : Option Mbuf := do
  let k := llen len                                                               -- line 568
  let totLen := k + len + (if zeroTerm then 1 else 0)                             -- line 571
  let (m1, _) ← insert hr m offset none totLen al1 al2                            -- line 574, result ignored
  let p1 := if backedBy m p then relocate p m.addr m1.addr else p                 -- lines 577-579
  let m2 ← store m1 offset (encode len k).1                                       -- line 582
  let m3 ← copySource cmem m2 (offset + k) p1 len                                 -- lines 585-591
  if zeroTerm then store m3 (offset + totLen - 1) [0] else some m3                -- lines 594-596

/-- The number stored in the low bytes of a value by writing `bs` at its address (little endian,
`GET_VAL_NAN_PAYLOAD`, mjs_string.c:36). -/
def packLE : List UInt8 → Nat
  | [] => 0
  | b :: bs => b.toNat + 256 * packLE bs

/-- The byte at offset `i` of a value in memory. -/
def byteAt (v : Val) (i : Nat) : UInt8 := UInt8.ofNat (v.toNat / 256 ^ i)

/-- The bytes of a value in memory from offset `i` on. -/
def bytesFrom (v : Val) (i : Nat) : List UInt8 := (List.range (8 - i)).map fun j => byteAt v (i + j)

/-- `(offset & ~MJS_TAG_MASK) | tag`, mjs_string.c:130. -/
def mkTagged (offset : Nat) (tag : Val) : Val := (BitVec.ofNat 64 offset &&& ~~~tagMask) ||| tag

/-- `MJS_STRING_BUF_RESERVE`, mjs_string.c:26-28. -/
def bufReserve : Nat := 100

/-- The bytes of an inline string, mjs_string.c:66-69 and 74-77: `offset` is zeroed and the source, if any, copied. -/
def inlineBytes (cmem : Nat → Option UInt8) (m : Mbuf) (p : Ptr) (len : Nat) : Option (List UInt8) :=
  if p.isNull then some (List.replicate len 0) else load cmem m p len

/-- `mjs_mk_string(mjs, p, len, 1)`, mjs_string.c:45-131 with `copy` true.  `als i` is the allocator's answer to the
i-th request.  Simplifications: `len` is never `~0` (for `~0` the C code first takes `strlen(p)`, line 60); the
`need_gc` flag (lines 84-86) is not part of this state, it influences nothing here. -/
def mkStringCopy (hr : Nat) (st : Store) (p : Ptr) (len : Nat) (als : Nat → Alloc) : Option (Store × Val) :=
  let m := st.owned
  if len ≤ 4 then do                                                              -- lines 64-71
    let bs ← inlineBytes st.cmem m p len
    some (st, mkTagged (packLE (UInt8.ofNat len :: bs)) tagStringI)
  else if len = 5 then do                                                         -- lines 72-78
    let bs ← inlineBytes st.cmem m p len
    some (st, mkTagged (packLE bs) tagString5)
  else do
    let (m1, p1) :=                                                               -- lines 93-105
      if m.len + len > m.size then
        let m1 := resize m (m.len + len + bufReserve) (als 0)
        (m1, if backedBy m p then relocate p m.addr m1.addr else p)
      else (m, p)
    let m2 ← embedString hr st.cmem m1 m1.len p1 len true (als 1) (als 2)         -- line 107
    some ({ st with owned := m2 }, mkTagged m.len tagStringO)                     -- lines 58, 108, 130

/-- The 8 bytes of a pointer in memory. -/
def ptrBytes (a : Nat) : List UInt8 := (List.range 8).map fun i => UInt8.ofNat (a / 256 ^ i)

/-- `mjs_mk_string(mjs, p, len, 0)`, mjs_string.c:45-131 with `copy` false, on a machine with 8-byte pointers: `p` is a
C address `a`.  A zero length is treated as a copy (lines 48-56). -/
def mkStringForeign (hr : Nat) (st : Store) (a len : Nat) (als : Nat → Alloc) : Option (Store × Val) :=
  if len = 0 then mkStringCopy hr st (.ext a) 0 als
  else do
    let m := st.foreign
    let pos := m.len                                                              -- line 117
    let k := llen len                                                             -- line 118
    let (m1, _) ← insert hr m pos none (k + 8) (als 0) (als 1)                    -- line 121
    let m2 ← store m1 pos (encode len k).1                                        -- line 123
    let m3 ← store m2 (pos + k) (ptrBytes a)                                      -- line 124
    some ({ st with foreign := m3 }, mkTagged pos tagStringF)                     -- lines 58, 126, 130

/-- `gc_string_mjs_val_to_offset`, mjs_gc.c:381-383. -/
def valToOffset (v : Val) : Nat := (getPtrRaw v &&& ~~~tagMask).toNat

/-- Conversion of a `char` (signed on the supported machines) to `size_t`, mjs_string.c:145. -/
def charToSize (b : UInt8) : Nat := if b.toNat < 128 then b.toNat else 2 ^ 64 - 256 + b.toNat

/-- `mjs_get_string`, mjs_string.c:134-207: pointer and size; `(null, 0)` for a value that is not a readable string;
`none` for the `assert(0)` of line 199 (dictionary strings, which nothing creates) or a read outside the buffer. -/
def getString (st : Store) (v : Val) : Option (Ptr × Nat) :=
  let tag := v &&& tagMask
  if ¬ isString v then some (.null, 0)                                            -- line 139
  else if tag = tagStringI then some (.loc (bytesFrom v 1), charToSize (byteAt v 0))   -- lines 143-145
  else if tag = tagString5 then some (.loc (bytesFrom v 0), 5)                    -- lines 146-148
  else if tag = tagStringO then                                                   -- lines 153-164
    let offset := valToOffset v
    let m := st.owned
    if offset < m.len then
      match decode (m.mem.drop offset) (m.len - offset) with
      | .ok size k => some (.own (m.addr + offset + k), size)
      | .fail => some (.null, 0)
      | .ub => none
    else some (.null, 0)
  else if tag = tagStringF then                                                   -- lines 165-197
    let offset := valToOffset v
    let m := st.foreign
    if offset < m.len then
      match decode (m.mem.drop offset) (m.len - offset) with
      | .ok size k =>
        if offset + k + 8 ≤ m.len then
          some (.ext (packLE ((m.mem.drop (offset + k)).take 8)), size)           -- line 193
        else none
      | .fail => some (.null, 0)
      | .ub => none
    else some (.null, 0)
  else none                                                                       -- line 199

/-- The bytes a user reads through `mjs_get_string`: the `size` bytes at the returned pointer. -/
def strBytes (st : Store) (v : Val) : Option (List UInt8) := do
  let (p, n) ← getString st v
  load st.cmem st.owned p n

/-- The user-level observation "`v` is a string with the bytes `bs`": `mjs_get_string` returns a non-NULL pointer, and
the `size` bytes there are `bs`. -/
def Reads (st : Store) (v : Val) (bs : List UInt8) : Prop :=
  ∃ p n, getString st v = some (p, n) ∧ p.isNull = false ∧ load st.cmem st.owned p n = some bs

/-- The same followed by one more byte (where C code expects the terminating NUL). -/
def strBytesZ (st : Store) (v : Val) : Option (List UInt8) := do
  let (p, n) ← getString st v
  load st.cmem st.owned p (n + 1)

/-- `memcmp` of the C library on equally long byte strings, as a sign. -/
def memcmp : List UInt8 → List UInt8 → Int
  | [], _ => 0
  | _, [] => 0
  | a :: as, b :: bs => if a < b then -1 else if b < a then 1 else memcmp as bs

/-- `s_cmp`, mjs_string.c:247-264. -/
def sCmp (st : Store) (a b : Val) : Option Int := do
  let (pa, na) ← getString st a
  let (pb, nb) ← getString st b
  if na = nb then do                                                              -- line 254
    let xa ← load st.cmem st.owned pa na
    let xb ← load st.cmem st.owned pb na
    some (memcmp xa xb)
  else if na > nb then some 1 else if na < nb then some (-1) else some 0          -- lines 257-263

/-- `check_equal`, mjs_exec.c:219-241: the operator `===`. -/
def checkEqual (st : Store) (a b : Val) : Option Bool :=
  if a = tagNan ∧ b = tagNan then some false                                      -- line 221
  else if a = b then some true                                                    -- line 223
  else if isNumber a ∧ isNumber b then some false                                 -- line 225
  else if isString a ∧ isString b then (sCmp st a b).map fun r => r == 0          -- line 231
  else if isForeign a ∧ b = tagNull then some (getPtr a == 0)                     -- line 233
  else if a = tagNull ∧ isForeign b then some (getPtr b == 0)                     -- line 235
  else some false

/-- Replace bytes of a value in memory from offset `i` on. -/
def writeVal (v : Val) (i : Nat) (bs : List UInt8) : Option Val :=
  if i + bs.length ≤ 8 then
    some (BitVec.ofNat 64 (packLE ((bytesFrom v 0).take i ++ bs ++ (bytesFrom v 0).drop (i + bs.length))))
  else none

/-- `s_concat`, mjs_string.c:266-288.  The result is first made as a placeholder (NULL source), then filled: an inline
result lives in the local variable `res`, a longer one in `owned_strings`. -/
def sConcat (hr : Nat) (st : Store) (a b : Val) (als : Nat → Alloc) : Option (Store × Val) := do
  let (_, na) ← getString st a                                                    -- lines 272-273
  let (_, nb) ← getString st b
  let (st1, res) ← mkStringCopy hr st .null (na + nb) als                         -- line 276
  let (pa, na') ← getString st1 a                                                 -- lines 279-280
  let (pb, nb') ← getString st1 b
  let xa ← load st1.cmem st1.owned pa na'
  let xb ← load st1.cmem st1.owned pb nb'
  if res &&& tagMask = tagStringI then do                                         -- lines 283-285
    let r1 ← writeVal res 1 xa
    let r2 ← writeVal r1 (1 + xa.length) xb
    some (st1, r2)
  else if res &&& tagMask = tagString5 then do
    let r1 ← writeVal res 0 xa
    let r2 ← writeVal r1 xa.length xb
    some (st1, r2)
  else do
    let (pr, _) ← getString st1 res
    match pr with
    | .own p =>
      if p < st1.owned.addr then none
      else
        let m1 ← store st1.owned (p - st1.owned.addr) xa
        let m2 ← store m1 (p - st1.owned.addr + xa.length) xb
        some ({ st1 with owned := m2 }, res)
    | _ => none

end Mjs.Str
