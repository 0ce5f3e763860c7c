/-!
# Model of `src/common/mbuf.c`

A growable buffer.  The allocated block is a list of bytes `mem` (its length is the C field `size`); the first `len`
bytes are the content, the others have indeterminate values.  Every access to the block is checked: an access outside
of it, or a failed `assert`, is the outcome `none`.
-/

namespace Mjs.Mbuf

/-- `struct mbuf`, mbuf.h:48-52.  `addr` is the numeric value of `buf`, `mem.length` is `size`. -/
structure Mbuf where
  addr : Nat
  mem : List UInt8
  len : Nat

/-- The C field `size`, mbuf.h:51. -/
def Mbuf.size (m : Mbuf) : Nat := m.mem.length

/-- What the user sees: "Data is located between offset 0 and len", mbuf.h:50. -/
def Mbuf.content (m : Mbuf) : List UInt8 := m.mem.take m.len

/-- The allocator's answer to one `realloc`: NULL, or a new address and the (indeterminate) bytes of the fresh part
of the block. -/
abbrev Alloc := Option (Nat × (Nat → UInt8))

/-- `realloc(buf, n)` of the C library (mbuf.c:24-26): keeps the common prefix, the rest is indeterminate. -/
def realloc (mem : List UInt8) (n : Nat) : Alloc → Option (Nat × List UInt8)
  | none => none
  | some (a, junk) => some (a, mem.take n ++ (List.range (n - mem.length)).map junk)

/-- `memmove` inside the block: both ranges must lie in it. -/
def memmove (mem : List UInt8) (dst src n : Nat) : Option (List UInt8) :=
  if dst + n ≤ mem.length ∧ src + n ≤ mem.length then
    some (mem.take dst ++ (mem.drop src).take n ++ mem.drop (dst + n))
  else none

/-- `memcpy` of `n` bytes from a separate object holding `data` into the block. -/
def memcpyFrom (mem : List UInt8) (dst : Nat) (data : List UInt8) (n : Nat) : Option (List UInt8) :=
  if dst + n ≤ mem.length ∧ n ≤ data.length then
    some (mem.take dst ++ data.take n ++ mem.drop (dst + n))
  else none

/-- `mbuf_resize`, mbuf.c:47-60. -/
def resize (m : Mbuf) (newSize : Nat) (al : Alloc) : Mbuf :=
  if newSize > m.size ∨ (newSize < m.size ∧ newSize ≥ m.len) then              -- line 49
    match realloc m.mem newSize al with
    | none => if newSize ≠ 0 then m else { addr := 0, mem := [], len := m.len }  -- lines 56-58
    | some (a, mem') => { addr := a, mem := mem', len := m.len }                 -- lines 57-58
  else m

/-- `mbuf_init`, mbuf.c:32-37. -/
def init (initialSize : Nat) (al : Alloc) : Mbuf := resize { addr := 0, mem := [], len := 0 } initialSize al

/-- `mbuf_free`, mbuf.c:39-45: `mbuf_init(mbuf, 0)` allocates nothing. -/
def free (m : Mbuf) : Mbuf := if m.addr ≠ 0 then init 0 none else m

/-- `mbuf_trim`, mbuf.c:62-65. -/
def trim (m : Mbuf) (al : Alloc) : Mbuf := resize m m.len al

/-- The growth policy of `mbuf_insert`, mbuf.c:85-89.  `headroom` is `MBUF_SIZE_MAX_HEADROOM`, mbuf.h:39-45.
Simplification: the C code multiplies by the double 1.5; the product is exact for sizes below 2^52. -/
def newSize (headroom minSize : Nat) : Nat :=
  if minSize * 3 / 2 - minSize > headroom then minSize + headroom else minSize * 3 / 2

/-- The part of `mbuf_insert` that moves the tail and copies the data, mbuf.c:80-84 and 96-101.
`data = none` is the NULL pointer: the gap keeps whatever bytes are there. -/
def openGap (mem : List UInt8) (mlen off : Nat) (data : Option (List UInt8)) (len : Nat) : Option (List UInt8) := do
  let mem1 ← memmove mem (off + len) off (mlen - off)
  match data with
  | none => some mem1
  | some d => memcpyFrom mem1 off d len

/-- The two attempts of `mbuf_insert` to get a larger block, mbuf.c:90-94. -/
def grow (headroom : Nat) (mem : List UInt8) (minSize : Nat) (al1 al2 : Alloc) : Option (Nat × List UInt8) :=
  match realloc mem (newSize headroom minSize) al1 with
  | none => if newSize headroom minSize ≠ minSize then realloc mem minSize al2 else none
  | some r => some r

/-- `mbuf_insert`, mbuf.c:67-109.  `al1`, `al2`: the allocator's answers to the first and second `realloc`
(lines 90 and 93).  Result: the buffer and the return value.  Simplification: at line 97 the memmove is skipped if it
would move nothing, which is the same. -/
def insert (headroom : Nat) (m : Mbuf) (off : Nat) (data : Option (List UInt8)) (len : Nat) (al1 al2 : Alloc) :
    Option (Mbuf × Nat) :=
  if ¬ (m.len ≤ m.size ∧ off ≤ m.len) then none                                 -- asserts, lines 72-74
  else if (2 ^ 64 - 1) - m.addr < len then some (m, 0)                          -- line 77
  else
    let minSize := (m.len + len) % 2 ^ 64                                       -- size_t addition, lines 79 and 86
    if minSize ≤ m.size then do                                                 -- line 79
      let mem' ← openGap m.mem m.len off data len
      some ({ m with mem := mem', len := minSize }, len)
    else
      match grow headroom m.mem minSize al1 al2 with                            -- lines 85-94
      | none => some (m, 0)                                                     -- line 104
      | some (a, mem0) => do
        let mem' ← openGap mem0 m.len off data len
        some ({ addr := a, mem := mem', len := minSize }, len)                  -- lines 96-102

/-- `mbuf_append`, mbuf.c:111-114. -/
def append (headroom : Nat) (m : Mbuf) (data : Option (List UInt8)) (len : Nat) (al1 al2 : Alloc) :
    Option (Mbuf × Nat) :=
  insert headroom m m.len data len al1 al2

/-- `mbuf_append_and_free`, mbuf.c:116-130.  `dataAddr` is the address of the heap block `data` being taken over. -/
def appendAndFree (headroom : Nat) (m : Mbuf) (dataAddr : Nat) (data : List UInt8) (al1 al2 : Alloc) :
    Option (Mbuf × Nat) :=
  if m.len = 0 then some ({ addr := dataAddr, mem := data, len := data.length }, data.length)
  else insert headroom m m.len (some data) data.length al1 al2

/-- `mbuf_remove`, mbuf.c:132-138. -/
def remove (m : Mbuf) (n : Nat) : Option Mbuf :=
  if n > 0 ∧ n ≤ m.len then do
    let mem' ← memmove m.mem 0 n (m.len - n)
    some { m with mem := mem', len := m.len - n }
  else some m

/-- `mbuf_clear`, mbuf.c:140-143. -/
def clear (m : Mbuf) : Mbuf := { m with len := 0 }

/-- `mbuf_move`, mbuf.c:145-149: result `(from, to)`. -/
def move (src : Mbuf) : Mbuf × Mbuf := ({ addr := 0, mem := [], len := 0 }, src)

/-- A call on one buffer, with the answers the allocator would give. -/
inductive Op where
  | insert (off : Nat) (data : List UInt8) (al1 al2 : Alloc)
  | insertGap (off len : Nat) (al1 al2 : Alloc)
  | append (data : List UInt8) (al1 al2 : Alloc)
  | appendAndFree (dataAddr : Nat) (data : List UInt8) (al1 al2 : Alloc)
  | remove (n : Nat)
  | resize (n : Nat) (al : Alloc)
  | trim (al : Alloc)
  | clear
  | free

/-- One call, dispatching to the functions above; functions without result return 0. -/
def step (headroom : Nat) (m : Mbuf) : Op → Option (Mbuf × Nat)
  | .insert off d a b => insert headroom m off (some d) d.length a b
  | .insertGap off n a b => insert headroom m off none n a b
  | .append d a b => append headroom m (some d) d.length a b
  | .appendAndFree da d a b => appendAndFree headroom m da d a b
  | .remove n => (remove m n).map (·, 0)
  | .resize n a => some (resize m n a, 0)
  | .trim a => some (trim m a, 0)
  | .clear => some (clear m, 0)
  | .free => some (free m, 0)

end Mjs.Mbuf
