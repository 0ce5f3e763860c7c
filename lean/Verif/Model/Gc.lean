import Verif.Model.Object

/-!
# Model of the collector: `src/mjs_gc.c:258-527` (marking, compaction of strings, `mjs_gc`)

The collector works on variables of type `mjs_val_t`, given by their addresses: it follows the objects they refer to, and
for strings it temporarily stores into them (links of the list of all variables that refer to the same string).  A
variable is either the name or the value of a property, which lies 8 or 16 bytes into the property cell, or one of the
others (`mjs->vals`, the stacks, the variables of C code registered by `mjs_own`, the callback descriptors of the FFI).
-/

namespace Mjs.Gc
open Mjs Mjs.Mbuf Mjs.Varint Mjs.Str Mjs.Arena Mjs.Obj

/-- The memory the collector works on: the string buffers, objects and properties, the cells of FFI signatures (`σ` is
the signature without its first word), and the `mjs_val_t` variables outside property cells by address. -/
structure Mem (σ : Type) where
  heap : Heap
  sigs : Arena σ
  vars : Nat → Option Val

variable {σ : Type}

/-- Read the `mjs_val_t` at an address; the layout of a property is that of mjs_object.h:18-22 with 8-byte pointers. -/
def readSlot (m : Mem σ) (a : Nat) : Option Val :=
  match m.vars a with
  | some v => some v
  | none =>
    match m.heap.props.mem (a - 8) with
    | some c => some c.body.1
    | none => (m.heap.props.mem (a - 16)).map fun c => c.body.2

/-- Write the `mjs_val_t` at an address. -/
def writeSlot (m : Mem σ) (a : Nat) (v : Val) : Option (Mem σ) :=
  match m.vars a with
  | some _ => some { m with vars := upd m.vars a (some v) }
  | none =>
    match m.heap.props.mem (a - 8) with
    | some c => some { m with heap := { m.heap with props :=
        { m.heap.props with mem := upd m.heap.props.mem (a - 8) (some ⟨c.head, (v, c.body.2)⟩) } } }
    | none =>
      (m.heap.props.mem (a - 16)).map fun c => { m with heap := { m.heap with props :=
        { m.heap.props with mem := upd m.heap.props.mem (a - 16) (some ⟨c.head, (c.body.1, v)⟩) } } }

/-- Set the buffer `owned_strings`. -/
def setOwned (m : Mem σ) (b : Mbuf) : Mem σ := { m with heap := { m.heap with str := { m.heap.str with owned := b } } }

/-- The lower 6 bytes of a number in memory, little endian (`memcpy(.., sizeof(h) - 2)`, mjs_gc.c:356, 365, 398, 424). -/
def low6 (n : Nat) : List UInt8 := (List.range 6).map fun i => UInt8.ofNat (n / 256 ^ i)

/-- `memcpy(&x, s, sizeof(x) - 2)` with `x` zero before and `s` at offset `off` of the block; `none`: outside the block. -/
def load6 (b : Mbuf) (off : Nat) : Option Nat :=
  if off + 6 ≤ b.mem.length then some (packLE ((b.mem.drop off).take 6)) else none

/-- `gc_mark_string`, mjs_gc.c:328-367, for the variable at address `a`.  `none`: the assert of line 354 fails or the
accesses leave the block. -/
def markString (m : Mem σ) (a : Nat) : Option (Mem σ) := do
  let v ← readSlot m a
  let b := m.heap.str.owned
  let off := valToOffset v                                                        -- line 353
  if off < b.len ∧ off ≠ 0 then do                                                -- line 354
    let mk ← b.mem[off - 1]?                                                      -- line 355
    let six ← load6 b off                                                         -- lines 356-360
    let tmp := BitVec.ofNat 64 six ||| (if mk = 0 then tagStringC else tagForeign)
    let b1 ← store b (off - 1) [1]                                                -- line 364
    let b2 ← store b1 off (low6 a)                                                -- line 365
    writeSlot (setOwned m b2) a tmp                                               -- line 366
  else none

/-- `gc_mark_ffi_sig`, mjs_gc.c:259-277, for the value `v`; `none` is the `abort()` (or a read outside the cells). -/
def markSig (m : Mem σ) (v : Val) : Option (Mem σ) :=
  let s := (getPtrRaw v).toNat
  if checkPtr m.sigs s = false then none
  else (m.sigs.mem s).map fun c =>
    if marked c.head then m else { m with sigs := { m.sigs with mem := upd m.sigs.mem s (some ⟨mark c.head, c.body⟩) } }

mutual
/-- `gc_mark`, mjs_gc.c:369-379, for the variable at address `a`.  The number bounds the depth of the C recursion and the
rounds of its loops together; `none` also stands for a bound that is too small. -/
def markVal : Nat → Mem σ → Nat → Option (Mem σ)
  | 0, _, _ => none
  | n + 1, m, a => do
    let v ← readSlot m a
    let m ← if isObject v then markObject n m v else some m
    let v ← readSlot m a
    let m ← if isFfiSig v then markSig m v else some m
    let v ← readSlot m a
    if v &&& tagMask = tagStringO then markString m a else some m
/-- `gc_mark_object`, mjs_gc.c:280-325, for the value `v`; `none` is the `abort()` of line 294. -/
def markObject : Nat → Mem σ → Val → Option (Mem σ)
  | 0, _, _ => none
  | n + 1, m, v =>
    let o := (getPtrRaw v).toNat
    if checkPtr m.heap.objs o = false then none
    else do
      let c ← m.heap.objs.mem o
      if marked c.head then some m
      else markProps n { m with heap := { m.heap with objs :=
        { m.heap.objs with mem := upd m.heap.objs.mem o (some ⟨mark c.head, c.body⟩) } } } c.head
/-- The loop over the properties, mjs_gc.c:300-316, from the property `p` on. -/
def markProps : Nat → Mem σ → Nat → Option (Mem σ)
  | 0, _, _ => none
  | n + 1, m, p =>
    if p = 0 then some m
    else if checkPtr m.heap.props p = false then none                               -- line 302
    else do
      let m ← markVal n m (p + 8)                                                 -- line 306
      let m ← markVal n m (p + 16)                                                -- line 307
      let c ← m.heap.props.mem p
      markProps n { m with heap := { m.heap with props :=
        { m.heap.props with mem := upd m.heap.props.mem p (some ⟨mark c.head, c.body⟩) } } } c.head
end

/-- `gc_string_val_from_offset`, mjs_gc.c:385-387. -/
def fromOffset (s : Nat) : Val := BitVec.ofNat 64 s ||| tagStringO

/-- The loop of mjs_gc.c:405-410: every variable in the list that starts with the value `h` gets the new offset; the
result is the value that ends the list. -/
def relink : Nat → Mem σ → Val → Nat → Option (Mem σ × Val)
  | 0, _, _, _ => none
  | n + 1, m, h, head =>
    if h &&& tagMask = tagStringC then some (m, h)
    else do
      let a := (h &&& ~~~tagMask).toNat
      let next ← readSlot m a
      let m ← writeSlot m a (fromOffset head)
      relink n m next head

/-- The size of a chunk from its first bytes, mjs_gc.c:417-418 and 434-435.  Simplification: lengths that do not fit an
`int` have no result. -/
def chunkSize (bytes : List UInt8) : Option Nat :=
  match decodeUnsafe bytes with
  | .ok v k => if v + k + 1 < 2 ^ 31 then some (v + k + 1) else none
  | _ => none

/-- The loop of `gc_compact_strings`, mjs_gc.c:394-439, with `p` as offset into the block. -/
def compactLoop : Nat → Mem σ → Nat → Nat → Option (Mem σ)
  | 0, _, _, _ => none
  | n + 1, m, p, head =>
    let b := m.heap.str.owned
    if p < b.len then do
      let mk ← b.mem[p - 1]?                                                      -- line 395
      if mk = 1 then do
        let h ← load6 b p                                                         -- lines 397-398
        let (m, h) ← relink n m (BitVec.ofNat 64 h) head                          -- lines 405-410
        let h := h &&& ~~~tagMask                                                 -- line 411
        let len ← chunkSize (bytesFrom h 0)                                       -- lines 417-418
        let b1 ← store b p (low6 h.toNat)                                         -- line 424
        let mem2 ← memmove b1.mem head p len                                      -- line 429
        let b3 ← store { b1 with mem := mem2 } (head - 1) [0]                     -- line 430
        compactLoop n (setOwned m b3) (p + len) (head + len)
      else do
        let len ← chunkSize (b.mem.drop p)                                        -- lines 434-435
        compactLoop n m (p + len) head
    else some (setOwned m { b with len := head })                                 -- line 441

/-- `gc_compact_strings`, mjs_gc.c:389-442. -/
def compactStrings (n : Nat) (m : Mem σ) : Option (Mem σ) := compactLoop n m 1 1

/-- The addresses of the variables from which `mjs_gc` marks, mjs_gc.c:490-498: `mjs->vals`, the variables registered by
`mjs_own`, the scopes, the data stack, the call stack, the descriptors of FFI callbacks. -/
structure Roots where
  vals : List Nat
  owned : List Nat
  scopes : List Nat
  stack : List Nat
  callStack : List Nat
  cbArgs : List Nat

/-- The order of mjs_gc.c:490-498. -/
def Roots.all (r : Roots) : List Nat := r.vals ++ r.owned ++ r.scopes ++ r.stack ++ r.callStack ++ r.cbArgs

/-- Marking all variables of a list one after the other (`gc_mark_val_array`, `gc_mark_mbuf_pt`,
`gc_mark_ffi_cbargs_list`, mjs_gc.c:455-486). -/
def markAll (n : Nat) (m : Mem σ) (as : List Nat) : Option (Mem σ) := as.foldlM (markVal n) m

/-- Resizing the string buffer in a full collection, mjs_gc.c:506-516; `_MJS_STRING_BUF_RESERVE` is 100 (mjs_string.h:20). -/
def trimStrings (m : Mem σ) (full : Bool) (al : Alloc) : Mem σ :=
  let b := m.heap.str.owned
  if full = true ∧ b.len + bufReserve < b.size then setOwned m (resize b (b.len + bufReserve) al) else m

/-- `mjs_gc`, mjs_gc.c:489-517. -/
def mjsGc [Inhabited σ] (n : Nat) (m : Mem σ) (r : Roots) (full : Bool) (al : Alloc) : Option (Mem σ) := do
  let m ← markAll n m r.all
  let m ← compactStrings n m
  let o ← sweep m.heap.objs
  let p ← sweep m.heap.props
  let s ← sweep m.sigs
  some (trimStrings { m with heap := { m.heap with objs := o, props := p }, sigs := s } full al)

end Mjs.Gc
