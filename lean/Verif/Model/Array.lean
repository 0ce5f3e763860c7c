import Verif.Model.Object
import Verif.Model.StrApi
import Verif.Model.Printf

/-!
# Model of arrays: `src/mjs_array.c`, and `str_to_ulong` of `src/mjs_string.c`

An array is an object whose keys are the decimal numerals of the indices.  A function that performs several operations
takes the allocator's answers as a sequence, one for each operation.
-/

namespace Mjs.Arr
open Mjs Mjs.Mbuf Mjs.Str Mjs.Arena Mjs.Obj

/-- The byte at distance `i` from a pointer. -/
def byteOf (st : Store) (p : Ptr) (i : Nat) : Option UInt8 := (load st.cmem st.owned p (i + 1)).bind fun bs => bs[i]?

/-- `isspace` of the C library (in its `"C"` locale). -/
def isspace (c : UInt8) : Bool := c = 32 || (9 ≤ c.toNat && c.toNat ≤ 13)

/-- `strtoul`: skip white space from index `i` on. -/
def skipSpace (rd : Nat → Option UInt8) (i : Nat) : Option Nat := do
  let c ← rd i
  if isspace c then skipSpace rd (i + 1) else some i
partial_fixpoint

/-- `strtoul`: the digits from index `i` on; the index behind them and the number. -/
def digits (rd : Nat → Option UInt8) (i acc : Nat) : Option (Nat × Nat) := do
  let c ← rd i
  if 48 ≤ c.toNat ∧ c.toNat ≤ 57 then digits rd (i + 1) (acc * 10 + (c.toNat - 48)) else some (i, acc)
partial_fixpoint

/-- `strtoul(s, &e, 10)` of the C library: the number and `e - s`.  Overflow gives `ULONG_MAX`. -/
def strtoul (rd : Nat → Option UInt8) : Option (Nat × Nat) := do
  let i ← skipSpace rd 0
  let c ← rd i
  let j := if c = 45 ∨ c = 43 then i + 1 else i
  let (k, n) ← digits rd j 0
  if k = j then some (0, 0)
  else some (if n ≥ 2 ^ 64 then 2 ^ 64 - 1 else if c = 45 then (2 ^ 64 - n) % 2 ^ 64 else n, k)

/-- `str_to_ulong` and `cstr_to_ulong`, mjs_string.c:230-245: the number and `ok`. -/
def strToUlong (st : Store) (v : Val) : Option (Nat × Bool) := do
  let (p, len) ← getString st v
  let (n, e) ← strtoul (byteOf st p)
  some (n, e == len && len != 0)

/-- The key of an index: `v_sprintf_s(buf, sizeof(buf), "%lu", index)`, mjs_array.c:20-29 and 57-58, 98-99, 109-110: the
local buffer of 20 bytes and the length.  Simplification: the buffer is zero before. -/
def indexKey (index : Nat) : Option (Ptr × Nat) :=
  (Printf.vsnprintf (List.replicate 20 0) 20 [37, 108, 117] [.int index]).map fun (buf, n) =>
    (.loc buf, if n > 20 then 20 else n)

/-- `mjs_array_get2`, mjs_array.c:47-69: the value, and whether the index is present. -/
def get2 (h : Heap) (arr : Val) (index : Nat) : Option (Val × Bool) :=
  if isObject arr then do
    let (buf, n) ← indexKey index
    let p ← getOwnProperty h arr buf n
    if p ≠ 0 then (valueAt h p).map fun v => (v, true) else some (mkUndefined, false)
  else some (mkUndefined, false)

/-- `mjs_array_get`, mjs_array.c:43-45. -/
def get (h : Heap) (arr : Val) (index : Nat) : Option Val := (get2 h arr index).map (·.1)

/-- The loop of `mjs_array_length`, mjs_array.c:80-87. -/
def lengthLoop (h : Heap) (p len : Nat) : Option Nat :=
  if p = 0 then some len
  else do
    let c ← h.props.mem p
    let (n, ok) ← strToUlong h.str c.body.1
    lengthLoop h c.head (if ok ∧ n ≥ len ∧ n < 0xffffffff then n + 1 else len)
partial_fixpoint

/-- `mjs_array_length`, mjs_array.c:71-91. -/
def length (h : Heap) (v : Val) : Option Nat :=
  if ¬ isObject v then some 0
  else do
    let o ← getObjectStruct v
    let c ← h.objs.mem o
    lengthLoop h c.head 0

/-- `mjs_array_set`, mjs_array.c:93-106. -/
def set (h : Heap) (arr : Val) (index : Nat) (v : Val) (al : Allocs) : Option (Heap × Err) :=
  if isObject arr then do
    let (buf, n) ← indexKey index
    Obj.set h arr buf n v al
  else some (h, .type)

/-- `mjs_array_del`, mjs_array.c:108-112. -/
def del (h : Heap) (arr : Val) (index : Nat) : Option Heap := do
  let (buf, n) ← indexKey index
  (Obj.del h arr buf n).map (·.1)

/-- `mjs_array_push`, mjs_array.c:114-116. -/
def push (h : Heap) (arr v : Val) (al : Allocs) : Option (Heap × Err) := do
  let n ← length h arr
  set h arr n v al

/-- The loop of `mjs_array_push_internal`, mjs_array.c:130-136: `none` in the second component is an error. -/
def pushAll (h : Heap) (arr : Val) (al : Nat → Allocs) : List Val → Option (Heap × Err)
  | [] => some (h, .ok)
  | v :: vs => do
    let (h1, e) ← push h arr v (al 0)
    if e ≠ .ok then some (h1, e) else pushAll h1 arr (fun k => al (k + 1)) vs

/-- Result of a builtin on arrays: the heap, the error it sets and the value it returns. -/
structure Out where
  heap : Heap
  err : Err
  ret : Val

/-- `mjs_array_push_internal` (the method `push`), mjs_array.c:118-144. -/
def pushMethod (h : Heap) (this : Val) (args : List Val) (al : Nat → Allocs) : Option Out := do
  match ← checkArg (some this) .objectArray with
  | none => some ⟨h, .type, mkUndefined⟩
  | some _ =>
    let (h1, e) ← pushAll h this al args
    if e ≠ .ok then some ⟨h1, e, mkUndefined⟩
    else do
      let n ← length h1 this
      some ⟨h1, .ok, mkInt n⟩

/-- `move_item`, mjs_array.c:146-151: `al 0` is for the assignment, `al 1` for the deletion (which allocates nothing). -/
def moveItem (h : Heap) (arr : Val) (from_ to : Nat) (al : Nat → Allocs) : Option Heap := do
  let cur ← get h arr from_
  let (h1, _) ← set h arr to cur (al 0)
  del h1 arr from_

/-- The loop that collects the removed items, mjs_array.c:202-209: indices from `i` on, `n` of them. -/
def copyItems (h : Heap) (arr ret : Val) (i : Nat) (al : Nat → Allocs) : Nat → Option (Heap × Err)
  | 0 => some (h, .ok)
  | n + 1 => do
    let cur ← get h arr i
    let (h1, e) ← push h ret cur (al 0)
    if e ≠ .ok then some (h1, e) else copyItems h1 arr ret (i + 1) (fun k => al (k + 1)) n

/-- The loop that moves the tail down, mjs_array.c:213-219: indices from `i` on, `n` of them; `first` is `start - delta`.
Each round uses two of the allocator's answers. -/
def moveDown (h : Heap) (arr : Val) (first : Nat) (delta : Nat) (i : Nat) (al : Nat → Allocs) : Nat → Option Heap
  | 0 => some h
  | n + 1 => do
    let h1 ← if i ≥ first then moveItem h arr i (i - delta) al else del h arr i
    moveDown h1 arr first delta (i + 1) (fun k => al (k + 2)) n

/-- The loop that moves the tail up, mjs_array.c:221-223: `n` indices from `start + n - 1` down. -/
def moveUp (h : Heap) (arr : Val) (start delta : Nat) (al : Nat → Allocs) : Nat → Option Heap
  | 0 => some h
  | n + 1 => do
    let h1 ← moveItem h arr (start + n) (start + n + delta) al
    moveUp h1 arr start delta (fun k => al (k + 2)) n

/-- The loop that stores the new items, mjs_array.c:227-230. -/
def setItems (h : Heap) (arr : Val) (i : Nat) (al : Nat → Allocs) : List Val → Option Heap
  | [] => some h
  | v :: vs => do
    let (h1, _) ← set h arr i v (al 0)
    setItems h1 arr (i + 1) (fun k => al (k + 1)) vs

/-- `delete_cnt`, mjs_array.c:177-195, given the arguments after `start`; `some none` is the error of line 180. -/
def deleteCount (arrLen start : Int) (args : List Val) : Option (Option Int) :=
  let clamp (d : Int) : Int := if d > arrLen - start then arrLen - start else if d < 0 then 0 else d
  if args.length ≥ 2 then (checkArg args[1]? .number).map fun o => o.map fun v => clamp (getInt v)
  else some (some (clamp (arrLen - start)))

/-- Moving the items behind the removed ones, mjs_array.c:198 and 212-224. -/
def moveTail (h : Heap) (this : Val) (start arrLen delta : Int) (al : Nat → Allocs) : Option Heap :=
  if delta < 0 then
    moveDown h this (start - delta).toNat (-delta).toNat start.toNat al (arrLen - start).toNat
  else if delta > 0 then moveUp h this start.toNat delta.toNat al (arrLen - start).toNat
  else some h

/-- `mjs_array_splice`, mjs_array.c:153-238.  The allocator's answers are numbered: 0 for the new array, then one for each
removed item, two for each moved item, one for each new item. -/
def splice (h : Heap) (this : Val) (args : List Val) (al : Nat → Allocs) : Option Out := do
  let (h0, ret) ← mkArray h (al 0)                                              -- line 156
  match ← checkArg (some this) .objectArray with                                -- line 165
  | none => some ⟨h0, .type, ret⟩
  | some _ =>
  let len ← length h0 this                                                      -- line 170
  let arrLen := cInt len
  match ← checkArg args[0]? .number with                                        -- line 173
  | none => some ⟨h0, .type, ret⟩
  | some startV =>
  let start := normalizeIdx (getInt startV) arrLen                              -- line 176
  match ← deleteCount arrLen start args with
  | none => some ⟨h0, .type, ret⟩
  | some cnt =>
  let items := args.drop 2
  let (h1, e) ← copyItems h0 this ret start.toNat (fun k => al (1 + k)) cnt.toNat
  if e ≠ .ok then some ⟨h1, e, ret⟩
  else do
    let h2 ← moveTail h1 this start arrLen (items.length - cnt) (fun k => al (1 + cnt.toNat + k))
    let h3 ← setItems h2 this start.toNat (fun k => al (1 + cnt.toNat + 2 * (arrLen - start).toNat + k)) items
    some ⟨h3, .ok, ret⟩

end Mjs.Arr
