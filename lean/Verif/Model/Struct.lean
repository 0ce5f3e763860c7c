import Verif.Model.MkStr
import Verif.Model.Num

/-!
# Model of `s2o` and `mjs_struct_to_obj` (src/mjs_object.c:283-400, src/mjs_builtin.c:124-129)

On a little endian machine with 8-byte pointers and 4-byte `int` and `enum`.  The structure and its description are C memory
(`cmem`), a read of memory that the process does not have is `none`.  `mjs_own` and `mjs_disown` (lines 290, 398) matter only for
a collection, and there is none inside of this function.
-/

namespace Mjs.Struct
open Mjs Mjs.Str Mjs.Obj Mjs.Core Mjs.Builtin

/-- An unsigned number of `n` bytes in memory. -/
def readLE (cmem : Nat → Option UInt8) (a n : Nat) : Option Nat :=
  (readC cmem a n).map fun bs => bs.foldr (fun b acc => b.toNat + 256 * acc) 0

/-- `struct mjs_c_struct_member`, mjs_object_public.h:52-57. -/
structure Member where
  name : Nat
  offset : Int
  type : Nat
  arg : Nat

/-- A description at an address: `name` is at 0, `offset` at 8, `type` at 12 and `arg` at 16. -/
def member (cmem : Nat → Option UInt8) (a : Nat) : Option Member := do
  let name ← readLE cmem a 8
  let offset ← readLE cmem (a + 8) 4
  let type ← readLE cmem (a + 12) 4
  let arg ← readLE cmem (a + 16) 8
  some ⟨name, (BitVec.ofNat 32 offset).toInt, type, arg⟩

/-- `while (def->name != NULL) def++`, mjs_object.c:296: the number of steps. -/
def countDefs (cmem : Nat → Option UInt8) (a : Nat) : Option Nat := do
  let n ← readLE cmem a 8
  if n = 0 then some 0 else do
    let k ← countDefs cmem (a + 24)
    some (k + 1)
partial_fixpoint

/-- The conversion of a `float` to `double` by the processor (IEEE 754; it is exact).  Simplification: it keeps the bits of a NaN,
which `mjs_mk_number` replaces. -/
def widen (x : BitVec 32) : BitVec 64 :=
  let s := x.toNat / 2 ^ 31
  let e := x.toNat / 2 ^ 23 % 2 ^ 8
  let f := x.toNat % 2 ^ 23
  BitVec.ofNat 64 (s * 2 ^ 63 +
    (if e = 255 then 2047 * 2 ^ 52 + f * 2 ^ 29
     else if e ≠ 0 then (e + 896) * 2 ^ 52 + f * 2 ^ 29
     else if f = 0 then 0
     else (f.log2 + 874) * 2 ^ 52 + (f - 2 ^ f.log2) * 2 ^ (52 - f.log2)))

/-- What changes: the heap, the answers of the allocator that are left, and whether `mjs_mk_foreign` set an error. -/
structure St where
  heap : Heap
  al : Nat → Allocs
  bad : Bool := false

/-- The functions in descriptions (`MJS_STRUCT_FIELD_TYPE_CUSTOM`): from the address of the function and that of the field. -/
abbrev Customs := Nat → Nat → St → Option (St × Val)

/-- `mjs_mk_string(mjs, p, len, 1)`; `len` as the signed number with the bits of the `size_t`. -/
def text (s : St) (a : Nat) (len : Int) : Option (St × Val) :=
  (mkString (s.al 0).hr s.heap.str a len true (s.al 0).strs).map fun r =>
    ({ s with heap := { s.heap with str := r.1 }, al := fun k => s.al (k + 1) }, r.2)

/-- A number of `n` bytes, signed. -/
def readInt (cmem : Nat → Option UInt8) (a n : Nat) : Option Int := (readLE cmem a n).map fun x => (BitVec.ofNat (8 * n) x).toInt

/-- The `switch` of mjs_object.c:300-394 for a field of type `type` at the address `p`; the cases are numbered as in
mjs_object_public.h:26-49.  `sub` is the recursive call.  A `bool` that is neither 0 nor 1 is undefined behaviour, `none`. -/
def field (custom : Customs) (sub : St → Nat → Nat → Option (St × Val)) (type arg : Nat) (s : St) (p : Nat) : Option (St × Val) :=
  let cm := s.heap.str.cmem
  match type with
  | 1 => sub s p arg                                                                  -- STRUCT, lines 301-307
  | 2 => (readLE cm p 8).bind fun q => if q ≠ 0 then sub s q arg else some (s, mkNull)   -- STRUCT_PTR, lines 308-318
  | 3 => (readInt cm p 4).map fun n => (s, mkNumber (ofIntD n))                       -- INT, lines 319-323
  | 4 => (readLE cm p 1).bind fun b => if b ≤ 1 then some (s, mkBoolean (b ≠ 0)) else none   -- BOOL, lines 324-327
  | 5 => (readLE cm p 8).map fun x => (s, mkNumber (BitVec.ofNat 64 x))               -- DOUBLE, lines 328-331
  | 6 => (readLE cm p 4).map fun x => (s, mkNumber (widen (BitVec.ofNat 32 x)))       -- FLOAT, lines 332-336
  | 7 => (readLE cm p 8).bind fun q => text s q (-1)                                  -- CHAR_PTR, lines 337-341
  | 8 => (readLE cm p 8).map fun q =>                                                 -- VOID_PTR, lines 342-345
      ({ s with bad := s.bad || (mkForeign (BitVec.ofNat 64 q)).2 }, (mkForeign (BitVec.ofNat 64 q)).1)
  | 9 => (readLE cm p 8).bind fun q =>                                                -- MG_STR_PTR, lines 346-354
      if q ≠ 0 then (readLE cm q 8).bind fun t => (readInt cm (q + 8) 8).bind fun n => text s t n
      else some (s, mkNull)
  | 10 => (readLE cm p 8).bind fun t => (readInt cm (p + 8) 8).bind fun n => text s t n   -- MG_STR, lines 355-359
  | 11 => text s p (BitVec.ofNat 64 arg).toInt                                        -- DATA, lines 360-365
  | 12 => (readInt cm p 1).map fun n => (s, mkNumber (ofIntD n))                      -- INT8, lines 366-370
  | 13 => (readInt cm p 2).map fun n => (s, mkNumber (ofIntD n))                      -- INT16, lines 371-375
  | 14 => (readLE cm p 1).map fun n => (s, mkNumber (ofIntD n))                       -- UINT8, lines 376-380
  | 15 => (readLE cm p 2).map fun n => (s, mkNumber (ofIntD n))                       -- UINT16, lines 381-385
  | 16 => custom arg p s                                                              -- CUSTOM, lines 386-390
  | _ => some (s, mkUndefined)                                                        -- lines 298, 391

/-- One round of the loop, mjs_object.c:298-396, for the description at `a`; an address below 0 is `none`. -/
def round (custom : Customs) (sub : St → Nat → Nat → Option (St × Val)) (base : Nat) (obj : Val) (a : Nat) (s : St) : Option St := do
  let m ← member s.heap.str.cmem a
  if (base : Int) + m.offset < 0 then none
  let (s1, v) ← field custom sub m.type m.arg s ((base : Int) + m.offset).toNat
  let (h, _) ← setZ s1.heap obj m.name v (s1.al 0)                                    -- line 396
  some { s1 with heap := h, al := fun k => s1.al (k + 1) }

/-- The loop `for (def--; def >= defs; def--)`, mjs_object.c:297-397: `k` rounds are left. -/
def rounds (custom : Customs) (sub : St → Nat → Nat → Option (St × Val)) (base defs : Nat) (obj : Val) : Nat → St → Option St
  | 0, s => some s
  | k + 1, s => (round custom sub base obj (defs + 24 * k) s).bind (rounds custom sub base defs obj k)

/-- `mjs_struct_to_obj`, mjs_object.c:283-400; with less than `d` levels of C stack for structures in structures. -/
def structToObj (custom : Customs) : Nat → St → Nat → Nat → Option (St × Val)
  | 0, _, _, _ => none
  | d + 1, s, base, defs =>
    if base = 0 ∨ defs = 0 then some (s, mkUndefined)                                 -- line 287
    else do
      let (h, obj) ← mkObject s.heap (s.al 0)                                         -- line 288
      let n ← countDefs h.str.cmem defs
      let s1 ← rounds custom (structToObj custom d) base defs obj n { s with heap := h, al := fun k => s.al (k + 1) }
      some (s1, obj)

/-- `mjs_s2o`, mjs_builtin.c:124-129; `mjs_arg` of an argument that is not there is undefined.  Simplification: the message about
bad pointers is without the pointer, and once. -/
def s2o (custom : Customs) (d : Nat) : Body := fun _ args h al => do
  let (s, v) ← structToObj custom d ⟨h, al, false⟩ (getPtr (args.getD 0 mkUndefined)).toNat (getPtr (args.getD 1 mkUndefined)).toNat
  some ⟨s.heap, v, if s.bad then some (.type, txt "invalid pointer value") else none⟩

end Mjs.Struct
