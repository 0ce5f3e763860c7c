/-!
# Printing into a buffer that grows: `mg_avprintf` of src/common/str_util.c

The `vsnprintf` of the C library is a parameter: from the memory at the buffer and a size, the memory afterwards and the result.  So is `malloc`: what it gives for
allocation number `i` of `n` bytes.
-/

namespace Mjs.Avprintf

/-- What is left: the buffer of the caller, the memory that `*buf` was set to (`none`: it still is the buffer; `some none`: null), the result. -/
structure Out where
  own : List UInt8
  new : Option (Option (List UInt8))
  len : Int

/-- The loop for libraries that answer -1, str_util.c:397-416; where there is no memory, `(*buf)[-1]` is written through a null pointer (`none`).  That
`size *= 2` may overflow is not modelled: there is no memory of such a size.  `fuel` bounds the rounds. -/
def grow (P : List UInt8 → Nat → List UInt8 × Int) (alloc : Nat → Nat → Option (List UInt8)) : Nat → Nat → Nat → Option (List UInt8 × Int)
  | 0, _, _ => none
  | fuel + 1, i, size =>
    let size := (if size = 0 then 5 else size) * 2
    match alloc i size with
    | none => none
    | some m =>
      let r := P m (size - 1)
      if r.2 < 0 then grow P alloc fuel (i + 1) size
      else if r.2.toNat < r.1.length then some (r.1.set r.2.toNat 0, r.2) else none

/-- `mg_avprintf` (and `mg_asprintf`), str_util.c:385-430; `len + 1` may not overflow. -/
def avprintf (P : List UInt8 → Nat → List UInt8 × Int) (alloc : Nat → Nat → Option (List UInt8)) (fuel : Nat) (buf : List UInt8) (size : Nat) : Option Out :=
  let r := P buf size
  if r.2 < 0 then (grow P alloc fuel 0 size).map fun g => ⟨r.1, some (some g.1), g.2⟩
  else if r.2 ≥ (BitVec.ofNat 32 size).toInt then
    if r.2 + 1 ≥ 2 ^ 31 then none else
    match alloc 0 (r.2 + 1).toNat with
    | none => some ⟨r.1, some none, -1⟩
    | some m => let q := P m (r.2 + 1).toNat; some ⟨r.1, some (some q.1), q.2⟩
  else some ⟨r.1, none, r.2⟩

end Mjs.Avprintf
