/-!
# Model of `src/common/cs_varint.c`

Variable-length encoding of 64-bit numbers, 7 bits per byte, least significant group first, the top bit of a byte
says that another byte follows.  Used for string lengths, jump operands, bytecode literals and the line map.
-/

namespace Mjs.Varint

/-- `cs_varint_llen`, cs_varint.c:20-28: `do { llen++; } while (num >>= 7);`
`num` is a `uint64_t`: the theorems assume `num < 2^64`. -/
def llen (num : Nat) : Nat :=
  if num >>> 7 ≠ 0 then llen (num >>> 7) + 1 else 1
termination_by num
decreasing_by simp only [Nat.shiftRight_eq_div_pow] at *; omega

/-- The bytes produced by the loop of `cs_varint_encode`, cs_varint.c:30-42, before the clipping to `buf_size`:
`byte = num & 0x7f; num >>= 7; if (num != 0) byte |= 0x80;`. -/
def encodeBytes (num : Nat) : List UInt8 :=
  let byte := UInt8.ofNat (num &&& 0x7f)
  if num >>> 7 ≠ 0 then (byte ||| 0x80) :: encodeBytes (num >>> 7) else [byte]
termination_by num
decreasing_by simp only [Nat.shiftRight_eq_div_pow] at *; omega

/-- `cs_varint_encode`, cs_varint.c:30-42.  Result: the bytes stored at `buf` (never more than `buf_size`, line 37)
and the return value `llen` (all bytes counted, line 38). -/
def encode (num bufSize : Nat) : List UInt8 × Nat :=
  ((encodeBytes num).take bufSize, (encodeBytes num).length)

/-- Outcome of `cs_varint_decode`. -/
inductive Dec where
  /-- returns `true` with `*num` and `*llen` -/
  | ok (num llen : Nat)
  /-- returns `false` -/
  | fail
  /-- undefined behaviour: a byte outside the readable memory was read, or a shift by 64 or more -/
  | ub
deriving DecidableEq, Repr

/-- The `do ... while` loop of `cs_varint_decode`, cs_varint.c:49-62.  `mem` is the readable memory starting at `buf`
(it may be longer or shorter than `buf_size`); reading outside of it is `ub`. -/
def decodeLoop (mem : List UInt8) (bufSize i shift n : Nat) : Dec :=
  if i = bufSize ∨ i = 8 * 8 / 7 + 1 then .fail                         -- line 50
  else if 64 ≤ shift then .ub                                           -- line 55: shift too large
  else match mem[i]? with
    | none => .ub                                                       -- line 55: read out of bounds
    | some b =>
      let n' := n ||| (((b &&& 0x7f).toNat <<< shift) % 2 ^ 64)         -- line 55
      if shift + 7 < 64 ∧ (b &&& 0x80) ≠ 0 then                         -- lines 60-62
        decodeLoop mem bufSize (i + 1) (shift + 7) n'
      else .ok n' (i + 1)                                               -- lines 64-67
termination_by 64 - shift

/-- `cs_varint_decode`, cs_varint.c:44-68. -/
def decode (mem : List UInt8) (bufSize : Nat) : Dec := decodeLoop mem bufSize 0 0 0

/-- `cs_varint_decode_unsafe`, cs_varint.c:70-76: `buf_size` is `~0`, the result of the decoder is ignored, so a failed
decode returns indeterminate values (modelled as `ub`). -/
def decodeUnsafe (mem : List UInt8) : Dec :=
  match decode mem (2 ^ 64 - 1) with
  | .fail => .ub
  | d => d

end Mjs.Varint
