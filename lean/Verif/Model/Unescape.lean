import Verif.Model.Str

/-!
# Model of the decoding of string literals: `hex`, `nextesc`, `unescape` and `embed_string` with `EMBSTR_UNESCAPE`
(`src/mjs_string.c`)

The source text is a list of bytes `mem` that starts at the first byte of the literal and contains what follows it too;
reading outside of it is `none`.
-/

namespace Mjs.Str
open Mjs Mjs.Mbuf Mjs.Varint

/-- `isxdigit` of the C library in the "C" locale. -/
def isxdigit (c : UInt8) : Bool := (48 ≤ c && c ≤ 57) || (97 ≤ c && c ≤ 102) || (65 ≤ c && c ≤ 70)

/-- `hex`, mjs_string.c:472-477. -/
def hex (c : UInt8) : Nat :=
  if 48 ≤ c ∧ c ≤ 57 then c.toNat - 48
  else if 97 ≤ c ∧ c ≤ 102 then c.toNat - 97 + 10
  else if 65 ≤ c ∧ c ≤ 70 then c.toNat - 65 + 10
  else 0

/-- `isxdigit(s[i]) && ... ` for `n` bytes in a row, with C's short circuit: a byte is read only if all before it are hex
digits.  Yields the number written by them, mjs_string.c:502-506 and 510-512. -/
def hexRun (mem : List UInt8) (i acc : Nat) : Nat → Option (Option Nat)
  | 0 => some (some acc)
  | n + 1 => (mem[i]?).bind fun c => if isxdigit c then hexRun mem (i + 1) (acc * 16 + hex c) n else some none

/-- The returned code and the new position after `n` hex digits were looked for, mjs_string.c:502-507 and 510-513. -/
def escHex (i n : Nat) : Option Nat → Int × Nat
  | some v => ((v : Int), i + 1 + n)
  | none => (0, i + 1)

/-- `nextesc`, mjs_string.c:479-517, at the byte after the backslash: the returned code and the new position.
`-1` is `-SLRE_INVALID_ESC_CHAR`, `-2` is `-SLRE_UNTERM_ESC_SEQ`, `0` also stands for `-SLRE_INVALID_HEX_DIGIT`
(mjs_string.c:466-470). -/
def nextesc (mem : List UInt8) (i : Nat) : Option (Int × Nat) :=
  (mem[i]?).bind fun c =>
    if c = 0 then some (-2, i + 1)
    else if c = 99 then some (((c &&& 31).toNat : Int), i + 2)                  -- 'c', lines 484-486
    else if c = 98 then some (8, i + 1)                                         -- 'b'
    else if c = 116 then some (9, i + 1)                                        -- 't'
    else if c = 110 then some (10, i + 1)                                       -- 'n'
    else if c = 118 then some (11, i + 1)                                       -- 'v'
    else if c = 102 then some (12, i + 1)                                       -- 'f'
    else if c = 114 then some (13, i + 1)                                       -- 'r'
    else if c = 92 then some (92, i + 1)                                        -- '\\'
    else if c = 117 then                                                        -- 'u', lines 501-507
      (hexRun mem (i + 1) 0 4).map (escHex i 4)
    else if c = 120 then                                                        -- 'x', lines 508-513
      (hexRun mem (i + 1) 0 2).map (escHex i 2)
    else some (-1, i + 1)                                                       -- line 515

/-- `runetochar` of an `int` assigned to a `Rune` (`unsigned short`): the low 8 bits, mjs_string.c:16-24. -/
def runeByte (r : Int) : UInt8 := UInt8.ofNat (r % 256).toNat

/-- One round of the loop of `unescape`, mjs_string.c:525-556, at position `i < len`: the bytes written and the new
position. -/
def unescStep (mem : List UInt8) (len i : Nat) : Option (List UInt8 × Nat) :=
  (mem[i]?).bind fun c =>                                                       -- line 526
    if c = 92 ∧ i + 1 < len then                                                -- line 527
      (mem[i + 1]?).bind fun e =>
        if e = 34 ∨ e = 39 ∨ e = 10 then some ([e], i + 2)                      -- lines 529-537
        else (nextesc mem (i + 1)).map fun (code, j) =>
          if code = -1 then ([92, e], i + 2)                                    -- lines 542-547, 555
          else ([runeByte code], j)                                             -- lines 548-550, 555
    else some ([c], i + 1)

theorem hexStep_pos {mem : List UInt8} {i : Nat} {r : Int × Nat} (h : nextesc mem i = some r) : i < r.2 := by
  unfold nextesc at h
  rw [Option.bind_eq_some_iff] at h
  obtain ⟨c, _, h⟩ := h
  repeat' split at h
  all_goals first
    | (cases h; simp; done)
    | (rw [Option.map_eq_some_iff] at h
       obtain ⟨o, _, h⟩ := h
       cases o <;> (cases h; simp only [escHex]; omega))

theorem unescStep_pos {mem : List UInt8} {len i : Nat} {r : List UInt8 × Nat} (h : unescStep mem len i = some r) :
    i < r.2 := by
  unfold unescStep at h
  rw [Option.bind_eq_some_iff] at h
  obtain ⟨c, _, h⟩ := h
  split at h
  · rw [Option.bind_eq_some_iff] at h
    obtain ⟨e, _, h⟩ := h
    split at h
    · cases h; simp
    · rw [Option.map_eq_some_iff] at h
      obtain ⟨⟨code, j⟩, h1, h⟩ := h
      have := hexStep_pos h1
      simp only at h this
      split at h
      · cases h; simp
      · cases h; simp only; omega
  · cases h; simp

/-- The bytes `unescape` writes from position `i` on, mjs_string.c:519-559.  The loop does the same with and without a
target (`to`), only the writing differs; its result `n` is the number of bytes. -/
def unescLoop (mem : List UInt8) (len i : Nat) : Option (List UInt8) :=
  if i < len then
    match _h : unescStep mem len i with
    | none => none
    | some (out, j) => (unescLoop mem len j).map (out ++ ·)
  else some []
termination_by len - i
decreasing_by have := unescStep_pos _h; simp only at this; omega

/-- `unescape`, mjs_string.c:519-559. -/
def unescape (mem : List UInt8) (len : Nat) : Option (List UInt8) := unescLoop mem len 0

/-- `embed_string` with `EMBSTR_UNESCAPE` (and without `EMBSTR_ZERO_TERM`), mjs_string.c:561-597, as the parser uses it
for string literals: the source text is not part of the buffer. -/
def embedUnescaped (hr : Nat) (m : Mbuf) (offset : Nat) (mem : List UInt8) (len : Nat) (al1 al2 : Alloc) : Option Mbuf := do
  let sizing ← unescape mem len                                                 -- line 565
  let n := sizing.length
  let k := llen n                                                               -- line 568
  let (m1, _) ← Mbuf.insert hr m offset none (k + n) al1 al2                    -- lines 571-574
  let m2 ← store m1 offset (encode n k).1                                       -- line 582
  let bytes ← unescape mem len                                                  -- line 587
  store m2 (offset + k) bytes

end Mjs.Str
