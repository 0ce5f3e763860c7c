import Verif.Lemmas.VarintDec

/-!
# C01, C02: variable-length numbers
-/

namespace Mjs.Props
open Mjs.Varint Mjs.Spec.Varint

/-- **C01.** For every 64-bit `n` and any bytes after the encoding: the encoder, given a buffer of the announced
length, writes exactly that many bytes, between 1 and 10; they are a complete base-128 encoding denoting `n`; and the
decoder, given at least that much buffer, returns `n` and the announced length. -/
theorem C01_varint_roundtrip (n : Nat) (hn : n < 2 ^ 64) (rest : List UInt8) (bufSize : Nat)
    (hbuf : llen n ≤ bufSize) :
    let bytes := (encode n (llen n)).1
    bytes.length = llen n ∧ (encode n (llen n)).2 = llen n ∧ 1 ≤ llen n ∧ llen n ≤ 10 ∧
    Complete bytes ∧ value bytes = n ∧
    decode (bytes ++ rest) bufSize = .ok n (llen n) := by
  have hE := encode_full n (llen n) (Nat.le_refl _)
  have hD := decodeLoop_encode n [] rest 0 bufSize (by simp) (by simpa using hn)
    (by simpa using llen_le_ten n hn) (by simpa using hbuf)
  simp only [hE]
  refine ⟨length_encodeBytes n, trivial, llen_pos n, llen_le_ten n hn, (encodeBytes_complete n).1,
    (encodeBytes_complete n).2, ?_⟩
  simpa [decode] using hD

/-- C01 applies at the extreme: the largest 64-bit number needs ten bytes. -/
example : (2 ^ 64 - 1 : Nat) < 2 ^ 64 ∧ llen (2 ^ 64 - 1) = 10 ∧
    decode ((encode 300 (llen 300)).1 ++ [7, 7]) 4 = .ok 300 2 := by decide +kernel

/-- A too small output buffer is never overrun, and the length needed is still reported. -/
theorem C01_varint_encode_clipped (n bufSize : Nat) :
    (encode n bufSize).1.length ≤ bufSize ∧ (encode n bufSize).2 = llen n ∧
    (encode n bufSize).1 = ((encode n (llen n)).1).take bufSize := by
  refine ⟨by simp [encode]; omega, by simp [encode, length_encodeBytes], ?_⟩
  simp only [encode, List.take_take]
  by_cases h : bufSize ≤ llen n
  · rw [Nat.min_eq_left h]
  · rw [Nat.min_eq_right (by omega), List.take_of_length_le (by rw [length_encodeBytes]; omega),
      List.take_of_length_le (by rw [length_encodeBytes]; omega)]

/-- **C02.** For every memory and every `bufSize` not exceeding it: the decoder never reads outside the buffer;
when it succeeds with `v` and `l`, then `l` bytes inside the buffer (at most ten) were used, `v` is the number they
denote modulo `2^64`, and they are a complete encoding unless the ten-byte limit stopped the loop; it fails exactly
when the buffer is shorter than ten bytes and no byte in it ends the number. -/
theorem C02_varint_decode_safe (mem : List UInt8) (bufSize : Nat) (hb : bufSize ≤ mem.length) :
    decode mem bufSize ≠ .ub ∧
    (∀ v l, decode mem bufSize = .ok v l →
      1 ≤ l ∧ l ≤ bufSize ∧ l ≤ 10 ∧ v = value (mem.take l) % 2 ^ 64 ∧
      (l < 10 → Complete (mem.take l))) ∧
    (decode mem bufSize = .fail ↔ bufSize < 10 ∧ ∀ x ∈ mem.take bufSize, 128 ≤ x.toNat) := by
  have h := decodeLoop_spec mem bufSize hb 10 0 0 rfl (by omega) (by omega) (by simp [value]) (by simp) (by omega)
  rw [Nat.mul_zero] at h
  have hdef : decode mem bufSize = decodeLoop mem bufSize 0 0 0 := rfl
  rw [← hdef] at h
  cases hd : decode mem bufSize with
  | ub => rw [hd] at h; exact h.elim
  | fail =>
    rw [hd] at h
    refine ⟨by simp, by simp, by simpa using h⟩
  | ok v l =>
    rw [hd] at h
    obtain ⟨h0, h1, h2, h3, h4, h5⟩ := h
    refine ⟨by simp, ?_, ?_⟩
    · rintro v' l' he
      cases he
      exact ⟨by omega, h1, h2, h3, h5⟩
    · constructor
      · intro hc; cases hc
      · rintro ⟨hc1, hc2⟩
        exfalso
        have hcomp := h5 (by omega)
        -- the last byte of the complete encoding has its top bit clear, but all bytes in the buffer have it set
        have hall : ∀ x ∈ mem.take l, 128 ≤ x.toNat := by
          intro x hx
          exact hc2 x ((List.take_prefix_take_left h1).subset hx)
        revert hcomp hall
        generalize mem.take l = xs
        intro hcomp hall
        induction xs with
        | nil => exact hcomp
        | cons b bs ih =>
          cases bs with
          | nil =>
            have := hall b (by simp)
            simp only [Complete] at hcomp
            omega
          | cons c cs => exact ih hcomp.2 (fun x hx => hall x (List.mem_cons_of_mem _ hx))

/-- C02 applies to a truncated buffer, to one without end marker, and to a ten-byte run of continuation bytes. -/
example : decode [0x80, 0x80] 2 = .fail ∧ decode [0x80] 0 = .fail ∧
    decode (List.replicate 12 0xff) 12 = .ok (2 ^ 64 - 1) 10 := by decide +kernel

/-- The unchecked variant used on bytecode is safe whenever a complete encoding is present in memory. -/
theorem C02_varint_decode_unsafe (n : Nat) (hn : n < 2 ^ 64) (rest : List UInt8) :
    decodeUnsafe ((encode n (llen n)).1 ++ rest) = .ok n (llen n) := by
  have := (C01_varint_roundtrip n hn rest (2 ^ 64 - 1) (by have := llen_le_ten n hn; omega)).2.2.2.2.2.2
  simp only [decodeUnsafe, this]

end Mjs.Props
