import Verif.Model.Varint

namespace Mjs.Varint

theorem shr7 (n : Nat) : n >>> 7 = n / 128 := by simp [Nat.shiftRight_eq_div_pow]

theorem and7f (n : Nat) : n &&& 0x7f = n % 128 := Nat.and_two_pow_sub_one_eq_mod n 7

theorem byte_and7f (b : UInt8) : (b &&& 0x7f).toNat = b.toNat % 128 := by
  rw [UInt8.toNat_and]; exact Nat.and_two_pow_sub_one_eq_mod b.toNat 7

theorem byte_and80 (b : UInt8) : (b &&& 0x80) ≠ 0 ↔ 128 ≤ b.toNat := by
  have : ∀ x : Fin 256, ((UInt8.ofNat x.1 &&& 0x80) ≠ 0 ↔ 128 ≤ x.1) := by decide +kernel
  have h := this ⟨b.toNat, b.toNat_lt⟩
  simpa using h

theorem low_and7f (x : Nat) (hx : x < 128) : ((UInt8.ofNat x) &&& 0x7f).toNat = x := by
  rw [byte_and7f]; simp; omega

theorem low_or80 (x : Nat) (hx : x < 128) : (UInt8.ofNat x ||| 0x80).toNat = x + 128 := by
  have : ∀ x : Fin 128, (UInt8.ofNat x.1 ||| 0x80).toNat = x.1 + 128 := by decide +kernel
  exact this ⟨x, hx⟩

theorem encodeBytes_step (n : Nat) (h : 128 ≤ n) :
    encodeBytes n = (UInt8.ofNat (n % 128) ||| 0x80) :: encodeBytes (n / 128) := by
  rw [encodeBytes]; simp only [shr7, and7f]
  rw [if_pos (by omega)]

theorem encodeBytes_last (n : Nat) (h : n < 128) : encodeBytes n = [UInt8.ofNat n] := by
  rw [encodeBytes]; simp only [shr7, and7f]
  rw [if_neg (by omega), Nat.mod_eq_of_lt h]

theorem llen_step (n : Nat) (h : 128 ≤ n) : llen n = llen (n / 128) + 1 := by
  rw [llen]; simp only [shr7]; rw [if_pos (by omega)]

theorem llen_last (n : Nat) (h : n < 128) : llen n = 1 := by
  rw [llen]; simp only [shr7]; rw [if_neg (by omega)]

theorem length_encodeBytes (n : Nat) : (encodeBytes n).length = llen n := by
  induction n using Nat.strongRecOn with
  | ind n ih =>
    by_cases h : n < 128
    · simp [encodeBytes_last n h, llen_last n h]
    · rw [encodeBytes_step n (by omega), llen_step n (by omega), List.length_cons, ih _ (by omega)]

theorem llen_pos (n : Nat) : 1 ≤ llen n := by
  by_cases h : n < 128
  · simp [llen_last n h]
  · simp [llen_step n (by omega)]

theorem llen_le (n k : Nat) (h : n < 128 ^ (k + 1)) : llen n ≤ k + 1 := by
  induction k generalizing n with
  | zero => simp [llen_last n (by omega)]
  | succ k ih =>
    by_cases h' : n < 128
    · simp [llen_last n h']
    · rw [llen_step n (by omega)]
      have : n / 128 < 128 ^ (k + 1) := by
        rw [Nat.pow_succ] at h
        exact Nat.div_lt_of_lt_mul (by rw [Nat.mul_comm]; exact h)
      have := ih _ this
      omega

theorem llen_le_ten (n : Nat) (h : n < 2 ^ 64) : llen n ≤ 10 :=
  llen_le n 9 (by omega)

theorem or_shift (n x s : Nat) (hn : n < 2 ^ s) : n ||| (x <<< s) = n + x * 2 ^ s := by
  rw [Nat.or_comm, ← Nat.shiftLeft_add_eq_or_of_lt hn, Nat.shiftLeft_eq, Nat.add_comm]

/-- Invariant of the decoder loop over an encoding. -/
theorem decodeLoop_encode (n : Nat) : ∀ (pre rest : List UInt8) (acc bufSize : Nat),
    acc < 2 ^ (7 * pre.length) →
    acc + n * 2 ^ (7 * pre.length) < 2 ^ 64 →
    pre.length + llen n ≤ 10 →
    pre.length + llen n ≤ bufSize →
    decodeLoop (pre ++ encodeBytes n ++ rest) bufSize pre.length (7 * pre.length) acc
      = .ok (acc + n * 2 ^ (7 * pre.length)) (pre.length + llen n) := by
  induction n using Nat.strongRecOn with
  | ind n ih =>
    intro pre rest acc bufSize hacc hlt hten hbuf
    have hpos := llen_pos n
    rw [decodeLoop]
    rw [if_neg (by omega), if_neg (by omega)]
    by_cases h : n < 128
    · rw [encodeBytes_last n h]
      rw [List.append_assoc, List.getElem?_append_right (Nat.le_refl _)]
      simp only [Nat.sub_self, List.singleton_append, List.getElem?_cons_zero]
      have h1 : ((UInt8.ofNat n) &&& 0x80) = 0 := by
        by_cases hz : (UInt8.ofNat n &&& 0x80) = 0
        · exact hz
        · have := (byte_and80 _).1 hz
          simp at this; omega
      rw [low_and7f n h, if_neg (by simp [h1])]
      have : n <<< (7 * pre.length) < 2 ^ 64 := by
        rw [Nat.shiftLeft_eq]; omega
      rw [Nat.mod_eq_of_lt this, or_shift _ _ _ hacc, llen_last n h]
    · have hn : 128 ≤ n := by omega
      rw [encodeBytes_step n hn, llen_step n hn] at *
      rw [List.append_assoc, List.getElem?_append_right (Nat.le_refl _)]
      simp only [Nat.sub_self, List.cons_append, List.getElem?_cons_zero]
      have hm : n % 128 < 128 := Nat.mod_lt _ (by omega)
      have hb : (UInt8.ofNat (n % 128) ||| 0x80).toNat = n % 128 + 128 := low_or80 _ hm
      have hand : ((UInt8.ofNat (n % 128) ||| 0x80) &&& 0x7f).toNat = n % 128 := by
        rw [byte_and7f, hb]; omega
      have hcont : ((UInt8.ofNat (n % 128) ||| 0x80) &&& 0x80) ≠ 0 := by
        rw [byte_and80, hb]; omega
      have hl : 1 ≤ llen (n / 128) := llen_pos _
      rw [hand, if_pos ⟨by omega, hcont⟩]
      have hsplit : n = n % 128 + (n / 128) * 128 := by omega
      have hshift : (n % 128) <<< (7 * pre.length) < 2 ^ 64 := by
        rw [Nat.shiftLeft_eq]
        have : (n % 128) * 2 ^ (7 * pre.length) ≤ n * 2 ^ (7 * pre.length) :=
          Nat.mul_le_mul_right _ (Nat.mod_le _ _)
        omega
      rw [Nat.mod_eq_of_lt hshift, or_shift _ _ _ hacc]
      have hpow : 2 ^ (7 * (pre.length + 1)) = 128 * 2 ^ (7 * pre.length) := by
        rw [Nat.mul_add, Nat.pow_add, Nat.mul_comm]
      have hval : acc + (n % 128) * 2 ^ (7 * pre.length) + (n / 128) * 2 ^ (7 * (pre.length + 1))
          = acc + n * 2 ^ (7 * pre.length) := by
        rw [hpow]
        conv => rhs; rw [hsplit, Nat.add_mul, Nat.mul_assoc]
        omega
      have key := ih (n / 128) (by omega) (pre ++ [(UInt8.ofNat (n % 128) ||| 0x80)]) rest
        (acc + (n % 128) * 2 ^ (7 * pre.length)) bufSize
        (by
          simp only [List.length_append, List.length_singleton]; rw [hpow]
          have : (n % 128) * 2 ^ (7 * pre.length) ≤ 127 * 2 ^ (7 * pre.length) :=
            Nat.mul_le_mul_right _ (by omega)
          omega)
        (by simp only [List.length_append, List.length_singleton]; rw [hval]; exact hlt)
        (by simp only [List.length_append, List.length_singleton]; omega)
        (by simp only [List.length_append, List.length_singleton]; omega)
      simp only [List.length_append, List.length_singleton, List.append_assoc,
        List.cons_append, List.nil_append] at key
      rw [hval] at key
      rw [Nat.mul_add] at key
      simp only [Nat.mul_one] at key
      rw [key]
      congr 1; omega

theorem encode_full (n k : Nat) (h : llen n ≤ k) : encode n k = (encodeBytes n, llen n) := by
  simp [encode, length_encodeBytes, List.take_of_length_le, h]

end Mjs.Varint
