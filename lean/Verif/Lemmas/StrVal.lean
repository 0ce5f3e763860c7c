import Verif.Lemmas.Str

namespace Mjs.Str
open Mjs Mjs.Mbuf Mjs.Varint

theorem tag_toNat : ∀ k : Fin 16, (makeTag 1 k).toNat = (0xfff0 + k.val) * 2 ^ 48 := by decide

theorem mkTagged_toNat (o : Nat) (ho : o < 2 ^ 48) (k : Fin 16) :
    (mkTagged o (makeTag 1 k)).toNat = o + (0xfff0 + k.val) * 2 ^ 48 := by
  have hN : (BitVec.ofNat 64 o).toNat = o := by rw [BitVec.toNat_ofNat, Nat.mod_eq_of_lt (by omega)]
  have h0 := small_and_mask (BitVec.ofNat 64 o) (by rw [hN]; exact ho)
  have := or_shift o (0xfff0 + k.val) 48 ho
  rw [Nat.shiftLeft_eq] at this
  rw [mkTagged, and_compl_of_zero _ h0, BitVec.toNat_or, hN, tag_toNat, this]

theorem mkTagged_tag (o : Nat) (k : Fin 16) : mkTagged o (makeTag 1 k) &&& tagMask = makeTag 1 k :=
  tag_mk _ _ (tags_in_mask k)

theorem mkTagged_offset (o : Nat) (ho : o < 2 ^ 48) (k : Fin 16) : valToOffset (mkTagged o (makeTag 1 k)) = o := by
  have hN : (BitVec.ofNat 64 o).toNat = o := by rw [BitVec.toNat_ofNat, Nat.mod_eq_of_lt (by omega)]
  have h0 := small_and_mask (BitVec.ofNat 64 o) (by rw [hN]; exact ho)
  have := payload_mk (BitVec.ofNat 64 o) (makeTag 1 k) (tags_in_mask k) h0
  rw [valToOffset, getPtrRaw, not_tagMask, mkTagged, and_compl_of_zero _ h0, this, and_compl_of_zero _ h0, hN]

theorem mkTagged_byte (o : Nat) (ho : o < 2 ^ 48) (k : Fin 16) (i : Nat) (hi : i < 6) :
    byteAt (mkTagged o (makeTag 1 k)) i = UInt8.ofNat (o / 256 ^ i) := by
  rw [byteAt, mkTagged_toNat o ho]
  apply UInt8.toNat.inj
  rw [UInt8.toNat_ofNat', UInt8.toNat_ofNat']
  have hp : (0xfff0 + k.val) * 2 ^ 48 = 256 ^ i * ((0xfff0 + k.val) * 256 ^ (5 - i) * 256) := by
    have : (2 : Nat) ^ 48 = 256 ^ i * 256 ^ (6 - i) := by
      rw [← Nat.pow_add, show i + (6 - i) = 6 by omega]
    rw [this, show 6 - i = (5 - i) + 1 by omega, Nat.pow_succ]
    simp only [Nat.mul_assoc, Nat.mul_comm, Nat.mul_left_comm]
  rw [hp, Nat.add_mul_div_left _ _ (Nat.pow_pos (by decide)), show (2 : Nat) ^ 8 = 256 from rfl,
    Nat.add_mul_mod_self_right]

theorem packLE_lt (bs : List UInt8) : packLE bs < 256 ^ bs.length := by
  induction bs with
  | nil => simp [packLE]
  | cons b bs ih =>
    simp only [packLE, List.length_cons, Nat.pow_succ]
    have := b.toNat_lt
    omega

theorem packLE_byte (bs : List UInt8) (i : Nat) (hi : i < bs.length) :
    UInt8.ofNat (packLE bs / 256 ^ i) = bs[i] := by
  induction bs generalizing i with
  | nil => simp at hi
  | cons b bs ih =>
    cases i with
    | zero =>
      simp only [packLE, Nat.pow_zero, Nat.div_one, List.getElem_cons_zero]
      apply UInt8.toNat.inj
      rw [UInt8.toNat_ofNat']
      have := b.toNat_lt
      omega
    | succ i =>
      have : packLE (b :: bs) / 256 ^ (i + 1) = packLE bs / 256 ^ i := by
        rw [packLE, Nat.pow_succ, Nat.mul_comm (256 ^ i) 256, ← Nat.div_div_eq_div_mul]
        have := b.toNat_lt
        congr 1
        omega
      rw [this, List.getElem_cons_succ]
      exact ih i (by simpa using hi)

theorem packLE_zero (bs : List UInt8) (i : Nat) (hi : bs.length ≤ i) :
    UInt8.ofNat (packLE bs / 256 ^ i) = 0 := by
  rw [Nat.div_eq_of_lt (Nat.lt_of_lt_of_le (packLE_lt bs) (Nat.pow_le_pow_right (by decide) hi))]
  rfl

theorem packLE_inj : ∀ (as bs : List UInt8), as.length = bs.length → packLE as = packLE bs → as = bs := by
  intro as
  induction as with
  | nil => intro bs h _; exact (List.length_eq_zero_iff.1 h.symm).symm
  | cons a as ih =>
    intro bs h he
    cases bs with
    | nil => simp at h
    | cons b bs =>
      simp only [packLE] at he
      have h1 := a.toNat_lt
      have h2 := b.toNat_lt
      have hab : a = b := UInt8.toNat.inj (by omega)
      rw [hab, ih bs (by simpa using h) (by omega)]

theorem packLE_append (as bs : List UInt8) : packLE (as ++ bs) = packLE as + 256 ^ as.length * packLE bs := by
  induction as with
  | nil => simp [packLE]
  | cons a as ih =>
    simp only [List.cons_append, packLE, ih, List.length_cons, Nat.pow_succ, Nat.mul_add]
    rw [Nat.mul_comm (256 ^ as.length) 256, Nat.mul_assoc, Nat.add_assoc]

theorem packLE_replicate_zero (n : Nat) : packLE (List.replicate n 0) = 0 := by
  induction n with
  | zero => rfl
  | succ n ih => simp only [List.replicate_succ, packLE, ih]; rfl

/-- The bytes of an inline value: those packed, then zero bytes up to the tag. -/
theorem bytesFrom_packed (bs : List UInt8) (hb : bs.length ≤ 6) (k : Fin 16) (i n : Nat) (hn : i + n ≤ 6) :
    (bytesFrom (mkTagged (packLE bs) (makeTag 1 k)) i).take n =
      ((bs ++ List.replicate 6 0).drop i).take n := by
  have hlt : packLE bs < 2 ^ 48 :=
    Nat.lt_of_lt_of_le (packLE_lt bs) (by rw [show (2 : Nat) ^ 48 = 256 ^ 6 from rfl]; exact Nat.pow_le_pow_right (by decide) hb)
  apply List.ext_getElem
  · simp [bytesFrom]; omega
  · intro j h1 h2
    simp only [bytesFrom, List.length_take, List.length_map, List.length_range] at h1
    simp only [List.getElem_take, bytesFrom, List.getElem_map, List.getElem_range, List.getElem_drop]
    rw [mkTagged_byte _ hlt _ _ (by omega)]
    by_cases hj : i + j < bs.length
    · rw [packLE_byte bs _ hj, List.getElem_append_left hj]
    · rw [packLE_zero bs _ (by omega), List.getElem_append_right (by omega), List.getElem_replicate]

theorem packLE_bytesFrom (v : Val) : packLE (bytesFrom v 0) = v.toNat := by
  have hv := v.isLt
  have hb : ∀ i, (byteAt v i).toNat = v.toNat / 256 ^ i % 256 := by
    intro i; rw [byteAt, UInt8.toNat_ofNat']
  simp only [bytesFrom, List.range, List.range.loop, List.map_cons, List.map_nil, packLE, hb, Nat.sub_zero]
  simp only [Nat.zero_add, Nat.pow_zero, Nat.div_one, Nat.pow_one]
  omega

/-- The inline value with `bs` behind its length byte. -/
theorem bytesFrom_length (v : Val) (i : Nat) : (bytesFrom v i).length = 8 - i := by simp [bytesFrom]

end Mjs.Str
