import Verif.Lemmas.DoubleOrd
import Verif.Lemmas.Num
import Verif.Model.Exec

/-! # The integer operators of `do_arith_op` on doubles that are integers -/

namespace Mjs.Exec
open Spec.Double

theorem toI64_isInt {d : Val} {n : Int} (h : IsInt d n) (h1 : -2 ^ 63 ≤ n) (h2 : n < 2 ^ 63) : toI64 d = n := by
  rw [toI64, truncD_isInt h, if_pos ⟨h.1, h1, h2⟩]

theorem toI32_isInt {d : Val} {n : Int} (h : IsInt d n) (h1 : -2 ^ 31 ≤ n) (h2 : n < 2 ^ 31) : toI32 d = n := by
  rw [toI32, truncD_isInt h, if_pos ⟨h.1, h1, h2⟩]

set_option exponentiation.threshold 1100 in
theorem toI32_zero {d : Val} (h : Finite d) (h0 : (scaled d).natAbs < 2 ^ 1074) : toI32 d = 0 := by
  have : truncD d = 0 := by
    rw [truncD]
    have hp : (2 : Int) ^ 1074 = ((2 ^ 1074 : Nat) : Int) := by rw [Int.natCast_pow]; rfl
    rw [← Int.natAbs_eq_zero, Int.natAbs_tdiv, hp, Int.natAbs_natCast]
    exact Nat.div_eq_of_lt h0
  rw [toI32, this, if_pos ⟨h, by omega, by omega⟩]

theorem IsInt.notNaN {d : Val} {n : Int} (h : IsInt d n) : ¬ IsNaN d := fun h' => isNaN_not_finite h' h.1

theorem negD_toNat (d : Val) : (negD d).toNat = if 2 ^ 63 ≤ d.toNat then d.toNat - 2 ^ 63 else d.toNat + 2 ^ 63 := by
  rw [negD, BitVec.toNat_xor]
  have hd := d.isLt
  generalize d.toNat = x at *
  have hc : (0x8000000000000000#64).toNat = 2 ^ 63 := by decide
  rw [hc]
  have h1 : (x ^^^ 2 ^ 63) / 2 ^ 63 = x / 2 ^ 63 ^^^ 1 := by rw [Nat.xor_div_two_pow]
  have h2 : (x ^^^ 2 ^ 63) % 2 ^ 63 = x % 2 ^ 63 := by rw [Nat.xor_mod_two_pow]; simp
  have h3 := Nat.div_add_mod (x ^^^ 2 ^ 63) (2 ^ 63)
  rw [h1, h2] at h3
  rw [← h3]
  by_cases h : 2 ^ 63 ≤ x
  · have : x / 2 ^ 63 = 1 := by omega
    rw [if_pos h, this]
    show 2 ^ 63 * 0 + _ = _
    omega
  · have : x / 2 ^ 63 = 0 := by omega
    rw [if_neg h, this]
    show 2 ^ 63 * 1 + _ = _
    omega

theorem negD_isInt {d : Val} {n : Int} (h : IsInt d n) : IsInt (negD d) (-n) := by
  have hd := d.isLt
  have e1 : expo (negD d) = expo d := by
    unfold expo; rw [negD_toNat]; split <;> omega
  have e2 : frac (negD d) = frac d := by
    unfold frac; rw [negD_toNat]; split <;> omega
  have e3 : negative (negD d) ↔ ¬ negative d := by
    unfold negative; rw [negD_toNat]; split <;> omega
  have e4 : scaled (negD d) = - scaled d := by
    have em : magnitude (negD d) = magnitude d := by unfold magnitude; rw [e1, e2]
    unfold scaled
    rw [em]
    by_cases hn : negative d
    · rw [if_pos hn, if_neg (fun h => e3.1 h hn), Int.neg_neg]
    · rw [if_neg hn, if_pos (e3.2 hn)]
  exact ⟨fun h' => h.1 (e1 ▸ h'), by rw [e4, h.2, Int.neg_mul]⟩

theorem ltD_zero {d : Val} {n : Int} (h : IsInt d n) : ltD d 0#64 = true ↔ n < 0 := by
  rw [ltD_iff, h.2]
  have z : scaled 0#64 = 0 := by decide
  have hp : (0 : Int) < 2 ^ 1074 := Int.pow_pos (by decide)
  rw [z]
  generalize (2 : Int) ^ 1074 = q at *
  have : ¬ IsNaN (0#64) := by decide
  simp only [IsInt.notNaN h, this, not_false_eq_true, true_and]
  constructor
  · intro hh
    by_cases hn : n < 0
    · exact hn
    · exact absurd (Int.mul_nonneg (by omega : 0 ≤ n) (by omega : 0 ≤ q)) (by omega)
  · intro hn
    exact Int.mul_neg_of_neg_of_pos hn hp

theorem tmod_abs (m n : Int) : m.tmod n.natAbs = m.tmod n := by
  rcases Int.natAbs_eq n with h | h
  · rw [← h]
  · conv => rhs; rw [h]
    rw [Int.tmod_neg]

/-- The remainder as `do_arith_op` computes it. -/
theorem remD_isInt {a : Val} {m n : Int} (ha : IsInt a m) (hm : m.natAbs < 2 ^ 53) (hn : n.natAbs < 2 ^ 31) :
    IsInt (if ltD a 0#64 = true then negD (ofIntD ((toI64 (if ltD a 0#64 = true then negD a else a)).tmod (if n < 0 then -n else n)))
      else ofIntD ((toI64 (if ltD a 0#64 = true then negD a else a)).tmod (if n < 0 then -n else n))) (m.tmod n) := by
  have hN : (if n < 0 then -n else n) = (n.natAbs : Int) := by split <;> omega
  rw [hN]
  have hr : ∀ x : Int, 0 ≤ x → x.natAbs < 2 ^ 53 → IsInt (ofIntD (x.tmod n.natAbs)) (x.tmod n.natAbs) := by
    intro x h0 hx
    apply ofIntD_isInt
    rw [Int.natAbs_tmod]
    exact Nat.lt_of_le_of_lt (Nat.mod_le _ _) hx
  by_cases hneg : m < 0
  · simp only [(ltD_zero ha).2 hneg, if_true]
    rw [toI64_isInt (negD_isInt ha) (by omega) (by omega)]
    have := negD_isInt (hr (-m) (by omega) (by omega))
    rw [tmod_abs] at this ⊢
    rw [Int.neg_tmod] at this ⊢
    rwa [Int.neg_neg] at this
  · have : ltD a 0#64 = false := by
      rw [Bool.eq_false_iff]; intro h; exact hneg ((ltD_zero ha).1 h)
    simp only [this, Bool.false_eq_true, if_false]
    rw [toI64_isInt ha (by omega) (by omega)]
    have := hr m (by omega) hm
    rwa [tmod_abs] at this ⊢

theorem pow_le_52 {w : Nat} (hw0 : 0 < w) (hw : w ≤ 53) : (2 : Int) ^ (w - 1) ≤ 2 ^ 52 := by
  have h : 2 ^ (w - 1) ≤ 2 ^ 52 := Nat.pow_le_pow_right (by decide) (by omega)
  have := Int.ofNat_le.2 h
  rwa [Int.natCast_pow, Int.natCast_pow] at this

theorem toI64_bits {d : Val} {n : Int} (h : IsInt d n) {w : Nat} (hw0 : 0 < w) (hw : w ≤ 53) (hn : -2 ^ (w - 1) ≤ n ∧ n < 2 ^ (w - 1)) :
    toI64 d = n ∧ BitVec.ofInt 64 (toI64 d) = (BitVec.ofInt w n).signExtend 64 := by
  have := pow_le_52 hw0 hw
  have e := toI64_isInt h (by omega) (by omega)
  refine ⟨e, ?_⟩
  rw [e]
  apply BitVec.eq_of_toInt_eq
  have h2 : (2 ^ w : Nat) = 2 * 2 ^ (w - 1) := by
    rw [← Nat.pow_succ']; congr 1; omega
  rw [BitVec.toInt_signExtend_of_le (by omega), BitVec.toInt_ofInt, BitVec.toInt_ofInt, Int.bmod_eq_of_le (by omega) (by omega),
    Int.bmod_eq_of_le]
  · rw [h2]; push_cast; omega
  · rw [h2]; push_cast; omega

theorem bits_isInt {w : Nat} (hw0 : 0 < w) (hw : w ≤ 53) (x : BitVec w) : IsInt (ofIntD x.toInt) x.toInt := by
  have := pow_le_52 hw0 hw
  have h1 := x.le_toInt
  have h2 := x.toInt_lt
  exact ofIntD_isInt _ (by omega)

theorem shl_toInt {m : Int} {k : Nat} (hm : m.natAbs * 2 ^ k < 2 ^ 53) : (BitVec.ofInt 64 m <<< k).toInt = m * 2 ^ k := by
  have e : BitVec.ofInt 64 m <<< k = BitVec.ofInt 64 (m * 2 ^ k) := by
    rw [BitVec.shiftLeft_eq_mul_twoPow, BitVec.ofInt_mul]
    congr 1
    apply BitVec.eq_of_toNat_eq
    rw [BitVec.toNat_twoPow, BitVec.toNat_ofInt]
    have : ((2 : Int) ^ k) = ((2 ^ k : Nat) : Int) := by rw [Int.natCast_pow]; rfl
    rw [this]
    omega
  have hb : (m * 2 ^ k).natAbs < 2 ^ 53 := by rw [Int.natAbs_mul, Int.natAbs_pow]; exact hm
  rw [e, BitVec.toInt_ofInt, Int.bmod_eq_of_le (by omega) (by omega)]

theorem shr_small {m : Int} {k : Nat} (hm : m.natAbs < 2 ^ 53) : (m / 2 ^ k).natAbs < 2 ^ 53 := by
  have hp : (0 : Int) < 2 ^ k := Int.pow_pos (by decide)
  have h1 : m / 2 ^ k ≤ m ∨ m < 0 := by
    by_cases h : m < 0
    · exact .inr h
    · exact .inl (Int.ediv_le_self _ (by omega))
  have h2 : 0 ≤ m → 0 ≤ m / 2 ^ k := fun h => Int.ediv_nonneg h (by omega)
  have h3 : m < 0 → m / 2 ^ k < 0 := fun h => Int.ediv_neg_of_neg_of_pos h hp
  have h4 : m < 0 → m ≤ m / 2 ^ k := fun h => by
    rw [Int.le_ediv_iff_mul_le hp]
    have := Int.mul_le_mul_of_nonpos_left (a := m) (b := 2 ^ k) (c := 1) (by omega) (by omega)
    omega
  omega

end Mjs.Exec
