import Verif.Model.Num
import Verif.Lemmas.Value

namespace Mjs
open Spec.Double

theorem isNaN_not_finite {d : Val} (h : IsNaN d) : ¬ Finite d := fun h' => h' h.1

theorem mkNumber_finite {d : Val} (h : Finite d) : mkNumber d = d := by
  rw [mkNumber, if_neg]
  rw [isnan_iff]
  exact fun h' => isNaN_not_finite h' h

theorem isNumber_finite {d : Val} (h : Finite d) : isNumber d = true := by
  have : isnan d = false := by
    cases hh : isnan d with
    | false => rfl
    | true => exact absurd h (isNaN_not_finite ((isnan_iff d).1 hh))
  simp [isNumber, getDouble, this]

theorem ofIntD_toNat (n : Int) (h0 : n ≠ 0) (h : n.natAbs < 2 ^ 53) :
    let k := n.natAbs.log2
    k ≤ 52 ∧ 2 ^ 52 ≤ n.natAbs * 2 ^ (52 - k) ∧ n.natAbs * 2 ^ (52 - k) < 2 ^ 53 ∧
    (ofIntD n).toNat = (if n < 0 then 2 ^ 63 else 0) + (1023 + k) * 2 ^ 52 + (n.natAbs * 2 ^ (52 - k) - 2 ^ 52) := by
  intro k
  have ha : n.natAbs ≠ 0 := by omega
  have hk : k ≤ 52 := by
    have := (Nat.log2_lt ha).2 h
    omega
  have h1 : 2 ^ k ≤ n.natAbs := Nat.log2_self_le ha
  have h2 : n.natAbs < 2 ^ (k + 1) := Nat.lt_log2_self
  have hp : 2 ^ k * 2 ^ (52 - k) = 2 ^ 52 := by rw [← Nat.pow_add]; congr 1; omega
  have hp1 : 2 ^ (k + 1) * 2 ^ (52 - k) = 2 ^ 53 := by rw [← Nat.pow_add]; congr 1; omega
  have hpos : 0 < 2 ^ (52 - k) := Nat.pow_pos (by decide)
  have hlo : 2 ^ 52 ≤ n.natAbs * 2 ^ (52 - k) := hp ▸ Nat.mul_le_mul_right _ h1
  have hhi : n.natAbs * 2 ^ (52 - k) < 2 ^ 53 := hp1 ▸ Nat.mul_lt_mul_of_pos_right h2 hpos
  refine ⟨hk, hlo, hhi, ?_⟩
  rw [ofIntD, if_neg h0]
  simp only
  rw [if_pos (show n.natAbs.log2 ≤ 52 from hk), BitVec.toNat_ofNat, Nat.mod_eq_of_lt]
  show _ + (1023 + k) * 2 ^ 52 + (n.natAbs * 2 ^ (52 - k) - 2 ^ 52) < _
  generalize n.natAbs * 2 ^ (52 - k) = q at *
  split <;> omega

set_option exponentiation.threshold 1100 in
/-- The double made from a small integer is that integer. -/
theorem ofIntD_isInt (n : Int) (h : n.natAbs < 2 ^ 53) : IsInt (ofIntD n) n := by
  by_cases h0 : n = 0
  · subst h0
    refine ⟨by decide, ?_⟩
    have : ofIntD 0 = 0#64 := by decide
    rw [this, Int.zero_mul]
    decide
  · obtain ⟨hk, hlo, hhi, hn⟩ := ofIntD_toNat n h0 h
    have hp : 2 ^ (52 - n.natAbs.log2) * 2 ^ (1023 + n.natAbs.log2 - 1) = 2 ^ 1074 := by
      rw [← Nat.pow_add]; congr 1; omega
    have he : expo (ofIntD n) = 1023 + n.natAbs.log2 := by
      unfold expo
      rw [hn]
      generalize n.natAbs * 2 ^ (52 - n.natAbs.log2) = q at *
      generalize n.natAbs.log2 = k at *
      split <;> omega
    have hf : frac (ofIntD n) = n.natAbs * 2 ^ (52 - n.natAbs.log2) - 2 ^ 52 := by
      unfold frac
      rw [hn]
      generalize n.natAbs * 2 ^ (52 - n.natAbs.log2) = q at *
      generalize n.natAbs.log2 = k at *
      split <;> omega
    have hs : negative (ofIntD n) ↔ n < 0 := by
      unfold negative
      rw [hn]
      generalize n.natAbs * 2 ^ (52 - n.natAbs.log2) = q at *
      generalize n.natAbs.log2 = k at *
      split <;> omega
    have hm : magnitude (ofIntD n) = n.natAbs * 2 ^ 1074 := by
      rw [magnitude, if_neg (by clear hp; omega), he, hf, Nat.add_sub_cancel' hlo, Nat.mul_assoc, hp]
    refine ⟨by rw [Finite, he]; clear hp hm; omega, ?_⟩
    have hc : ((n.natAbs * 2 ^ 1074 : Nat) : Int) = (n.natAbs : Int) * 2 ^ 1074 := by
      rw [Int.natCast_mul, Int.natCast_pow]; rfl
    rw [scaled, hm, hc]
    by_cases hneg : n < 0
    · have e : -(n.natAbs : Int) = n := by clear hp hm hc; omega
      rw [if_pos (hs.2 hneg), ← Int.neg_mul, e]
    · have e : (n.natAbs : Int) = n := by clear hp hm hc; omega
      rw [if_neg (fun h => hneg (hs.1 h)), e]

theorem truncD_isInt {d : Val} {n : Int} (h : IsInt d n) : truncD d = n := by
  rw [truncD, h.2]
  exact Int.mul_tdiv_cancel _ (by
    have : (0 : Int) < 2 ^ 1074 := Int.pow_pos (by decide)
    omega)

theorem getInt_isInt {d : Val} {n : Int} (h : IsInt d n) (h1 : -2 ^ 31 ≤ n) (h2 : n < 2 ^ 31) : getInt d = n := by
  rw [getInt, getDouble, cvtInt, truncD_isInt h, if_pos ⟨h.1, by omega, by omega⟩, BitVec.toInt_ofInt]
  rw [Int.bmod_eq_of_le (by simpa using h1) (by simpa using h2)]

theorem mkInt_isInt (n : Int) (h : n.natAbs < 2 ^ 53) : IsInt (mkInt n) n := by
  rw [mkInt, mkNumber_finite (ofIntD_isInt n h).1]
  exact ofIntD_isInt n h

theorem getInt_mkInt (n : Int) (h1 : -2 ^ 31 ≤ n) (h2 : n < 2 ^ 31) : getInt (mkInt n) = n :=
  getInt_isInt (mkInt_isInt n (by omega)) h1 h2

end Mjs
