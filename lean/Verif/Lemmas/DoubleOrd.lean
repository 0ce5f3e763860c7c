import Verif.Model.Exec
import Verif.Lemmas.Num

/-!
# The order of doubles
-/

namespace Mjs.Exec
open Mjs Spec.Double

/-- The magnitude of the double with the lower 63 bits `n`. -/
def magN (n : Nat) : Nat := if n / 2 ^ 52 = 0 then n % 2 ^ 52 else (2 ^ 52 + n % 2 ^ 52) * 2 ^ (n / 2 ^ 52 - 1)

theorem magN_succ (n : Nat) : magN n < magN (n + 1) := by
  unfold magN
  by_cases hf : n % 2 ^ 52 + 1 < 2 ^ 52
  · have e1 : (n + 1) / 2 ^ 52 = n / 2 ^ 52 := by omega
    have e2 : (n + 1) % 2 ^ 52 = n % 2 ^ 52 + 1 := by omega
    rw [e1, e2]
    split
    · omega
    · exact Nat.mul_lt_mul_of_pos_right (by omega) (Nat.pow_pos (by decide))
  · have e1 : (n + 1) / 2 ^ 52 = n / 2 ^ 52 + 1 := by omega
    have e2 : (n + 1) % 2 ^ 52 = 0 := by omega
    rw [e1, e2, if_neg (Nat.succ_ne_zero _), Nat.add_sub_cancel, Nat.add_zero]
    split
    · rename_i h
      rw [h]
      have : n % 2 ^ 52 < 2 ^ 52 := Nat.mod_lt _ (by decide)
      omega
    · rename_i h
      have h3 : 2 ^ (n / 2 ^ 52) = 2 ^ (n / 2 ^ 52 - 1) * 2 := by rw [← Nat.pow_succ]; congr 1; omega
      rw [h3]
      have hp : 0 < 2 ^ (n / 2 ^ 52 - 1) := Nat.pow_pos (by decide)
      generalize 2 ^ (n / 2 ^ 52 - 1) = q at *
      have h4 : 2 ^ 52 + n % 2 ^ 52 < 2 ^ 52 * 2 := by omega
      have := Nat.mul_lt_mul_of_pos_right h4 hp
      have e : 2 ^ 52 * (q * 2) = 2 ^ 52 * 2 * q := by rw [Nat.mul_comm q 2, Nat.mul_assoc]
      rw [e]
      exact this

theorem magN_lt {a b : Nat} (h : a < b) : magN a < magN b := by
  induction b with
  | zero => omega
  | succ b ih =>
    rcases Nat.lt_or_ge a b with hab | hab
    · exact Nat.lt_trans (ih hab) (magN_succ b)
    · have : a = b := by omega
      subst this
      exact magN_succ a

theorem magN_lt_iff {a b : Nat} : magN a < magN b ↔ a < b := by
  constructor
  · intro h
    rcases Nat.lt_or_ge a b with hab | hab
    · exact hab
    · rcases Nat.lt_or_ge b a with hba | hba
      · have := magN_lt hba; omega
      · have : a = b := by omega
        subst this; omega
  · exact magN_lt

theorem magN_zero : magN 0 = 0 := by decide

theorem magnitude_magN (d : Val) : magnitude d = magN (d.toNat % 2 ^ 63) := by
  have h1 : expo d = d.toNat % 2 ^ 63 / 2 ^ 52 := by unfold expo; omega
  have h2 : frac d = d.toNat % 2 ^ 63 % 2 ^ 52 := by unfold frac; omega
  rw [magnitude, magN, h1, h2]

/-- The order of the bits is the order of the numbers. -/
theorem ordKey_lt (a b : Val) : ordKey a < ordKey b ↔ scaled a < scaled b := by
  have ha := a.isLt
  have hb := b.isLt
  unfold scaled ordKey
  rw [magnitude_magN, magnitude_magN]
  have key := @magN_lt_iff
  have z := magN_zero
  have pos : ∀ n, n ≠ 0 → 0 < magN n := by
    intro n hn
    have := magN_lt (a := 0) (b := n) (by omega)
    omega
  have e : ∀ n, negative n ↔ 2 ^ 63 ≤ n.toNat := fun n => Iff.rfl
  simp only [e]
  by_cases h1 : 2 ^ 63 ≤ a.toNat <;> by_cases h2 : 2 ^ 63 ≤ b.toNat <;> simp only [h1, h2, if_true, if_false]
  · have e1 : a.toNat % 2 ^ 63 = a.toNat - 2 ^ 63 := by omega
    have e2 : b.toNat % 2 ^ 63 = b.toNat - 2 ^ 63 := by omega
    rw [e1, e2]
    have := @magN_lt_iff (b.toNat - 2 ^ 63) (a.toNat - 2 ^ 63)
    omega
  · have e1 : a.toNat % 2 ^ 63 = a.toNat - 2 ^ 63 := by omega
    have e2 : b.toNat % 2 ^ 63 = b.toNat := by omega
    rw [e1, e2]
    have p1 := pos (a.toNat - 2 ^ 63)
    have p2 := pos b.toNat
    by_cases z1 : a.toNat - 2 ^ 63 = 0 <;> by_cases z2 : b.toNat = 0
    · rw [z1, z2, z]
    · have := p2 z2; rw [z1, z]; omega
    · have := p1 z1; rw [z2, z]; omega
    · have := p1 z1; have := p2 z2; omega
  · have e1 : a.toNat % 2 ^ 63 = a.toNat := by omega
    have e2 : b.toNat % 2 ^ 63 = b.toNat - 2 ^ 63 := by omega
    rw [e1, e2]
    omega
  · have e1 : a.toNat % 2 ^ 63 = a.toNat := by omega
    have e2 : b.toNat % 2 ^ 63 = b.toNat := by omega
    rw [e1, e2]
    have := @magN_lt_iff a.toNat b.toNat
    omega

theorem ordKey_le (a b : Val) : ordKey a ≤ ordKey b ↔ scaled a ≤ scaled b := by
  have := ordKey_lt b a
  omega

/-- Two doubles with the same value have the same bits, but for the two zeros. -/
theorem scaled_inj {a b : Val} (h : scaled a = scaled b) (hz : ¬ (IsZero a ∧ IsZero b)) : a = b := by
  have h1 := ordKey_le a b
  have h2 := ordKey_le b a
  have e : ordKey a = ordKey b := by omega
  have ha := a.isLt
  have hb := b.isLt
  apply BitVec.eq_of_toNat_eq
  by_cases hm : a.toNat % 2 ^ 63 = 0 ∧ b.toNat % 2 ^ 63 = 0
  · refine absurd ⟨⟨?_, ?_⟩, ⟨?_, ?_⟩⟩ hz <;> first | (unfold expo; omega) | (unfold frac; omega)
  · unfold ordKey at e
    split at e <;> split at e <;> omega

theorem ltD_iff (a b : Val) : ltD a b = true ↔ ¬ IsNaN a ∧ ¬ IsNaN b ∧ scaled a < scaled b := by
  unfold ltD
  rw [Bool.and_eq_true, Bool.and_eq_true, decide_eq_true_eq, ordKey_lt, Bool.not_eq_true', Bool.not_eq_true', ← isnan_iff, ← isnan_iff,
    Bool.not_eq_true, Bool.not_eq_true, and_assoc]

theorem leD_iff (a b : Val) : leD a b = true ↔ ¬ IsNaN a ∧ ¬ IsNaN b ∧ scaled a ≤ scaled b := by
  unfold leD
  rw [Bool.and_eq_true, Bool.and_eq_true, decide_eq_true_eq, ordKey_le, Bool.not_eq_true', Bool.not_eq_true', ← isnan_iff, ← isnan_iff,
    Bool.not_eq_true, Bool.not_eq_true, and_assoc]

end Mjs.Exec
