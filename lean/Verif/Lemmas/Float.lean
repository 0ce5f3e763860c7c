import Verif.Model.Struct
import Verif.Spec.Struct
import Verif.Lemmas.DoubleOrd

/-!
# Lemmas about the conversion of `float` to `double`
-/

namespace Mjs.Struct
open Mjs Mjs.Exec Mjs.Spec.Double Mjs.Spec.Struct

theorem bits_unique {a b : BitVec 64} (he : expo a = expo b) (hf : frac a = frac b) (hs : negative a ↔ negative b) : a = b := by
  have := a.isLt
  have := b.isLt
  apply BitVec.eq_of_toNat_eq
  unfold expo at he
  unfold frac at hf
  unfold negative at hs
  omega

theorem finite_unique {a b : BitVec 64} (hm : magnitude a = magnitude b) (hs : negative a ↔ negative b) : a = b := by
  by_cases hz : IsZero a ∧ IsZero b
  · exact bits_unique (hz.1.1.trans hz.2.1.symm) (hz.1.2.trans hz.2.2.symm) hs
  · refine scaled_inj ?_ hz
    unfold scaled
    rw [hm]
    by_cases h : negative a
    · rw [if_pos h, if_pos (hs.1 h)]
    · rw [if_neg h, if_neg fun h' => h (hs.2 h')]

theorem fields_of {s e f : Nat} (hs : s ≤ 1) (he : e < 2048) (hf : f < 2 ^ 52) :
    expo (BitVec.ofNat 64 (s * 2 ^ 63 + (e * 2 ^ 52 + f))) = e ∧ frac (BitVec.ofNat 64 (s * 2 ^ 63 + (e * 2 ^ 52 + f))) = f ∧
      (negative (BitVec.ofNat 64 (s * 2 ^ 63 + (e * 2 ^ 52 + f))) ↔ s = 1) := by
  have hN : (BitVec.ofNat 64 (s * 2 ^ 63 + (e * 2 ^ 52 + f))).toNat = s * 2 ^ 63 + (e * 2 ^ 52 + f) := by
    rw [BitVec.toNat_ofNat]
    exact Nat.mod_eq_of_lt (by omega)
  unfold expo frac negative
  rw [hN]
  omega

/-- The conversion gives the double that is the same number. -/
theorem widen_unique {x : Nat} (hx : x < 2 ^ 32) {v : Val} (h : IsFloat x v) : mkNumber (widen (BitVec.ofNat 32 x)) = v := by
  have hx' : (BitVec.ofNat 32 x).toNat = x := by rw [BitVec.toNat_ofNat, Nat.mod_eq_of_lt hx]
  have hs : x / 2 ^ 31 ≤ 1 := by omega
  have hs1 : 2 ^ 31 ≤ x ↔ x / 2 ^ 31 = 1 := by omega
  have hf : x % 2 ^ 23 < 2 ^ 23 := Nat.mod_lt _ (by decide)
  have he : x / 2 ^ 23 % 2 ^ 8 < 256 := Nat.mod_lt _ (by decide)
  unfold widen
  unfold IsFloat floatMagnitude at h
  simp only [hx']
  rw [hs1] at h
  generalize x / 2 ^ 31 = s at *
  generalize x % 2 ^ 23 = f at *
  generalize x / 2 ^ 23 % 2 ^ 8 = e at *
  have nn : ∀ {d : BitVec 64}, ¬ IsNaN d → mkNumber d = d := by
    intro d hd
    rw [mkNumber, if_neg (fun h => hd ((isnan_iff d).1 h))]
  by_cases h255 : e = 255
  · rw [if_pos h255] at h ⊢
    obtain ⟨a, b, c⟩ := fields_of (s := s) (e := 2047) (f := f * 2 ^ 29) hs (by omega) (by omega)
    by_cases f0 : f = 0
    · rw [if_pos f0] at h
      rw [f0] at b
      rw [nn (fun h => h.2 (by rw [f0]; exact b))]
      rw [f0] at a c ⊢
      exact bits_unique (a.trans h.1.1.symm) (b.trans h.1.2.symm) (c.trans h.2.symm)
    · rw [if_neg f0] at h
      rw [h, mkNumber, if_pos ((isnan_iff _).2 ⟨a, by rw [b]; omega⟩)]
  rw [if_neg h255] at h ⊢
  by_cases h0 : e = 0
  · rw [if_pos h0] at h
    rw [if_neg (by omega)]
    by_cases f0 : f = 0
    · rw [if_pos f0]
      obtain ⟨a, b, c⟩ := fields_of (s := s) (e := 0) (f := 0) hs (by omega) (by omega)
      rw [show (0 : Nat) * 2 ^ 52 + 0 = 0 from rfl] at a b c
      rw [nn (fun h => h.2 b)]
      refine finite_unique ?_ (c.trans h.2.1.symm)
      rw [h.2.2, magnitude, if_pos a, b, f0]
      generalize 2 ^ 925 = z
      rw [Nat.zero_mul]
    · rw [if_neg f0]
      have hk : 2 ^ f.log2 ≤ f := Nat.log2_self_le f0
      have hk2 : f < 2 ^ (f.log2 + 1) := Nat.lt_log2_self
      have hk3 : f.log2 < 23 := (Nat.log2_lt f0).2 hf
      generalize f.log2 = k at *
      have hp : 2 ^ k * 2 ^ (52 - k) = 2 ^ 52 := by rw [← Nat.pow_add]; congr 1; omega
      have hfr : (f - 2 ^ k) * 2 ^ (52 - k) < 2 ^ 52 := by
        rw [← hp]
        refine Nat.mul_lt_mul_of_pos_right ?_ (Nat.pow_pos (by decide))
        rw [Nat.pow_succ] at hk2
        omega
      obtain ⟨a, b, c⟩ := fields_of (s := s) (e := k + 874) (f := (f - 2 ^ k) * 2 ^ (52 - k)) hs (by omega) hfr
      rw [nn (fun h => by have := h.1; omega)]
      refine finite_unique ?_ (c.trans h.2.1.symm)
      rw [h.2.2, magnitude, if_neg (by omega), a, b]
      have e1 : 2 ^ 52 + (f - 2 ^ k) * 2 ^ (52 - k) = f * 2 ^ (52 - k) := by
        rw [← hp, ← Nat.add_mul]; congr 1; omega
      rw [e1, Nat.mul_assoc, ← Nat.pow_add, show 52 - k + (k + 874 - 1) = 925 by omega]
  · rw [if_neg h0] at h
    rw [if_pos h0]
    obtain ⟨a, b, c⟩ := fields_of (s := s) (e := e + 896) (f := f * 2 ^ 29) hs (by omega) (by omega)
    rw [nn (fun h => by have := h.1; omega)]
    refine finite_unique ?_ (c.trans h.2.1.symm)
    rw [h.2.2, magnitude, if_neg (by omega), a, b]
    have e1 : 2 ^ 52 + f * 2 ^ 29 = (2 ^ 23 + f) * 2 ^ 29 := by omega
    rw [e1, Nat.mul_assoc, Nat.mul_assoc, ← Nat.pow_add, ← Nat.pow_add, show 29 + (e + 896 - 1) = e - 1 + 925 by omega]

end Mjs.Struct
