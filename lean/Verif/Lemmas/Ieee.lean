import Verif.Model.Ieee
import Verif.Spec.Ieee
import Verif.Lemmas.Num

namespace Mjs.Ieee
open Spec.Double

/-- The magnitude of the double with the bits `u` and sign 0. -/
def mag (u : Nat) : Nat := if u / 2 ^ 52 = 0 then u else (2 ^ 52 + u % 2 ^ 52) * 2 ^ (u / 2 ^ 52 - 1)

theorem mag_eq {k m : Nat} (hm : m ≤ 2 ^ 53) (h : k = 0 ∨ 2 ^ 52 ≤ m) : mag (k * 2 ^ 52 + m) = m * 2 ^ k := by
  unfold mag
  by_cases h0 : m < 2 ^ 52
  · have hk : k = 0 := by omega
    subst hk
    rw [if_pos (by omega)]
    omega
  · by_cases h1 : m = 2 ^ 53
    · subst h1
      have e1 : (k * 2 ^ 52 + 2 ^ 53) / 2 ^ 52 = k + 2 := by omega
      have e2 : (k * 2 ^ 52 + 2 ^ 53) % 2 ^ 52 = 0 := by omega
      rw [e1, e2, if_neg (by omega), show k + 2 - 1 = k + 1 by omega, Nat.pow_succ 2 k, Nat.add_zero]
      generalize 2 ^ k = y
      omega
    · have e1 : (k * 2 ^ 52 + m) / 2 ^ 52 = k + 1 := by omega
      have e2 : (k * 2 ^ 52 + m) % 2 ^ 52 = m - 2 ^ 52 := by omega
      rw [e1, e2, if_neg (by omega), show k + 1 - 1 = k by omega, show 2 ^ 52 + (m - 2 ^ 52) = m by omega]

/-- Every pattern is an exponent and 53 bits. -/
theorem split (u : Nat) : ∃ k m, u = k * 2 ^ 52 + m ∧ m < 2 ^ 53 ∧ (k = 0 ∨ 2 ^ 52 ≤ m) := by
  refine ⟨u / 2 ^ 52 - 1, u - (u / 2 ^ 52 - 1) * 2 ^ 52, ?_, ?_, ?_⟩ <;> omega

theorem mag_succ (u : Nat) : mag u < mag (u + 1) := by
  obtain ⟨k, m, rfl, hm, h⟩ := split u
  rw [mag_eq (by omega) h, Nat.add_assoc, mag_eq (by omega) (by omega)]
  exact Nat.mul_lt_mul_of_pos_right (by omega) (Nat.two_pow_pos k)

theorem mag_lt {u v : Nat} (h : u < v) : mag u < mag v := by
  induction v with
  | zero => omega
  | succ v ih =>
    by_cases e : u = v
    · subst e; exact mag_succ u
    · exact Nat.lt_trans (ih (by omega)) (mag_succ v)

theorem mag_le {u v : Nat} (h : u ≤ v) : mag u ≤ mag v := by
  rcases Nat.eq_or_lt_of_le h with rfl | h
  · exact Nat.le_refl _
  · exact Nat.le_of_lt (mag_lt h)

theorem mag_inj {u v : Nat} (h : mag u = mag v) : u = v := by
  rcases Nat.lt_trichotomy u v with g | g | g
  · have := mag_lt g; omega
  · exact g
  · have := mag_lt g; omega

theorem mag_zero : mag 0 = 0 := rfl

/-! ## The bits of a double -/

/-- The bits without the sign. -/
def low (d : Val) : Nat := d.toNat % 2 ^ 63

theorem low_lt (d : Val) : low d < 2 ^ 63 := Nat.mod_lt _ (by decide)

theorem expo_low (d : Val) : expo d = low d / 2 ^ 52 := by
  unfold expo low; omega

theorem frac_low (d : Val) : frac d = low d % 2 ^ 52 := by
  unfold frac low; omega

theorem magnitude_low (d : Val) : magnitude d = mag (low d) := by
  unfold magnitude mag
  rw [expo_low, frac_low]
  split
  · rename_i h; rw [Nat.mod_eq_of_lt (by omega)]
  · rfl

theorem notNaN_low (d : Val) : ¬ IsNaN d ↔ low d ≤ 2047 * 2 ^ 52 := by
  have := low_lt d
  unfold IsNaN
  rw [expo_low, frac_low]
  omega

theorem finite_low (d : Val) : Finite d ↔ low d < 2047 * 2 ^ 52 := by
  have := low_lt d
  unfold Finite
  rw [expo_low]
  omega

theorem isInf_low (d : Val) : IsInf d ↔ low d = 2047 * 2 ^ 52 := by
  have := low_lt d
  unfold IsInf
  rw [expo_low, frac_low]
  omega

theorem isZero_low (d : Val) : IsZero d ↔ low d = 0 := by
  unfold IsZero
  rw [expo_low, frac_low]
  omega

theorem scaled_low (d : Val) : scaled d = if sign d then -(mag (low d) : Int) else mag (low d) := by
  unfold scaled sign
  rw [magnitude_low]
  by_cases h : negative d <;> simp [h]

theorem natAbs_scaled (d : Val) : (scaled d).natAbs = magnitude d := by
  unfold scaled
  split <;> simp

theorem pack_toNat (s : Bool) {u : Nat} (h : u < 2 ^ 63) : (pack s u).toNat = (if s then 2 ^ 63 else 0) + u := by
  unfold pack
  rw [BitVec.toNat_ofNat, Nat.mod_eq_of_lt]
  split <;> omega

theorem low_pack (s : Bool) {u : Nat} (h : u < 2 ^ 63) : low (pack s u) = u := by
  unfold low
  rw [pack_toNat s h]
  split <;> omega

theorem sign_eq (d : Val) : sign d = true ↔ 2 ^ 63 ≤ d.toNat := decide_eq_true_iff

theorem sign_pack (s : Bool) {u : Nat} (h : u < 2 ^ 63) : sign (pack s u) = s := by
  rw [Bool.eq_iff_iff, sign_eq, pack_toNat s h]
  cases s <;> simp <;> omega

theorem pack_self (d : Val) : pack (sign d) (low d) = d := by
  apply BitVec.eq_of_toNat_eq
  rw [pack_toNat _ (low_lt d)]
  unfold sign negative low
  have := d.isLt
  by_cases h : 2 ^ 63 ≤ d.toNat <;> simp [h] <;> omega

theorem scaled_pack (s : Bool) {u : Nat} (h : u < 2 ^ 63) : scaled (pack s u) = if s then -(mag u : Int) else mag u := by
  rw [scaled_low, sign_pack s h, low_pack s h]

theorem sign_neg (d : Val) : sign (neg d) = !sign d ∧ low (neg d) = low d := by
  have hx : (neg d).toNat = if 2 ^ 63 ≤ d.toNat then d.toNat - 2 ^ 63 else d.toNat + 2 ^ 63 := by
    rw [neg, BitVec.toNat_xor]
    have hd := d.isLt
    generalize d.toNat = x at *
    have hc : (0x8000000000000000#64).toNat = 2 ^ 63 := by decide
    rw [hc]
    have h1 : (x ^^^ 2 ^ 63) / 2 ^ 63 = x / 2 ^ 63 ^^^ 1 := by rw [Nat.xor_div_two_pow]
    have h2 : (x ^^^ 2 ^ 63) % 2 ^ 63 = x % 2 ^ 63 := by rw [Nat.xor_mod_two_pow]; simp
    have h3 := Nat.div_add_mod (x ^^^ 2 ^ 63) (2 ^ 63)
    rw [h1, h2] at h3
    rw [← h3]
    by_cases h : 2 ^ 63 ≤ x
    · have : x / 2 ^ 63 = 1 := by omega
      rw [if_pos h, this]
      show 2 ^ 63 * 0 + _ = _
      omega
    · have : x / 2 ^ 63 = 0 := by omega
      rw [if_neg h, this]
      show 2 ^ 63 * 1 + _ = _
      omega
  have hd := d.isLt
  constructor
  · rw [Bool.eq_iff_iff, sign_eq, hx]
    have := sign_eq d
    by_cases h : 2 ^ 63 ≤ d.toNat
    · rw [if_pos h, this.2 h]; simp; omega
    · have : sign d = false := by simpa [h] using this
      rw [if_neg h, this]; simp
  · unfold low
    rw [hx]
    split <;> omega

theorem scaled_neg (d : Val) : scaled (neg d) = - scaled d := by
  rw [scaled_low, scaled_low, (sign_neg d).1, (sign_neg d).2]
  cases sign d <;> simp

/-! ## Rounding -/

theorem roundDiv_cases (n d : Nat) :
    (roundDiv n d = n / d ∧ (2 * (n % d) < d ∨ (2 * (n % d) = d ∧ n / d % 2 = 0))) ∨
    (roundDiv n d = n / d + 1 ∧ (2 * (n % d) > d ∨ (2 * (n % d) = d ∧ n / d % 2 = 1))) := by
  unfold roundDiv
  simp only
  split <;> omega

/-- Where a number lies among the doubles, and which neighbour it is rounded to. -/
theorem ofQuot_between {n d : Nat} (hd : 0 < d) :
    ∃ u, mag u * d ≤ n ∧ n < mag (u + 1) * d ∧
      ((ofQuot n d = min u (2047 * 2 ^ 52) ∧ (2 * n < (mag u + mag (u + 1)) * d ∨ (2 * n = (mag u + mag (u + 1)) * d ∧ u % 2 = 0))) ∨
       (ofQuot n d = min (u + 1) (2047 * 2 ^ 52) ∧ (2 * n > (mag u + mag (u + 1)) * d ∨ (2 * n = (mag u + mag (u + 1)) * d ∧ u % 2 = 1)))) := by
  generalize hk : (n / d).log2 - 52 = k
  have hD : 0 < d * 2 ^ k := Nat.mul_pos hd (Nat.two_pow_pos k)
  generalize hf : n / (d * 2 ^ k) = f
  have hfq : f = n / d / 2 ^ k := by rw [Nat.div_div_eq_div_mul, hf]
  have hq : n / d < 2 ^ (53 + k) := by
    refine Nat.lt_of_lt_of_le Nat.lt_log2_self (Nat.pow_le_pow_right (by decide) (by omega))
  have hf1 : f < 2 ^ 53 := by
    rw [hfq]
    refine Nat.div_lt_of_lt_mul ?_
    rw [← Nat.pow_add, Nat.add_comm]; exact hq
  have hf2 : k = 0 ∨ 2 ^ 52 ≤ f := by
    by_cases h0 : k = 0
    · exact .inl h0
    · right
      have hn0 : n / d ≠ 0 := by
        intro h
        rw [h] at hk
        simp at hk
        omega
      have h1 := Nat.log2_self_le hn0
      rw [hfq, Nat.le_div_iff_mul_le (Nat.two_pow_pos k), ← Nat.pow_add, show 52 + k = (n / d).log2 by omega]
      exact h1
  have m0 : mag (k * 2 ^ 52 + f) = f * 2 ^ k := mag_eq (by omega) hf2
  have m1 : mag (k * 2 ^ 52 + f + 1) = (f + 1) * 2 ^ k := by
    rw [Nat.add_assoc]; exact mag_eq (by omega) (by omega)
  have hdm : n = d * 2 ^ k * f + n % (d * 2 ^ k) := by rw [← hf]; exact (Nat.div_add_mod _ _).symm
  have hr : n % (d * 2 ^ k) < d * 2 ^ k := Nat.mod_lt _ hD
  have e0 : f * 2 ^ k * d = d * 2 ^ k * f := by rw [Nat.mul_comm (f * 2 ^ k), Nat.mul_comm f, Nat.mul_assoc]
  have e1 : (f + 1) * 2 ^ k * d = d * 2 ^ k * f + d * 2 ^ k := by
    rw [Nat.mul_comm (_ * _), Nat.mul_comm (f + 1), ← Nat.mul_assoc, Nat.mul_add, Nat.mul_one]
  have ho : ofQuot n d = min (k * 2 ^ 52 + roundDiv n (d * 2 ^ k)) (2047 * 2 ^ 52) := by unfold ofQuot; rw [hk]
  refine ⟨k * 2 ^ 52 + f, ?_, ?_, ?_⟩
  · rw [m0, e0]; omega
  · rw [m1, e1]; omega
  · rw [m0, m1, Nat.add_mul, e0, e1]
    have hc := roundDiv_cases n (d * 2 ^ k)
    rw [hf] at hc
    generalize n % (d * 2 ^ k) = r at *
    generalize d * 2 ^ k * f = x at *
    generalize d * 2 ^ k = y at *
    rcases hc with ⟨h1, h2⟩ | ⟨h1, h2⟩
    · left
      rw [ho, h1]
      refine ⟨rfl, ?_⟩
      omega
    · right
      rw [ho, h1, Nat.add_assoc]
      refine ⟨rfl, ?_⟩
      omega

theorem ofQuot_le (n d : Nat) : ofQuot n d ≤ 2047 * 2 ^ 52 := Nat.min_le_right _ _

/-- Among the doubles without sign the result is the nearest. -/
theorem ofQuot_nearest {n d : Nat} (hd : 0 < d) {v : Nat} (hv : v ≤ 2047 * 2 ^ 52) (hne : v ≠ ofQuot n d) :
    ((mag (ofQuot n d) : Int) * d - n).natAbs < ((mag v : Int) * d - n).natAbs ∨
    (((mag (ofQuot n d) : Int) * d - n).natAbs = ((mag v : Int) * d - n).natAbs ∧ ofQuot n d % 2 = 0) := by
  obtain ⟨u, h1, h2, h3⟩ := ofQuot_between (n := n) hd
  have lt : ∀ {x y : Nat}, x < y → mag x * d < mag y * d := fun h => Nat.mul_lt_mul_of_pos_right (mag_lt h) hd
  have le : ∀ {x y : Nat}, x ≤ y → mag x * d ≤ mag y * d := fun h => Nat.mul_le_mul_right _ (mag_le h)
  have cast : ∀ x : Nat, (mag x : Int) * d = ((mag x * d : Nat) : Int) := fun x => by rw [Int.natCast_mul]
  rw [cast, cast]
  rw [Nat.add_mul] at h3
  generalize hI : 2047 * 2 ^ 52 = I at *
  have hIe : I % 2 = 0 := by omega
  by_cases hu : I ≤ u
  · have ho : ofQuot n d = I := by omega
    rw [ho] at hne ⊢
    have g1 := lt (show v < I by omega)
    have g2 := le hu
    left
    generalize mag v * d = a at *
    generalize mag I * d = b at *
    generalize mag u * d = c at *
    omega
  · have hcase : v < u ∨ v = u ∨ v = u + 1 ∨ u + 1 < v := by omega
    rcases h3 with ⟨ho, h3⟩ | ⟨ho, h3⟩
    · have ho : ofQuot n d = u := by omega
      rw [ho] at hne ⊢
      rcases hcase with g | g | g | g
      · have g1 := lt g
        left
        generalize mag v * d = a at *
        generalize mag (u + 1) * d = b at *
        generalize mag u * d = c at *
        omega
      · exact absurd g hne
      · subst g
        generalize mag (u + 1) * d = b at *
        generalize mag u * d = c at *
        omega
      · have g1 := lt g
        left
        generalize mag v * d = a at *
        generalize mag (u + 1) * d = b at *
        generalize mag u * d = c at *
        omega
    · have ho : ofQuot n d = u + 1 := by omega
      rw [ho] at hne ⊢
      rcases hcase with g | g | g | g
      · have g1 := lt g
        left
        generalize mag v * d = a at *
        generalize mag (u + 1) * d = b at *
        generalize mag u * d = c at *
        omega
      · subst g
        generalize mag (v + 1) * d = b at *
        generalize mag v * d = c at *
        omega
      · exact absurd g hne
      · have g1 := lt g
        left
        generalize mag v * d = a at *
        generalize mag (u + 1) * d = b at *
        generalize mag u * d = c at *
        omega

/-- The double with the sign and magnitude of a number is the nearest to it. -/
theorem pack_nearest (s : Bool) {n d : Nat} (hd : 0 < d) :
    Nearest (if s then -(n : Int) else n) d (pack s (ofQuot n d)) := by
  have hle := ofQuot_le n d
  have hlt : ofQuot n d < 2 ^ 63 := by omega
  refine ⟨(notNaN_low _).2 (by rw [low_pack s hlt]; exact hle), fun e he hne => ?_⟩
  rw [notNaN_low] at he
  rw [scaled_pack s hlt] at hne ⊢
  rw [frac_low, low_pack s hlt]
  have key : ∀ v ≤ 2047 * 2 ^ 52, ∀ t : Bool, (if t then -(mag v : Int) else mag v) ≠ mag (ofQuot n d) →
      ((mag (ofQuot n d) : Int) * d - n).natAbs < ((if t then -(mag v : Int) else mag v) * d - n).natAbs ∨
      (((mag (ofQuot n d) : Int) * d - n).natAbs = ((if t then -(mag v : Int) else mag v) * d - n).natAbs ∧ ofQuot n d % 2 = 0) := by
    intro v hv t hvt
    cases t with
    | false => exact ofQuot_nearest hd hv (fun h => hvt (by rw [h]; rfl))
    | true =>
      simp only [if_true] at hvt ⊢
      by_cases h0 : ofQuot n d = 0
      · have hv0 : v ≠ 0 := fun h => hvt (by rw [h, h0, mag_zero]; rfl)
        have hp : 0 < mag v := by have := mag_lt (show 0 < v by omega); rw [mag_zero] at this; exact this
        have hp' : 0 < mag v * d := Nat.mul_pos hp hd
        left
        rw [h0, mag_zero, Int.natCast_zero, Int.zero_mul, Int.neg_mul, ← Int.natCast_mul]
        generalize mag v * d = x at *
        omega
      · have h := ofQuot_nearest (n := n) hd (Nat.zero_le _) (Ne.symm h0)
        rw [mag_zero] at h
        rw [Int.neg_mul, ← Int.natCast_mul (mag v)]
        generalize mag v * d = x at *
        generalize (mag (ofQuot n d) : Int) * d = y at *
        simp only [Int.natCast_zero, Int.zero_mul] at h
        omega
  have hpar : ofQuot n d % 2 = 0 → ofQuot n d % 2 ^ 52 % 2 = 0 := by omega
  have := key (low e) he (sign e != s) (by
    intro h
    apply hne
    rw [scaled_low, ← h]
    cases s <;> cases sign e <;> simp)
  have a1 : ((if s then -(mag (ofQuot n d) : Int) else mag (ofQuot n d)) * d - (if s then -(n : Int) else n)).natAbs =
      ((mag (ofQuot n d) : Int) * d - n).natAbs := by
    cases s
    · rfl
    · simp only [if_true, Int.neg_mul]; omega
  have a2 : (scaled e * d - (if s then -(n : Int) else n)).natAbs =
      ((if (sign e != s) then -(mag (low e) : Int) else mag (low e)) * d - n).natAbs := by
    rw [scaled_low]
    cases s <;> cases sign e <;> simp [Int.neg_mul] <;> omega
  rw [a1, a2]
  rcases this with h | ⟨h, h'⟩
  · exact .inl h
  · exact .inr ⟨h, hpar h'⟩

/-! ## The operations on finite numbers -/

theorem not_inf {d : Val} (h : Finite d) : ¬ IsInf d := fun h' => h h'.1
theorem not_nan {d : Val} (h : Finite d) : ¬ IsNaN d := fun h' => h h'.1

theorem add_finite {a b : Val} (ha : Finite a) (hb : Finite b) :
    add a b = pack (if scaled a + scaled b = 0 then sign a && sign b else decide (scaled a + scaled b < 0)) (ofQuot (scaled a + scaled b).natAbs 1) := by
  unfold add
  rw [if_neg (not_or.2 ⟨not_nan ha, not_nan hb⟩), if_neg (not_inf ha), if_neg (not_inf hb)]

theorem mul_finite {a b : Val} (ha : Finite a) (hb : Finite b) :
    mul a b = pack (sign a != sign b) (ofQuot (magnitude a * magnitude b) (2 ^ 1074)) := by
  unfold mul
  simp only
  rw [if_neg (not_or.2 ⟨not_nan ha, not_nan hb⟩), if_neg (not_or.2 ⟨not_inf ha, not_inf hb⟩)]

theorem div_finite {a b : Val} (ha : Finite a) (hb : Finite b) (h0 : ¬ IsZero b) :
    div a b = pack (sign a != sign b) (ofQuot (magnitude a * 2 ^ 1074) (magnitude b)) := by
  unfold div
  simp only
  rw [if_neg (not_or.2 ⟨not_nan ha, not_nan hb⟩), if_neg (not_inf ha), if_neg (not_inf hb), if_neg h0]

theorem finite_neg {d : Val} (h : Finite d) : Finite (neg d) := by
  rw [finite_low] at h ⊢
  rw [(sign_neg d).2]; exact h

theorem ofQuot_zero (d : Nat) : ofQuot 0 d = 0 := by
  unfold ofQuot roundDiv
  simp

theorem add_nearest {a b : Val} (ha : Finite a) (hb : Finite b) : Nearest (scaled a + scaled b) 1 (add a b) := by
  rw [add_finite ha hb]
  have := pack_nearest (if scaled a + scaled b = 0 then sign a && sign b else decide (scaled a + scaled b < 0))
    (n := (scaled a + scaled b).natAbs) (d := 1) (by decide)
  generalize scaled a + scaled b = s at *
  by_cases h0 : s = 0
  · subst h0
    simpa using this
  · rw [if_neg h0] at this ⊢
    by_cases h : s < 0
    · simp only [h, decide_true, if_true] at this ⊢
      rwa [show -(s.natAbs : Int) = s by omega] at this
    · simp only [h, decide_false] at this ⊢
      rwa [if_neg (by decide), show (s.natAbs : Int) = s by omega] at this

theorem sub_nearest {a b : Val} (ha : Finite a) (hb : Finite b) : Nearest (scaled a - scaled b) 1 (sub a b) := by
  have := add_nearest ha (finite_neg hb)
  rwa [scaled_neg] at this

theorem scaled_sign (d : Val) : scaled d = if sign d then -(magnitude d : Int) else magnitude d := by
  rw [scaled_low, magnitude_low]

theorem mul_nearest {a b : Val} (ha : Finite a) (hb : Finite b) : Nearest (scaled a * scaled b) (2 ^ 1074) (mul a b) := by
  rw [mul_finite ha hb, scaled_sign, scaled_sign]
  have := pack_nearest (sign a != sign b) (n := magnitude a * magnitude b) (Nat.two_pow_pos 1074)
  rw [Int.natCast_mul] at this
  generalize 2 ^ 1074 = p at *
  generalize sign a = x at *
  generalize sign b = y at *
  cases x <;> cases y <;> simpa [Int.neg_mul, Int.mul_neg] using this

theorem magnitude_pos {b : Val} (h : ¬ IsZero b) : 0 < magnitude b := by
  rw [isZero_low] at h
  rw [magnitude_low]
  have := mag_lt (show 0 < low b by omega)
  rwa [mag_zero] at this

theorem div_nearest {a b : Val} (ha : Finite a) (hb : Finite b) (h0 : ¬ IsZero b) :
    Nearest ((scaled b).sign * scaled a * 2 ^ 1074) (scaled b).natAbs (div a b) := by
  rw [div_finite ha hb h0, natAbs_scaled, scaled_sign, scaled_sign]
  have hp := magnitude_pos h0
  have := pack_nearest (sign a != sign b) (n := magnitude a * 2 ^ 1074) hp
  rw [Int.natCast_mul, Int.natCast_pow, show ((2 : Nat) : Int) = 2 from rfl] at this
  generalize (2 : Int) ^ 1074 = p at *
  generalize 2 ^ 1074 = q at *
  have s1 : (magnitude b : Int).sign = 1 := Int.sign_eq_one_of_pos (by omega)
  have s2 : (-(magnitude b : Int)).sign = -1 := by rw [Int.sign_neg, s1]
  generalize sign a = x at *
  generalize sign b = y at *
  cases x <;> cases y <;> simp only [Bool.false_eq_true, if_true, if_false, s1, s2] <;> simpa [Int.neg_mul] using this

/-! ## Consequences of being nearest -/

/-- A number that is a double is not rounded. -/
theorem _root_.Mjs.Spec.Double.Nearest.exact {n : Int} {den : Nat} (hd : 0 < den) {d e : Val} (h : Nearest n den d) (he : ¬ IsNaN e)
    (hn : n = scaled e * den) : scaled d = scaled e := by
  by_cases hs : scaled e = scaled d
  · exact hs.symm
  · have := h.2 e he hs
    rw [hn, Int.sub_self, ← Int.sub_mul] at this
    have h1 : ((scaled d - scaled e) * (den : Int)).natAbs = 0 := by simp only [Int.natAbs_zero] at this; omega
    rw [Int.natAbs_eq_zero, Int.mul_eq_zero] at h1
    omega

/-- Rounding keeps the order. -/
theorem _root_.Mjs.Spec.Double.Nearest.mono {n m : Int} {den : Nat} (hd : 0 < den) {d e : Val} (h : Nearest n den d) (h' : Nearest m den e)
    (hnm : n < m) : scaled d ≤ scaled e := by
  by_cases hs : scaled e < scaled d
  · exfalso
    have a1 := h.2 e h'.1 (by omega)
    have a2 := h'.2 d h.1 (by omega)
    have hle : scaled e * den < scaled d * den := Int.mul_lt_mul_of_pos_right hs (by omega)
    generalize scaled e * den = x at *
    generalize scaled d * den = y at *
    omega
  · omega

/-- Between two different doubles with last bit 0 there is a third. -/
theorem between {d e : Val} (hd : ¬ IsNaN d) (he : ¬ IsNaN e) (h : scaled e < scaled d) (h1 : frac d % 2 = 0) (h2 : frac e % 2 = 0) :
    ∃ w, ¬ IsNaN w ∧ scaled e < scaled w ∧ scaled w < scaled d := by
  rw [notNaN_low] at hd he
  rw [frac_low] at h1 h2
  have p1 : low d % 2 = 0 := by omega
  have p2 : low e % 2 = 0 := by omega
  rw [scaled_low, scaled_low] at h
  have pos : ∀ {u : Nat}, 0 < u → 0 < mag u := fun hu => by have := mag_lt hu; rwa [mag_zero] at this
  by_cases hp : sign d = false ∧ 0 < low d
  · have hb : low d - 1 < 2 ^ 63 := by omega
    refine ⟨pack false (low d - 1), ?_, ?_, ?_⟩
    · rw [notNaN_low, low_pack _ hb]; omega
    · rw [scaled_pack _ hb, scaled_low e]
      simp only [Bool.false_eq_true, if_false]
      simp only [hp.1, Bool.false_eq_true, if_false] at h
      have hq := pos (show 0 < low d - 1 by omega)
      cases hs : sign e with
      | true => simp only [if_true]; omega
      | false =>
        simp only [hs, Bool.false_eq_true, if_false] at h ⊢
        have h3 : low e < low d := by
          rcases Nat.lt_or_ge (low e) (low d) with g | g
          · exact g
          · have := mag_le g; omega
        have := mag_lt (show low e < low d - 1 by omega)
        omega
    · rw [scaled_pack _ hb, scaled_low d, hp.1]
      simp only [Bool.false_eq_true, if_false]
      have := mag_lt (show low d - 1 < low d by omega)
      omega
  · have hdn : (if sign d = true then -(mag (low d) : Int) else mag (low d)) = -(mag (low d) : Int) := by
      cases hs : sign d with
      | true => rfl
      | false =>
        have : low d = 0 := by
          rcases Nat.eq_zero_or_pos (low d) with g | g
          · exact g
          · exact absurd ⟨hs, g⟩ hp
        rw [this, mag_zero]; rfl
    rw [hdn] at h
    have hse : sign e = true := by
      cases hs : sign e with
      | true => rfl
      | false => simp only [hs, Bool.false_eq_true, if_false] at h; omega
    simp only [hse, if_true] at h
    have h3 : low d < low e := by
      rcases Nat.lt_or_ge (low d) (low e) with g | g
      · exact g
      · have := mag_le g; omega
    have hb : low e - 1 < 2 ^ 63 := by omega
    refine ⟨pack true (low e - 1), ?_, ?_, ?_⟩
    · rw [notNaN_low, low_pack _ hb]; omega
    · rw [scaled_pack _ hb, scaled_low e, hse]
      simp only [if_true]
      have := mag_lt (show low e - 1 < low e by omega)
      omega
    · rw [scaled_pack _ hb, scaled_low d, hdn]
      simp only [if_true]
      have := mag_lt (show low d < low e - 1 by omega)
      omega

/-- There is only one nearest number. -/
theorem _root_.Mjs.Spec.Double.Nearest.unique {n : Int} {den : Nat} (hden : 0 < den) {d e : Val} (h : Nearest n den d) (h' : Nearest n den e) :
    scaled d = scaled e := by
  have key : ∀ {d e : Val}, Nearest n den d → Nearest n den e → ¬ scaled e < scaled d := by
    intro d e h h' hlt
    have a1 := h.2 e h'.1 (by omega)
    have a2 := h'.2 d h.1 (by omega)
    obtain ⟨w, w1, w2, w3⟩ := between h.1 h'.1 hlt (by omega) (by omega)
    have a3 := h.2 w w1 (by omega)
    have l1 : scaled e * den < scaled w * den := Int.mul_lt_mul_of_pos_right w2 (by omega)
    have l2 : scaled w * den < scaled d * den := Int.mul_lt_mul_of_pos_right w3 (by omega)
    generalize scaled e * den = x at *
    generalize scaled d * den = y at *
    generalize scaled w * den = z at *
    omega
  have := key h h'
  have := key h' h
  omega

/-! ## Infinities -/

theorem inf_not_nan {d : Val} (h : IsInf d) : ¬ IsNaN d := fun h' => h'.2 h.2

theorem add_inf_left {a b : Val} (ia : IsInf a) (nb : ¬ IsNaN b) : add a b = if IsInf b ∧ sign a ≠ sign b then nan else a := by
  have hn : ¬ (IsNaN a ∨ IsNaN b) := not_or.2 ⟨inf_not_nan ia, nb⟩
  unfold add
  rw [if_neg hn, if_pos ia]

theorem add_inf_right {a b : Val} (fa : Finite a) (ib : IsInf b) : add a b = b := by
  have hn : ¬ (IsNaN a ∨ IsNaN b) := not_or.2 ⟨not_nan fa, inf_not_nan ib⟩
  unfold add
  rw [if_neg hn, if_neg (not_inf fa), if_pos ib]

theorem finite_or_inf {d : Val} (h : ¬ IsNaN d) : Finite d ∨ IsInf d := by
  rw [notNaN_low] at h
  rw [finite_low, isInf_low]
  omega

theorem isInf_eq {d : Val} (h : IsInf d) : d = inf (sign d) := by
  rw [isInf_low] at h
  rw [inf, ← h, pack_self]

theorem add_comm' {a b : Val} (na : ¬ IsNaN a) (nb : ¬ IsNaN b) : add a b = add b a := by
  rcases finite_or_inf na with fa | ia <;> rcases finite_or_inf nb with fb | ib
  · rw [add_finite fa fb, add_finite fb fa, Int.add_comm (scaled a), Bool.and_comm]
  · rw [add_inf_right fa ib, add_inf_left ib na, if_neg (fun h => not_inf fa h.1)]
  · rw [add_inf_right fb ia, add_inf_left ia nb, if_neg (fun h => not_inf fb h.1)]
  · rw [add_inf_left ia nb, add_inf_left ib na]
    by_cases hs : sign a = sign b
    · rw [if_neg (fun h => h.2 hs), if_neg (fun h => h.2 hs.symm), isInf_eq ia, isInf_eq ib, hs]
    · rw [if_pos ⟨ib, hs⟩, if_pos ⟨ia, fun h => hs h.symm⟩]

theorem mul_inf {a b : Val} (na : ¬ IsNaN a) (nb : ¬ IsNaN b) (h : IsInf a ∨ IsInf b) :
    mul a b = if IsZero a ∨ IsZero b then nan else inf (sign a != sign b) := by
  unfold mul
  simp only
  rw [if_neg (not_or.2 ⟨na, nb⟩), if_pos h]

theorem mul_comm' {a b : Val} (na : ¬ IsNaN a) (nb : ¬ IsNaN b) : mul a b = mul b a := by
  have hx : (sign a != sign b) = (sign b != sign a) := by cases sign a <;> cases sign b <;> rfl
  by_cases h : IsInf a ∨ IsInf b
  · rw [mul_inf na nb h, mul_inf nb na h.symm, hx]
    by_cases hz : IsZero a ∨ IsZero b
    · rw [if_pos hz, if_pos hz.symm]
    · rw [if_neg hz, if_neg (fun h => hz h.symm)]
  · have fa := (finite_or_inf na).resolve_right (fun g => h (.inl g))
    have fb := (finite_or_inf nb).resolve_right (fun g => h (.inr g))
    rw [mul_finite fa fb, mul_finite fb fa, hx, Nat.mul_comm]

theorem div_inf_left {a b : Val} (ia : IsInf a) (fb : Finite b) : div a b = inf (sign a != sign b) := by
  unfold div
  simp only
  rw [if_neg (not_or.2 ⟨inf_not_nan ia, not_nan fb⟩), if_pos ia, if_neg (not_inf fb)]

theorem div_inf_right {a b : Val} (fa : Finite a) (ib : IsInf b) : div a b = pack (sign a != sign b) 0 := by
  unfold div
  simp only
  rw [if_neg (not_or.2 ⟨not_nan fa, inf_not_nan ib⟩), if_neg (not_inf fa), if_pos ib]

theorem div_inf_both {a b : Val} (ia : IsInf a) (ib : IsInf b) : div a b = nan := by
  unfold div
  simp only
  rw [if_neg (not_or.2 ⟨inf_not_nan ia, inf_not_nan ib⟩), if_pos ia, if_pos ib]

/-! ## Neutral elements -/

/-- The doubles are not rounded. -/
theorem ofQuot_mag {u : Nat} (hu : u ≤ 2047 * 2 ^ 52) {d : Nat} (hd : 0 < d) : ofQuot (mag u * d) d = u := by
  by_cases h : u = ofQuot (mag u * d) d
  · exact h.symm
  · have := ofQuot_nearest (n := mag u * d) hd hu h
    rw [Int.natCast_mul, Int.sub_self] at this
    have h1 : ((mag (ofQuot (mag u * d) d) : Int) * d - mag u * d).natAbs = 0 := by simp only [Int.natAbs_zero] at this; omega
    rw [← Int.sub_mul, Int.natAbs_eq_zero, Int.mul_eq_zero] at h1
    exact mag_inj (by omega)

end Mjs.Ieee
