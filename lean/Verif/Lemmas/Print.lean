import Verif.Model.Print
import Verif.Spec.Print
import Verif.Lemmas.Printf
import Verif.Lemmas.IntOps
import Verif.Lemmas.Value

/-!
# Lemmas about the text of values
-/

namespace Mjs.Print
open Mjs Mjs.Str Mjs.Obj Mjs.Core Mjs.Exec Mjs.Printf Mjs.Spec Mjs.Spec.Double Mjs.Spec.Print

/-! ## Digits -/

theorem dec_numeral (n : Nat) : Numeral.Nat 10 n (dec n) := digitsRev_numeral n 10 _ (by decide)

theorem decInt_numeral (n : Int) : Numeral.Int 10 n (decInt n) := by
  unfold Numeral.Int decInt
  split
  · exact ⟨_, rfl, dec_numeral _⟩
  · exact dec_numeral _

theorem dec_length {n k : Nat} (h : n < 10 ^ (k + 1)) : (dec n).length ≤ k + 1 := by
  rw [dec, List.length_reverse]
  exact digitsRev_length n 10 _ k h

theorem value_append {base a b : Nat} {t u : List UInt8} (h : Numeral.Value base t a) (h' : Numeral.Value base u b) :
    Numeral.Value base (t ++ u) (a * base ^ u.length + b) := by
  induction h' with
  | nil => simpa using h
  | @snoc text n c d _ hd hb ih =>
    rw [← List.append_assoc, List.length_append, List.length_singleton, Nat.pow_succ,
      show a * (base ^ text.length * base) + (n * base + d) = (a * base ^ text.length + n) * base + d by
        rw [Nat.add_mul, Nat.mul_assoc, Nat.add_assoc]]
    exact .snoc ih hd hb

theorem value_zeros {base : Nat} (h : 0 < base) : ∀ k, Numeral.Value base (List.replicate k 48) 0
  | 0 => .nil
  | k + 1 => by
    have := Numeral.Value.snoc (c := 48) (d := 0) (value_zeros h k) (by decide) h
    rw [List.replicate_succ']
    simpa using this

theorem padded_value {w n : Nat} : Numeral.Value 10 (padded w n) n := by
  have := value_append (value_zeros (base := 10) (by decide) (w - (dec n).length)) (dec_numeral n).1
  simpa [padded] using this

theorem padded_length {w n : Nat} (h : n < 10 ^ (w + 1)) : (padded (w + 1) n).length = w + 1 := by
  have := dec_length h
  rw [padded, List.length_append, List.length_replicate]
  omega

/-! ## Numbers -/

theorem roundEven_near (a s : Nat) :
    2 * ((a : Int) - roundEven a s * 2 ^ s).natAbs ≤ 2 ^ s ∧
      (2 * ((a : Int) - roundEven a s * 2 ^ s).natAbs = 2 ^ s → roundEven a s % 2 = 0) := by
  have h1 := Nat.div_add_mod a (2 ^ s)
  have h2 := Nat.mod_lt a (Nat.two_pow_pos s)
  have hp : ((2 : Int) ^ s) = ((2 ^ s : Nat) : Int) := by simp
  simp only [roundEven]
  rw [hp]
  generalize 2 ^ s = S at h1 h2 ⊢
  generalize hq : a / S = q at h1 ⊢
  generalize hr : a % S = r at h1 h2 ⊢
  have e : (a : Int) = S * q + r := by rw [← h1]; simp
  rw [e]
  split
  · rw [show (S * q + r : Int) - ((q + 1 : Nat) : Int) * S = r - S by rw [Int.natCast_add, Int.add_mul, Int.mul_comm (S : Int)]; simp; omega]
    omega
  · rw [show (S * q + r : Int) - (q : Int) * S = r by rw [Int.mul_comm (S : Int)]; omega]
    omega

theorem scaled_dvd (d : Val) : (∃ n : Int, scaled d = n * 2 ^ 1074) ↔ magnitude d % 2 ^ 1074 = 0 := by
  have hp : ((2 : Int) ^ 1074) = ((2 ^ 1074 : Nat) : Int) := by simp
  rw [hp]
  generalize 2 ^ 1074 = S
  constructor
  · rintro ⟨n, h⟩
    have : (S : Int) ∣ (magnitude d : Int) := by
      unfold scaled at h
      split at h
      · exact ⟨-n, by rw [Int.mul_neg, Int.mul_comm, ← h]; simp⟩
      · exact ⟨n, by rw [Int.mul_comm, ← h]⟩
    exact Nat.mod_eq_zero_of_dvd (Int.natCast_dvd_natCast.1 this)
  · intro h
    obtain ⟨k, hk⟩ := Nat.dvd_of_mod_eq_zero h
    unfold scaled
    split
    · exact ⟨-k, by rw [hk, Int.natCast_mul, Int.neg_mul, Int.mul_comm]⟩
    · exact ⟨k, by rw [hk]; simp [Int.mul_comm]⟩

theorem integral_isInt {d : Val} {n : Int} (h : IsInt d n) : integral d = true := by
  have h1 : isnan d = false := by
    cases hh : isnan d with
    | false => rfl
    | true => exact absurd h.1 (isNaN_not_finite ((isnan_iff d).1 hh))
  simp [integral, h1, (scaled_dvd d).1 ⟨n, h.2⟩]

theorem not_integral {d : Val} (hf : Finite d) (h : ¬ ∃ n, IsInt d n) : integral d = false := by
  have h1 : ¬ IsInf d := fun hi => hf hi.1
  have h2 : magnitude d % 2 ^ 1074 ≠ 0 := fun h2 => by
    obtain ⟨n, hn⟩ := (scaled_dvd d).2 h2
    exact h ⟨n, hf, hn⟩
  simp only [integral, h1, decide_false, h2, Bool.or_false, Bool.and_false]

theorem frac_lt (d : Val) : frac d < 2 ^ 52 := Nat.mod_lt _ (by decide)

/-- A number with a fraction is below 2^52. -/
theorem fraction_small {d : Val} (h : magnitude d % 2 ^ 1074 ≠ 0) : magnitude d < 2 ^ 52 * 2 ^ 1074 := by
  have hf := frac_lt d
  unfold magnitude at h ⊢
  split
  · have : (2 : Nat) ^ 52 * 1 ≤ 2 ^ 52 * 2 ^ 1074 := Nat.mul_le_mul_left _ (Nat.one_le_two_pow)
    omega
  · rename_i he
    rw [if_neg he] at h
    by_cases h2 : 1074 ≤ expo d - 1
    · refine absurd ?_ h
      obtain ⟨k, hk⟩ := Nat.exists_eq_add_of_le h2
      rw [hk, Nat.pow_add, Nat.mul_comm (2 ^ 1074), ← Nat.mul_assoc, Nat.mul_mod_left]
    · have h3 : (2 : Nat) ^ (expo d - 1) ≤ 2 ^ 1073 := Nat.pow_le_pow_right (by decide) (by omega)
      have h4 := Nat.mul_le_mul (show 2 ^ 52 + frac d ≤ 2 ^ 53 - 1 by omega) h3
      refine Nat.lt_of_le_of_lt h4 ?_
      rw [show (2 : Nat) ^ 52 * 2 ^ 1074 = 2 ^ 53 * 2 ^ 1073 by rw [← Nat.pow_add, ← Nat.pow_add]]
      exact Nat.mul_lt_mul_of_pos_right (by decide) (Nat.two_pow_pos _)

theorem roundEven_le {a s k : Nat} (h : a < k * 2 ^ s) : roundEven a s ≤ k := by
  have : a / 2 ^ s < k := by rwa [Nat.div_lt_iff_lt_mul (Nat.two_pow_pos _)]
  simp only [roundEven]
  split <;> omega

theorem fixed_spec {d : Val} (hn : isnan d = false) : Fixed d (fixed d) := by
  unfold fixed
  rw [hn]
  simp only [Bool.false_eq_true, if_false]
  generalize hr : roundEven (magnitude d * 10 ^ 6) 1074 = n
  refine ⟨dec (n / 10 ^ 6), padded 6 (n % 10 ^ 6), n, rfl, padded_length (Nat.mod_lt _ (by decide)), ?_, ?_, (dec_numeral _).2⟩
  · have := value_append (dec_numeral (n / 10 ^ 6)).1 (padded_value (w := 6) (n := n % 10 ^ 6))
    rw [padded_length (Nat.mod_lt _ (by decide)), Nat.div_add_mod'] at this
    exact this
  · have := roundEven_near (magnitude d * 10 ^ 6) 1074
    rw [hr] at this
    simpa [Millionths] using this

theorem fixed_length {d : Val} (hm : magnitude d % 2 ^ 1074 ≠ 0) : (fixed d).length ≤ 24 := by
  unfold fixed
  rw [List.length_append]
  have h1 : (if negative d then ([45] : List UInt8) else []).length ≤ 1 := by split <;> simp
  generalize (if negative d then ([45] : List UInt8) else []) = sg at h1 ⊢
  split
  · have : (txt "nan").length = 3 := by decide
    omega
  · have h2 := fraction_small hm
    have h3 : roundEven (magnitude d * 10 ^ 6) 1074 ≤ 2 ^ 52 * 10 ^ 6 := by
      refine roundEven_le ?_
      rw [Nat.mul_assoc, Nat.mul_comm (10 ^ 6), ← Nat.mul_assoc]
      exact Nat.mul_lt_mul_of_pos_right h2 (by decide)
    simp only [List.length_append, List.length_cons]
    rw [padded_length (Nat.mod_lt _ (by decide))]
    have h4 : roundEven (magnitude d * 10 ^ 6) 1074 / 10 ^ 6 ≤ 2 ^ 52 := by
      have := Nat.div_le_div_right (c := 10 ^ 6) h3
      rwa [Nat.mul_div_cancel _ (by decide)] at this
    have h5 := dec_length (n := roundEven (magnitude d * 10 ^ 6) 1074 / 10 ^ 6) (k := 15)
      (Nat.lt_of_le_of_lt h4 (by decide))
    omega

end Mjs.Print
