import Verif.Model.Strtod
import Verif.Spec.Decimal
import Verif.Lemmas.Ieee

namespace Mjs.Strtod
open Mjs.Tok Mjs.Ieee Mjs.Spec Mjs.Spec.Decimal Mjs.Spec.Double

theorem digit_ten {c : UInt8} {d : Nat} (h : Numeral.digit c = some d) (hd : d < 10) : isDigit c = true ∧ digitVal c = d := by
  unfold Numeral.digit at h
  split at h
  · rename_i h1
    have hc : isDigit c = true := by
      unfold isDigit
      simp only [Bool.and_eq_true, decide_eq_true_eq]
      exact ⟨UInt8.le_iff_toNat_le.2 h1.1, UInt8.le_iff_toNat_le.2 h1.2⟩
    refine ⟨hc, ?_⟩
    unfold digitVal
    rw [if_pos hc]
    exact Option.some.inj h
  · split at h
    · have := Option.some.inj h; omega
    · cases h

theorem value_ten {t : List UInt8} {n : Nat} (h : Numeral.Value 10 t n) : (∀ c ∈ t, isDigit c = true) ∧ natOf 10 t = n := by
  induction h with
  | nil => exact ⟨by simp, rfl⟩
  | snoc _ hd hlt ih =>
    obtain ⟨h1, h2⟩ := digit_ten hd hlt
    refine ⟨fun c hc => ?_, ?_⟩
    · rcases List.mem_append.1 hc with g | g
      · exact ih.1 c g
      · rw [List.mem_singleton] at g; rw [g]; exact h1
    · unfold natOf at ih ⊢
      rw [List.foldl_append, ih.2]
      simp only [List.foldl_cons, List.foldl_nil, h2]
      omega

/-- What an exponent begins with is no digit and no point. -/
theorem exponent_head {x : List UInt8} {m : Int} (h : Exponent x m) : x = [] ∨ ∃ c r, x = c :: r ∧ (c = 101 ∨ c = 69) := by
  cases h with
  | none => exact .inl rfl
  | plain hc => exact .inr ⟨_, _, rfl, hc⟩
  | plus hc => exact .inr ⟨_, _, rfl, hc⟩
  | minus hc => exact .inr ⟨_, _, rfl, hc⟩

theorem takeWhile_all {f : UInt8 → Bool} {i r : List UInt8} (hi : ∀ c ∈ i, f c = true) (hr : ∀ c r', r = c :: r' → f c = false) :
    (i ++ r).takeWhile f = i := by
  rw [List.takeWhile_append_of_pos hi]
  cases r with
  | nil => simp
  | cons c r => rw [List.takeWhile_cons_of_neg (by simp [hr c r rfl])]; simp

theorem head_not_digit {x : List UInt8} {m : Int} (h : Exponent x m) : ∀ c r, x = c :: r → isDigit c = false := by
  intro c r e
  rcases exponent_head h with rfl | ⟨c', r', rfl, hc⟩
  · cases e
  · cases e
    rcases hc with rfl | rfl <;> decide

theorem exponent_eq {x : List UInt8} {m : Int} (h : Exponent x m) : exponent x = m ∧ exponentLen 101 69 x = x.length := by
  have hs : ∀ {ds : List UInt8} {k : Nat}, ds ≠ [] → Numeral.Value 10 ds k → span isDigit ds = ds.length ∧ 0 < ds.length ∧
      ∀ c r, ds = c :: r → c ≠ 45 ∧ c ≠ 43 := by
    intro ds k h0 hv
    refine ⟨?_, List.length_pos_iff.2 h0, fun c r e => ?_⟩
    · unfold span
      have := takeWhile_all (r := []) (value_ten hv).1 (by simp)
      rw [List.append_nil] at this
      rw [this]
    · have := (value_ten hv).1 c (by rw [e]; simp)
      exact ⟨fun e => by rw [e] at this; exact absurd this (by decide), fun e => by rw [e] at this; exact absurd this (by decide)⟩
  cases h with
  | none => exact ⟨rfl, rfl⟩
  | @plain c ds k hc h0 hv =>
    obtain ⟨h1, h2, h3⟩ := hs h0 hv
    cases ds with
    | nil => exact absurd rfl h0
    | cons d r =>
      obtain ⟨g1, g2⟩ := h3 d r rfl
      refine ⟨?_, ?_⟩
      · unfold exponent
        split
        · rename_i e; cases e
        · rename_i e; cases e; exact absurd rfl g1
        · rename_i e; cases e; exact absurd rfl g2
        · rename_i e; cases e; rw [(value_ten hv).2]
      · unfold exponentLen
        have hg : signLen (d :: r) = 0 := by unfold signLen; simp [g1, g2]
        simp only [if_pos hc, hg, List.drop_zero, h1]
        rw [if_neg (by omega)]
        simp only [List.length_cons]; omega
  | @plus c ds k hc h0 hv =>
    obtain ⟨h1, h2, h3⟩ := hs h0 hv
    refine ⟨?_, ?_⟩
    · show ((natOf 10 ds : Nat) : Int) = k
      rw [(value_ten hv).2]
    · unfold exponentLen
      have hg : signLen (43 :: ds) = 1 := rfl
      simp only [if_pos hc, hg, List.drop_succ_cons, List.drop_zero, h1]
      rw [if_neg (by omega)]
      simp only [List.length_cons]; omega
  | @minus c ds k hc h0 hv =>
    obtain ⟨h1, h2, h3⟩ := hs h0 hv
    refine ⟨?_, ?_⟩
    · show -((natOf 10 ds : Nat) : Int) = _
      rw [(value_ten hv).2]
    · unfold exponentLen
      have hg : signLen (45 :: ds) = 1 := rfl
      simp only [if_pos hc, hg, List.drop_succ_cons, List.drop_zero, h1]
      rw [if_neg (by omega)]
      simp only [List.length_cons]; omega

/-- A text that goes on with neither `x` nor `X` after its digits has no prefix. -/
theorem no_prefix {i r : List UInt8} (hi : ∀ c ∈ i, isDigit c = true) (h0 : i ≠ []) (hr : ∀ c r', r = c :: r' → c ≠ 120 ∧ c ≠ 88) :
    hexPrefixLen (i ++ r) = 0 := by
  unfold hexPrefixLen
  split
  · rename_i x d _ e
    rw [if_neg]
    rintro ⟨hx, _⟩
    match i, h0 with
    | [c], _ =>
      simp only [List.cons_append, List.nil_append, List.cons.injEq] at e
      have := hr x _ e.2
      rcases hx with rfl | rfl
      · exact this.1 rfl
      · exact this.2 rfl
    | c :: c' :: i', _ =>
      simp only [List.cons_append, List.cons.injEq] at e
      have := hi c' (by simp)
      rw [e.2.1] at this
      rcases hx with rfl | rfl <;> exact absurd this (by decide)
  · rfl

theorem scale_nearest (n : Nat) (e : Int) : NearestDecimal false n e (pack false (scale n 10 e)) := by
  have := pack_nearest false (n := n * 10 ^ e.toNat * 2 ^ 1074) (d := 10 ^ (-e).toNat) (Nat.pow_pos (by decide))
  unfold NearestDecimal scale
  rw [if_neg (by decide), Int.natCast_mul, Int.natCast_mul, Int.natCast_pow, Int.natCast_pow] at this
  rw [if_neg (by decide), Int.one_mul]
  exact this

/-- `strtod` of a decimal number: all of it is read, and the double is the nearest. -/
theorem decimal {t : List UInt8} {n : Nat} {e : Int} (h : Decimal t n e) :
    strtodLen t = t.length ∧ hexPrefixLen t = 0 ∧ strtod t = pack false (scale n 10 e) := by
  cases h with
  | @whole i x n m h0 hv hx =>
    obtain ⟨v1, v2⟩ := value_ten hv
    obtain ⟨x1, x2⟩ := exponent_eq hx
    have hp : hexPrefixLen (i ++ x) = 0 := no_prefix v1 h0 fun c r e => by
      rcases exponent_head hx with rfl | ⟨c', r', rfl, hc⟩
      · cases e
      · cases e; rcases hc with rfl | rfl <;> decide
    have ht := takeWhile_all v1 (head_not_digit hx)
    have hfl : fractionLen isDigit x = 0 ∧ fraction isDigit x = [] := by
      rcases exponent_head hx with rfl | ⟨c', r', rfl, hc⟩
      · exact ⟨rfl, rfl⟩
      · rcases hc with rfl | rfl <;> exact ⟨rfl, rfl⟩
    refine ⟨?_, hp, ?_⟩
    · unfold strtodLen span
      simp only [hp, ht]
      rw [if_neg (by decide), List.drop_left, hfl.1, Nat.add_zero, List.drop_left, x2, List.length_append]
    · unfold strtod
      simp only [ht]
      rw [if_neg (by rw [hp]; decide), List.drop_left, hfl.1, hfl.2, List.drop_zero, List.append_nil, v2, x1]
      simp
  | @point i f x n m h0 hv hx =>
    obtain ⟨v1, v2⟩ := value_ten hv
    obtain ⟨x1, x2⟩ := exponent_eq hx
    have vi : ∀ c ∈ i, isDigit c = true := fun c hc => v1 c (by simp [hc])
    have vf : ∀ c ∈ f, isDigit c = true := fun c hc => v1 c (by simp [hc])
    have hp : hexPrefixLen (i ++ 46 :: (f ++ x)) = 0 := no_prefix vi h0 fun c r e => by cases e; decide
    have ht : (i ++ 46 :: (f ++ x)).takeWhile isDigit = i := takeWhile_all vi fun c r e => by cases e; decide
    have hf := takeWhile_all vf (head_not_digit hx)
    have hfl : fractionLen isDigit (46 :: (f ++ x)) = 1 + f.length := by
      unfold fractionLen span
      simp only [if_true, hf]
    have hfr : fraction isDigit (46 :: (f ++ x)) = f := hf
    refine ⟨?_, hp, ?_⟩
    · unfold strtodLen span
      simp only [hp, ht]
      rw [if_neg (by decide), List.drop_left, hfl, ← List.drop_drop, List.drop_left, Nat.add_comm 1, List.drop_succ_cons, List.drop_left, x2]
      simp only [List.length_append, List.length_cons]
      omega
    · unfold strtod
      simp only [ht]
      rw [if_neg (by rw [hp]; decide), List.drop_left, hfl, hfr, v2, Nat.add_comm 1, List.drop_succ_cons, List.drop_left, x1]

/-- What may follow a decimal number: no digit, point, or one of the letters that could belong to a number. -/
def EndsNum (rest : List UInt8) : Prop := ∀ c r, rest = c :: r → isDigit c = false ∧ c ≠ 46 ∧ c ≠ 101 ∧ c ≠ 69 ∧ c ≠ 120 ∧ c ≠ 88

theorem endsNum_of {rest : List UInt8} (h : Decimal.Ends rest) : EndsNum rest := by
  intro c r e
  obtain ⟨h1, h2, h3, h4⟩ := h c r e
  refine ⟨?_, ?_, ?_, ?_, ?_, ?_⟩
  · unfold isDigit
    rw [Bool.eq_false_iff]
    intro g
    simp only [Bool.and_eq_true, decide_eq_true_eq] at g
    exact h1 ⟨UInt8.le_iff_toNat_le.1 g.1, UInt8.le_iff_toNat_le.1 g.2⟩
  · rintro rfl; exact h4 rfl
  · rintro rfl; exact h3 (by decide)
  · rintro rfl; exact h2 (by decide)
  · rintro rfl; exact h3 (by decide)
  · rintro rfl; exact h2 (by decide)

theorem exponent_then {x rest : List UInt8} {m : Int} (h : Exponent x m) (hr : EndsNum rest) : exponentLen 101 69 (x ++ rest) = x.length := by
  have hs : ∀ {ds : List UInt8} {k : Nat}, ds ≠ [] → Numeral.Value 10 ds k → span isDigit (ds ++ rest) = ds.length ∧ 0 < ds.length ∧
      ∀ c r, ds = c :: r → c ≠ 45 ∧ c ≠ 43 := by
    intro ds k h0 hv
    refine ⟨?_, List.length_pos_iff.2 h0, fun c r e => ?_⟩
    · unfold span
      rw [takeWhile_all (value_ten hv).1 (fun c r e => (hr c r e).1)]
    · have := (value_ten hv).1 c (by rw [e]; simp)
      exact ⟨fun e => by rw [e] at this; exact absurd this (by decide), fun e => by rw [e] at this; exact absurd this (by decide)⟩
  cases h with
  | none =>
    cases rest with
    | nil => rfl
    | cons c r =>
      have := hr c r rfl
      simp only [List.nil_append, exponentLen]
      rw [if_neg (by simp [this])]
      rfl
  | @plain c ds k hc h0 hv =>
    obtain ⟨h1, h2, h3⟩ := hs h0 hv
    cases ds with
    | nil => exact absurd rfl h0
    | cons d r =>
      obtain ⟨g1, g2⟩ := h3 d r rfl
      have hg : signLen (d :: r ++ rest) = 0 := by simp [signLen, g1, g2]
      show exponentLen 101 69 (c :: (d :: r ++ rest)) = _
      unfold exponentLen
      simp only [if_pos hc, hg, List.drop_zero, h1]
      rw [if_neg (by omega)]
      simp only [List.length_cons]; omega
  | @plus c ds k hc h0 hv =>
    obtain ⟨h1, h2, h3⟩ := hs h0 hv
    have hg : signLen (43 :: (ds ++ rest)) = 1 := rfl
    show exponentLen 101 69 (c :: 43 :: (ds ++ rest)) = _
    unfold exponentLen
    simp only [if_pos hc, hg, List.drop_succ_cons, List.drop_zero, h1]
    rw [if_neg (by omega)]
    simp only [List.length_cons]; omega
  | @minus c ds k hc h0 hv =>
    obtain ⟨h1, h2, h3⟩ := hs h0 hv
    have hg : signLen (45 :: (ds ++ rest)) = 1 := rfl
    show exponentLen 101 69 (c :: 45 :: (ds ++ rest)) = _
    unfold exponentLen
    simp only [if_pos hc, hg, List.drop_succ_cons, List.drop_zero, h1]
    rw [if_neg (by omega)]
    simp only [List.length_cons]; omega

/-- What begins an exponent or follows the number. -/
theorem then_head {x rest : List UInt8} {m : Int} (h : Exponent x m) (hr : EndsNum rest) :
    ∀ c r, x ++ rest = c :: r → isDigit c = false ∧ c ≠ 46 ∧ c ≠ 120 ∧ c ≠ 88 := by
  intro c r e
  rcases exponent_head h with rfl | ⟨c', r', rfl, hc⟩
  · have := hr c r e
    exact ⟨this.1, this.2.1, this.2.2.2.2.1, this.2.2.2.2.2⟩
  · cases e
    rcases hc with rfl | rfl <;> decide

/-- All of a decimal number is read, and nothing behind it. -/
theorem decimal_then {t rest : List UInt8} {n : Nat} {e : Int} (h : Decimal t n e) (hr : EndsNum rest) : strtodLen (t ++ rest) = t.length ∧
    ∃ c u, t = c :: u ∧ isDigit c = true ∧ (c = 48 → ∀ d r, u ++ rest = d :: r → d ≠ 120) := by
  cases h with
  | @whole i x n m h0 hv hx =>
    obtain ⟨v1, v2⟩ := value_ten hv
    have hh := then_head hx hr
    have hp : hexPrefixLen (i ++ (x ++ rest)) = 0 := no_prefix v1 h0 fun c r e => (hh c r e).2.2
    have ht := takeWhile_all v1 (fun c r e => (hh c r e).1)
    have hfl : fractionLen isDigit (x ++ rest) = 0 := by
      cases hx' : x ++ rest with
      | nil => rfl
      | cons c r => unfold fractionLen; simp only; rw [if_neg (hh c r hx').2.1]
    refine ⟨?_, ?_⟩
    · rw [List.append_assoc]
      unfold strtodLen span
      simp only [hp, ht]
      rw [if_neg (by decide), List.drop_left, hfl, Nat.add_zero, List.drop_left, exponent_then hx hr, List.length_append]
    · match i, h0 with
      | c :: u, _ =>
        refine ⟨c, u ++ x, rfl, v1 c (by simp), fun _ d r e => ?_⟩
        rw [List.append_assoc] at e
        cases u with
        | nil => exact (hh d r e).2.2.1
        | cons d' u =>
          cases e
          have := v1 d (by simp)
          intro e; rw [e] at this; exact absurd this (by decide)
  | @point i f x n m h0 hv hx =>
    obtain ⟨v1, v2⟩ := value_ten hv
    have hh := then_head hx hr
    have vi : ∀ c ∈ i, isDigit c = true := fun c hc => v1 c (by simp [hc])
    have vf : ∀ c ∈ f, isDigit c = true := fun c hc => v1 c (by simp [hc])
    have hp : hexPrefixLen (i ++ 46 :: (f ++ (x ++ rest))) = 0 := no_prefix vi h0 fun c r e => by cases e; decide
    have ht : (i ++ 46 :: (f ++ (x ++ rest))).takeWhile isDigit = i := takeWhile_all vi fun c r e => by cases e; decide
    have hf := takeWhile_all vf (fun c r e => (hh c r e).1)
    have hfl : fractionLen isDigit (46 :: (f ++ (x ++ rest))) = 1 + f.length := by
      unfold fractionLen span
      simp only [if_true, hf]
    refine ⟨?_, ?_⟩
    · rw [List.append_assoc, List.cons_append, List.append_assoc]
      unfold strtodLen span
      simp only [hp, ht]
      rw [if_neg (by decide), List.drop_left, hfl, ← List.drop_drop, List.drop_left, Nat.add_comm 1, List.drop_succ_cons, List.drop_left, exponent_then hx hr]
      simp only [List.length_append, List.length_cons]
      omega
    · match i, h0 with
      | c :: u, _ =>
        refine ⟨c, u ++ 46 :: (f ++ x), rfl, v1 c (by simp), fun _ d r e => ?_⟩
        rw [List.append_assoc] at e
        cases u with
        | nil => cases e; decide
        | cons d' u =>
          cases e
          have := v1 d (by simp)
          intro e; rw [e] at this; exact absurd this (by decide)

/-! ## Integers -/

/-- The conversion of integers rounds in the same way. -/
theorem ofIntD_eq {n : Int} (hn : n.natAbs < 2 ^ 64) : ofIntD n = pack (decide (n < 0)) (ofQuot (n.natAbs * 2 ^ 1074) 1) := by
  by_cases h0 : n = 0
  · subst h0
    rw [Int.natAbs_zero, Nat.zero_mul, ofQuot_zero]
    decide
  · have ha : n.natAbs ≠ 0 := by omega
    rw [ofIntD, if_neg h0]
    simp only
    generalize hneg : decide (n < 0) = s
    have hs : (if n < 0 then 2 ^ 63 else 0) = (if s = true then 2 ^ 63 else 0 : Nat) := by
      rw [← hneg]; simp
    rw [hs]
    generalize hN : n.natAbs = a at *
    generalize hk : a.log2 = k
    have hk1 : 2 ^ k ≤ a := hk ▸ Nat.log2_self_le ha
    have hk2 : a < 2 ^ (k + 1) := hk ▸ Nat.lt_log2_self
    have hk3 : k < 64 := by rw [← hk]; exact (Nat.log2_lt ha).2 hn
    have hlog : (a * 2 ^ 1074).log2 = k + 1074 := by
      refine (Nat.log2_eq_iff (Nat.mul_ne_zero ha (Nat.ne_of_gt (Nat.two_pow_pos _)))).2 ⟨?_, ?_⟩
      · rw [Nat.pow_add]; exact Nat.mul_le_mul_right _ hk1
      · rw [show k + 1074 + 1 = k + 1 + 1074 by omega, Nat.pow_add 2 (k + 1)]
        exact Nat.mul_lt_mul_of_pos_right hk2 (Nat.two_pow_pos _)
    have hm : roundDiv (a * 2 ^ 1074) (1 * 2 ^ (k + 1022)) = (if k ≤ 52 then a * 2 ^ (52 - k) else roundEven a (k - 52)) ∧
        2 ^ 52 ≤ (if k ≤ 52 then a * 2 ^ (52 - k) else roundEven a (k - 52)) ∧ (if k ≤ 52 then a * 2 ^ (52 - k) else roundEven a (k - 52)) ≤ 2 ^ 53 := by
      rw [Nat.one_mul]
      by_cases h : k ≤ 52
      · rw [if_pos h]
        have e : a * 2 ^ 1074 = a * 2 ^ (52 - k) * 2 ^ (k + 1022) := by
          have hp : 2 ^ 1074 = 2 ^ (52 - k) * 2 ^ (k + 1022) := by rw [← Nat.pow_add, show 52 - k + (k + 1022) = 1074 by omega]
          rw [Nat.mul_assoc, ← hp]
        refine ⟨?_, ?_, ?_⟩
        · unfold roundDiv
          simp only
          rw [e, Nat.mul_div_cancel _ (Nat.two_pow_pos _), Nat.mul_mod_left, if_neg]
          have := Nat.two_pow_pos (k + 1022)
          omega
        · have := Nat.mul_le_mul_right (2 ^ (52 - k)) hk1
          rwa [← Nat.pow_add, show k + (52 - k) = 52 by omega] at this
        · have := Nat.mul_lt_mul_of_pos_right hk2 (Nat.two_pow_pos (52 - k))
          rw [← Nat.pow_add, show k + 1 + (52 - k) = 53 by omega] at this
          omega
      · rw [if_neg h]
        have e : 2 ^ (k + 1022) = 2 ^ (k - 52) * 2 ^ 1074 := by rw [← Nat.pow_add, show k - 52 + 1074 = k + 1022 by omega]
        have h1 : 2 ^ 52 ≤ a / 2 ^ (k - 52) := by
          rw [Nat.le_div_iff_mul_le (Nat.two_pow_pos _), ← Nat.pow_add, show 52 + (k - 52) = k by omega]
          exact hk1
        have h2 : a / 2 ^ (k - 52) < 2 ^ 53 := by
          refine Nat.div_lt_of_lt_mul ?_
          rw [← Nat.pow_add, show k - 52 + 53 = k + 1 by omega]
          exact hk2
        refine ⟨?_, ?_, ?_⟩
        · have hp := Nat.two_pow_pos 1074
          unfold roundDiv roundEven
          rw [e]
          generalize 2 ^ 1074 = p at *
          generalize 2 ^ (k - 52) = q at *
          simp only
          rw [Nat.mul_div_mul_right _ _ hp, Nat.mul_mod_mul_right]
          have e1 : 2 * (a % q * p) = (2 * (a % q)) * p := by rw [Nat.mul_assoc]
          rw [e1]
          have e2 : (2 * (a % q) * p > q * p) ↔ (2 * (a % q) > q) := Nat.mul_lt_mul_right hp
          have e3 : (2 * (a % q) * p = q * p) ↔ (2 * (a % q) = q) := Nat.mul_left_inj (Nat.ne_of_gt hp)
          simp only [e2, e3]
        · unfold roundEven; simp only; split <;> omega
        · unfold roundEven; simp only; split <;> omega
    have ho : ofQuot (a * 2 ^ 1074) 1 = (k + 1022) * 2 ^ 52 + (if k ≤ 52 then a * 2 ^ (52 - k) else roundEven a (k - 52)) := by
      unfold ofQuot
      simp only [Nat.div_one]
      rw [hlog, show k + 1074 - 52 = k + 1022 by omega, hm.1]
      obtain ⟨_, m1, m2⟩ := hm
      clear hlog
      generalize (if k ≤ 52 then a * 2 ^ (52 - k) else roundEven a (k - 52)) = m at *
      exact Nat.min_eq_left (by omega)
    rw [ho]
    obtain ⟨_, m1, m2⟩ := hm
    clear hlog ho
    generalize (if k ≤ 52 then a * 2 ^ (52 - k) else roundEven a (k - 52)) = m at *
    have e : (if s = true then 2 ^ 63 else 0 : Nat) + (1023 + k) * 2 ^ 52 + (m - 2 ^ 52) = (if s = true then 2 ^ 63 else 0) + ((k + 1022) * 2 ^ 52 + m) := by
      omega
    rw [e]
    rfl

/-- The conversion of the value of a double gives the double. -/
theorem ofIntD_self {d : Val} {n : Int} (h : IsInt d n) (hn : n.natAbs < 2 ^ 64) (hs : sign d = decide (n < 0)) : ofIntD n = d := by
  rw [ofIntD_eq hn, ← hs]
  have h1 : n.natAbs * 2 ^ 1074 = mag (low d) * 1 := by
    rw [Nat.mul_one, ← magnitude_low, ← natAbs_scaled, h.2, Int.natAbs_mul, Int.natAbs_pow]
    rfl
  rw [h1, ofQuot_mag (Nat.le_of_lt ((finite_low d).1 h.1)) (by decide), pack_self]

end Mjs.Strtod
