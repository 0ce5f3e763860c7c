import Verif.Lemmas.Print
import Verif.Lemmas.JsonOut
import Verif.Props.Printf
import Verif.Spec.JsonTree
import Verif.Props.Object
import Verif.Props.Value

/-!
# C70: the text of a number

`numText v` is the text the engine makes of the number `v`: for `print`, for a number as the name of a property, for `JSON.stringify`.
-/

namespace Mjs.Props
open Mjs Mjs.Str Mjs.Obj Mjs.Core Mjs.Exec Mjs.Spec Mjs.Spec.Double Mjs.Spec.Print Mjs.Print

/-- **C70, integers.** A number that is an integer of 64 bits is written as its decimal numeral. -/
theorem C70_integer {d : Val} {n : Int} (h : IsInt d n) (h1 : -2 ^ 63 ≤ n) (h2 : n < 2 ^ 63) : Numeral.Int 10 n (Print.numText d) := by
  simp only [Print.numText, getDouble, integral_isInt h, if_true, toI64_isInt h h1 h2]
  exact decInt_numeral n

/-- **C70, fractions.** Any other number is written with six digits after the point, rounded to nearest. -/
theorem C70_fraction {d : Val} (hf : Finite d) (h : ¬ ∃ n, IsInt d n) : Fixed d (Print.numText d) := by
  have hn : isnan d = false := by
    cases hh : isnan d with
    | false => rfl
    | true => exact absurd hf (isNaN_not_finite ((isnan_iff d).1 hh))
  simp only [Print.numText, getDouble, not_integral hf h, Bool.false_eq_true, if_false]
  exact fixed_spec hn

/-- **C70, distinct integers.** Integers of 64 bits with the same text are the same. -/
theorem C70_distinct {d e : Val} {n m : Int} (h : IsInt d n) (h1 : -2 ^ 63 ≤ n) (h2 : n < 2 ^ 63) (h' : IsInt e m) (h1' : -2 ^ 63 ≤ m)
    (h2' : m < 2 ^ 63) (heq : Print.numText d = Print.numText e) : n = m :=
  C55_numeral_reads_back 10 n m _ (C70_integer h h1 h2) (heq ▸ C70_integer h' h1' h2')

theorem mem_dec {n : Nat} {c : UInt8} (h : c ∈ dec n) : 48 ≤ c.toNat ∧ c.toNat ≤ 57 := by
  have : ∀ {t : List UInt8} {n}, Numeral.Value 10 t n → ∀ c ∈ t, 48 ≤ c.toNat ∧ c.toNat ≤ 57 := by
    intro t n h
    induction h with
    | nil => simp
    | snoc _ hd hb ih =>
      intro c hc
      rcases List.mem_append.1 hc with hc | hc
      · exact ih c hc
      · simp only [List.mem_singleton] at hc
        subst hc
        unfold Numeral.digit at hd
        split at hd
        · assumption
        · split at hd
          · simp only [Option.some.injEq] at hd; omega
          · cases hd
  exact this (dec_numeral n).1 c h

theorem toI64_range (d : Val) : -2 ^ 63 ≤ toI64 d ∧ toI64 d < 2 ^ 63 := by
  unfold toI64
  split
  · rename_i h; exact h.2
  · omega

/-- The text of a number is short and has no NUL in it. -/
theorem numText_short (v : Val) : (Print.numText v).length ≤ 24 ∧ ∀ c ∈ Print.numText v, c ≠ 0 := by
  have e : Print.numText v = if integral v then decInt (toI64 v) else fixed v := rfl
  rw [e]
  by_cases hi : integral v = true
  · rw [if_pos hi]
    obtain ⟨h1, h2⟩ := toI64_range v
    generalize toI64 v = n at h1 h2
    have h3 := dec_length (n := n.natAbs) (k := 18) (by
      have : (2 : Nat) ^ 63 < 10 ^ (18 + 1) := by decide
      omega)
    refine ⟨?_, fun c hc => ?_⟩
    · rw [decInt, List.length_append]
      have : (if n < 0 then ([45] : List UInt8) else []).length ≤ 1 := by split <;> simp
      omega
    · rcases List.mem_append.1 hc with hc | hc
      · split at hc
        · simp only [List.mem_singleton] at hc; subst hc; decide
        · cases hc
      · rintro rfl
        have := (mem_dec hc).1
        simp at this
  · rw [if_neg hi]
    by_cases hn : isnan v = true
    · unfold fixed
      rw [if_pos hn]
      split <;> exact ⟨by decide, by decide⟩
    · have hm : magnitude v % 2 ^ 1074 ≠ 0 := fun h => hi (by
        simp only [integral, Bool.and_eq_true, Bool.not_eq_true', Bool.or_eq_true, decide_eq_true_eq]
        exact ⟨by simpa using hn, .inr h⟩)
      refine ⟨fixed_length hm, fun c hc => ?_⟩
      unfold fixed at hc
      rw [if_neg hn] at hc
      simp only [padded, List.mem_append, List.mem_cons, List.mem_replicate] at hc
      rintro rfl
      rcases hc with hc | hc | hc | hc | hc
      · split at hc
        · simp at hc
        · cases hc
      · have := (mem_dec hc).1; simp at this
      · exact absurd hc (by decide)
      · exact absurd hc.2 (by decide)
      · have := (mem_dec hc).1; simp at this

theorem numText_ok : JsonOut.TextOk Print.numText := fun v =>
  ⟨fun h => (numText_short v).2 0 h rfl, Nat.lt_of_le_of_lt (numText_short v).1 (by decide)⟩

/-- **C70, nothing is cut off.** The 50 bytes in which `mjs_to_string` makes the text hold all of it, for every number. -/
theorem C70_fits (st : Store) {v : Val} (hv : isNumber v = true) : toStringNum st v = some (Print.numText v) := by
  obtain ⟨h1, h2⟩ := numText_short v
  generalize ht : Print.numText v = t at h1 h2
  have hp : pieces st v = some [t] := by simp [pieces, hv, ht]
  simp only [toStringNum, sprintf, hp, Option.bind_eq_bind, Option.bind_some, List.foldlM_cons, List.foldlM_nil]
  have e : printerBuf 0 50 (List.replicate 50 0, 0) t = some ((t ++ List.replicate (50 - t.length) 0).set t.length 0, t.length) := by
    have e1 : min t.length (50 - 0) = t.length := by omega
    simp only [printerBuf, e1, Nat.zero_add, List.length_replicate]
    rw [if_pos (by omega), if_neg (by decide), if_neg (show ¬ t.length ≥ 50 by omega)]
    simp only [List.take_zero, List.nil_append, List.take_length, List.drop_replicate]
    rw [if_pos (by simp; omega)]
  rw [e]
  simp only [Option.pure_def, Option.bind_some, Option.map_some, Option.some.injEq]
  have e2 : (t ++ List.replicate (50 - t.length) 0).set t.length 0 = t ++ List.replicate (50 - t.length) 0 := by
    obtain ⟨k, hk⟩ : ∃ k, 50 - t.length = k + 1 := ⟨49 - t.length, by omega⟩
    rw [hk, List.replicate_succ, List.set_append_right _ _ (Nat.le_refl _)]
    simp
  rw [e2, List.takeWhile_append_of_pos (by simpa using h2)]
  obtain ⟨k, hk⟩ : ∃ k, 50 - t.length = k + 1 := ⟨49 - t.length, by omega⟩
  rw [hk, List.replicate_succ]
  simp

/-- **C70, names of properties.** A number and a string with its text name the same property, in every history of objects. -/
theorem C70_name {cmem h ops} (hh : History cmem Print.numText h ops) {v} (hc : created ops v) {x key : Val} (hx : isNumber x = true)
    (hs : isString key = true) (hk : Reads h.str key (Print.numText x)) : getV Print.numText h v x = getV Print.numText h v key := by
  have hns : isString x = false := by
    cases h : isString x with
    | false => rfl
    | true => exact absurd (C04_one_kind x .string .number h hx) (by decide)
  obtain ⟨p, n, h1, h2, h3⟩ := hk
  have hn : (Print.numText x).length = n := by
    obtain ⟨A, fo, fp, hsim⟩ := hh.sim
    exact load_length hsim.inv.str.1.1 h3
  have hl : (Print.numText x).length < 2 ^ 32 := Nat.lt_of_le_of_lt (numText_short x).1 (by decide)
  have e1 : getV Print.numText h v x = get h v (.loc (Print.numText x)) (Print.numText x).length := by
    simp [getV, toStr, hns, hx]
  have e2 : getV Print.numText h v key = get h v p (Print.numText x).length := by
    simp [getV, toStr, hs, h1, hn]
  rw [e1, e2, C15_get_engine hh hc ⟨h2, by rw [hn]; exact h3, hl⟩, C15_get_engine hh hc ⟨rfl, by simp [load], hl⟩]

theorem dec_digits (n : Nat) : Spec.Json.Digits (dec n) := ⟨(dec_numeral n).2.1, fun _ hc => mem_dec hc⟩

/-- **C70, JSON.** The text of every number but NaN is a number of JSON. -/
theorem C70_json {x : Val} (h : ¬ IsNaN x) : ∃ (neg : Bool) (t : List UInt8), Spec.Json.IsNumeral t ∧ Print.numText x = (if neg then [45] else []) ++ t := by
  have hnan : isnan x = false := by
    cases hh : isnan x with
    | false => rfl
    | true => exact absurd ((isnan_iff x).1 hh) h
  have e : Print.numText x = if integral x then decInt (toI64 x) else fixed x := rfl
  rw [e]
  split
  · refine ⟨decide (toI64 x < 0), dec (toI64 x).natAbs, ⟨dec (toI64 x).natAbs, [], [], (by simp), dec_digits _, (dec_numeral _).2.2, .inl rfl, .inl rfl⟩, ?_⟩
    simp only [decInt, decide_eq_true_eq]
  · obtain ⟨n, hn⟩ : ∃ n, fixed x = (if negative x then [45] else []) ++ (dec (n / 10 ^ 6) ++ 46 :: padded 6 (n % 10 ^ 6)) :=
      ⟨roundEven (magnitude x * 10 ^ 6) 1074, by simp only [fixed, hnan, Bool.false_eq_true, if_false]⟩
    refine ⟨decide (negative x), dec (n / 10 ^ 6) ++ 46 :: padded 6 (n % 10 ^ 6),
      ⟨dec (n / 10 ^ 6), 46 :: padded 6 (n % 10 ^ 6), [], (by simp), dec_digits _, (dec_numeral _).2.2, .inr ⟨_, rfl, ?_, ?_⟩, .inl rfl⟩, ?_⟩
    · intro h0
      have := padded_length (w := 5) (n := n % 10 ^ 6) (Nat.mod_lt _ (by decide))
      rw [h0] at this
      cases this
    · intro c hc
      simp only [padded, List.mem_append, List.mem_replicate] at hc
      rcases hc with hc | hc
      · rw [hc.2]; exact ⟨by decide, by decide⟩
      · exact mem_dec hc
    · simp only [hn, decide_eq_true_eq]

/-! ### Where the text is not the number -/

/-- **C70, violation.** All numbers from 2^63 on, all numbers below -2^63 and the infinities have the text of -2^63. -/
theorem C70_violation_large {d : Val} (hn : ¬ IsNaN d) (h : 2 ^ 63 * 2 ^ 1074 ≤ scaled d ∨ scaled d < -2 ^ 63 * 2 ^ 1074) :
    Print.numText d = txt "-9223372036854775808" := by
  have hnan : isnan d = false := by
    cases hh : isnan d with
    | false => rfl
    | true => exact absurd ((isnan_iff d).1 hh) hn
  have hbig : ¬ magnitude d < 2 ^ 52 * 2 ^ 1074 := by
    have hp : ((2 : Int) ^ 1074) = ((2 ^ 1074 : Nat) : Int) := by simp
    rw [hp] at h
    have hpos : 0 < 2 ^ 1074 := Nat.two_pow_pos _
    generalize 2 ^ 1074 = S at h hpos
    unfold scaled at h
    split at h <;> omega
  have hm : magnitude d % 2 ^ 1074 = 0 := by
    by_cases hm : magnitude d % 2 ^ 1074 = 0
    · exact hm
    · exact absurd (fraction_small hm) hbig
  have hi : integral d = true := by simp [integral, hnan, hm]
  have ht : toI64 d = -2 ^ 63 := by
    unfold toI64
    split
    · rename_i hr
      obtain ⟨n, hs⟩ := (scaled_dvd d).2 hm
      have hd : IsInt d n := ⟨hr.1, hs⟩
      rw [truncD_isInt hd] at hr
      rw [hs] at h
      have hpos : (0 : Int) < 2 ^ 1074 := Int.pow_pos (by decide)
      rcases h with h | h
      · have := Int.le_of_mul_le_mul_right h hpos
        omega
      · have := Int.lt_of_mul_lt_mul_right h (Int.le_of_lt hpos)
        omega
    · rfl
  have e : Print.numText d = decInt (toI64 d) := by simp only [Print.numText, getDouble, hi, if_true]
  rw [e, ht]
  decide +kernel

theorem magnitude_pos {d : Val} (h0 : ¬ IsZero d) : 0 < magnitude d := by
  unfold magnitude
  split
  · rename_i he
    exact Nat.pos_of_ne_zero fun hf => h0 ⟨he, hf⟩
  · exact Nat.mul_pos (by have : 0 < 2 ^ 52 := by decide
                          omega) (Nat.two_pow_pos _)

/-- **C70, violation.** All numbers nearer to 0 than half a millionth have the text 0.000000. -/
theorem C70_violation_small {d : Val} (h0 : ¬ IsZero d) (h : 2 * (magnitude d * 10 ^ 6) < 2 ^ 1074) :
    Print.numText d = (if negative d then [45] else []) ++ txt "0.000000" := by
  have hpos := magnitude_pos h0
  have hexp : expo d ≠ 2047 := fun he => by
    have h1 : 2 ^ 1074 ≤ magnitude d := by
      unfold magnitude
      rw [if_neg (by omega), he]
      exact Nat.le_trans (Nat.pow_le_pow_right (by decide) (by decide : 1074 ≤ 2046)) (Nat.le_mul_of_pos_left _ (by omega))
    omega
  have hm : magnitude d % 2 ^ 1074 ≠ 0 := by
    rw [Nat.mod_eq_of_lt (by omega)]
    omega
  have hnan : isnan d = false := by
    cases hh : isnan d with
    | false => rfl
    | true => exact absurd ((isnan_iff d).1 hh).1 hexp
  have hi : integral d = false := by
    have : ¬ IsInf d := fun hh => hexp hh.1
    simp only [integral, this, decide_false, hm, Bool.or_false, Bool.and_false]
  have hr : roundEven (magnitude d * 10 ^ 6) 1074 = 0 := by
    have : 0 < 2 ^ 1074 := Nat.two_pow_pos _
    simp only [roundEven]
    rw [Nat.div_eq_of_lt (by omega), Nat.mod_eq_of_lt (by omega), if_neg (by omega)]
  have e : Print.numText d = (if negative d then [45] else []) ++ (dec (0 / 10 ^ 6) ++ 46 :: padded 6 (0 % 10 ^ 6)) := by
    simp only [Print.numText, getDouble, hi, Bool.false_eq_true, if_false, fixed, hnan, hr]
    rfl
  rw [e, show dec (0 / 10 ^ 6) ++ 46 :: padded 6 (0 % 10 ^ 6) = txt "0.000000" by decide +kernel]

/-- **C70, violation.** NaN is written with a minus sign. -/
theorem C70_nan : Print.numText tagNan = txt "-nan" := by decide +kernel

/-! ### Cases -/

/-- 42 and -7. -/
example : IsInt (mkInt 42) 42 ∧ Print.numText (mkInt 42) = txt "42" ∧ Print.numText (mkInt (-7)) = txt "-7" ∧
    Print.numText (mkInt (2 ^ 53)) = txt "9007199254740992" :=
  ⟨mkInt_isInt 42 (by decide), by decide +kernel, by decide +kernel, by decide +kernel⟩

/-- 1/128 lies in the middle between two texts; the even one is taken.  The nearest double to 0.1. -/
example : Print.numText 0x3f80000000000000#64 = txt "0.007812" ∧ Print.numText 0x3fb999999999999a#64 = txt "0.100000" ∧
    Print.numText 0xbff8000000000000#64 = txt "-1.500000" := ⟨by decide +kernel, by decide +kernel, by decide +kernel⟩

/-- 1/128 is a finite number and no integer. -/
example : Finite (0x3f80000000000000#64 : Val) ∧ ¬ ∃ n, IsInt (0x3f80000000000000#64 : Val) n :=
  ⟨by decide, fun ⟨n, h⟩ => absurd ((scaled_dvd _).1 ⟨n, h.2⟩) (by decide +kernel)⟩

/-- 2^63 and 2^64 have the same text, 2^-30 and 2^-31 too. -/
example : Print.numText 0x43e0000000000000#64 = Print.numText 0x43f0000000000000#64 ∧
    Print.numText 0x3e10000000000000#64 = Print.numText 0x3e00000000000000#64 := ⟨by decide +kernel, by decide +kernel⟩

/-- The string `5` (short strings are in the value). -/
def fiveVal : Val := 0xFFF6000000003501#64

/-- `o[5]` is `o["5"]`. -/
example : ∃ h v, History demoMem Print.numText h [.new v] ∧ getV Print.numText h v (mkInt 5) = getV Print.numText h v fiveVal := by
  obtain ⟨h, v, hh, _⟩ := demo_object Print.numText
  have e : Print.numText (mkInt 5) = [53] := by decide +kernel
  exact ⟨h, v, hh, C70_name hh (.inl rfl) (by decide) (by decide) (by rw [e]; exact ⟨.loc (bytesFrom fiveVal 1), 1, rfl, rfl, rfl⟩)⟩

end Mjs.Props
