import Verif.Lemmas.Ieee
import Verif.Props.Operators

/-!
# C76: arithmetic in scripts is IEEE 754

`binary` (Spec/Sem.lean) is the meaning of an operator in a script; C32 shows that the machine computes it.  `Nearest`
(Spec/Ieee.lean) says which double a number is rounded to; `scaled` is the value of a double times 2^1074.
-/

namespace Mjs.Props
open Mjs Mjs.Spec Mjs.Core Mjs.Code Mjs.Sem Mjs.Exec Spec.Double

/-- The floating point unit is that of `Model/Ieee.lean`. -/
structure Ieee754 (E : Env) : Prop where
  add : E.add = Ieee.add
  sub : E.sub = Ieee.sub
  mul : E.mul = Ieee.mul
  div : E.div = Ieee.div

/-- Non-vacuity: an environment with this unit. -/
def ieeeEnv : Env := { demoEnv with add := Ieee.add, sub := Ieee.sub, mul := Ieee.mul, div := Ieee.div }

theorem ieeeEnv_ok : Ieee754 ieeeEnv := ⟨rfl, rfl, rfl, rfl⟩

/-! ## The specification is sound: there is exactly one nearest number -/

/-- Two doubles nearest to the same number are the same number, so that `Nearest` says all about the result but the sign of a zero. -/
theorem C76_determined {n : Int} {den : Nat} (hden : 0 < den) {d e : Val} (h : Nearest n den d) (h' : Nearest n den e) : scaled d = scaled e :=
  h.unique hden h'

theorem mkNumber_notNaN {d : Val} (h : ¬ IsNaN d) : mkNumber d = d := by
  rw [mkNumber, if_neg]
  rwa [isnan_iff]

variable {E : Env} (hE : Ieee754 E) {vm : Vm} (he : vm.error = .ok)
include hE he

/-- **C76.** On finite numbers `+`, `-`, `*` and `/` give the double nearest to the exact result. -/
theorem C76_nearest {a b : Val} (ha : Finite a) (hb : Finite b) :
    (∃ r, binary E .add a b vm = some (.ok vm r) ∧ Nearest (scaled a + scaled b) 1 r) ∧
    (∃ r, binary E .sub a b vm = some (.ok vm r) ∧ Nearest (scaled a - scaled b) 1 r) ∧
    (∃ r, binary E .mul a b vm = some (.ok vm r) ∧ Nearest (scaled a * scaled b) (2 ^ 1074) r) ∧
    (¬ IsZero b → ∃ r, binary E .div a b vm = some (.ok vm r) ∧
      Nearest ((scaled b).sign * scaled a * 2 ^ 1074) (scaled b).natAbs r) := by
  obtain ⟨h1, h2, h3, h4⟩ := C40_arith E vm he a b (isNumber_finite ha) (isNumber_finite hb) (Ieee.not_nan ha) (Ieee.not_nan hb)
  have n1 := Ieee.add_nearest ha hb
  have n2 := Ieee.sub_nearest ha hb
  have n3 := Ieee.mul_nearest ha hb
  refine ⟨⟨_, ?_, n1⟩, ⟨_, ?_, n2⟩, ⟨_, ?_, n3⟩, fun h0 => ?_⟩
  · rw [h1, hE.add, mkNumber_notNaN n1.1]
  · rw [h2, hE.sub, mkNumber_notNaN n2.1]
  · rw [h3, hE.mul, mkNumber_notNaN n3.1]
  · have n4 := Ieee.div_nearest ha hb h0
    exact ⟨_, by rw [h4, if_neg h0, hE.div, mkNumber_notNaN n4.1], n4⟩

/-- **C76, exact results.** If the exact result is (the value of) a double, it is the result. -/
theorem C76_exact {a b e : Val} (ha : Finite a) (hb : Finite b) (hne : ¬ IsNaN e) :
    (scaled a + scaled b = scaled e → ∃ r, binary E .add a b vm = some (.ok vm r) ∧ scaled r = scaled e) ∧
    (scaled a - scaled b = scaled e → ∃ r, binary E .sub a b vm = some (.ok vm r) ∧ scaled r = scaled e) ∧
    (scaled a * scaled b = scaled e * 2 ^ 1074 → ∃ r, binary E .mul a b vm = some (.ok vm r) ∧ scaled r = scaled e) ∧
    (¬ IsZero b → scaled a * 2 ^ 1074 = scaled e * scaled b → ∃ r, binary E .div a b vm = some (.ok vm r) ∧ scaled r = scaled e) := by
  obtain ⟨⟨r1, e1, n1⟩, ⟨r2, e2, n2⟩, ⟨r3, e3, n3⟩, h4⟩ := C76_nearest hE he ha hb
  refine ⟨fun h => ⟨r1, e1, n1.exact (by decide) hne (by rw [h, Int.natCast_one, Int.mul_one])⟩, fun h => ⟨r2, e2, n2.exact (by decide) hne (by rw [h, Int.natCast_one, Int.mul_one])⟩,
    fun h => ⟨r3, e3, n3.exact (Nat.two_pow_pos _) hne (by rw [h, Int.natCast_pow]; rfl)⟩, fun h0 h => ?_⟩
  obtain ⟨r4, e4, n4⟩ := h4 h0
  refine ⟨r4, e4, n4.exact ?_ hne ?_⟩
  · rw [Ieee.natAbs_scaled]; exact Ieee.magnitude_pos h0
  · rw [Int.mul_assoc, h, Int.mul_left_comm, Int.sign_mul_self]

omit hE he in
/-- The doubles of a value. -/
theorem isInt_of_scaled {r e : Val} {n : Int} (h : scaled r = scaled e) (hi : IsInt e n) : IsInt r n := by
  refine ⟨?_, h.trans hi.2⟩
  have h1 : magnitude r = magnitude e := by rw [← Ieee.natAbs_scaled, ← Ieee.natAbs_scaled, h]
  rw [Ieee.magnitude_low, Ieee.magnitude_low] at h1
  rw [Ieee.finite_low, Ieee.mag_inj h1, ← Ieee.finite_low]
  exact hi.1

omit hE he in
set_option exponentiation.threshold 1100 in
/-- Every integer up to 2^53 is a double. -/
theorem int_double {n : Int} (h : n.natAbs ≤ 2 ^ 53) : ∃ e, IsInt e n := by
  by_cases hlt : n.natAbs < 2 ^ 53
  · exact ⟨_, ofIntD_isInt n hlt⟩
  · by_cases hn : n < 0
    · refine ⟨0xC340000000000000#64, ?_⟩
      rw [show n = -2 ^ 53 by omega]
      exact ⟨by decide, by decide +kernel⟩
    · refine ⟨0x4340000000000000#64, ?_⟩
      rw [show n = 2 ^ 53 by omega]
      exact ⟨by decide, by decide +kernel⟩

omit hE he in
theorem isInt_zero {b : Val} {n : Int} (h : IsInt b n) (h0 : n ≠ 0) : ¬ IsZero b := by
  intro hz
  have : scaled b = 0 := by
    rw [Ieee.isZero_low] at hz
    rw [Ieee.scaled_low, hz, Ieee.mag_zero]
    split <;> rfl
  rw [h.2] at this
  have hp : (2 : Int) ^ 1074 ≠ 0 := Int.ne_of_gt (Int.pow_pos (by decide))
  exact (Int.mul_ne_zero h0 hp) this

/-- **C76, integers.** On integers the results are exact as long as they do not go beyond 2^53: sums, differences, products, and
quotients that come out even. -/
theorem C76_integers {a b : Val} {m n : Int} (ha : IsInt a m) (hb : IsInt b n) :
    ((m + n).natAbs ≤ 2 ^ 53 → ∃ r, binary E .add a b vm = some (.ok vm r) ∧ IsInt r (m + n)) ∧
    ((m - n).natAbs ≤ 2 ^ 53 → ∃ r, binary E .sub a b vm = some (.ok vm r) ∧ IsInt r (m - n)) ∧
    ((m * n).natAbs ≤ 2 ^ 53 → ∃ r, binary E .mul a b vm = some (.ok vm r) ∧ IsInt r (m * n)) ∧
    (∀ q : Int, n ≠ 0 → m = q * n → q.natAbs ≤ 2 ^ 53 → ∃ r, binary E .div a b vm = some (.ok vm r) ∧ IsInt r q) := by
  have key : ∀ {e : Val} {k : Int}, IsInt e k → ¬ IsNaN e := fun h => Ieee.not_nan h.1
  refine ⟨fun h => ?_, fun h => ?_, fun h => ?_, fun q h0 hq h => ?_⟩ <;> obtain ⟨e, hi⟩ := int_double h
  · obtain ⟨r, e1, h1⟩ := (C76_exact hE he ha.1 hb.1 (key hi)).1 (by rw [ha.2, hb.2, hi.2, Int.add_mul])
    exact ⟨r, e1, isInt_of_scaled h1 hi⟩
  · obtain ⟨r, e1, h1⟩ := (C76_exact hE he ha.1 hb.1 (key hi)).2.1 (by rw [ha.2, hb.2, hi.2, Int.sub_mul])
    exact ⟨r, e1, isInt_of_scaled h1 hi⟩
  · obtain ⟨r, e1, h1⟩ := (C76_exact hE he ha.1 hb.1 (key hi)).2.2.1 (by
      rw [ha.2, hb.2, hi.2]
      generalize (2 : Int) ^ 1074 = p
      rw [Int.mul_assoc, Int.mul_assoc, Int.mul_assoc, Int.mul_left_comm p])
    exact ⟨r, e1, isInt_of_scaled h1 hi⟩
  · obtain ⟨r, e1, h1⟩ := (C76_exact hE he ha.1 hb.1 (key hi)).2.2.2 (isInt_zero hb h0) (by
      rw [ha.2, hb.2, hi.2, hq]
      generalize (2 : Int) ^ 1074 = p
      rw [Int.mul_assoc, Int.mul_assoc, Int.mul_assoc, Int.mul_left_comm p])
    exact ⟨r, e1, isInt_of_scaled h1 hi⟩

/-- **C76, order.** A larger operand never gives a smaller sum: rounding does not change the order. -/
theorem C76_monotone {a a' b : Val} (ha : Finite a) (ha' : Finite a') (hb : Finite b) (hle : scaled a ≤ scaled a') :
    ∃ r r', binary E .add a b vm = some (.ok vm r) ∧ binary E .add a' b vm = some (.ok vm r') ∧ scaled r ≤ scaled r' := by
  obtain ⟨r, e1, n1⟩ := (C76_nearest hE he ha hb).1
  obtain ⟨r', e2, n2⟩ := (C76_nearest hE he ha' hb).1
  refine ⟨r, r', e1, e2, ?_⟩
  rcases Int.lt_or_eq_of_le hle with h | h
  · exact n1.mono (by decide) n2 (by omega)
  · rw [h] at n1
    exact Int.le_of_eq (n1.unique (by decide) n2)

/-- **C76, order of operands.** `a + b` is `b + a` and `a * b` is `b * a`, for all numbers. -/
theorem C76_commutes {a b : Val} (ha : isNumber a = true) (hb : isNumber b = true) :
    binary E .add a b vm = binary E .add b a vm ∧ binary E .mul a b vm = binary E .mul b a vm := by
  by_cases hn : IsNaN a ∨ IsNaN b
  · rw [C40_nan E vm he .add rfl a b ha hb hn, C40_nan E vm he .add rfl b a hb ha hn.symm,
      C40_nan E vm he .mul rfl a b ha hb hn, C40_nan E vm he .mul rfl b a hb ha hn.symm]
    exact ⟨rfl, rfl⟩
  · have hn' := not_or.1 hn
    obtain ⟨h1, _, h3, _⟩ := C40_arith E vm he a b ha hb hn'.1 hn'.2
    obtain ⟨g1, _, g3, _⟩ := C40_arith E vm he b a hb ha hn'.2 hn'.1
    rw [h1, g1, h3, g3, hE.add, hE.mul, Ieee.add_comm' hn'.1 hn'.2, Ieee.mul_comm' hn'.1 hn'.2]
    exact ⟨rfl, rfl⟩

/-- **C76, infinities.** What they give with finite numbers, with each other, and with zero.  (`Ieee.inf true` is minus infinity.) -/
theorem C76_infinity {a b : Val} (ia : IsInf a) :
    (Finite b → binary E .add a b vm = some (.ok vm a) ∧ binary E .sub a b vm = some (.ok vm a) ∧
      (¬ IsZero b → binary E .mul a b vm = some (.ok vm (Ieee.inf (Ieee.sign a != Ieee.sign b))) ∧
        binary E .div a b vm = some (.ok vm (Ieee.inf (Ieee.sign a != Ieee.sign b)))) ∧
      (IsZero b → binary E .mul a b vm = some (.ok vm tagNan) ∧ binary E .div a b vm = some (.ok vm tagNan)) ∧
      ∃ z, binary E .div b a vm = some (.ok vm z) ∧ IsZero z ∧ (Ieee.sign z = (Ieee.sign a != Ieee.sign b))) ∧
    (IsInf b → binary E .div a b vm = some (.ok vm tagNan) ∧
      binary E .mul a b vm = some (.ok vm (Ieee.inf (Ieee.sign a != Ieee.sign b))) ∧
      (Ieee.sign a = Ieee.sign b → binary E .add a b vm = some (.ok vm a) ∧ binary E .sub a b vm = some (.ok vm tagNan)) ∧
      (Ieee.sign a ≠ Ieee.sign b → binary E .add a b vm = some (.ok vm tagNan) ∧ binary E .sub a b vm = some (.ok vm a))) := by
  have hnum : ∀ {d : Val}, ¬ IsNaN d → isNumber d = true := by
    intro d h
    have : isnan d = false := by
      cases hh : isnan d with
      | false => rfl
      | true => exact absurd ((isnan_iff d).1 hh) h
    simp [isNumber, getDouble, this]
  have na := Ieee.inf_not_nan ia
  have hinf : ∀ s, IsInf (Ieee.inf s) := fun s => by cases s <;> decide
  have hmk : ∀ {d : Val}, IsInf d → mkNumber d = d := fun h => mkNumber_notNaN (Ieee.inf_not_nan h)
  have hnan : mkNumber Ieee.nan = tagNan := by decide
  have hza : ¬ IsZero a := fun h => by have := h.1; rw [ia.1] at this; cases this
  have hneg : ∀ {d : Val}, IsInf d → IsInf (Ieee.neg d) := fun {d} h => by
    rw [Ieee.isInf_low] at h ⊢
    rw [(Ieee.sign_neg d).2]; exact h
  refine ⟨fun fb => ?_, fun ib => ?_⟩
  · have nb := Ieee.not_nan fb
    obtain ⟨h1, h2, h3, h4⟩ := C40_arith E vm he a b (hnum na) (hnum nb) na nb
    obtain ⟨_, _, _, g4⟩ := C40_arith E vm he b a (hnum nb) (hnum na) nb na
    rw [h1, h2, h3, h4, g4, hE.add, hE.sub, hE.mul, hE.div, Ieee.sub, Ieee.add_inf_left ia nb, Ieee.add_inf_left ia (Ieee.not_nan (Ieee.finite_neg fb)),
      if_neg (fun h => Ieee.not_inf fb h.1), if_neg (fun h => Ieee.not_inf (Ieee.finite_neg fb) h.1), Ieee.mul_inf na nb (.inl ia), Ieee.div_inf_left ia fb,
      Ieee.div_inf_right fb ia, if_neg hza, hmk ia]
    refine ⟨rfl, rfl, fun hz => ?_, fun hz => ?_, ?_⟩
    · rw [if_neg (not_or.2 ⟨hza, hz⟩), if_neg hz, hmk (hinf _)]
      exact ⟨rfl, rfl⟩
    · rw [if_pos (.inr hz), if_pos hz, hnan]
      exact ⟨rfl, rfl⟩
    · refine ⟨_, rfl, ?_⟩
      cases Ieee.sign a <;> cases Ieee.sign b <;> decide
  · have nb := Ieee.inf_not_nan ib
    have hzb : ¬ IsZero b := fun h => by have := h.1; rw [ib.1] at this; cases this
    obtain ⟨h1, h2, h3, h4⟩ := C40_arith E vm he a b (hnum na) (hnum nb) na nb
    rw [h1, h2, h3, h4, hE.add, hE.sub, hE.mul, hE.div, Ieee.sub, Ieee.add_inf_left ia nb, Ieee.add_inf_left ia (Ieee.inf_not_nan (hneg ib)),
      Ieee.mul_inf na nb (.inl ia), Ieee.div_inf_both ia ib, if_neg hzb, if_neg (not_or.2 ⟨hza, hzb⟩), hmk (hinf _), hnan, (Ieee.sign_neg b).1]
    refine ⟨rfl, rfl, fun hs => ?_, fun hs => ?_⟩
    · rw [if_neg (fun h => h.2 hs), if_pos ⟨hneg ib, by rw [hs]; cases Ieee.sign b <;> decide⟩, hmk ia, hnan]
      exact ⟨rfl, rfl⟩
    · rw [if_pos ⟨ib, hs⟩, if_neg (fun h => h.2 (by revert hs; cases Ieee.sign a <;> cases Ieee.sign b <;> decide)), hmk ia, hnan]
      exact ⟨rfl, rfl⟩

/-- **C76, the sign of zero.** A difference of a finite number with itself is `+0`; a sum is `-0` only if both operands are.
Products and quotients have the sign that the operands give them, also when they are zero or rounded to zero. -/
theorem C76_sign {a b : Val} (ha : Finite a) (hb : Finite b) :
    binary E .sub a a vm = some (.ok vm 0#64) ∧
    (scaled a + scaled b = 0 → ∃ r, binary E .add a b vm = some (.ok vm r) ∧ IsZero r ∧ Ieee.sign r = (Ieee.sign a && Ieee.sign b)) ∧
    (∃ r, binary E .mul a b vm = some (.ok vm r) ∧ Ieee.sign r = (Ieee.sign a != Ieee.sign b)) ∧
    (¬ IsZero b → ∃ r, binary E .div a b vm = some (.ok vm r) ∧ Ieee.sign r = (Ieee.sign a != Ieee.sign b)) := by
  obtain ⟨h1, h2, h3, h4⟩ := C40_arith E vm he a b (isNumber_finite ha) (isNumber_finite hb) (Ieee.not_nan ha) (Ieee.not_nan hb)
  obtain ⟨_, g2, _, _⟩ := C40_arith E vm he a a (isNumber_finite ha) (isNumber_finite ha) (Ieee.not_nan ha) (Ieee.not_nan ha)
  have hlt : ∀ {n d : Nat}, Ieee.ofQuot n d < 2 ^ 63 := fun {n d} => by have := Ieee.ofQuot_le n d; omega
  refine ⟨?_, fun hz => ?_, ?_, fun h0 => ?_⟩
  · have hs : scaled a + scaled (Ieee.neg a) = 0 := by rw [Ieee.scaled_neg]; omega
    rw [g2, hE.sub, Ieee.sub, Ieee.add_finite ha (Ieee.finite_neg ha), hs, (Ieee.sign_neg a).1]
    have hz : ∀ s : Bool, mkNumber (Ieee.pack (if (0 : Int) = 0 then s && !s else decide ((0 : Int) < 0)) (Ieee.ofQuot (Int.natAbs 0) 1)) = 0#64 := by
      intro s; cases s <;> decide
    rw [hz]
  · refine ⟨_, by rw [h1, hE.add, mkNumber_notNaN (Ieee.add_nearest ha hb).1], ?_⟩
    rw [Ieee.add_finite ha hb, hz]
    cases Ieee.sign a <;> cases Ieee.sign b <;> decide
  · refine ⟨_, by rw [h3, hE.mul, mkNumber_notNaN (Ieee.mul_nearest ha hb).1], ?_⟩
    rw [Ieee.mul_finite ha hb, Ieee.sign_pack _ hlt]
  · refine ⟨_, by rw [h4, if_neg h0, hE.div, mkNumber_notNaN (Ieee.div_nearest ha hb h0).1], ?_⟩
    rw [Ieee.div_finite ha hb h0, Ieee.sign_pack _ hlt]

omit hE he in
/-- A double is determined by its value and its sign. -/
theorem double_ext {a b : Val} (h : scaled a = scaled b) (hs : Ieee.sign a = Ieee.sign b) : a = b := by
  have h1 : magnitude a = magnitude b := by rw [← Ieee.natAbs_scaled, ← Ieee.natAbs_scaled, h]
  rw [Ieee.magnitude_low, Ieee.magnitude_low] at h1
  rw [← Ieee.pack_self a, ← Ieee.pack_self b, Ieee.mag_inj h1, hs]

omit hE he in
/-- The double 1. -/
theorem one_scaled : scaled 0x3FF0000000000000#64 = 2 ^ 1074 := by decide +kernel

/-- **C76, neutral elements.** Multiplication and division by 1, and subtraction of 0, give the same number, bit by bit. -/
theorem C76_neutral {a : Val} (ha : Finite a) :
    binary E .mul a 0x3FF0000000000000#64 vm = some (.ok vm a) ∧ binary E .div a 0x3FF0000000000000#64 vm = some (.ok vm a) ∧
    binary E .sub a 0#64 vm = some (.ok vm a) := by
  have h1 : Finite 0x3FF0000000000000#64 := by decide
  have h0 : ¬ IsZero 0x3FF0000000000000#64 := by decide
  have hs1 : Ieee.sign 0x3FF0000000000000#64 = false := by decide
  have hx : ∀ s : Bool, (s != false) = s := by decide
  obtain ⟨_, _, ⟨r1, e1, s1⟩, h4⟩ := C76_sign hE he ha h1
  obtain ⟨r2, e2, s2⟩ := h4 h0
  obtain ⟨_, _, h5, h6⟩ := C76_exact hE he ha h1 (e := a) (Ieee.not_nan ha)
  obtain ⟨r3, e3, s3⟩ := h5 (by rw [one_scaled])
  obtain ⟨r4, e4, s4⟩ := h6 h0 (by rw [one_scaled])
  rw [e1] at e3; cases e3
  rw [e2] at e4; cases e4
  rw [hs1, hx] at s1 s2
  refine ⟨by rw [e1, double_ext s3 s1], by rw [e2, double_ext s4 s2], ?_⟩
  have hz : Finite 0#64 := by decide
  have hz0 : scaled 0#64 = 0 := by decide
  obtain ⟨r5, e5, s5⟩ := (C76_exact hE he ha hz (e := a) (Ieee.not_nan ha)).2.1 (by rw [hz0]; omega)
  rw [e5]
  obtain ⟨_, g2, _, _⟩ := C40_arith E vm he a 0#64 (isNumber_finite ha) (by decide) (Ieee.not_nan ha) (by decide)
  rw [g2, hE.sub, mkNumber_notNaN (Ieee.sub_nearest ha hz).1] at e5
  cases e5
  have : Ieee.sign (Ieee.sub a 0#64) = Ieee.sign a := by
    rw [Ieee.sub, Ieee.add_finite ha (by decide), Ieee.sign_pack _ (by have := Ieee.ofQuot_le (scaled a + scaled (Ieee.neg 0#64)).natAbs 1; omega)]
    rw [show scaled (Ieee.neg 0#64) = 0 by decide, show Ieee.sign (Ieee.neg 0#64) = true by decide, Int.add_zero, Bool.and_true]
    by_cases hs0 : scaled a = 0
    · rw [if_pos hs0]
    · rw [if_neg hs0]
      rw [Ieee.scaled_sign] at hs0 ⊢
      cases hsa : Ieee.sign a <;> simp only [hsa, Bool.false_eq_true, if_true, if_false] at hs0 ⊢ <;> simp <;> omega
  rw [double_ext s5 this]

/-- **C76, counting.** Adding 1 again and again counts up to 2^53, and stays there. -/
theorem C76_counting : (∀ {a : Val} {n : Nat}, IsInt a n → n < 2 ^ 53 →
      ∃ r, binary E .add a 0x3FF0000000000000#64 vm = some (.ok vm r) ∧ IsInt r (n + 1 : Nat)) ∧
    binary E .add 0x4340000000000000#64 0x3FF0000000000000#64 vm = some (.ok vm 0x4340000000000000#64) ∧ IsInt 0x4340000000000000#64 (2 ^ 53) := by
  refine ⟨fun {a n} ha hn => ?_, ?_, ⟨by decide, by decide +kernel⟩⟩
  · have h1 : IsInt 0x3FF0000000000000#64 1 := ⟨by decide, by rw [one_scaled, Int.one_mul]⟩
    exact (C76_integers hE he ha h1).1 (by omega)
  · rw [(C40_arith E vm he _ _ (by decide) (by decide) (by decide) (by decide)).1, hE.add,
      show Ieee.add 0x4340000000000000#64 0x3FF0000000000000#64 = 0x4340000000000000#64 by decide +kernel]
    rfl

omit hE he in
/-- Concrete cases: `0.1 + 0.2` (which is not `0.3`), `1 / 3`, `2^53 + 1` and `2^53 + 3` (ties), the largest number twice, and half of the
smallest. -/
example : Ieee.add 0x3FB999999999999A#64 0x3FC999999999999A#64 = 0x3FD3333333333334#64 ∧
    Ieee.div 0x3FF0000000000000#64 0x4008000000000000#64 = 0x3FD5555555555555#64 ∧
    Ieee.add 0x4340000000000000#64 0x3FF0000000000000#64 = 0x4340000000000000#64 ∧
    Ieee.add 0x4340000000000000#64 0x4008000000000000#64 = 0x4340000000000002#64 ∧
    Ieee.add 0x7FEFFFFFFFFFFFFF#64 0x7FEFFFFFFFFFFFFF#64 = Ieee.inf false ∧
    Ieee.mul 0x0000000000000001#64 0xBFE0000000000000#64 = 0x8000000000000000#64 := by decide +kernel

omit hE he in
/-- The hypotheses are met: `7 - 12 = -5` in an engine. -/
example (vm : Vm) (he : vm.error = .ok) : ∃ r, binary ieeeEnv .sub (ofIntD 7) (ofIntD 12) vm = some (.ok vm r) ∧ IsInt r (-5) :=
  (C76_integers ieeeEnv_ok he (ofIntD_isInt 7 (by decide)) (ofIntD_isInt 12 (by decide))).2.1 (by decide)

end Mjs.Props
