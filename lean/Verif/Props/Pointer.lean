import Verif.Props.Ieee
import Verif.Lemmas.IntOps

/-!
# C40: pointers as operands

`binary` (Spec/Sem.lean) is the meaning of an operator in a script.  A pointer plus or minus a number is the pointer so many bytes
further or back; the difference of two pointers is a number of bytes.
-/

namespace Mjs.Props
open Mjs Mjs.Spec Mjs.Core Mjs.Code Mjs.Sem Mjs.Exec Spec.Double

/-- `v` is a pointer to the byte at address `a`. -/
def PointsTo (v : Val) (a : Int) : Prop := isForeign v = true ∧ ((getPtr v).toNat : Int) = a

theorem getPtr_lt (v : Val) : (getPtr v).toNat < 2 ^ 48 := by
  unfold getPtr getPtrRaw
  split
  · have : (v &&& 0xFFFFFFFFFFFF#64).toNat ≤ 0xFFFFFFFFFFFF := by
      rw [BitVec.toNat_and]; exact Nat.and_le_right
    omega
  · decide

theorem PointsTo.range {v : Val} {a : Int} (h : PointsTo v a) : 0 ≤ a ∧ a < 2 ^ 48 := by
  have := getPtr_lt v
  have := h.2
  omega

theorem foreign_not_number {v : Val} (h : isForeign v = true) : isNumber v = false := by
  cases hn : isNumber v with
  | false => rfl
  | true => exact absurd (C04_one_kind v .foreign .number h hn) (by decide)

theorem toUptr_isInt {d : Val} {n : Int} (h : IsInt d n) (h1 : -2 ^ 63 ≤ n) (h2 : n < 2 ^ 64) : toUptr d = BitVec.ofInt 64 n := by
  rw [toUptr, truncD_isInt h, if_pos ⟨h.1, h2⟩, if_pos h1]

/-- The number an operand takes part in the calculation as. -/
def Operand (v : Val) (n : Int) : Prop := PointsTo v n ∨ IsInt v n

theorem Operand.double {v : Val} {n : Int} (h : Operand v n) : IsInt (if isNumber v = true then getDouble v else ofIntD (getPtr v).toNat) n := by
  rcases h with h | h
  · rw [if_neg (by rw [foreign_not_number h.1]; decide), h.2]
    have := h.range
    exact ofIntD_isInt _ (by omega)
  · rw [if_pos (isNumber_finite h.1)]
    exact h

theorem binary_ok {E : Env} {vm : Vm} (he : vm.error = .ok) {op : BinOp} {t : Nat} (ht : arithTok op = some t) {a b v : Val}
    (h : doOp E vm a b t = some (vm, v)) : binary E op a b vm = some (.ok vm v) := by
  rw [binary_arith E vm op t ht, prim, h, Option.map_some, if_pos he]

theorem legit_iff (x : Val) : isPointerLegit x = true ↔ x.toNat < 2 ^ 48 ∨ 2 ^ 64 - 2 ^ 48 ≤ x.toNat := by
  have hm : tagMask = 0xffff000000000000#64 := by decide
  have e1 : (x &&& tagMask).toNat = x.toNat / 2 ^ 48 * 2 ^ 48 := by
    have : x &&& tagMask = (x >>> 48) <<< 48 := by
      rw [hm]
      apply BitVec.eq_of_getLsbD_eq
      intro i hi
      have tab : ∀ j : Fin 64, (0xffff000000000000#64 : Val).getLsbD j.val = decide (48 ≤ j.val) := by decide
      rw [BitVec.getLsbD_and, tab ⟨i, hi⟩, BitVec.getLsbD_shiftLeft, BitVec.getLsbD_ushiftRight]
      by_cases h : 48 ≤ i
      · rw [show 48 + (i - 48) = i by omega]
        simp [h, hi]
      · simp [h, Nat.lt_of_not_le h]
    rw [this, BitVec.toNat_shiftLeft, BitVec.toNat_ushiftRight, Nat.shiftRight_eq_div_pow, Nat.shiftLeft_eq]
    have := x.isLt
    omega
  have e2 : (BitVec.allOnes 64 &&& tagMask : Val).toNat = 0xffff000000000000 := by decide
  have := x.isLt
  unfold isPointerLegit
  rw [Bool.or_eq_true, beq_iff_eq, beq_iff_eq, ← BitVec.toNat_inj, ← BitVec.toNat_inj, e1, e2]
  show x.toNat / 2 ^ 48 * 2 ^ 48 = 0 ∨ _ ↔ _
  omega

section
variable {E : Env} (hE : Ieee754 E) {vm : Vm} (he : vm.error = .ok)
include hE he

/-- `+` and `-` of integers, as the floating point unit computes them. -/
theorem unit_ints {x y : Val} {m n : Int} (hx : IsInt x m) (hy : IsInt y n) :
    ((m + n).natAbs ≤ 2 ^ 53 → IsInt (E.add x y) (m + n)) ∧ ((m - n).natAbs ≤ 2 ^ 53 → IsInt (E.sub x y) (m - n)) := by
  obtain ⟨h1, h2, _, _⟩ := C40_arith E vm he x y (isNumber_finite hx.1) (isNumber_finite hy.1) (Ieee.not_nan hx.1) (Ieee.not_nan hy.1)
  have i := C76_integers hE he hx hy
  have n1 := Ieee.add_nearest hx.1 hy.1
  have n2 := Ieee.sub_nearest hx.1 hy.1
  rw [hE.add, mkNumber_notNaN n1.1] at h1
  rw [hE.sub, mkNumber_notNaN n2.1] at h2
  refine ⟨fun h => ?_, fun h => ?_⟩
  · obtain ⟨r, e, hr⟩ := i.1 h
    rw [h1] at e
    rw [hE.add]
    cases e
    exact hr
  · obtain ⟨r, e, hr⟩ := i.2.1 h
    rw [h2] at e
    rw [hE.sub]
    cases e
    exact hr

/-- A sum or difference with exactly one pointer. -/
theorem doOp_pointer {a b : Val} {m n : Int} (ha : Operand a m) (hb : Operand b n) (h1 : (isForeign a || isForeign b) = true)
    (h2 : (isForeign a && isForeign b) = false) :
    ((m + n).natAbs ≤ 2 ^ 53 → doOp E vm a b Tok.PLUS =
      some (if (mkForeign (BitVec.ofInt 64 (m + n))).2 then prepend vm .type (txt "invalid pointer value") else vm, (mkForeign (BitVec.ofInt 64 (m + n))).1)) ∧
    ((m - n).natAbs ≤ 2 ^ 53 → doOp E vm a b Tok.MINUS =
      some (if (mkForeign (BitVec.ofInt 64 (m - n))).2 then prepend vm .type (txt "invalid pointer value") else vm, (mkForeign (BitVec.ofInt 64 (m - n))).1)) := by
  have hk : ∀ {v : Val} {k : Int}, Operand v k → (isForeign v || isNumber v) = true := fun h => by
    rcases h with h | h
    · rw [h.1]; rfl
    · rw [isNumber_finite h.1, Bool.or_true]
  have da := ha.double
  have db := hb.double
  generalize hx : (if isNumber a = true then getDouble a else ofIntD (getPtr a).toNat) = x at da
  generalize hy : (if isNumber b = true then getDouble b else ofIntD (getPtr b).toNat) = y at db
  have hn := nan_cond (a := x) (b := y) (fun h => h.elim (IsInt.notNaN da) (IsInt.notNaN db))
  obtain ⟨u1, u2⟩ := unit_ints hE he da db
  refine ⟨fun hb' => ?_, fun hb' => ?_⟩
  · rw [doOp, if_pos (by rw [hk ha, hk hb]; rfl), hx, hy, h1, h2]
    simp only
    rw [show doArith E Tok.PLUS x y = some (some (E.add x y)) by rw [doArith, hn]; rfl]
    simp only [Option.bind_eq_bind, Option.bind_some, Bool.not_false, Bool.and_true, if_true, Bool.false_eq_true, if_false]
    rw [toUptr_isInt (u1 hb') (by omega) (by omega)]
    rfl
  · rw [doOp, if_pos (by rw [hk ha, hk hb]; rfl), hx, hy, h1, h2]
    simp only
    rw [show doArith E Tok.MINUS x y = some (some (E.sub x y)) by rw [doArith, hn]; rfl]
    simp only [Option.bind_eq_bind, Option.bind_some, Bool.not_false, Bool.and_true, if_true, Bool.false_eq_true, if_false]
    rw [toUptr_isInt (u2 hb') (by omega) (by omega)]
    rfl

omit hE he in
theorem mkForeign_points {k : Int} (h0 : 0 ≤ k) (h1 : k < 2 ^ 48) :
    PointsTo (mkForeign (BitVec.ofInt 64 k)).1 k ∧ (mkForeign (BitVec.ofInt 64 k)).2 = false := by
  have ht : ((BitVec.ofInt 64 k).toNat : Int) = k := by rw [BitVec.toNat_ofInt]; omega
  obtain ⟨g1, g2, _⟩ := C06_foreign_roundtrip_partial (BitVec.ofInt 64 k) (by omega)
  exact ⟨⟨(C04_constructors.2.2.2.2.1 _ .foreign).2 rfl, by rw [g1, ht]⟩, g2⟩

/-- **C40, pointer plus or minus a number.** The pointer so many bytes further or back, as long as that is an address (of 48 bits).  A number
plus a pointer is the same; a number minus a pointer is accepted too. -/
theorem C40_pointer_moves {a b : Val} {m n : Int} :
    (PointsTo a m → IsInt b n → 0 ≤ m + n → m + n < 2 ^ 48 → ∃ q, binary E .add a b vm = some (.ok vm q) ∧ PointsTo q (m + n)) ∧
    (IsInt a m → PointsTo b n → 0 ≤ m + n → m + n < 2 ^ 48 → ∃ q, binary E .add a b vm = some (.ok vm q) ∧ PointsTo q (m + n)) ∧
    (PointsTo a m → IsInt b n → 0 ≤ m - n → m - n < 2 ^ 48 → ∃ q, binary E .sub a b vm = some (.ok vm q) ∧ PointsTo q (m - n)) ∧
    (IsInt a m → PointsTo b n → 0 ≤ m - n → m - n < 2 ^ 48 → ∃ q, binary E .sub a b vm = some (.ok vm q) ∧ PointsTo q (m - n)) := by
  have nf : ∀ {v : Val} {k : Int}, IsInt v k → isForeign v = false := fun {v k} h => by
    cases hf : isForeign v with
    | false => rfl
    | true => exact absurd (foreign_not_number hf) (by rw [isNumber_finite h.1]; decide)
  refine ⟨fun ha hb h0 h1 => ?_, fun ha hb h0 h1 => ?_, fun ha hb h0 h1 => ?_, fun ha hb h0 h1 => ?_⟩
  · obtain ⟨p, q⟩ := mkForeign_points h0 h1
    have := (doOp_pointer hE he (.inl ha) (.inr hb) (by rw [ha.1]; rfl) (by rw [nf hb, Bool.and_false])).1 (by omega)
    rw [if_neg (by rw [q]; decide)] at this
    exact ⟨_, binary_ok he rfl this, p⟩
  · obtain ⟨p, q⟩ := mkForeign_points h0 h1
    have := (doOp_pointer hE he (.inr ha) (.inl hb) (by rw [hb.1, Bool.or_true]) (by rw [nf ha]; rfl)).1 (by omega)
    rw [if_neg (by rw [q]; decide)] at this
    exact ⟨_, binary_ok he rfl this, p⟩
  · obtain ⟨p, q⟩ := mkForeign_points h0 h1
    have := (doOp_pointer hE he (.inl ha) (.inr hb) (by rw [ha.1]; rfl) (by rw [nf hb, Bool.and_false])).2 (by omega)
    rw [if_neg (by rw [q]; decide)] at this
    exact ⟨_, binary_ok he rfl this, p⟩
  · obtain ⟨p, q⟩ := mkForeign_points h0 h1
    have := (doOp_pointer hE he (.inr ha) (.inl hb) (by rw [hb.1, Bool.or_true]) (by rw [nf ha]; rfl)).2 (by omega)
    rw [if_neg (by rw [q]; decide)] at this
    exact ⟨_, binary_ok he rfl this, p⟩

/-- **C40, behind the last address.** A sum of 2^48 or more (up to 2^53, where doubles are exact) is a TypeError. -/
theorem C40_pointer_too_far {a b : Val} {m n : Int} (ha : PointsTo a m) (hb : IsInt b n) (h0 : 2 ^ 48 ≤ m + n) (h1 : m + n ≤ 2 ^ 53) :
    ∃ vm', binary E .add a b vm = some (.err vm') ∧ vm'.error = .type ∧ vm'.heap = vm.heap := by
  have nf : isForeign b = false := by
    cases hf : isForeign b with
    | false => rfl
    | true => exact absurd (foreign_not_number hf) (by rw [isNumber_finite hb.1]; decide)
  have ht : ((BitVec.ofInt 64 (m + n)).toNat : Int) = m + n := by rw [BitVec.toNat_ofInt]; omega
  have hbad : (mkForeign (BitVec.ofInt 64 (m + n))).2 = true := by
    have hl : isPointerLegit (BitVec.ofInt 64 (m + n)) = false := by
      rw [Bool.eq_false_iff, ne_eq, legit_iff]
      omega
    simp [mkForeign, hl]
  have := (doOp_pointer hE he (.inl ha) (.inr hb) (by rw [ha.1]; rfl) (by rw [nf, Bool.and_false])).1 (by omega)
  rw [if_pos hbad] at this
  have hp : (prepend vm .type (txt "invalid pointer value")).error = .type := by rw [prepend]; exact if_pos he
  refine ⟨_, ?_, hp, rfl⟩
  rw [binary_arith E vm .add _ rfl, prim, this, Option.map_some, if_neg (by rw [hp]; decide)]

/-- **C40, violation: before the first address.** A pointer minus a number greater than its address is accepted: it is a pointer near the end of
the 48 bit addresses. -/
theorem C40_pointer_below_zero {a b : Val} {m n : Int} (ha : PointsTo a m) (hb : IsInt b n) (h0 : m - n < 0) (h1 : -2 ^ 48 ≤ m - n) :
    ∃ q, binary E .sub a b vm = some (.ok vm q) ∧ PointsTo q (2 ^ 48 + (m - n)) := by
  have nf : isForeign b = false := by
    cases hf : isForeign b with
    | false => rfl
    | true => exact absurd (foreign_not_number hf) (by rw [isNumber_finite hb.1]; decide)
  have ht : ((BitVec.ofInt 64 (m - n)).toNat : Int) = 2 ^ 64 + (m - n) := by rw [BitVec.toNat_ofInt]; omega
  have hl : (mkForeign (BitVec.ofInt 64 (m - n))).2 = false := by
    have := (legit_iff (BitVec.ofInt 64 (m - n))).2 (by omega)
    simp [mkForeign, this]
  have := (doOp_pointer hE he (.inl ha) (.inr hb) (by rw [ha.1]; rfl) (by rw [nf, Bool.and_false])).2 (by omega)
  rw [if_neg (by rw [hl]; decide)] at this
  refine ⟨_, binary_ok he rfl this, (C04_constructors.2.2.2.2.1 _ .foreign).2 rfl, ?_⟩
  have e : getPtr (mkForeign (BitVec.ofInt 64 (m - n))).1 = BitVec.ofInt 64 (m - n) &&& 0xFFFFFFFFFFFF#64 := by
    rw [getPtr, if_pos (show isForeign (mkForeign (BitVec.ofInt 64 (m - n))).1 = true from (C04_constructors.2.2.2.2.1 _ .foreign).2 rfl)]
    apply BitVec.eq_of_getLsbD_eq
    intro i hi
    have tab : ∀ j : Fin 64, (((~~~tagMask).getLsbD j.val && (0xFFFFFFFFFFFF#64 : Val).getLsbD j.val) = (0xFFFFFFFFFFFF#64 : Val).getLsbD j.val) ∧
        (tagForeign.getLsbD j.val && (0xFFFFFFFFFFFF#64 : Val).getLsbD j.val) = false := by decide
    obtain ⟨t1, t2⟩ := tab ⟨i, hi⟩
    simp only at t1 t2
    simp only [getPtrRaw, mkForeign, pointerToValue]
    rw [BitVec.getLsbD_and, BitVec.getLsbD_or, BitVec.getLsbD_and, BitVec.getLsbD_and, Bool.and_or_distrib_right, t2, Bool.or_false, Bool.and_assoc, t1]
  rw [e, BitVec.toNat_and, show (0xFFFFFFFFFFFF#64 : Val).toNat = 2 ^ 48 - 1 by decide, Nat.and_two_pow_sub_one_eq_mod]
  omega

/-- **C40, the difference of two pointers** is the number of bytes from the second to the first. -/
theorem C40_pointer_difference {a b : Val} {m n : Int} (ha : PointsTo a m) (hb : PointsTo b n) :
    ∃ r, binary E .sub a b vm = some (.ok vm r) ∧ IsInt r (m - n) := by
  have ra := ha.range
  have rb := hb.range
  have da := Operand.double (.inl ha)
  have db := Operand.double (.inl hb)
  generalize hx : (if isNumber a = true then getDouble a else ofIntD (getPtr a).toNat) = x at da
  generalize hy : (if isNumber b = true then getDouble b else ofIntD (getPtr b).toNat) = y at db
  have hn := nan_cond (a := x) (b := y) (fun h => h.elim (IsInt.notNaN da) (IsInt.notNaN db))
  have u := (unit_ints hE he da db).2 (by omega)
  have : doOp E vm a b Tok.MINUS = some (vm, mkNumber (E.sub x y)) := by
    rw [doOp, if_pos (by rw [ha.1, hb.1]; rfl), hx, hy, ha.1, hb.1]
    simp only
    rw [show doArith E Tok.MINUS x y = some (some (E.sub x y)) by rw [doArith, hn]; rfl]
    rfl
  rw [mkNumber_finite u.1] at this
  exact ⟨_, binary_ok he rfl this, u⟩

/-- **C40, two pointers** can only be subtracted. -/
theorem C40_pointer_sum {a b : Val} (ha : isForeign a = true) (hb : isForeign b = true) :
    ∃ vm', binary E .add a b vm = some (.err vm') ∧ vm'.error = .type ∧ vm'.heap = vm.heap := by
  have hp : (prepend vm .type (txt "invalid operands")).error = .type := by rw [prepend]; exact if_pos he
  have : ∃ v, doOp E vm a b Tok.PLUS = some (prepend vm .type (txt "invalid operands"), v) := by
    rw [doOp, if_pos (by rw [ha, hb]; rfl), ha, hb]
    simp only
    generalize (if isNumber a = true then getDouble a else ofIntD (getPtr a).toNat) = x
    generalize (if isNumber b = true then getDouble b else ofIntD (getPtr b).toNat) = y
    have : ∃ r, doArith E Tok.PLUS x y = some r := by
      rw [doArith]
      split
      · exact ⟨_, rfl⟩
      · exact ⟨_, rfl⟩
    obtain ⟨r, hr⟩ := this
    rw [hr]
    cases r with
    | none => exact ⟨_, rfl⟩
    | some d => exact ⟨_, rfl⟩
  obtain ⟨v, e⟩ := this
  refine ⟨_, ?_, hp, rfl⟩
  rw [binary_arith E vm .add _ rfl, prim, e, Option.map_some, if_neg (by rw [hp]; decide)]

end

/-- The pointer to the byte 100, moved by 7; its distance from there; and two bytes before the first. -/
example (vm : Vm) (he : vm.error = .ok) : (∃ q, binary ieeeEnv .add (mkForeign 100#64).1 (mkInt 7) vm = some (.ok vm q) ∧ PointsTo q 107) ∧
    (∃ r, binary ieeeEnv .sub (mkForeign 107#64).1 (mkForeign 100#64).1 vm = some (.ok vm r) ∧ IsInt r 7) ∧
    (∃ q, binary ieeeEnv .sub (mkForeign 5#64).1 (mkInt 7) vm = some (.ok vm q) ∧ PointsTo q 0xfffffffffffe) ∧
    (∃ vm', binary ieeeEnv .add (mkForeign 0xffffffffffff#64).1 (mkInt 1) vm = some (.err vm') ∧ vm'.error = .type) := by
  have p : ∀ a : Val, a.toNat < 2 ^ 48 → PointsTo (mkForeign a).1 a.toNat := fun a h =>
    ⟨(C04_constructors.2.2.2.2.1 _ .foreign).2 rfl, by rw [(C06_foreign_roundtrip_partial a h).1]⟩
  refine ⟨(C40_pointer_moves ieeeEnv_ok he).1 (p 100#64 (by decide)) (mkInt_isInt 7 (by decide)) (by decide) (by decide),
    C40_pointer_difference ieeeEnv_ok he (p 107#64 (by decide)) (p 100#64 (by decide)),
    C40_pointer_below_zero ieeeEnv_ok he (p 5#64 (by decide)) (mkInt_isInt 7 (by decide)) (by decide) (by decide), ?_⟩
  obtain ⟨vm', h1, h2, _⟩ := C40_pointer_too_far ieeeEnv_ok he (p 0xffffffffffff#64 (by decide)) (mkInt_isInt 1 (by decide)) (by decide) (by decide)
  exact ⟨vm', h1, h2⟩

end Mjs.Props
