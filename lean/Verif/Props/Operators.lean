import Verif.Props.Vars
import Verif.Lemmas.IntOps
import Verif.Props.Convert

/-!
# C40, C58: operators, compound assignment

`binary` (Spec/Sem.lean) is the meaning of a binary operator in a script; that the machine computes it is C32.  The four
operations of the floating point unit are parameters (`E.add` and so on).
-/

namespace Mjs.Props
open Mjs Mjs.Mbuf Mjs.Str Mjs.Arena Mjs.Obj Mjs.Spec Mjs.Core Mjs.Code Mjs.Sem Mjs.Exec Spec.Double

/-! ## Comparison -/

/-- The relation that a comparison operator stands for. -/
def Holds (op : BinOp) (x y : Int) : Prop :=
  match op with
  | .lt => x < y
  | .le => x ≤ y
  | .gt => y < x
  | .ge => y ≤ x
  | _ => False

/-- **C40, order.** `<`, `<=`, `>`, `>=` compare the numbers; with a NaN, or a value that is no number, all are false.  They never
fail and change nothing. -/
theorem C40_order (E : Env) (vm : Vm) (op : BinOp) (hop : op = .lt ∨ op = .le ∨ op = .gt ∨ op = .ge) (a b : Val) :
    ∃ r, binary E op a b vm = some (.ok vm (mkBoolean r)) ∧
      (r = true ↔ ¬ IsNaN a ∧ ¬ IsNaN b ∧ Holds op (scaled a) (scaled b)) := by
  rcases hop with rfl | rfl | rfl | rfl
  · exact ⟨_, rfl, ltD_iff a b⟩
  · exact ⟨_, rfl, leD_iff a b⟩
  · exact ⟨_, rfl, (ltD_iff b a).trans ⟨fun ⟨x, y, z⟩ => ⟨y, x, z⟩, fun ⟨x, y, z⟩ => ⟨y, x, z⟩⟩⟩
  · exact ⟨_, rfl, (leD_iff b a).trans ⟨fun ⟨x, y, z⟩ => ⟨y, x, z⟩, fun ⟨x, y, z⟩ => ⟨y, x, z⟩⟩⟩

/-- For integers. -/
theorem C40_order_int (E : Env) (vm : Vm) (op : BinOp) (hop : op = .lt ∨ op = .le ∨ op = .gt ∨ op = .ge) (m n : Int)
    (hm : m.natAbs < 2 ^ 53) (hn : n.natAbs < 2 ^ 53) :
    ∃ r, binary E op (mkInt m) (mkInt n) vm = some (.ok vm (mkBoolean r)) ∧ (r = true ↔ Holds op m n) := by
  obtain ⟨r, h1, h2⟩ := C40_order E vm op hop (mkInt m) (mkInt n)
  refine ⟨r, h1, h2.trans ?_⟩
  have i1 := mkInt_isInt m hm
  have i2 := mkInt_isInt n hn
  rw [i1.2, i2.2]
  have hp : (0 : Int) < 2 ^ 1074 := Int.pow_pos (by decide)
  generalize (2 : Int) ^ 1074 = q at *
  have n1 : ¬ IsNaN (mkInt m) := fun h => isNaN_not_finite h i1.1
  have n2 : ¬ IsNaN (mkInt n) := fun h => isNaN_not_finite h i2.1
  simp only [n1, n2, not_false_eq_true, true_and]
  rcases hop with rfl | rfl | rfl | rfl <;> simp only [Holds]
  · exact Int.mul_lt_mul_right hp
  · exact Int.mul_le_mul_right hp
  · exact Int.mul_lt_mul_right hp
  · exact Int.mul_le_mul_right hp

example (E : Env) (vm : Vm) : ∃ r, binary E .ge (mkInt 7) (mkInt (-3)) vm = some (.ok vm (mkBoolean r)) ∧ (r = true ↔ (-3 : Int) ≤ 7) :=
  C40_order_int E vm .ge (by simp) 7 (-3) (by decide) (by decide)

/-- A value that is no number is a NaN to the machine, so the comparison of strings or objects is false. -/
theorem C40_order_other (E : Env) (vm : Vm) (op : BinOp) (hop : op = .lt ∨ op = .le ∨ op = .gt ∨ op = .ge) (a b : Val)
    (h : isNumber a = false ∨ isNumber b = false) : binary E op a b vm = some (.ok vm (mkBoolean false)) := by
  obtain ⟨r, h1, h2⟩ := C40_order E vm op hop a b
  have key : ∀ v : Val, isNumber v = false → IsNaN v := by
    intro v hv
    rw [← isnan_iff]
    unfold isNumber getDouble at hv
    simp at hv
    exact hv.2
  have : r = false := by
    cases r with
    | false => rfl
    | true =>
      have := h2.1 rfl
      rcases h with h | h
      · exact absurd (key a h) this.1
      · exact absurd (key b h) this.2.1
  rw [h1, this]

/-! ## Arithmetic -/

/-- The operator number of the machine for an arithmetic operator. -/
theorem binary_arith (E : Env) (vm : Vm) (op : BinOp) (t : Nat) (h : arithTok op = some t) (a b : Val) :
    binary E op a b vm = prim (fun vm => doOp E vm a b t) vm := by
  cases op <;> cases h <;> rfl

theorem doOp_num (E : Env) (vm : Vm) (a b : Val) (t : Nat) (ha : isNumber a = true) (hb : isNumber b = true)
    (fa : isForeign a = false) (fb : isForeign b = false) :
    doOp E vm a b t = (doArith E t a b).map fun r => (vm, match r with | none => tagNan | some d => mkNumber d) := by
  unfold doOp
  simp only [ha, hb, fa, fb, Bool.or_true, Bool.and_true, if_true, Bool.false_eq_true, if_false, Bool.or_false, Bool.and_false,
    getDouble]
  cases doArith E t a b with
  | none => rfl
  | some r => cases r <;> rfl

theorem number_not_foreign {v : Val} (h : isNumber v = true) : isForeign v = false := by
  cases hf : isForeign v with
  | false => rfl
  | true =>
    unfold isForeign at hf
    have := isNumber_tagged (v := v) 2 (by decide) (by decide) (by simpa [tagForeign] using hf)
    rw [h] at this; cases this

instance (d : Val) : Decidable (IsZero d) := inferInstanceAs (Decidable (_ ∧ _))

theorem binary_num (E : Env) (vm : Vm) (he : vm.error = .ok) (op : BinOp) (t : Nat) (h : arithTok op = some t) (a b : Val)
    (ha : isNumber a = true) (hb : isNumber b = true) :
    binary E op a b vm = (doArith E t a b).map fun r => .ok vm (match r with | none => tagNan | some d => mkNumber d) := by
  rw [binary_arith E vm op t h, prim, doOp_num E vm a b t ha hb (number_not_foreign ha) (number_not_foreign hb)]
  cases doArith E t a b with
  | none => rfl
  | some r => simp [he]

theorem doArith_nan (E : Env) (t : Nat) {a b : Val} (h : IsNaN a ∨ IsNaN b) : doArith E t a b = some none := by
  unfold doArith
  rw [if_pos]
  rw [Bool.or_eq_true, isnan_iff, isnan_iff]
  exact h

theorem nan_cond {a b : Val} (h : ¬ (IsNaN a ∨ IsNaN b)) : (isnan a || isnan b) = false := by
  rw [Bool.eq_false_iff]
  intro e
  rw [Bool.or_eq_true, isnan_iff, isnan_iff] at e
  exact h e

/-- **C40, NaN.** With a NaN, every arithmetic operator on numbers gives NaN. -/
theorem C40_nan (E : Env) (vm : Vm) (he : vm.error = .ok) (op : BinOp) (hop : (arithTok op).isSome = true) (a b : Val)
    (ha : isNumber a = true) (hb : isNumber b = true) (h : IsNaN a ∨ IsNaN b) :
    binary E op a b vm = some (.ok vm tagNan) := by
  obtain ⟨t, ht⟩ := Option.isSome_iff_exists.1 hop
  rw [binary_num E vm he op t ht a b ha hb, doArith_nan E t h]
  rfl

/-- **C40, `+ - * /` on numbers.** The result of the floating point unit; NaN for a division by zero. -/
theorem C40_arith (E : Env) (vm : Vm) (he : vm.error = .ok) (a b : Val) (ha : isNumber a = true) (hb : isNumber b = true)
    (na : ¬ IsNaN a) (nb : ¬ IsNaN b) :
    binary E .add a b vm = some (.ok vm (mkNumber (E.add a b))) ∧
    binary E .sub a b vm = some (.ok vm (mkNumber (E.sub a b))) ∧
    binary E .mul a b vm = some (.ok vm (mkNumber (E.mul a b))) ∧
    binary E .div a b vm = some (.ok vm (if IsZero b then tagNan else mkNumber (E.div a b))) := by
  have hn := nan_cond (a := a) (b := b) (fun h => h.elim na nb)
  refine ⟨?_, ?_, ?_, ?_⟩
  · rw [binary_num E vm he _ _ rfl a b ha hb, doArith, hn]; rfl
  · rw [binary_num E vm he _ _ rfl a b ha hb, doArith, hn]; rfl
  · rw [binary_num E vm he _ _ rfl a b ha hb, doArith, hn]; rfl
  · rw [binary_num E vm he _ _ rfl a b ha hb, doArith, hn]
    show ((if neZero b then some (some (E.div a b)) else some none).map _) = _
    by_cases hz : IsZero b
    · have : neZero b = false := by
        have := neZero_iff b
        cases h : neZero b <;> simp_all
      rw [this, if_pos hz]; rfl
    · rw [(neZero_iff b).2 hz, if_neg hz]; rfl

/-! ### Integers -/

theorem intResult (E : Env) (vm : Vm) (he : vm.error = .ok) (op : BinOp) (t : Nat) (h : arithTok op = some t) {a b : Val} {m n : Int}
    (ha : IsInt a m) (hb : IsInt b n) (r : Val) (v : Int) (hr : doArith E t a b = some (some r)) (hv : IsInt r v) :
    ∃ r, binary E op a b vm = some (.ok vm r) ∧ IsInt r v := by
  refine ⟨r, ?_, hv⟩
  rw [binary_num E vm he op t h a b (isNumber_finite ha.1) (isNumber_finite hb.1), hr]
  show some (Sem.Out.ok vm (mkNumber r)) = _
  rw [mkNumber_finite hv.1]

/-- **C40, `%`.** The remainder has the sign of the dividend. -/
theorem C40_rem (E : Env) (vm : Vm) (he : vm.error = .ok) (a b : Val) (m n : Int) (ha : IsInt a m) (hb : IsInt b n)
    (hm : m.natAbs < 2 ^ 53) (hn : n.natAbs < 2 ^ 31) (h0 : n ≠ 0) :
    ∃ r, binary E .rem a b vm = some (.ok vm r) ∧ IsInt r (m.tmod n) := by
  refine intResult E vm he .rem _ rfl ha hb _ _ ?_ (remD_isInt ha hm hn)
  rw [doArith, nan_cond (fun h => h.elim (IsInt.notNaN ha) (IsInt.notNaN hb))]
  simp only [Bool.false_eq_true, if_false]
  rw [toI32_isInt hb (by omega) (by omega), if_pos h0]

/-- **C40, `%` by zero** is NaN; so is `%` by anything between -1 and 1. -/
theorem C40_rem_zero (E : Env) (vm : Vm) (he : vm.error = .ok) (a b : Val) (ha : isNumber a = true) (hb : Finite b)
    (h0 : (scaled b).natAbs < 2 ^ 1074) : binary E .rem a b vm = some (.ok vm tagNan) := by
  by_cases hn : IsNaN a
  · exact C40_nan E vm he .rem rfl a b ha (isNumber_finite hb) (.inl hn)
  · rw [binary_num E vm he .rem _ rfl a b ha (isNumber_finite hb), doArith,
      nan_cond (fun h => h.elim hn (fun h => isNaN_not_finite h hb))]
    simp only [Bool.false_eq_true, if_false]
    rw [toI32_zero hb h0, if_neg (by decide)]
    rfl

/-- **C40, `& | ^`.** On integers that fit into `w` bits (`w` at most 53) the result is the integer whose two's
complement bits are those of the operands combined. -/
theorem C40_bits (E : Env) (vm : Vm) (he : vm.error = .ok) (a b : Val) (m n : Int) (ha : IsInt a m) (hb : IsInt b n)
    (w : Nat) (hw0 : 0 < w) (hw : w ≤ 53) (hm : -2 ^ (w - 1) ≤ m ∧ m < 2 ^ (w - 1)) (hn : -2 ^ (w - 1) ≤ n ∧ n < 2 ^ (w - 1)) :
    (∃ r, binary E .band a b vm = some (.ok vm r) ∧ IsInt r (BitVec.ofInt w m &&& BitVec.ofInt w n).toInt) ∧
    (∃ r, binary E .bor a b vm = some (.ok vm r) ∧ IsInt r (BitVec.ofInt w m ||| BitVec.ofInt w n).toInt) ∧
    (∃ r, binary E .bxor a b vm = some (.ok vm r) ∧ IsInt r (BitVec.ofInt w m ^^^ BitVec.ofInt w n).toInt) := by
  have hn' := nan_cond (a := a) (b := b) (fun h => h.elim (IsInt.notNaN ha) (IsInt.notNaN hb))
  obtain ⟨hm1, hm2⟩ := toI64_bits ha hw0 hw hm
  obtain ⟨hn1, hn2⟩ := toI64_bits hb hw0 hw hn
  refine ⟨intResult E vm he .band _ rfl ha hb _ _ ?_ (bits_isInt hw0 hw _), intResult E vm he .bor _ rfl ha hb _ _ ?_ (bits_isInt hw0 hw _),
    intResult E vm he .bxor _ rfl ha hb _ _ ?_ (bits_isInt hw0 hw _)⟩
  · rw [doArith, hn']
    simp only [Bool.false_eq_true, if_false]
    rw [hm2, hn2, ← BitVec.signExtend_and, BitVec.toInt_signExtend_of_le (by omega)]
  · rw [doArith, hn']
    simp only [Bool.false_eq_true, if_false]
    rw [hm2, hn2, ← BitVec.signExtend_or, BitVec.toInt_signExtend_of_le (by omega)]
  · rw [doArith, hn']
    simp only [Bool.false_eq_true, if_false]
    rw [hm2, hn2, ← BitVec.signExtend_xor, BitVec.toInt_signExtend_of_le (by omega)]

/-- **C40, `<<`.** A multiplication by a power of two while the result is exact (the operands are not cut to 32 bits, as
in JavaScript). -/
theorem C40_shl (E : Env) (vm : Vm) (he : vm.error = .ok) (a b : Val) (m : Int) (k : Nat) (ha : IsInt a m) (hb : IsInt b k)
    (hk : k < 64) (hm : m.natAbs * 2 ^ k < 2 ^ 53) :
    ∃ r, binary E .shl a b vm = some (.ok vm r) ∧ IsInt r (m * 2 ^ k) := by
  have hm' : m.natAbs < 2 ^ 53 := Nat.lt_of_le_of_lt (Nat.le_mul_of_pos_right _ (Nat.two_pow_pos _)) hm
  refine intResult E vm he .shl _ rfl ha hb (ofIntD (m * 2 ^ k)) _ ?_ (ofIntD_isInt _ (by
    rw [Int.natAbs_mul, Int.natAbs_pow]; exact hm))
  rw [doArith, nan_cond (fun h => h.elim (IsInt.notNaN ha) (IsInt.notNaN hb))]
  simp only [Bool.false_eq_true, if_false]
  rw [toI64_isInt hb (by omega) (by omega), toI64_isInt ha (by omega) (by omega), if_pos (by omega), Int.toNat_natCast, shl_toInt hm]

/-- **C40, `>>`.** A division by a power of two, rounded towards minus infinity. -/
theorem C40_shr (E : Env) (vm : Vm) (he : vm.error = .ok) (a b : Val) (m : Int) (k : Nat) (ha : IsInt a m) (hb : IsInt b k)
    (hk : k < 64) (hm : m.natAbs < 2 ^ 53) :
    ∃ r, binary E .shr a b vm = some (.ok vm r) ∧ IsInt r (m / 2 ^ k) := by
  refine intResult E vm he .shr _ rfl ha hb (ofIntD (m / 2 ^ k)) _ ?_ (ofIntD_isInt _ (shr_small hm))
  rw [doArith, nan_cond (fun h => h.elim (IsInt.notNaN ha) (IsInt.notNaN hb))]
  simp only [Bool.false_eq_true, if_false]
  rw [toI64_isInt hb (by omega) (by omega), toI64_isInt ha (by omega) (by omega), if_pos (by omega), Int.toNat_natCast,
    BitVec.toInt_sshiftRight, BitVec.toInt_ofInt, Int.bmod_eq_of_le (by omega) (by omega), Int.shiftRight_eq_div_pow]
  congr 4

/-- **C40, `>>>`.** The operand modulo 2^32, divided by a power of two. -/
theorem C40_ushr (E : Env) (vm : Vm) (he : vm.error = .ok) (a b : Val) (m : Int) (k : Nat) (ha : IsInt a m) (hb : IsInt b k)
    (hk : k < 32) (hm : m.natAbs < 2 ^ 53) :
    ∃ r, binary E .ushr a b vm = some (.ok vm r) ∧ IsInt r (m % 2 ^ 32 / 2 ^ k) := by
  have e1 : toU32 b = k := by rw [toU32, toI64_isInt hb (by omega) (by omega)]; omega
  have e2 : toU32 a = (m % 2 ^ 32).toNat := by rw [toU32, toI64_isInt ha (by omega) (by omega)]
  have e3 : ((((m % 2 ^ 32).toNat / 2 ^ k : Nat)) : Int) = m % 2 ^ 32 / 2 ^ k := by
    rw [Int.natCast_ediv, Int.natCast_pow, Int.toNat_of_nonneg (by omega)]; rfl
  refine intResult E vm he .ushr _ rfl ha hb (ofIntD (m % 2 ^ 32 / 2 ^ k)) _ ?_ (ofIntD_isInt _ (by
    rw [← e3, Int.natAbs_natCast]
    exact Nat.lt_of_le_of_lt (Nat.div_le_self _ _) (by omega)))
  rw [doArith, nan_cond (fun h => h.elim (IsInt.notNaN ha) (IsInt.notNaN hb))]
  simp only [Bool.false_eq_true, if_false]
  rw [e1, e2, if_pos hk, e3]

example (E : Env) (vm : Vm) (he : vm.error = .ok) : ∃ r, binary E .rem (mkInt (-7)) (mkInt 3) vm = some (.ok vm r) ∧ IsInt r (-1) := by
  have := C40_rem E vm he _ _ (-7) 3 (mkInt_isInt _ (by decide)) (mkInt_isInt _ (by decide)) (by decide) (by decide) (by decide)
  rwa [show Int.tmod (-7) 3 = -1 by decide] at this

example (E : Env) (vm : Vm) (he : vm.error = .ok) : ∃ r, binary E .band (mkInt (-2)) (mkInt 255) vm = some (.ok vm r) ∧ IsInt r 254 :=
  (C40_bits E vm he _ _ (-2) 255 (mkInt_isInt _ (by decide)) (mkInt_isInt _ (by decide)) 32 (by decide) (by decide) (by decide) (by decide)).1

example (E : Env) (vm : Vm) (he : vm.error = .ok) : ∃ r, binary E .shl (mkInt 1) (mkInt 40) vm = some (.ok vm r) ∧ IsInt r (1 * 2 ^ 40) :=
  C40_shl E vm he _ _ 1 40 (mkInt_isInt _ (by decide)) (mkInt_isInt _ (by decide)) (by decide) (by decide)

example (E : Env) (vm : Vm) (he : vm.error = .ok) :
    ∃ r, binary E .ushr (mkInt (-1)) (mkInt 28) vm = some (.ok vm r) ∧ IsInt r ((-1) % 2 ^ 32 / 2 ^ 28) :=
  C40_ushr E vm he _ _ (-1) 28 (mkInt_isInt _ (by decide)) (mkInt_isInt _ (by decide)) (by decide) (by decide)

/-- **Finding.** A shift by a count that is negative or not below 64 (below 32 for `>>>`) has no defined result: C leaves it
undefined. -/
theorem C40_shift_out_of_range (E : Env) (vm : Vm) (he : vm.error = .ok) (a b : Val) (m n : Int) (ha : IsInt a m) (hb : IsInt b n)
    (hn : n.natAbs < 2 ^ 53) (h : n < 0 ∨ 64 ≤ n) : binary E .shl a b vm = none ∧ binary E .shr a b vm = none := by
  have hn' := nan_cond (a := a) (b := b) (fun h => h.elim (IsInt.notNaN ha) (IsInt.notNaN hb))
  have na := isNumber_finite ha.1
  have nb := isNumber_finite hb.1
  constructor
  · rw [binary_num E vm he .shl _ rfl a b na nb, doArith, hn']
    simp only [Bool.false_eq_true, if_false]
    rw [toI64_isInt hb (by omega) (by omega), if_neg (by omega)]; rfl
  · rw [binary_num E vm he .shr _ rfl a b na nb, doArith, hn']
    simp only [Bool.false_eq_true, if_false]
    rw [toI64_isInt hb (by omega) (by omega), if_neg (by omega)]; rfl

/-! ## Strings -/

theorem string_not_number {v : Val} (h : isString v = true) : isNumber v = false := by
  cases hc : isNumber v with
  | false => rfl
  | true => exact absurd (C04_one_kind v .string .number h hc) (by decide)

theorem string_not_foreign {v : Val} (h : isString v = true) : isForeign v = false := by
  cases hc : isForeign v with
  | false => rfl
  | true => exact absurd (C04_one_kind v .string .foreign h hc) (by decide)

/-- **C40, `+` on strings** gives the bytes of the first, then those of the second; the operands, every other string, and everything
else is as before. -/
theorem C40_concat (E : Env) (vm : Vm) (he : vm.error = .ok) (a b : Val) (x y : List UInt8) (hi : InvS vm.heap.str)
    (ha : Reads vm.heap.str a x) (hb : Reads vm.heap.str b y) (hg : Granted vm.heap (x.length + y.length) (vm.al 0)) :
    ∃ st' v, binary E .add a b vm = some (.ok { used vm with heap := { vm.heap with str := st' } } v) ∧ InvS st' ∧
      ReadsZ st' v (x ++ y) ∧ (∀ w ws, Reads vm.heap.str w ws → Reads st' w ws) := by
  obtain ⟨st', v, e, i, ex, r, _⟩ := sConcat_core (vm.al 0).hr vm.heap.str hi a b x y (vm.al 0).strs ha hb hg.room hg.low hg.grant
  refine ⟨st', v, ?_, i, r, fun _ _ => reads_mono hi i ex⟩
  have sa := reads_isString ha
  have sb := reads_isString hb
  rw [binary_arith E vm .add _ rfl, prim, doOp, if_neg (by simp [string_not_number sa, string_not_foreign sa]),
    if_pos (by rw [sa, sb]; rfl), concat, e]
  show some (if vm.error = .ok then _ else _) = _
  rw [if_pos he]

/-- **C40, type rules.** An arithmetic operator on anything else than two numbers (or pointers), or two strings for `+`, is a TypeError:
no conversion takes place.  Nothing changes. -/
theorem C40_type_error (E : Env) (vm : Vm) (he : vm.error = .ok) (op : BinOp) (hop : (arithTok op).isSome = true) (a b : Val)
    (hn : ¬ ((isForeign a = true ∨ isNumber a = true) ∧ (isForeign b = true ∨ isNumber b = true)))
    (hs : ¬ (isString a = true ∧ isString b = true ∧ op = .add)) :
    binary E op a b vm = some (.err (prepend vm .type (txt "implicit type conversion is prohibited"))) ∧
      (prepend vm .type (txt "implicit type conversion is prohibited")).error = .type := by
  have h2 : (prepend vm .type (txt "implicit type conversion is prohibited")).error = .type := by rw [prepend]; exact if_pos he
  refine ⟨?_, h2⟩
  obtain ⟨t, ht⟩ := Option.isSome_iff_exists.1 hop
  rw [binary_arith E vm op t ht, prim, doOp, if_neg (by simpa using hn), if_neg]
  · rw [Option.map_some, if_neg (by rw [h2]; decide)]
  · simp only [Bool.and_eq_true, beq_iff_eq]
    rintro ⟨⟨h1, h3⟩, h4⟩
    refine hs ⟨h1, h3, ?_⟩
    subst h4
    cases op <;> simp_all [arithTok, Tok.PLUS, Tok.MINUS, Tok.MUL, Tok.DIV, Tok.REM, Tok.LSHIFT, Tok.RSHIFT, Tok.URSHIFT, Tok.AND, Tok.OR, Tok.XOR]

/-- A pointer takes part in `+` and `-` only. -/
theorem C40_pointer_error (E : Env) (vm : Vm) (he : vm.error = .ok) (op : BinOp)
    (hop : op = .mul ∨ op = .div ∨ op = .rem ∨ op = .band ∨ op = .bor ∨ op = .bxor) (a b : Val)
    (h : isForeign a = true ∧ (isForeign b = true ∨ isNumber b = true) ∨ isNumber a = true ∧ isForeign b = true) :
    ∃ vm', binary E op a b vm = some (.err vm') ∧ vm'.error = .type ∧ vm'.heap = vm.heap ∧ vm'.scopes = vm.scopes := by
  have hpe : (prepend vm .type (txt "invalid operands")).error = .type := by rw [prepend]; exact if_pos he
  have hpp : ∀ t, (prepend (prepend vm .type (txt "invalid operands")) .type t).error = .type := by
    intro t; rw [prepend]; show (if (prepend vm .type (txt "invalid operands")).error = .ok then _ else _) = _
    rw [hpe]; rfl
  have main : ∀ t, t ≠ Tok.MINUS → t ≠ Tok.PLUS → (∀ x y, (doArith E t x y).isSome) →
      ∃ vm' v, doOp E vm a b t = some (vm', v) ∧ vm'.error = .type ∧ vm'.heap = vm.heap ∧ vm'.scopes = vm.scopes := by
    intro t h1 h2 h3
    have hv : (if (isForeign a && isForeign b) = true then (if t ≠ Tok.MINUS then prepend vm .type (txt "invalid operands") else vm)
        else if (isForeign a || isForeign b) = true then
          (if t ≠ Tok.MINUS ∧ t ≠ Tok.PLUS then prepend vm .type (txt "invalid operands") else vm)
        else vm) = prepend vm .type (txt "invalid operands") := by
      rw [if_pos h1, if_pos (show t ≠ Tok.MINUS ∧ t ≠ Tok.PLUS from ⟨h1, h2⟩)]
      rcases h with ⟨h, _⟩ | ⟨_, h⟩ <;> rw [h] <;> cases isForeign b <;> cases isForeign a <;> rfl
    rw [doOp, if_pos (by rcases h with ⟨h, h' | h'⟩ | ⟨h, h'⟩ <;> simp [h, h'])]
    simp only
    rw [hv]
    obtain ⟨r, hr⟩ := Option.isSome_iff_exists.1 (h3 (if isNumber a = true then getDouble a else ofIntD ↑(getPtr a).toNat)
      (if isNumber b = true then getDouble b else ofIntD ↑(getPtr b).toNat))
    rw [hr]
    cases r with
    | none => exact ⟨_, _, rfl, hpe, rfl, rfl⟩
    | some d =>
      simp only [Option.bind_eq_bind, Option.bind_some]
      split
      · refine ⟨_, _, rfl, ?_, ?_, ?_⟩ <;> split
        · exact hpp _
        · exact hpe
        all_goals rfl
      · exact ⟨_, _, rfl, hpe, rfl, rfl⟩
  have fin : ∀ t, arithTok op = some t → t ≠ Tok.MINUS → t ≠ Tok.PLUS → (∀ x y, (doArith E t x y).isSome) →
      ∃ vm', binary E op a b vm = some (.err vm') ∧ vm'.error = .type ∧ vm'.heap = vm.heap ∧ vm'.scopes = vm.scopes := by
    intro t h0 h1 h2 h3
    obtain ⟨vm', v, e, e1, e2⟩ := main t h1 h2 h3
    refine ⟨vm', ?_, e1, e2⟩
    rw [binary_arith E vm op t h0, prim, e, Option.map_some, if_neg (by rw [e1]; decide)]
  have hs : ∀ t, (t = 12 ∨ t = 15 ∨ t = 16 ∨ t = 17 ∨ t = 18 ∨ t = 19) → ∀ x y, (doArith E t x y).isSome := by
    intro t ht x y
    rcases ht with rfl | rfl | rfl | rfl | rfl | rfl <;> unfold doArith <;> split <;> try rfl
    · dsimp only
      cases neZero y <;> rfl
    · dsimp only
      by_cases h0 : toI32 y ≠ 0
      · rw [if_pos h0]; rfl
      · rw [if_neg h0]; rfl
  rcases hop with rfl | rfl | rfl | rfl | rfl | rfl
  all_goals exact fin _ rfl (by decide) (by decide) (hs _ (by decide))

/-! ## Equality -/

/-- **C40, `===` on strings** compares the bytes. -/
theorem C40_equal_strings (E : Env) (vm : Vm) (he : vm.error = .ok) (a b : Val) (x y : List UInt8) (hi : InvS vm.heap.str)
    (ha : Reads vm.heap.str a x) (hb : Reads vm.heap.str b y) :
    binary E .eqq a b vm = some (.ok vm (mkBoolean (decide (x = y)))) ∧
    binary E .nee a b vm = some (.ok vm (mkBoolean (!decide (x = y)))) := by
  have h := (C09_equality_is_byte_equality vm.heap.str hi b a y x hb ha).2
  have e : decide (y = x) = decide (x = y) := decide_eq_decide.2 eq_comm
  rw [e] at h
  constructor
  · show (((checkEqual vm.heap.str b a).map _).map _) = _
    rw [h]; simp [he]
  · show (((checkEqual vm.heap.str b a).map _).map _) = _
    rw [h]; simp [he]

/-- **C40, `===` on other values**: of two values that are not both strings, it says whether they are the same value, except that NaN is
not equal to itself, and a null pointer of C is equal to `null`. -/
theorem C40_equal (E : Env) (vm : Vm) (he : vm.error = .ok) (a b : Val) (hs : ¬ (isString a = true ∧ isString b = true)) :
    ∃ r, binary E .eqq a b vm = some (.ok vm (mkBoolean r)) ∧ binary E .nee a b vm = some (.ok vm (mkBoolean !r)) ∧
      (r = true ↔ (a = b ∧ a ≠ tagNan) ∨ (isForeign a = true ∧ getPtr a = 0 ∧ b = mkNull) ∨ (a = mkNull ∧ isForeign b = true ∧ getPtr b = 0)) := by
  have key : ∃ r, checkEqual vm.heap.str b a = some r ∧
      (r = true ↔ (a = b ∧ a ≠ tagNan) ∨ (isForeign a = true ∧ getPtr a = 0 ∧ b = mkNull) ∨ (a = mkNull ∧ isForeign b = true ∧ getPtr b = 0)) := by
    have nn : isForeign tagNull = false := by decide
    have nm : isNumber tagNull = false := by decide
    have ns : isString tagNull = false := by decide
    have mk : mkNull = tagNull := rfl
    rw [mk]
    by_cases h1 : b = tagNan ∧ a = tagNan
    · refine ⟨false, by rw [checkEqual, if_pos h1], ?_⟩
      obtain ⟨rfl, rfl⟩ := h1
      simp
      decide
    · by_cases h2 : b = a
      · subst h2
        refine ⟨true, by rw [checkEqual, if_neg h1, if_pos rfl], ?_⟩
        have : b ≠ tagNan := fun h => h1 ⟨h, h⟩
        simp [this]
      · have h2' : ¬ a = b := fun h => h2 h.symm
        by_cases h3 : isNumber b = true ∧ isNumber a = true
        · refine ⟨false, by rw [checkEqual, if_neg h1, if_neg h2, if_pos h3], ?_⟩
          have e1 : a ≠ tagNull := by rintro rfl; rw [nm] at h3; simp at h3
          have e2 : b ≠ tagNull := by rintro rfl; rw [nm] at h3; simp at h3
          simp [h2', e1, e2]
        · rw [checkEqual, if_neg h1, if_neg h2, if_neg h3, if_neg (fun h => hs h.symm)]
          by_cases h4 : isForeign b = true ∧ a = tagNull
          · rw [if_pos h4]
            refine ⟨_, rfl, ?_⟩
            obtain ⟨h5, rfl⟩ := h4
            simp [h2', nn, h5]
          · rw [if_neg h4]
            by_cases h6 : b = tagNull ∧ isForeign a = true
            · rw [if_pos h6]
              refine ⟨_, rfl, ?_⟩
              obtain ⟨rfl, h7⟩ := h6
              simp [h2', nn, h7]
            · rw [if_neg h6]
              refine ⟨false, rfl, ?_⟩
              simp only [Bool.false_eq_true, h2', false_and, false_or, false_iff, not_or]
              exact ⟨fun h => h6 ⟨h.2.2, h.1⟩, fun h => h4 ⟨h.2.1, h.1⟩⟩
  obtain ⟨r, h, hr⟩ := key
  refine ⟨r, ?_, ?_, hr⟩
  · show (((checkEqual vm.heap.str b a).map _).map _) = _
    rw [h]; simp [he]
  · show (((checkEqual vm.heap.str b a).map _).map _) = _
    rw [h]; simp [he]

/-- **C40, `===` on numbers** is equality of the numbers; the two zeros are left out. -/
theorem C40_equal_numbers_partial (E : Env) (vm : Vm) (he : vm.error = .ok) (a b : Val) (ha : isNumber a = true) (hb : isNumber b = true)
    (hz : ¬ (IsZero a ∧ IsZero b)) :
    ∃ r, binary E .eqq a b vm = some (.ok vm (mkBoolean r)) ∧ (r = true ↔ ¬ IsNaN a ∧ ¬ IsNaN b ∧ scaled a = scaled b) := by
  have hs : isString a = false := by
    cases hc : isString a with
    | false => rfl
    | true => rw [string_not_number hc] at ha; cases ha
  obtain ⟨r, h1, _, h2⟩ := C40_equal E vm he a b (by rw [hs]; simp)
  refine ⟨r, h1, h2.trans ?_⟩
  rw [number_not_foreign ha, number_not_foreign hb]
  have nanIff : ∀ d, isNumber d = true → (IsNaN d ↔ d = tagNan) := by
    intro d hd
    constructor
    · intro h
      have := (isnan_iff d).2 h
      rw [isNumber, getDouble, this] at hd
      simpa using hd
    · rintro rfl; decide
  simp only [Bool.false_eq_true, false_and, and_false, or_false]
  constructor
  · rintro ⟨rfl, h⟩
    have := fun x => h ((nanIff a ha).1 x)
    exact ⟨this, this, rfl⟩
  · rintro ⟨h1, _, h3⟩
    exact ⟨scaled_inj h3 hz, fun h => h1 ((nanIff a ha).2 h)⟩

/-- **Finding.** `0 === -0` is false: the bits are compared. -/
theorem C40_zeros (E : Env) (vm : Vm) (he : vm.error = .ok) :
    binary E .eqq 0#64 0x8000000000000000#64 vm = some (.ok vm (mkBoolean false)) ∧ IsInt 0#64 0 ∧ IsInt 0x8000000000000000#64 0 := by
  have hs : ¬ (isString 0#64 = true ∧ isString 0x8000000000000000#64 = true) := by decide
  obtain ⟨r, h1, _, h2⟩ := C40_equal E vm he 0#64 0x8000000000000000#64 hs
  have : r = false := by
    cases r with
    | false => rfl
    | true => exact absurd (h2.1 rfl) (by decide)
  refine ⟨this ▸ h1, ⟨by decide, ?_⟩, ⟨by decide, ?_⟩⟩
  · rw [Int.zero_mul]; decide
  · rw [Int.zero_mul]; decide

/-- **C40.** `==` and `!=` are not part of the language: they raise an error, whatever the operands. -/
theorem C40_no_loose_equality (E : Env) (vm : Vm) (a b : Val) :
    ∃ v1 v2, binary E .eq a b vm = some (.err v1) ∧ v1.error = .notImplemented ∧ binary E .ne a b vm = some (.err v2) ∧ v2.error = .notImplemented :=
  ⟨_, _, rfl, rfl, rfl, rfl⟩

/-! ## Unary operators -/

/-- **C40, `-`, `+` and `~` on integers.** -/
theorem C40_unary (vm : Vm) (a : Val) (m : Int) (ha : IsInt a m) (hm : m.natAbs < 2 ^ 53 - 1) :
    (∃ r, unary .minus a vm = some (.ok vm r) ∧ IsInt r (-m)) ∧ unary .plus a vm = some (.ok vm a) ∧
    (∃ r, unary .tilda a vm = some (.ok vm r) ∧ IsInt r (-m - 1)) := by
  refine ⟨⟨_, rfl, ?_⟩, rfl, ⟨_, rfl, ?_⟩⟩
  · have := negD_isInt ha
    rw [getDouble, mkNumber_finite this.1]
    exact this
  · have := ofIntD_isInt (-m - 1) (by omega)
    rw [getDouble, toI64_isInt ha (by omega) (by omega), mkNumber_finite this.1]
    exact this

example (vm : Vm) : (∃ r, unary .minus (mkInt 5) vm = some (.ok vm r) ∧ IsInt r (-5)) ∧ unary .plus (mkInt 5) vm = some (.ok vm (mkInt 5)) ∧
    (∃ r, unary .tilda (mkInt 5) vm = some (.ok vm r) ∧ IsInt r (-5 - 1)) :=
  C40_unary vm (mkInt 5) 5 (mkInt_isInt 5 (by decide)) (by decide)

/-- **C40, `-` on what is no number** is NaN. -/
theorem C40_minus_other (vm : Vm) (a : Val) (ha : IsNaN a) : unary .minus a vm = some (.ok vm tagNan) := by
  have h : isnan (negD a) = true := by
    rw [isnan_iff]
    have e1 : expo (negD a) = expo a := by unfold expo; rw [negD_toNat]; have := a.isLt; split <;> omega
    have e2 : frac (negD a) = frac a := by unfold frac; rw [negD_toNat]; split <;> omega
    unfold IsNaN
    rw [e1, e2]
    exact ha
  show some (Sem.Out.ok vm (mkNumber (negD (getDouble a)))) = _
  rw [mkNumber, getDouble, if_pos h]

/-- **C40, `!`** negates the truth value (C57), and never fails. -/
theorem C40_not (vm : Vm) (a : Val) (b : Bool) (hb : truthy a vm = some (.ok vm b)) :
    unary .not a vm = some (.ok vm (mkBoolean !b)) := by
  show (truthy a >>= fun b => pure (mkBoolean !b)) vm = _
  rw [bind_ok hb]
  rfl

end Mjs.Props
