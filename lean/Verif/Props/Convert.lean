import Verif.Model.Convert
import Verif.Props.Value
import Verif.Props.Str

/-!
# C41: truthiness
-/

namespace Mjs.Props
open Mjs Mjs.Mbuf Mjs.Str Mjs.Spec.Double

/-- What the property calls false: undefined, null, false, a zero of either sign, NaN, the empty string. -/
def Falsy (st : Store) (v : Val) : Prop :=
  v = mkUndefined ∨ v = mkNull ∨ v = mkBoolean false ∨ (∃ d, v = mkNumber d ∧ (IsZero d ∨ IsNaN d)) ∨ Reads st v []

theorem neZero_iff (d : Val) : neZero d = true ↔ ¬ IsZero d := by
  unfold neZero IsZero expo frac
  rw [bne_iff_ne, ne_eq]
  refine not_congr ?_
  rw [← BitVec.toNat_inj, BitVec.toNat_shiftLeft, Nat.shiftLeft_eq]
  have := d.isLt
  simp only [BitVec.toNat_ofNat]
  omega

theorem truthy_flags (v : Val) (q : Kind) (hq : asks q v = true) (q' : Kind) (hne : q' ≠ q) : asks q' v = false := by
  cases h : asks q' v with
  | false => rfl
  | true => exact absurd (C04_one_kind v q' q h hq) hne

theorem mkNumber_kind {v : Val} (h : asks .number v = true) : ∃ d, v = mkNumber d := by
  simp only [asks, isNumber, getDouble, Bool.or_eq_true, beq_iff_eq, Bool.not_eq_true'] at h
  rcases h with h | h
  · exact ⟨tagNan, by subst h; decide⟩
  · exact ⟨v, by simp [mkNumber, h]⟩

/-- **C41 (partial).** Every value of a kind other than FFI functions is false in a condition exactly when it is in the
list.  (Booleans are the two values the engine makes; strings are readable strings.)  Missing: FFI functions, see
`C41_ffi_function_is_false`. -/
theorem C41_truthiness_partial (st : Store) (hi : InvS st) (v : Val) (q : Kind) (hq : asks q v = true) (hf : q ≠ .ffiSig)
    (hb : q = .boolean → v = mkBoolean true ∨ v = mkBoolean false)
    (hs : q = .string → ∃ bs, Reads st v bs) :
    ∃ b, isTruthy st v = some b ∧ (b = false ↔ Falsy st v) := by
  have fl := truthy_flags v q hq
  have kU : q ≠ .undefined → v ≠ mkUndefined := fun h hv => h (C04_one_kind v q .undefined hq (by rw [hv]; decide))
  have kN : q ≠ .null → v ≠ mkNull := fun h hv => h (C04_one_kind v q .null hq (by rw [hv]; decide))
  have kB : q ≠ .boolean → v ≠ mkBoolean false := fun h hv => h (C04_one_kind v q .boolean hq (by rw [hv]; decide))
  have kD : q ≠ .number → ¬ ∃ d, v = mkNumber d ∧ (IsZero d ∨ IsNaN d) := by
    rintro h ⟨d, hv, _⟩
    exact h (C04_one_kind v q .number hq (by rw [hv]; exact (C04_constructors.2.2.2.1 d .number).2 rfl))
  have kS : q ≠ .string → ¬ Reads st v [] := fun h hr => h (C04_one_kind v q .string hq (reads_isString hr))
  have kT : q ≠ .number → (v != tagNan) = true := by
    intro h
    rw [bne_iff_ne]
    intro hv
    exact h (C04_one_kind v q .number hq (by rw [hv]; decide))
  have hbool : ∀ b : Bool, getBool (mkBoolean b) = b := fun b => (C05_boolean_roundtrip b).1
  unfold isTruthy toBooleanV Falsy
  cases q with
  | ffiSig => exact absurd rfl hf
  | undefined =>
    have h1 := fl .boolean (by decide); have h2 := fl .number (by decide); have h3 := fl .string (by decide)
    have h4 := fl .function (by decide); have h5 := fl .foreign (by decide); have h6 := fl .object (by decide)
    simp only [asks, isUndefined, beq_iff_eq] at h1 h2 h3 h4 h5 h6 hq
    refine ⟨false, by simp [h1, h2, h3, h4, h5, h6, hbool], by simp [hq]⟩
  | null =>
    have h1 := fl .boolean (by decide); have h2 := fl .number (by decide); have h3 := fl .string (by decide)
    have h4 := fl .function (by decide); have h5 := fl .foreign (by decide); have h6 := fl .object (by decide)
    simp only [asks, isNull, beq_iff_eq] at h1 h2 h3 h4 h5 h6 hq
    refine ⟨false, by simp [h1, h2, h3, h4, h5, h6, hbool], by simp [hq]⟩
  | boolean =>
    have h2 := fl .number (by decide); have h3 := fl .string (by decide)
    have h4 := fl .function (by decide); have h5 := fl .foreign (by decide); have h6 := fl .object (by decide)
    simp only [asks] at h2 h3 h4 h5 h6 hq
    refine ⟨getBool v, by simp [h2, h3, h4, h5, h6, hq, hbool, kT (by decide)], ?_⟩
    have a1 := kU (by decide); have a2 := kN (by decide); have a3 := kD (by decide); have a4 := kS (by decide)
    simp only [a1, a2, a3, a4, false_or, or_false]
    rcases hb rfl with h | h <;> rw [h]
    · decide
    · decide
  | number =>
    have h1 := fl .boolean (by decide); have h3 := fl .string (by decide)
    have h4 := fl .function (by decide); have h5 := fl .foreign (by decide); have h6 := fl .object (by decide)
    obtain ⟨d, hd⟩ := mkNumber_kind hq
    simp only [asks] at h1 h3 h4 h5 h6 hq
    refine ⟨neZero v && v != tagNan, by simp [h1, h3, h4, h5, h6, hq, hbool, getDouble], ?_⟩
    have a1 := kU (by decide); have a2 := kN (by decide); have a3 := kB (by decide); have a4 := kS (by decide)
    simp only [a1, a2, a3, a4, false_or, or_false]
    rw [Bool.and_eq_false_iff]
    have e1 : neZero v = false ↔ IsZero v := by
      have := neZero_iff v
      cases hz : neZero v <;> simp_all
    rw [e1, bne_eq_false_iff_eq]
    constructor
    · rintro (h | h)
      · refine ⟨v, ?_, .inl h⟩
        have : isnan v = false := by
          cases hn : isnan v with
          | false => rfl
          | true =>
            have := ((isnan_iff v).1 hn).1
            rw [h.1] at this
            exact absurd this (by decide)
        simp [mkNumber, this]
      · exact ⟨tagNan, by rw [h]; decide, .inr (by decide)⟩
    · rintro ⟨d, rfl, h | h⟩
      · left
        have : isnan d = false := by
          cases hn : isnan d with
          | false => rfl
          | true =>
            have := ((isnan_iff d).1 hn).1
            rw [h.1] at this
            exact absurd this (by decide)
        simpa [mkNumber, this] using h
      · right
        simp [mkNumber, (isnan_iff d).2 h]
  | string =>
    have h1 := fl .boolean (by decide); have h2 := fl .number (by decide)
    have h4 := fl .function (by decide); have h5 := fl .foreign (by decide); have h6 := fl .object (by decide)
    obtain ⟨bs, p, n, hg, hp, hl⟩ := hs rfl
    have hlen := load_length hi.1.1 hl
    simp only [asks] at h1 h2 h4 h5 h6 hq
    refine ⟨decide (n > 0), by simp [h1, h2, h4, h5, h6, hq, hg, hp, hbool, kT (by decide)], ?_⟩
    have a1 := kU (by decide); have a2 := kN (by decide); have a3 := kB (by decide); have a4 := kD (by decide)
    simp only [a1, a2, a3, a4, false_or]
    rw [decide_eq_false_iff_not]
    constructor
    · intro h
      have : bs = [] := by rw [← List.length_eq_zero_iff]; omega
      subst this
      exact ⟨p, n, hg, hp, hl⟩
    · rintro ⟨p', n', hg', hp', hl'⟩
      rw [hg] at hg'
      cases hg'
      have := load_length hi.1.1 hl'
      simp at this
      omega
  | foreign =>
    have h3 := fl .string (by decide)
    simp only [asks] at hq h3
    refine ⟨true, by simp [hq, h3, hbool, kT (by decide)], ?_⟩
    simp [kU (by decide), kN (by decide), kB (by decide), kD (by decide), kS (by decide)]
  | object =>
    have h3 := fl .string (by decide)
    simp only [asks] at hq h3
    refine ⟨true, by simp [hq, h3, hbool, kT (by decide)], ?_⟩
    simp [kU (by decide), kN (by decide), kB (by decide), kD (by decide), kS (by decide)]
  | function =>
    have h3 := fl .string (by decide)
    simp only [asks] at hq h3
    refine ⟨true, by simp [hq, h3, hbool, kT (by decide)], ?_⟩
    simp [kU (by decide), kN (by decide), kB (by decide), kD (by decide), kS (by decide)]

/-- Concretely: the values -0, NaN, 1.5, true and an object. -/
example (st : Store) : isTruthy st 0x8000000000000000#64 = some false ∧ isTruthy st (mkNumber 0x7ff8000000000000#64) = some false ∧
    isTruthy st 0x3ff8000000000000#64 = some true ∧ isTruthy st (mkBoolean true) = some true ∧
    isTruthy st 0xfff1000012345678#64 = some true := ⟨rfl, rfl, rfl, rfl, rfl⟩

/-- **C41, violation.** An FFI function (what `ffi("...")` returns) counts as false, although it is none of the values
listed: `if (f) ...` does not run. -/
theorem C41_ffi_function_is_false (st : Store) (p v : Val) (hp : p ≠ 0#64) (h : ffiSigToValue p = some v) :
    isTruthy st v = some false ∧ ¬ Falsy st v := by
  have hq : asks .ffiSig v = true := (C04_constructors.2.2.2.2.2.2.2 p v hp h .ffiSig).2 rfl
  have fl := truthy_flags v .ffiSig hq
  constructor
  · have h1 := fl .boolean (by decide); have h2 := fl .number (by decide); have h3 := fl .string (by decide)
    have h4 := fl .function (by decide); have h5 := fl .foreign (by decide); have h6 := fl .object (by decide)
    simp only [asks] at h1 h2 h3 h4 h5 h6
    unfold isTruthy toBooleanV
    have hbool : getBool (mkBoolean false) = false := by decide
    simp [h1, h2, h3, h4, h5, h6, hbool]
  · rintro (h | h | h | ⟨d, h, _⟩ | h)
    · have := fl .undefined (by decide); rw [h] at this; exact absurd this (by decide)
    · have := fl .null (by decide); rw [h] at this; exact absurd this (by decide)
    · have := fl .boolean (by decide); rw [h] at this; exact absurd this (by decide)
    · have := fl .number (by decide)
      rw [h] at this
      rw [(C04_constructors.2.2.2.1 d .number).2 rfl] at this
      exact absurd this (by decide)
    · have := fl .string (by decide)
      have h' := reads_isString h
      simp only [asks] at this
      rw [h'] at this
      exact absurd this (by decide)

end Mjs.Props
