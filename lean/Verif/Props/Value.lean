import Verif.Lemmas.Value

/-!
# C04, C05, C06: the value representation
-/

namespace Mjs.Props
open Mjs Mjs.Spec.Double

/-- The kinds of values a C program can ask about. -/
inductive Kind where
  | undefined | null | boolean | number | string | foreign | object | function | ffiSig
deriving DecidableEq, Repr

/-- The public question `mjs_is_...` for each kind. -/
def asks : Kind → Val → Bool
  | .undefined => isUndefined
  | .null => isNull
  | .boolean => isBoolean
  | .number => isNumber
  | .string => isString
  | .foreign => isForeign
  | .object => isObject
  | .function => isFunction
  | .ffiSig => isFfiSig

/-- Helper: the kind a tag stands for. -/
def kindOfTag (k : Fin 16) : Option Kind :=
  match k.val with
  | 1 | 12 => some .object
  | 2 => some .foreign
  | 3 => some .undefined
  | 4 => some .boolean
  | 6 | 7 | 8 | 9 | 11 => some .string
  | 13 => some .function
  | 14 => some .ffiSig
  | 15 => some .null
  | _ => none

theorem makeTag_inj : ∀ i j : Fin 16, makeTag 1 i = makeTag 1 j → i = j := by decide

theorem asks_tag {q : Kind} {v : Val} (h : asks q v = true) (hq : q ≠ .number) :
    ∃ k : Fin 16, k ≠ 0 ∧ k ≠ 5 ∧ v &&& tagMask = makeTag 1 k ∧ kindOfTag k = some q := by
  cases q <;> simp only [asks, isUndefined, isNull, isBoolean, isString, isForeign, isObject, isFunction, isFfiSig,
    beq_iff_eq, Bool.or_eq_true] at h
  · subst h; exact ⟨3, by decide, by decide, by decide, by decide⟩
  · subst h; exact ⟨15, by decide, by decide, by decide, by decide⟩
  · exact ⟨4, by decide, by decide, h, by decide⟩
  · exact absurd rfl hq
  · rcases h with (((h | h) | h) | h) | h
    · exact ⟨6, by decide, by decide, h, by decide⟩
    · exact ⟨9, by decide, by decide, h, by decide⟩
    · exact ⟨8, by decide, by decide, h, by decide⟩
    · exact ⟨7, by decide, by decide, h, by decide⟩
    · exact ⟨11, by decide, by decide, h, by decide⟩
  · exact ⟨2, by decide, by decide, h, by decide⟩
  · rcases h with h | h
    · exact ⟨1, by decide, by decide, h, by decide⟩
    · exact ⟨12, by decide, by decide, h, by decide⟩
  · exact ⟨13, by decide, by decide, h, by decide⟩
  · exact ⟨14, by decide, by decide, h, by decide⟩

/-- **C04.** For all 2^64 values, at most one of the public classifiers holds. -/
theorem C04_one_kind (v : Val) (q q' : Kind) (h : asks q v = true) (h' : asks q' v = true) : q = q' := by
  by_cases hq : q = .number
  · by_cases hq' : q' = .number
    · rw [hq, hq']
    · obtain ⟨k, h0, h5, ht, _⟩ := asks_tag h' hq'
      subst hq
      have := isNumber_tagged k h0 h5 ht
      simp only [asks] at h
      rw [this] at h
      exact absurd h (by decide)
  · obtain ⟨k, h0, h5, ht, hk⟩ := asks_tag h hq
    by_cases hq' : q' = .number
    · subst hq'
      have := isNumber_tagged k h0 h5 ht
      simp only [asks] at h'
      rw [this] at h'
      exact absurd h' (by decide)
    · obtain ⟨k', _, _, ht', hk'⟩ := asks_tag h' hq'
      have : k = k' := makeTag_inj k k' (by rw [← ht, ← ht'])
      subst this
      rw [hk] at hk'
      exact Option.some.inj hk'

/-- The value is of kind `q` and of no other kind. -/
def IsExactly (q : Kind) (v : Val) : Prop := ∀ q', asks q' v = true ↔ q' = q

theorem isExactly_of {q : Kind} {v : Val} (h : asks q v = true) : IsExactly q v := by
  intro q'
  constructor
  · intro h'; exact C04_one_kind v q' q h' h
  · rintro rfl; exact h

/-- **C04, constructors.** Every constructor yields a value of exactly its kind: for every double, truth value, pointer,
code offset below 2^48, legitimate cell address. -/
theorem C04_constructors :
    IsExactly .undefined mkUndefined ∧ IsExactly .null mkNull ∧
    (∀ b, IsExactly .boolean (mkBoolean b)) ∧
    (∀ d, IsExactly .number (mkNumber d)) ∧
    (∀ p, IsExactly .foreign (mkForeign p).1) ∧
    (∀ off : Val, off.toNat < 2 ^ 48 → IsExactly .function (mkFunction off)) ∧
    (∀ p v, p ≠ 0#64 → objectToValue p = some v →
      IsExactly .object v ∧ isArray v = false ∧ IsExactly .object (toArrayTag v) ∧ isArray (toArrayTag v) = true) ∧
    (∀ p v, p ≠ 0#64 → ffiSigToValue p = some v → IsExactly .ffiSig v) := by
  refine ⟨isExactly_of (by decide), isExactly_of (by decide), ?_, ?_, ?_, ?_, ?_, ?_⟩
  · intro b; cases b <;> exact isExactly_of (by decide)
  · intro d
    apply isExactly_of
    simp only [asks, isNumber, mkNumber, getDouble]
    split
    · simp
    · rename_i h; simp [h]
  · intro p
    apply isExactly_of
    simp only [asks, isForeign, mkForeign, pointerToValue, beq_iff_eq]
    exact tag_mk p _ (by decide)
  · intro off h
    apply isExactly_of
    simp only [asks, isFunction, mkFunction, beq_iff_eq]
    have := tag_mk off tagFunction (by decide)
    rwa [and_compl_of_zero _ (small_and_mask off h)] at this
  · intro p v hp hv
    simp only [objectToValue, beq_iff_eq, hp, if_false] at hv
    split at hv
    · cases hv
      have e := tag_mk p tagObject (by decide)
      have e2 := tag_mk (pointerToValue p ||| tagObject) tagArray (by decide)
      refine ⟨isExactly_of ?_, ?_, isExactly_of ?_, ?_⟩
      · simp only [asks, isObject, pointerToValue, e]; decide
      · simp only [isArray, pointerToValue, e]; decide
      · simp only [asks, isObject, toArrayTag, e2]; decide
      · simp only [isArray, toArrayTag, e2]; decide
    · exact absurd hv (by simp)
  · intro p v hp hv
    simp only [ffiSigToValue, beq_iff_eq, hp, if_false] at hv
    split at hv
    · cases hv
      apply isExactly_of
      simp only [asks, isFfiSig, pointerToValue, tag_mk p tagFunctionFfi (by decide)]; decide
    · exact absurd hv (by simp)

/-- Heap addresses and code offsets meeting the hypotheses of `C04_constructors`. -/
example : objectToValue 0x7f0012345678#64 = some 0xfff17f0012345678#64 ∧
    ffiSigToValue 0xffff80001234#64 ≠ none ∧ (12345#64 : Val).toNat < 2 ^ 48 := by decide

/-- The kind `mjs_get_type` (the type names used by `typeof` and by argument checks) reports. -/
def kindOfTy : Ty → Kind
  | .undefined => .undefined
  | .null => .null
  | .boolean => .boolean
  | .number => .number
  | .string => .string
  | .foreign => .foreign
  | .objectGeneric => .object
  | .objectArray => .object
  | .objectFunction => .function

/-- `(v & MASK) >> 48` compared with `TAG >> 48` is the comparison of tags. -/
theorem shr_tag (v : Val) (k : Fin 16) : ((v &&& tagMask) >>> 48 = makeTag 1 k >>> 48) ↔ v &&& tagMask = makeTag 1 k := by
  constructor
  · intro h
    apply BitVec.eq_of_getLsbD_eq
    intro i hi
    by_cases h48 : i < 48
    · have hm : ∀ j : Fin 64, j.val < 48 → tagMask.getLsbD j.val = false := by decide
      have hk : ∀ k : Fin 16, ∀ j : Fin 64, j.val < 48 → (makeTag 1 k).getLsbD j.val = false := by decide
      rw [BitVec.getLsbD_and, hm ⟨i, hi⟩ h48, hk k ⟨i, hi⟩ h48, Bool.and_false]
    · have := congrArg (fun x => x.getLsbD (i - 48)) h
      simp only [BitVec.getLsbD_ushiftRight] at this
      rwa [show 48 + (i - 48) = i by omega] at this
  · intro h; rw [h]

/-- **C04, type names.** The type reported to scripts and argument checks agrees with the classifiers, and is defined
for every value of a kind other than an FFI signature. -/
theorem C04_getType (v : Val) :
    (∀ t, getType v = some t → asks (kindOfTy t) v = true ∨ kindOfTy t = .undefined ∨ kindOfTy t = .null) ∧
    (∀ q, asks q v = true → q ≠ .ffiSig → ∃ t, getType v = some t ∧ kindOfTy t = q) := by
  have hs : ∀ k : Fin 16, ((v &&& tagMask) >>> 48 = makeTag 1 k >>> 48) ↔ v &&& tagMask = makeTag 1 k := shr_tag v
  have h1 := hs 1; have h2 := hs 2; have h3 := hs 3; have h4 := hs 4; have h6 := hs 6; have h7 := hs 7
  have h8 := hs 8; have h9 := hs 9; have h11 := hs 11; have h12 := hs 12; have h13 := hs 13; have h15 := hs 15
  have key : getType v = if isNumber v then some .number
      else if v &&& tagMask = makeTag 1 2 then some .foreign
      else if v &&& tagMask = makeTag 1 3 then some .undefined
      else if v &&& tagMask = makeTag 1 1 then some .objectGeneric
      else if v &&& tagMask = makeTag 1 12 then some .objectArray
      else if v &&& tagMask = makeTag 1 13 then some .objectFunction
      else if v &&& tagMask = makeTag 1 6 ∨ v &&& tagMask = makeTag 1 8 ∨ v &&& tagMask = makeTag 1 9 ∨
        v &&& tagMask = makeTag 1 11 ∨ v &&& tagMask = makeTag 1 7 then some .string
      else if v &&& tagMask = makeTag 1 4 then some .boolean
      else if v &&& tagMask = makeTag 1 15 then some .null
      else none := by
    simp only [getType, tagForeign, tagUndefined, tagObject, tagArray, tagFunction, tagStringI, tagStringO, tagStringF,
      tagStringD, tagString5, tagBoolean, tagNull]
    have e1 : ((v &&& tagMask) >>> 48 = makeTag 1 1 >>> 48) = (v &&& tagMask = makeTag 1 1) := propext h1
    have e2 : ((v &&& tagMask) >>> 48 = makeTag 1 2 >>> 48) = (v &&& tagMask = makeTag 1 2) := propext h2
    have e3 : ((v &&& tagMask) >>> 48 = makeTag 1 3 >>> 48) = (v &&& tagMask = makeTag 1 3) := propext h3
    have e4 : ((v &&& tagMask) >>> 48 = makeTag 1 4 >>> 48) = (v &&& tagMask = makeTag 1 4) := propext h4
    have e6 : ((v &&& tagMask) >>> 48 = makeTag 1 6 >>> 48) = (v &&& tagMask = makeTag 1 6) := propext h6
    have e7 : ((v &&& tagMask) >>> 48 = makeTag 1 7 >>> 48) = (v &&& tagMask = makeTag 1 7) := propext h7
    have e8 : ((v &&& tagMask) >>> 48 = makeTag 1 8 >>> 48) = (v &&& tagMask = makeTag 1 8) := propext h8
    have e9 : ((v &&& tagMask) >>> 48 = makeTag 1 9 >>> 48) = (v &&& tagMask = makeTag 1 9) := propext h9
    have e11 : ((v &&& tagMask) >>> 48 = makeTag 1 11 >>> 48) = (v &&& tagMask = makeTag 1 11) := propext h11
    have e12 : ((v &&& tagMask) >>> 48 = makeTag 1 12 >>> 48) = (v &&& tagMask = makeTag 1 12) := propext h12
    have e13 : ((v &&& tagMask) >>> 48 = makeTag 1 13 >>> 48) = (v &&& tagMask = makeTag 1 13) := propext h13
    have e15 : ((v &&& tagMask) >>> 48 = makeTag 1 15 >>> 48) = (v &&& tagMask = makeTag 1 15) := propext h15
    simp only [e1, e2, e3, e4, e6, e7, e8, e9, e11, e12, e13, e15]
  constructor
  · intro t ht
    rw [key] at ht
    repeat' split at ht
    all_goals first | (cases ht) | skip
    all_goals simp only [kindOfTy, asks]
    all_goals simp_all [isForeign, isObject, isFunction, isString, isBoolean, tagForeign, tagObject, tagArray,
      tagFunction, tagStringI, tagStringO, tagStringF, tagStringD, tagString5, tagBoolean]
    all_goals first | (rename_i h; rcases h with h | h | h | h | h <;> simp [h]) | skip
  · intro q hq hf
    by_cases hn : q = .number
    · subst hn
      exact ⟨.number, by rw [key, if_pos (show isNumber v = true from hq)], rfl⟩
    · obtain ⟨k, k0, k5, ht, hk⟩ := asks_tag hq hn
      have hnn := isNumber_tagged k k0 k5 ht
      have tab : ∀ k : Fin 16, kindOfTag k ≠ some .ffiSig → kindOfTag k ≠ none →
          (if makeTag 1 k = makeTag 1 2 then some Ty.foreign
          else if makeTag 1 k = makeTag 1 3 then some .undefined
          else if makeTag 1 k = makeTag 1 1 then some .objectGeneric
          else if makeTag 1 k = makeTag 1 12 then some .objectArray
          else if makeTag 1 k = makeTag 1 13 then some .objectFunction
          else if makeTag 1 k = makeTag 1 6 ∨ makeTag 1 k = makeTag 1 8 ∨ makeTag 1 k = makeTag 1 9 ∨
            makeTag 1 k = makeTag 1 11 ∨ makeTag 1 k = makeTag 1 7 then some .string
          else if makeTag 1 k = makeTag 1 4 then some .boolean
          else if makeTag 1 k = makeTag 1 15 then some .null
          else none).map kindOfTy = kindOfTag k := by decide
      have := tab k (by rw [hk]; simpa using hf) (by rw [hk]; simp)
      rw [hk, Option.map_eq_some_iff] at this
      obtain ⟨t, ht1, ht2⟩ := this
      refine ⟨t, ?_, ht2⟩
      rw [key, hnn, ht]
      simpa using ht1

/-- **C04, violation.** For an FFI function value (what `ffi("...")` returns) the type query aborts the process:
`typeof f`, or passing `f` where a builtin checks its argument type, crashes the engine. -/
theorem C04_getType_aborts_on_ffi (p v : Val) (hp : p ≠ 0#64) (h : ffiSigToValue p = some v) : getType v = none := by
  simp only [ffiSigToValue, beq_iff_eq, hp, if_false] at h
  split at h
  · cases h
    have e := tag_mk p tagFunctionFfi (by decide)
    have hnn := isNumber_tagged 14 (by decide) (by decide) e
    simp only [getType, pointerToValue, hnn, e]
    decide
  · exact absurd h (by simp)

/-- **C05.** Boxing any double and reading it back: the same 64 bits if it is not a NaN, a NaN if it is; and the boxed
value is a number and nothing else. -/
theorem C05_number_roundtrip (d : Val) :
    (¬ IsNaN d → getDouble (mkNumber d) = d) ∧ (IsNaN d → IsNaN (getDouble (mkNumber d))) ∧
    IsExactly .number (mkNumber d) := by
  simp only [← isnan_iff]
  refine ⟨?_, ?_, C04_constructors.2.2.2.1 d⟩
  · intro h; simp [getDouble, mkNumber, h]
  · intro h; simp only [getDouble, mkNumber, h, if_true]; decide

/-- C05 meets both infinities, negative zero, the largest double and hostile NaN patterns that look like tags. -/
example : mkNumber 0xfff0000000000000#64 = 0xfff0000000000000#64 ∧ mkNumber 0x8000000000000000#64 = 0x8000000000000000#64
    ∧ isnan 0xfff1000012345678#64 = true ∧ mkNumber 0xfff1000012345678#64 = tagNan := by decide

/-- **C05, booleans.** A boxed truth value reads back and is a boolean and nothing else. -/
theorem C05_boolean_roundtrip (b : Bool) : getBool (mkBoolean b) = b ∧ IsExactly .boolean (mkBoolean b) :=
  ⟨by cases b <;> decide, C04_constructors.2.2.1 b⟩

/-- NaN is recognised by the script function `isNaN`, and only NaN. -/
theorem C05_isnan (d : Val) : getBool (opIsnan (mkNumber d)) = true ↔ IsNaN d := by
  rw [← isnan_iff]
  simp only [opIsnan, (C05_boolean_roundtrip _).1, mkNumber]
  split
  · rename_i h; simp [h]
  · rename_i h
    have : d ≠ tagNan := by intro hd; subst hd; exact h (by decide)
    simp [this, h]

/-- **C06 (partial).** A pointer with the upper 16 bits clear (every user-space pointer on the supported 64-bit
machines) survives boxing, without error.  Missing: legitimate pointers with the upper 16 bits set, see
`C06_sign_extended_pointer_lost`. -/
theorem C06_foreign_roundtrip_partial (p : Val) (hp : p.toNat < 2 ^ 48) :
    getPtr (mkForeign p).1 = p ∧ (mkForeign p).2 = false ∧ isPointerLegit p = true := by
  have h0 := small_and_mask p hp
  have hf : isForeign (mkForeign p).1 = true := (C04_constructors.2.2.2.2.1 p .foreign).2 rfl
  refine ⟨?_, ?_, ?_⟩
  · rw [getPtr, if_pos hf]
    simp only [getPtrRaw, mkForeign, pointerToValue, not_tagMask, and_compl_of_zero p h0]
    exact payload_mk p tagForeign (by decide) h0
  · simp [mkForeign, isPointerLegit, h0]
  · simp [isPointerLegit, h0]

example : (0x7fffdeadbeef#64 : Val).toNat < 2 ^ 48 := by decide

/-- **C06, other values.** Unwrapping a value that is not foreign gives NULL. -/
theorem C06_not_foreign_null (v : Val) (h : isForeign v = false) : getPtr v = 0#64 := by simp [getPtr, h]

/-- **C06, violation.** Every legitimate pointer that is not below 2^48, such as `(void *) -1` which the header
promises "will work as expected", is accepted without error but reads back as a different pointer: the upper 16 bits
are lost. -/
theorem C06_sign_extended_pointer_lost (p : Val) (hl : isPointerLegit p = true) (hp : 2 ^ 48 ≤ p.toNat) :
    (mkForeign p).2 = false ∧ getPtr (mkForeign p).1 ≠ p := by
  have hf : isForeign (mkForeign p).1 = true := (C04_constructors.2.2.2.2.1 p .foreign).2 rfl
  refine ⟨by simp [mkForeign, hl], ?_⟩
  simp only [getPtr, hf, if_true, getPtrRaw]
  intro h
  have : ((mkForeign p).1 &&& 0xFFFFFFFFFFFF#64).toNat ≤ 0xFFFFFFFFFFFF := by
    rw [BitVec.toNat_and]; exact Nat.and_le_right
  rw [h] at this
  omega

example : isPointerLegit (BitVec.allOnes 64) = true ∧ getPtr (mkForeign (BitVec.allOnes 64)).1 = 0xFFFFFFFFFFFF#64 := by
  decide

end Mjs.Props
