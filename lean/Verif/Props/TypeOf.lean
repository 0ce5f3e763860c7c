import Verif.Props.Index

/-!
# C80: typeof

`Means E F d e vm out` says that the expression `e`, in the state `vm`, ends with `out`.
-/

namespace Mjs.Props
open Mjs Mjs.Spec Mjs.Core Mjs.Str Mjs.Obj Mjs.Code Mjs.Sem Mjs.Exec Spec.Double

/-- The text that `typeof` gives for a value. -/
inductive TypeText (v : Val) : List UInt8 → Prop where
  | undefined (h : isUndefined v = true) : TypeText v (txt "undefined")
  | null (h : isNull v = true) : TypeText v (txt "null")
  | boolean (h : isBoolean v = true) : TypeText v (txt "boolean")
  | number (h : isNumber v = true) : TypeText v (txt "number")
  | string (h : isString v = true) : TypeText v (txt "string")
  | foreign (h : isForeign v = true) : TypeText v (txt "foreign_ptr")
  | object (h : isObject v = true) (h' : isArray v = false) : TypeText v (txt "object")
  | array (h : isArray v = true) : TypeText v (txt "array")
  | function (h : isFunction v = true) : TypeText v (txt "function")

/-- The type of the model has this text. -/
theorem getType_text {v : Val} {s : List UInt8} (h : TypeText v s) : ∃ t, getType v = some t ∧ typeName t = s := by
  have key : ∀ q t, asks q v = true → q ≠ .ffiSig → (∀ t', kindOfTy t' = q → t' = t) → getType v = some t := fun q t hq hn ht => by
    obtain ⟨t', e, hk⟩ := (C04_getType v).2 q hq hn
    rw [e, ht t' hk]
  cases h with
  | undefined h => exact ⟨_, key .undefined .undefined h (by decide) (by intro t; cases t <;> decide), rfl⟩
  | null h => exact ⟨_, key .null .null h (by decide) (by intro t; cases t <;> decide), rfl⟩
  | boolean h => exact ⟨_, key .boolean .boolean h (by decide) (by intro t; cases t <;> decide), rfl⟩
  | number h => exact ⟨_, key .number .number h (by decide) (by intro t; cases t <;> decide), rfl⟩
  | string h => exact ⟨_, key .string .string h (by decide) (by intro t; cases t <;> decide), rfl⟩
  | foreign h => exact ⟨_, key .foreign .foreign h (by decide) (by intro t; cases t <;> decide), rfl⟩
  | function h => exact ⟨_, key .function .objectFunction h (by decide) (by intro t; cases t <;> decide), rfl⟩
  | object h ha =>
    have e : v &&& tagMask = makeTag 1 1 := by
      unfold isObject at h
      unfold isArray at ha
      rw [ha, Bool.or_false, beq_iff_eq] at h
      exact h
    refine ⟨.objectGeneric, ?_, rfl⟩
    simp only [getType, isNumber_tagged 1 (by decide) (by decide) e, e]
    decide
  | array ha =>
    have e : v &&& tagMask = makeTag 1 12 := by
      unfold isArray at ha
      rw [beq_iff_eq] at ha
      exact ha
    refine ⟨.objectArray, ?_, rfl⟩
    simp only [getType, isNumber_tagged 12 (by decide) (by decide) e, e]
    decide

/-- Every value but the functions made by `ffi` has exactly one such text. -/
theorem C80_one (v : Val) : (∀ s s', TypeText v s → TypeText v s' → s = s') ∧ (∀ q, asks q v = true → q ≠ .ffiSig → ∃ s, TypeText v s) := by
  refine ⟨fun s s' h h' => ?_, fun q hq hn => ?_⟩
  · obtain ⟨t, e, rfl⟩ := getType_text h
    obtain ⟨t', e', rfl⟩ := getType_text h'
    rw [e] at e'
    cases e'
    rfl
  · cases q with
    | undefined => exact ⟨_, .undefined hq⟩
    | null => exact ⟨_, .null hq⟩
    | boolean => exact ⟨_, .boolean hq⟩
    | number => exact ⟨_, .number hq⟩
    | string => exact ⟨_, .string hq⟩
    | foreign => exact ⟨_, .foreign hq⟩
    | object =>
      cases ha : isArray v with
      | false => exact ⟨_, .object hq ha⟩
      | true => exact ⟨_, .array ha⟩
    | function => exact ⟨_, .function hq⟩
    | ffiSig => exact absurd rfl hn

variable {E : Env} [Natives E] {F : Nat → Option Fn} {d : Nat} {cmem : Nat → Option UInt8} {ops : List ObjOp} {vm vm1 : Vm} {e : Expr} {v : Val}

/-- **C80 (partial).** `typeof e` evaluates `e` and is the text for its value.  Missing: functions made by `ffi`, see the violation. -/
theorem C80_typeof_partial {s : List UInt8} (h1 : Means E F d e vm (.ok vm1 v)) (h : Scoped cmem E vm1 ops) (hok : vm1.error = .ok) (hs : TypeText v s)
    (hg : Granted vm1.heap s.length (vm1.al 0)) :
    ∃ vm2 r, Means E F (d + 1) (.un .typeof e) vm (.ok vm2 r) ∧ Kept cmem E ops s.length vm1 vm2 ∧ Reads vm2.heap.str r s := by
  have hl : s.length < 2 ^ 32 := by cases hs <;> decide
  obtain ⟨t, ht, hn⟩ := getType_text hs
  obtain ⟨u, k, e1, g1, g2, g3, g4, g5, g6, g7⟩ := mkStr_name h hl hg
  obtain ⟨hkeep, hreq⟩ := mkStr_keeps h hg e1
  obtain ⟨n, hn1⟩ := h1
  refine ⟨u, k, ⟨n + 1, ?_⟩, ⟨g1, g4, g3, g5, hkeep, g7, hreq, g6⟩, g2.reads.reads⟩
  rw [eval, bind_ok hn1]
  show unary .typeof v vm1 = _
  refine prim_ok (f := fun vm => (getType v).bind fun t => mkStr vm (typeName t)) ?_ (g4.trans hok)
  show (getType v).bind _ = _
  rw [ht, Option.bind_some, hn, e1]

/-- **C80, violation.** `typeof` of a function made by `ffi` ends the process (an `abort` in `mjs_get_type`): it has no outcome in the model. -/
theorem C80_violation_ffi (p : Val) (hp : p ≠ 0#64) (hv : ffiSigToValue p = some v) (h1 : Means E F d e vm (.ok vm1 v)) :
    ¬ ∃ out, Means E F (d + 1) (.un .typeof e) vm out := by
  rintro ⟨out, n, hn⟩
  cases n with
  | zero => rw [eval] at hn; cases hn
  | succ n =>
    rw [eval] at hn
    obtain ⟨n1, h1⟩ := h1
    have hm : eval E F (n + n1) d e vm = some (.ok vm1 v) := eval_mono h1 (by omega) (Nat.le_refl _)
    rcases bind_some hn with ⟨u, w, e1, e2⟩ | ⟨u, e1, _⟩
    · have := eval_mono e1 (show n ≤ n + n1 by omega) (Nat.le_refl d)
      rw [hm] at this
      cases this
      have : unary .typeof v vm1 = none := by
        show prim (fun vm => (getType v).bind fun t => mkStr vm (typeName t)) vm1 = none
        rw [prim, C04_getType_aborts_on_ffi p v hp hv]
        rfl
      rw [this] at e2
      cases e2
    · have := eval_mono e1 (show n ≤ n + n1 by omega) (Nat.le_refl d)
      rw [hm] at this
      cases this

/-- `typeof [..]`, `typeof 5` and the value of `ffi`. -/
example (F : Nat → Option Fn) : ∃ vm vm2 r vm3 r3, Means textEnv F 2 (.un .typeof .this) vm (.ok vm2 r) ∧ Reads vm2.heap.str r (txt "object") ∧
    Means textEnv F 2 (.un .typeof (.int 5)) vm (.ok vm3 r3) ∧ Reads vm3.heap.str r3 (txt "number") := by
  obtain ⟨vm, hv, h, he, hg⟩ := object_this
  have hc : created [ObjOp.new vm.this] vm.this := .inl rfl
  obtain ⟨vm2, r, a1, _, a2⟩ := C80_typeof_partial (E := textEnv) (F := F) (means_this (d := 0) vm) h he (.object (created_isObject h hc) hv)
    (hg 0 _ (by decide))
  obtain ⟨vm3, r3, b1, _, b2⟩ := C80_typeof_partial (E := textEnv) (F := F) (means_int (d := 0) 5 (by decide) vm) h he
    (.number (isNumber_finite (mkInt_isInt 5 (by decide)).1)) (hg 0 _ (by decide))
  exact ⟨vm, vm2, r, vm3, r3, a1, a2, b1, b2⟩

/-- There are functions made by `ffi`. -/
example (F : Nat → Option Fn) (vm : Vm) : ∃ v, ffiSigToValue 0x7f0012345678#64 = some v ∧
    ¬ ∃ out, Means textEnv F 2 (.un .typeof .this) { vm with this := v } out :=
  ⟨_, rfl, C80_violation_ffi 0x7f0012345678#64 (by decide) rfl (means_this (d := 0) _)⟩

end Mjs.Props
