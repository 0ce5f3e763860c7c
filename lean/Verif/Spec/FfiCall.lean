import Verif.Model.FfiCall
import Verif.Spec.Ffi
import Verif.Spec.Double

/-!
# Specification of calls through FFI

Which JavaScript values fit a C parameter, what the C function is to receive for them, and what the registrations of
callbacks are after a history of calls.
-/

namespace Mjs.FfiSpec
open Mjs.Ffi Mjs.Spec.Double

/-- The number `v` without its fraction is `n`. -/
def TruncatesTo (v : Val) (n : Int) : Prop := Finite v ∧ (scaled v).tdiv (2 ^ 1074) = n

/-- A value fits a parameter (that is no callback and no user data), and is received as: a word or a floating point argument. -/
inductive Converts (P : Fpu) : CType → Val → Passed → Prop
  | int {v n} : TruncatesTo v n → -2 ^ 31 ≤ n → n < 2 ^ 31 → Converts P .int v (.word (.bits (BitVec.ofInt 64 n)))
  | intBool (b : Bool) : Converts P .int (mkBoolean b) (.word (.bits (if b then 1#64 else 0#64)))
  | bool {v n} : TruncatesTo v n → -2 ^ 31 ≤ n → n < 2 ^ 31 → Converts P .bool v (.word (.bits (if n = 0 then 0#64 else 1#64)))
  | boolBool (b : Bool) : Converts P .bool (mkBoolean b) (.word (.bits (if b then 1#64 else 0#64)))
  | double {v} : isNumber v = true → Converts P .double v (.double (.bits v))
  | float {v} : isNumber v = true → Converts P .float v (.float (.bits ((P.narrow v).setWidth 64)))
  | charPtr {v} : isString v = true → Converts P .charPtr v (.word (.text v))
  | charNull : Converts P .charPtr mkNull (.word (.bits 0#64))
  | voidText {v} : isString v = true → Converts P .voidPtr v (.word (.text v))
  | voidPtr {v} : isForeign v = true → Converts P .voidPtr v (.word (.bits (getPtr v)))
  | voidNull : Converts P .voidPtr mkNull (.word (.bits 0#64))
  | mgStr {v} : isString v = true → Converts P .mgStrPtr v (.word (.mgText v))

/-- A value fits a parameter: it converts, or the parameter is a callback and the value can be called, or it is user data. -/
def Fits (P : Fpu) (t : CType) (v : Val) : Prop :=
  t = .userdata ∨ (t = .callback ∧ (isFunction v = true ∨ isForeign v = true ∨ isFfiSig v = true)) ∨ ∃ p, Converts P t v p

/-- A value has the wrong type for a parameter. -/
def WrongType (t : CType) (v : Val) : Prop :=
  match t with
  | .int | .bool => isNumber v = false ∧ isBoolean v = false
  | .double | .float => isNumber v = false
  | .charPtr => isString v = false ∧ isNull v = false
  | .voidPtr => isString v = false ∧ isForeign v = false ∧ isNull v = false
  | .mgStrPtr => isString v = false
  | .callback => isFunction v = false ∧ isForeign v = false ∧ isFfiSig v = false
  | _ => False

/-- What the C function is to receive for the value `v` of a parameter of type `t`: the converted value; for a callback the
function made up for it; for the user data a registration that holds the callback `f` and the user data. -/
def Receives (P : Fpu) (sig : Sig) (regs : List Node) (f : Option Val) (t : CType) (v : Val) (p : Passed) : Prop :=
  (t = .callback ∧ ∃ c g, sig.cb = some c ∧ c.fn = some g ∧ p = .word (.code g)) ∨
  (t = .userdata ∧ ∃ n ∈ regs, n.userdata = v ∧ some n.func = f ∧ p = .word (.reg n.id)) ∨
  (t ≠ .callback ∧ t ≠ .userdata ∧ Converts P t v p)

/-- The floating point arguments that the code can pass: not `double` together with `float`, at most three parameters if there is one,
and no `float` with a `double` result or the other way round. -/
def FpOk (ret : CType) (ts : List CType) : Prop :=
  ¬ (CType.double ∈ ts ∧ CType.float ∈ ts) ∧ (CType.double ∈ ts ∨ CType.float ∈ ts → ts.length ≤ 3) ∧
  (ret = .double → CType.float ∉ ts) ∧ (ret = .float → CType.double ∉ ts)

/-- What JavaScript is to receive for a result of type `t` that C left in 64 bits. -/
inductive Returns (P : Fpu) : CType → BitVec 64 → Ret → Prop
  | void {c} : Returns P .none c (.val mkUndefined)
  | int {c v} : IsInt v (c.setWidth 32).toInt → Returns P .int c (.val v)
  | bool {c} (b : Bool) : (b = true ↔ c ≠ 0#64) → Returns P .bool c (.val (mkBoolean b))
  | double {d} : ¬ IsNaN d → Returns P .double d (.val d)
  | nan {d} : IsNaN d → Returns P .double d (.val tagNan)
  | float {c} : ¬ IsNaN (P.widen (c.setWidth 32)) → Returns P .float c (.val (P.widen (c.setWidth 32)))
  | nanf {c} : IsNaN (P.widen (c.setWidth 32)) → Returns P .float c (.val tagNan)
  | text {p} : p ≠ 0#64 → Returns P .charPtr p (.copyOf p)
  | null : Returns P .charPtr 0#64 (.val mkNull)
  | ptr {p v} : isForeign v = true → getPtr v = p → Returns P .voidPtr p (.val v)

/-- The value given for the callback. -/
def cbVal (ts : List CType) (vs : List Val) : Option Val := vs[ts.idxOf .callback]?

/-- The value given for the user data. -/
def udVal (ts : List CType) (vs : List Val) : Option Val := vs[ts.idxOf .userdata]?

/-! ## Registrations -/

/-- Something that happens to the registrations: a call with a callback (its signature, the function, the user data, the memory granted
if needed), or `ffi_cb_free`. -/
inductive RegOp where
  | pass (cb : Sig) (f u : Val) (id : Nat)
  | free (f u : Val)

/-- The registrations that there should be after a history (the last operation first): for a function and user data, the
memory and the signature of the registration. -/
def expected : List RegOp → Val → Val → Option (Nat × Sig)
  | [], _, _ => none
  | .pass cb f u id :: h, f', u' =>
    if f' = f ∧ u' = u then some ((expected h f u).getD (id, cb)) else expected h f' u'
  | .free f u :: h, f', u' => if f' = f ∧ u' = u ∧ isFunction f = true then none else expected h f' u'

/-- The registrations that the code has after a history. -/
def actual : List RegOp → List Node
  | [] => []
  | .pass cb f u id :: h => match register (some id) (actual h) cb f u with
    | .ok (l, _) => l
    | .error _ => actual h
  | .free f u :: h => (cbFree (actual h) f u).1

/-- The allocator grants memory that is not in use. -/
def FreshIds : List RegOp → Prop
  | [] => True
  | .pass _ _ _ id :: h => (∀ n ∈ actual h, n.id ≠ id) ∧ FreshIds h
  | .free _ _ :: h => FreshIds h

/-! ## Callbacks -/

/-- What C passes for an argument of a callback, and what JavaScript is to receive. -/
inductive Arrives (P : Fpu) (userdata : Val) (id : Nat) : CType → Passed → Ret → Prop
  | userdata : Arrives P userdata id .userdata (.word (.reg id)) (.val userdata)
  | int (n : Int) (w : BitVec 64) (v : Val) : w.setWidth 32 = BitVec.ofInt 32 n → -2 ^ 31 ≤ n → n < 2 ^ 31 → IsInt v n →
      Arrives P userdata id .int (.word (.bits w)) (.val v)
  | bool (b : Bool) : Arrives P userdata id .bool (.word (.bits (if b then 1#64 else 0#64))) (.val (mkBoolean b))
  | double {d} : ¬ IsNaN d → Arrives P userdata id .double (.double (.bits d)) (.val d)
  | nan {d} : IsNaN d → Arrives P userdata id .double (.double (.bits d)) (.val tagNan)
  | text {p} : p ≠ 0#64 → Arrives P userdata id .charPtr (.word (.bits p)) (.copyOf p)
  | null : Arrives P userdata id .charPtr (.word (.bits 0#64)) .empty
  | ptr {p v} : isForeign v = true → getPtr v = p → Arrives P userdata id .voidPtr (.word (.bits p)) (.val v)
  | mgStr {p} : p ≠ 0#64 → Arrives P userdata id .mgStrPtr (.word (.bits p)) (.copyOfMg p)

/-- What C may pass for the theorem to hold: an `int` that is not negative and fills its register with zeros, a pointer that a foreign
value can hold, a `struct mg_str` that is there. -/
def Passable (id : Nat) (t : CType) (p : Passed) : Prop :=
  match t with
  | .userdata => p = .word (.reg id)
  | .int => ∃ w, w.toNat < 2 ^ 31 ∧ p = .word (.bits w)
  | .bool => ∃ b : Bool, p = .word (.bits (if b then 1#64 else 0#64))
  | .double => ∃ d, p = .double (.bits d)
  | .charPtr => ∃ w, p = .word (.bits w)
  | .voidPtr => ∃ w, w.toNat < 2 ^ 48 ∧ p = .word (.bits w)
  | .mgStrPtr => ∃ w, w ≠ 0#64 ∧ p = .word (.bits w)
  | _ => False

end Mjs.FfiSpec
