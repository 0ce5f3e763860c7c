import Verif.Model.Ffi
import Verif.Spec.Text

/-!
# Specification of FFI signatures

What a C declaration written in a signature string is, as text, and which declarations can be called.  Only the names
of the types (`CType`) and the shape of a parsed signature (`Sig`) come from the model.
-/

namespace Mjs.FfiSpec
open Mjs.Ffi Mjs.Spec

/-- Blank space: space, tab, newline, vertical tab, form feed, carriage return. -/
def Blank (s : List UInt8) : Prop := ∀ c ∈ s, c = 32 ∨ (9 ≤ c.toNat ∧ c.toNat ≤ 13)

/-- The ways a type is written. -/
inductive Spells : CType → List UInt8 → Prop
  | void : Spells .none (ascii "void")
  | userdata : Spells .userdata (ascii "userdata")
  | int : Spells .int (ascii "int")
  | bool : Spells .bool (ascii "bool")
  | double : Spells .double (ascii "double")
  | float : Spells .float (ascii "float")
  | charPtr : Spells .charPtr (ascii "char*")
  | charPtr' : Spells .charPtr (ascii "char *")
  | voidPtr : Spells .voidPtr (ascii "void*")
  | voidPtr' : Spells .voidPtr (ascii "void *")
  | mgStrPtr : Spells .mgStrPtr (ascii "struct mg_str*")
  | mgStrPtr' : Spells .mgStrPtr (ascii "struct mg_str *")
  | mgStr : Spells .mgStr (ascii "struct mg_str")

/-- A type with blank space around it. -/
def TypeText (t : CType) (s : List UInt8) : Prop := ∃ a w b, Blank a ∧ Spells t w ∧ Blank b ∧ s = a ++ w ++ b

/-- Texts joined by commas (at least one). -/
inductive Joined {α : Type} (R : α → List UInt8 → Prop) : List α → List UInt8 → Prop
  | one {a s} : R a s → Joined R [a] s
  | more {a s l s'} : R a s → Joined R l s' → Joined R (a :: l) (s ++ 44 :: s')

/-- The text between the parentheses of a parameter list: nothing or `void` if there are no parameters. -/
inductive ListText {α : Type} (R : α → List UInt8 → Prop) : List α → List UInt8 → Prop
  | nil : ListText R [] []
  | void {s} : TypeText .none s → ListText R [] s
  | some {l s} : Joined R l s → ListText R l s

/-- A parameter: a value of some type, or a callback. -/
inductive Param where
  | plain (t : CType)
  | fn (ret : CType) (args : List CType)

/-- A parameter type as text: any type but `void`. -/
def PlainText (t : CType) (s : List UInt8) : Prop := t ≠ .none ∧ TypeText t s

/-- A parameter as text: a type, or a function pointer such as `int (*cb)(int, userdata)`. -/
def ParamText : Param → List UInt8 → Prop
  | .plain t, s => PlainText t s
  | .fn ret args, s => ∃ r nm m as z, TypeText ret r ∧ (∀ c ∈ nm, c ≠ 0 ∧ c ≠ 40 ∧ c ≠ 41) ∧ Blank m ∧
      ListText PlainText args as ∧ Blank z ∧ s = r ++ 40 :: nm ++ 41 :: m ++ 40 :: as ++ 41 :: z

/-- A declaration of a C function. -/
structure Decl where
  ret : CType
  name : List UInt8
  params : List Param

/-- A letter, digit or underscore. -/
def NameChar (c : UInt8) : Prop :=
  (48 ≤ c.toNat ∧ c.toNat ≤ 57) ∨ (65 ≤ c.toNat ∧ c.toNat ≤ 90) ∨ (97 ≤ c.toNat ∧ c.toNat ≤ 122) ∨ c = 95

/-- A declaration as text, such as `int f(char *, void (*cb)(userdata), userdata)`; what comes after it must not have
another `(`.  Blank space must part the name from the type unless the type ends in `*`. -/
def DeclText (d : Decl) (s : List UInt8) : Prop :=
  ∃ lead r sp sp' as tail, Blank lead ∧ Spells d.ret r ∧ Blank sp ∧
    (sp ≠ [] ∨ d.ret = .charPtr ∨ d.ret = .voidPtr ∨ d.ret = .mgStrPtr) ∧
    d.name ≠ [] ∧ (∀ c ∈ d.name, NameChar c) ∧ Blank sp' ∧ ListText ParamText d.params as ∧ 40 ∉ tail ∧
    s = lead ++ r ++ sp ++ d.name ++ sp' ++ 40 :: as ++ 41 :: tail

/-- The callbacks that can be passed: up to six parameters, exactly one of them the user data, result `void`, `int` or
`bool`, no `float`, and a `double` only as the only one and with the user data first or second. -/
def CbOk (ret : CType) (args : List CType) : Prop :=
  ret ∈ [CType.none, .int, .bool] ∧ args.length ≤ 6 ∧ args.count .userdata = 1 ∧
  (∀ t ∈ args, t ∈ [CType.userdata, .int, .bool, .double, .charPtr, .voidPtr, .mgStrPtr]) ∧
  (args.count .double = 0 ∨ (args.count .double = 1 ∧ (args[0]? = some .userdata ∨ args[1]? = some .userdata)))

/-- The type of a parameter. -/
def Param.type : Param → CType
  | .plain t => t
  | .fn _ _ => .callback

/-- A callback among the parameters must be one that can be passed. -/
def Param.ok : Param → Prop
  | .plain _ => True
  | .fn r as => CbOk r as

/-- The declarations of functions that can be called: a supported result, up to six parameters of supported types,
at most one callback, at most one user data, and either both or neither. -/
def DeclOk (d : Decl) : Prop :=
  d.ret ∈ [CType.none, .int, .bool, .double, .float, .voidPtr, .charPtr] ∧ d.params.length ≤ 6 ∧
  (∀ p ∈ d.params, p.type ∈
    [CType.userdata, .callback, .int, .bool, .double, .float, .charPtr, .voidPtr, .mgStrPtr]) ∧
  (d.params.map Param.type).count .callback ≤ 1 ∧ (d.params.map Param.type).count .userdata ≤ 1 ∧
  (CType.callback ∈ d.params.map Param.type ↔ CType.userdata ∈ d.params.map Param.type) ∧
  ∀ p ∈ d.params, p.ok

instance (r : CType) (as : List CType) : Decidable (CbOk r as) := by unfold CbOk; infer_instance

instance (p : Param) : Decidable p.ok := by cases p <;> unfold Param.ok <;> infer_instance

instance (d : Decl) : Decidable (DeclOk d) := by unfold DeclOk; infer_instance

/-- The C function made up for a callback: the one for words with the user data at its place, or one of the two that
take a `double`. -/
def implOf (args : List CType) : CbImpl :=
  if args.count .double = 0 then .words (args.idxOf .userdata + 1)
  else if args[0]? = some .userdata then .wpd else .wdp

/-- The types of a signature: the result, the parameters, and `void` up to seven. -/
def padded (ret : CType) (args : List CType) : List CType := ret :: args ++ List.replicate (6 - args.length) .none

/-- The signature of a callback. -/
def cbSigOf (ret : CType) (args : List CType) : Sig :=
  { cb := none, vals := padded ret args, fn := some (.impl (implOf args)), argsCnt := args.length, isCallback := true,
    isValid := true }

/-- The signature of the callback among the parameters. -/
def cbOf (ps : List Param) : Option Sig :=
  ps.findSome? fun p => match p with
    | .plain _ => none
    | .fn r as => some (cbSigOf r as)

/-- The signature of a declaration whose function is at `addr`. -/
def sigOf (addr : Nat) (d : Decl) : Sig :=
  { cb := cbOf d.params, vals := padded d.ret (d.params.map Param.type), fn := some (.sym addr),
    argsCnt := d.params.length, isCallback := false, isValid := true }

/-- The parameters of a parsed signature (`void` ends them). -/
def params (s : Sig) : List CType := (s.vals.drop 1).takeWhile (· ≠ .none)

/-- What holds of every signature: a C function to call, between zero and six parameters of known types, with their
number stored, at most one of them the user data, and no `struct mg_str` by value. -/
def Formed (s : Sig) : Prop :=
  s.fn.isSome ∧ s.isValid = true ∧ s.argsCnt = (params s).length ∧ (params s).length ≤ 6 ∧
  CType.mgStr ∉ params s ∧ (params s).count .userdata ≤ 1

/-- The signature of a callback that JavaScript can be called through: exactly one user data, no callback of its own. -/
def CallbackFormed (s : Sig) : Prop :=
  Formed s ∧ s.vals.headD .none ∈ [CType.none, .int, .bool, .double, .float, .voidPtr] ∧
  CType.userdata ∈ params s ∧ CType.callback ∉ params s

/-- The signature of a function that can be called: a supported result, at most one callback, a callback if and only if
there is user data, and if so the callback's own signature. -/
def FunctionFormed (s : Sig) : Prop :=
  Formed s ∧ s.vals.headD .none ∈ [CType.none, .int, .bool, .double, .float, .voidPtr, .charPtr] ∧
  (params s).count .callback ≤ 1 ∧ (CType.callback ∈ params s ↔ CType.userdata ∈ params s) ∧
  (CType.callback ∈ params s → ∃ c, s.cb = some c ∧ CallbackFormed c)

end Mjs.FfiSpec
