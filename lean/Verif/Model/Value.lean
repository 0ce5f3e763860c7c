/-!
# Model of the value representation: `src/mjs_core.h`, `src/mjs_primitive.c`, parts of `mjs_core.c`,
`mjs_string.c`, `mjs_object.c`, `mjs_array.c`, `mjs_ffi.c`

A value (`mjs_val_t`) is 64 bits: either the bits of a double, or one of the NaN patterns with a type tag in the
upper 16 bits and a payload in the lower 48.
-/

namespace Mjs

/-- `mjs_val_t`, mjs_core_public.h:38: `typedef uint64_t mjs_val_t`. -/
abbrev Val := BitVec 64

/-- `MAKE_TAG(s, t)`, mjs_core.h:56-57. -/
def makeTag (s t : Nat) : Val := (BitVec.ofNat 64 s <<< 63) ||| (0x7ff0#64 <<< 48) ||| (BitVec.ofNat 64 t <<< 48)

/-- The tags of mjs_core.h:59-73. -/
def tagObject : Val := makeTag 1 1
@[inherit_doc tagObject] def tagForeign : Val := makeTag 1 2
@[inherit_doc tagObject] def tagUndefined : Val := makeTag 1 3
@[inherit_doc tagObject] def tagBoolean : Val := makeTag 1 4
@[inherit_doc tagObject] def tagNan : Val := makeTag 1 5
@[inherit_doc tagObject] def tagStringI : Val := makeTag 1 6
@[inherit_doc tagObject] def tagString5 : Val := makeTag 1 7
@[inherit_doc tagObject] def tagStringO : Val := makeTag 1 8
@[inherit_doc tagObject] def tagStringF : Val := makeTag 1 9
@[inherit_doc tagObject] def tagStringC : Val := makeTag 1 10
@[inherit_doc tagObject] def tagStringD : Val := makeTag 1 11
@[inherit_doc tagObject] def tagArray : Val := makeTag 1 12
@[inherit_doc tagObject] def tagFunction : Val := makeTag 1 13
@[inherit_doc tagObject] def tagFunctionFfi : Val := makeTag 1 14
@[inherit_doc tagObject] def tagNull : Val := makeTag 1 15

/-- `MJS_TAG_MASK`, mjs_core.h:75. -/
def tagMask : Val := makeTag 1 15

/-- `isnan` of the C library on the bits of an IEEE 754 double: exponent field all ones, fraction not zero. -/
def isnan (b : Val) : Bool := b.extractLsb' 52 11 == 2047#11 && b.extractLsb' 0 52 != 0#52

/-- `MJS_NULL`, `mjs_mk_null`, mjs_primitive_public.h:16, mjs_primitive.c:10-12. -/
def mkNull : Val := tagNull
/-- `mjs_is_null`, mjs_primitive.c:14-16. -/
def isNull (v : Val) : Bool := v == mkNull
/-- `MJS_UNDEFINED`, `mjs_mk_undefined`, mjs_primitive_public.h:19, mjs_primitive.c:18-20. -/
def mkUndefined : Val := tagUndefined
/-- `mjs_is_undefined`, mjs_primitive.c:22-24. -/
def isUndefined (v : Val) : Bool := v == mkUndefined

/-- `mjs_mk_number`, mjs_primitive.c:26-41; the argument is the bit pattern of the double. -/
def mkNumber (d : Val) : Val := if isnan d then tagNan else d
/-- `mjs_get_double`, mjs_primitive.c:43-56: the bits are reinterpreted. -/
def getDouble (v : Val) : Val := v
/-- `mjs_is_number`, mjs_primitive.c:72-74. -/
def isNumber (v : Val) : Bool := v == tagNan || !isnan (getDouble v)

/-- `mjs_mk_boolean`, mjs_primitive.c:76-79; the C truth value of the argument is a `Bool` here. -/
def mkBoolean (b : Bool) : Val := (if b then 1#64 else 0#64) ||| tagBoolean
/-- `mjs_is_boolean`, mjs_primitive.c:90-92. -/
def isBoolean (v : Val) : Bool := (v &&& tagMask) == tagBoolean
/-- `mjs_get_bool`, mjs_primitive.c:81-88. -/
def getBool (v : Val) : Bool := if isBoolean v then (v &&& 1#64) != 0#64 else false

/-- `MJS_IS_POINTER_LEGIT`, mjs_primitive.c:94-95: `~0` is an `int`, so it is sign-extended to all ones. -/
def isPointerLegit (n : Val) : Bool := (n &&& tagMask) == 0#64 || (n &&& tagMask) == (BitVec.allOnes 64 &&& tagMask)

/-- The value computed by `mjs_pointer_to_value`, mjs_primitive.c:97-104 (and by `mjs_legit_pointer_to_value`,
106-111).  For a pointer that is not legitimate the former also reports a TypeError, the latter aborts; callers in
the model account for that. -/
def pointerToValue (p : Val) : Val := p &&& ~~~tagMask

/-- `get_ptr`, mjs_primitive.c:113-115. -/
def getPtrRaw (v : Val) : Val := v &&& 0xFFFFFFFFFFFF#64

/-- `mjs_is_foreign`, mjs_primitive.c:140-142. -/
def isForeign (v : Val) : Bool := (v &&& tagMask) == tagForeign
/-- `mjs_mk_foreign`, `mjs_mk_foreign_func`, mjs_primitive.c:125-138; the `Bool` says whether a TypeError is set. -/
def mkForeign (p : Val) : Val × Bool := (pointerToValue p ||| tagForeign, !isPointerLegit p)
/-- `mjs_get_ptr`, mjs_primitive.c:117-123; NULL is 0. -/
def getPtr (v : Val) : Val := if isForeign v then getPtrRaw v else 0#64

/-- `mjs_mk_function`, mjs_primitive.c:144-147. -/
def mkFunction (off : Val) : Val := off ||| tagFunction
/-- `mjs_is_function`, mjs_primitive.c:149-151. -/
def isFunction (v : Val) : Bool := (v &&& tagMask) == tagFunction
/-- `mjs_get_func_addr`, mjs_core.c:198-200. -/
def getFuncAddr (v : Val) : Val := v &&& ~~~tagMask

/-- `mjs_is_string`, mjs_string.c:38-43. -/
def isString (v : Val) : Bool :=
  let t := v &&& tagMask
  t == tagStringI || t == tagStringF || t == tagStringO || t == tagString5 || t == tagStringD

/-- `mjs_is_object`, mjs_object.c:45-48. -/
def isObject (v : Val) : Bool := (v &&& tagMask) == tagObject || (v &&& tagMask) == tagArray
/-- `mjs_is_array`, mjs_array.c:39-41. -/
def isArray (v : Val) : Bool := (v &&& tagMask) == tagArray

/-- `mjs_object_to_value`, mjs_object.c:16-22; `none`: the assert of mjs_primitive.c:109 fails. -/
def objectToValue (p : Val) : Option Val :=
  if p == 0#64 then some mkNull
  else if isPointerLegit p then some (pointerToValue p ||| tagObject) else none
/-- The change of tag in `mjs_mk_array`, mjs_array.c:33-35. -/
def toArrayTag (v : Val) : Val := (v &&& ~~~tagMask) ||| tagArray

/-- `mjs_ffi_sig_to_value`, mjs_ffi.c:606-612. -/
def ffiSigToValue (p : Val) : Option Val :=
  if p == 0#64 then some mkNull
  else if isPointerLegit p then some (pointerToValue p ||| tagFunctionFfi) else none
/-- `mjs_is_ffi_sig`, mjs_ffi.c:614-616. -/
def isFfiSig (v : Val) : Bool := (v &&& tagMask) == tagFunctionFfi

/-- `enum mjs_type`, mjs_core.h:20-37. -/
inductive Ty where
  | undefined | null | boolean | number | string | foreign | objectGeneric | objectArray | objectFunction
deriving DecidableEq, Repr

/-- `mjs_get_type`, mjs_core.c:202-233; `none` is the `abort()` of line 230. -/
def getType (v : Val) : Option Ty :=
  if isNumber v then some .number
  else
    let t := (v &&& tagMask) >>> 48
    if t = tagForeign >>> 48 then some .foreign
    else if t = tagUndefined >>> 48 then some .undefined
    else if t = tagObject >>> 48 then some .objectGeneric
    else if t = tagArray >>> 48 then some .objectArray
    else if t = tagFunction >>> 48 then some .objectFunction
    else if t = tagStringI >>> 48 ∨ t = tagStringO >>> 48 ∨ t = tagStringF >>> 48 ∨ t = tagStringD >>> 48 ∨
        t = tagString5 >>> 48 then some .string
    else if t = tagBoolean >>> 48 then some .boolean
    else if t = tagNull >>> 48 then some .null
    else none

/-- `mjs_op_isnan`, mjs_primitive.c:153-160, on its argument. -/
def opIsnan (v : Val) : Val := mkBoolean (v == tagNan)

end Mjs
