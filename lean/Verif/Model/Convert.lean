import Verif.Model.Str

/-!
# Model of `src/mjs_conversion.c`: truthiness
-/

namespace Mjs.Str
open Mjs

/-- C's `d != 0.0` on the bits of a double: only the two zeros compare equal to zero, so all bits but the sign are 0. -/
def neZero (d : Val) : Bool := d <<< 1 != 0#64

/-- `mjs_to_boolean_v`, mjs_conversion.c:64-76, before boxing.  `none`: the string cannot be read. -/
def toBooleanV (st : Store) (v : Val) : Option Bool :=
  ((if isString v then (getString st v).map fun (p, len) => !p.isNull && decide (len > 0) else some false).map fun str =>
    ((isBoolean v && getBool v) || (isNumber v && neZero (getDouble v)) || str || isFunction v || isForeign v || isObject v) &&
      v != tagNan)

/-- `mjs_is_truthy`, mjs_conversion.c:78-80. -/
def isTruthy (st : Store) (v : Val) : Option Bool := (toBooleanV st v).map fun b => getBool (mkBoolean b)

end Mjs.Str
