import Verif.Model.Create
import Verif.Spec.JsonValue

/-!
# What a new engine has

The names scripts can use in a new engine, and what they stand for.
-/

namespace Mjs.Spec
open Mjs Mjs.Str Mjs.Obj Mjs.Core Mjs.Exec Mjs.Create

/-- The global names; `g` is the global object, `j` the object `JSON`, `o` the object `Object`. -/
def globalNames (f : Fns) (g j o : Val) : List (List UInt8 × Val) :=
  [(txt "isNaN", mkFn f.isNaN), (txt "NaN", tagNan), (txt "Object", o), (txt "JSON", j), (txt "s2o", mkFn f.s2o),
   (txt "chr", mkFn f.chr), (txt "gc", mkFn f.gc), (txt "die", mkFn f.die), (txt "getMJS", mkFn f.getMJS),
   (txt "mkstr", mkFn f.mkstr), (txt "ffi_cb_free", mkFn f.ffiCbFree), (txt "ffi", mkFn f.ffi), (txt "print", mkFn f.print),
   (txt "load", mkFn f.load), (txt "global", g)]

/-- The members of `JSON`. -/
def jsonNames (f : Fns) : List (List UInt8 × Val) := [(txt "parse", mkFn f.jsonParse), (txt "stringify", mkFn f.jsonStringify)]

/-- The members of `Object`. -/
def objectNames (f : Fns) : List (List UInt8 × Val) := [(txt "create", mkFn f.objectCreate)]

/-- All names. -/
def allNames : List (List UInt8) :=
  [txt "global", txt "load", txt "print", txt "ffi", txt "ffi_cb_free", txt "mkstr", txt "getMJS", txt "die", txt "gc", txt "chr", txt "s2o",
   txt "stringify", txt "parse", txt "JSON", txt "create", txt "Object", txt "NaN", txt "isNaN"]

/-- The literals are in memory, with their NULs. -/
def Literals (cmem : Nat → Option UInt8) (lit : List UInt8 → Nat) : Prop :=
  ∀ k ∈ allNames, readC cmem (lit k) (k.length + 1) = some (k ++ [0])

end Mjs.Spec
