import Verif.Model.Exec

/-!
# Model of the creation of an engine: `mjs_create` and `mjs_init_builtin`

`src/mjs_core.c` and `src/mjs_builtin.c`.
-/

namespace Mjs.Create
open Mjs Mjs.Str Mjs.Obj Mjs.Core Mjs.Exec

/-- Where the C functions are that `mjs_init_builtin` makes available to scripts. -/
structure Fns where
  load : Nat
  print : Nat
  ffi : Nat
  ffiCbFree : Nat
  mkstr : Nat
  getMJS : Nat
  die : Nat
  gc : Nat
  chr : Nat
  s2o : Nat
  jsonStringify : Nat
  jsonParse : Nat
  objectCreate : Nat
  isNaN : Nat

/-- Calls of `mjs_set(mjs, obj, name, ~0, val)`, one after the other; their results are ignored.  `lit` says where the
literals are. -/
def setAll (lit : List UInt8 → Nat) (h : Heap) (obj : Val) : List (List UInt8 × Val) → (Nat → Allocs) → Option Heap
  | [], _ => some h
  | (k, x) :: r, al => (setZ h obj (lit k) x (al 0)).bind fun c => setAll lit c.1 obj r fun n => al (n + 1)

/-- `mjs_init_builtin`, mjs_builtin.c:132-181. -/
def initBuiltin (lit : List UInt8 → Nat) (f : Fns) (h : Heap) (obj : Val) (al : Nat → Allocs) : Option Heap := do
  let h1 ← setAll lit h obj
    [(txt "global", obj), (txt "load", mkFn f.load), (txt "print", mkFn f.print), (txt "ffi", mkFn f.ffi),
     (txt "ffi_cb_free", mkFn f.ffiCbFree), (txt "mkstr", mkFn f.mkstr), (txt "getMJS", mkFn f.getMJS), (txt "die", mkFn f.die),
     (txt "gc", mkFn f.gc), (txt "chr", mkFn f.chr), (txt "s2o", mkFn f.s2o)] al
  let (h2, v) ← mkObject h1 (al 11)
  let h3 ← setAll lit h2 v [(txt "stringify", mkFn f.jsonStringify), (txt "parse", mkFn f.jsonParse)] fun n => al (n + 12)
  let h4 ← setAll lit h3 obj [(txt "JSON", v)] fun n => al (n + 14)
  let (h5, w) ← mkObject h4 (al 15)
  let h6 ← setAll lit h5 w [(txt "create", mkFn f.objectCreate)] fun n => al (n + 16)
  setAll lit h6 obj [(txt "Object", w), (txt "NaN", tagNan), (txt "isNaN", mkFn f.isNaN)] fun n => al (n + 17)

/-- `mjs_create`, mjs_core.c:72-114.  Left out: the arena of FFI signatures, the resolver of FFI names, and
`dataview_proto`; the stacks of the model need no initialization.  `al1` to `bp` are the first answers of the allocator, `al`
the following ones. -/
def create (lit : List UInt8 → Nat) (f : Fns) (hr : Nat) (cmem : Nat → Option UInt8) (al1 al2 : Mbuf.Alloc) (bo bp : Option Nat)
    (al : Nat → Allocs) : Option Vm := do
  let h ← createHeap hr cmem al1 al2 bo bp
  let (h1, g) ← mkObject h (al 0)
  let h2 ← initBuiltin lit f h1 g fun n => al (n + 1)
  some { heap := h2, scopes := [g], this := mkUndefined, al := fun n => al (n + 21) }

end Mjs.Create
