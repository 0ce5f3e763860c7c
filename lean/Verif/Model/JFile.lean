import Verif.Model.Pretty
import Verif.Model.JPrintf

/-!
# JSON files: src/frozen/frozen.c

`json_fread`, `json_prettify_file`, `json_vfprintf` and `json_fprintf`.  A file is what it holds, `none` if there is none.  Whether there is memory and whether a file can
be opened for writing are parameters; that a read or write is cut short is not modelled.
-/

namespace Mjs.JFile
open Mjs Mjs.Json Mjs.Pretty

/-- `json_fread`, frozen.c:1121-1142: the memory it returns, `none` for null. -/
def fread (mem : Bool) : Option (List UInt8) → Option (List UInt8)
  | none => none
  | some c => if c.length > 0 ∧ mem then some (c ++ [0]) else none

/-- The error codes, frozen.h:67-68. -/
def code : Fail → Int
  | .invalid => -1
  | .incomplete => -2

/-- `json_prettify_file`, frozen.c:1341-1363: the file afterwards, and the result (the length of the text that was read, frozen.c:817); `open1` and `open2` say whether `fopen` for
writing succeeds.  The result of the second `fopen` is not checked (`none`). -/
def prettifyFile (d : Nat) (mem open1 open2 : Bool) (file : Option (List UInt8)) : Option (Option (List UInt8) × Int) :=
  match fread mem file with
  | none => some (file, -1)
  | some s =>
    if open1 then
      match prettify d (cstr s) with
      | .ok r => some (some (r.ctx.out ++ [10]), (((cstr s).length - r.rest.length : Nat) : Int))
      | .err e _ => if open2 then some (some (cstr s), code e) else none
      | _ => none
    else some (file, -1)

/-- `json_vfprintf` and `json_fprintf`, frozen.c:1098-1119: the file afterwards, and whether the result is -1 (the length is not modelled). -/
def fprintf (E : JPrintf.Env) (open1 : Bool) (fmt : List UInt8) (args : List JPrintf.Arg) (file : Option (List UInt8)) : Option (Option (List UInt8) × Bool) :=
  if open1 then (JPrintf.print E fmt args).map fun ps => (some (ps.flatten ++ [10]), false) else some (file, true)

end Mjs.JFile
