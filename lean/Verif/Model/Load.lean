import Verif.Model.Parser

/-!
# Model of `load` and `mjs_exec_file`

`src/mjs_builtin.c` and `src/mjs_exec.c`.  The files are a parameter: the bytes of each file that can be read.
-/

namespace Mjs.Load
open Mjs Mjs.Str Mjs.Obj Mjs.Core Mjs.Exec Mjs.Bcode Mjs.Parser

/-- `mjs_get_cstring` (mjs_string.c:209-217), as the bytes before the NUL.  Inner `none`: NULL.  Outer `none`: memory that is not
readable is read. -/
def getCString (st : Store) (v : Val) : Option (Option (List UInt8)) := do
  let (p, n) ← getString st v
  if p.isNull then some none
  else do
    let bs ← Str.load st.cmem st.owned p (n + 1)
    some (if bs[n]? ≠ some 0 ∨ (0 : UInt8) ∈ bs.take n then none else some (bs.take n))

/-- `mjs_get_loaded_file_bcode`, mjs_builtin.c:32-49, for a file name that is not NULL.  Inner `none`: NULL. -/
def loadedIn (filename : List UInt8) : List Part → Option (Option Part)
  | [] => some none
  | p :: ps => do
    let cur ← fileName p
    if filename = cur then some (some p) else loadedIn filename ps

/-- `cs_read_file` (common/cs_file.c:31-51) finds the file and memory for it.  The text ends at the first NUL. -/
def source (content : List UInt8) : List UInt8 := content.takeWhile (· ≠ 0)

/-- `mjs_exec_file`, mjs_exec.c:1083-1102: the value of `*res` and the result code. -/
def execFile (E : Env) (d : Nat) (files : List UInt8 → Option (List UInt8)) (vm : Vm) (path : List UInt8) : Option (Vm × Val × Err) :=
  match files path with
  | none => some (prepend vm .fileRead (txt "failed to read file \"" ++ path ++ txt "\""), mkUndefined, .fileRead)
  | some content => (exec E d vm path (source content)).map fun r => (r.1, r.2, r.1.error)

/-- The choice in `mjs_load`, mjs_builtin.c:65-83: `res` and `ret`. -/
def choose (E : Env) (d : Nat) (files : List UInt8 → Option (List UInt8)) (vm : Vm) (path : List UInt8) (custom : Bool) :
    Option (Vm × Val × Err) := do
  let bp ← loadedIn path vm.parts
  match bp with
  | none => execFile E d files vm path
  | some bp =>
    if bp.execRes ≠ some .ok ∨ custom then (execute E vm bp.startIdx).map fun r => (r.1, r.2, r.1.error)
    else some (vm, mkUndefined, .ok)

/-- `mjs_load`, mjs_builtin.c:51-102.  A path that `mjs_get_cstring` does not give (a string with a NUL in it) is NULL for
`fopen`: `none`. -/
def load (E : Env) (d : Nat) (files : List UInt8 → Option (List UInt8)) (vm : Vm) : Option Vm := do
  let arg0 ← arg vm 0
  let arg1 ← arg vm 1
  if isString arg0 then do
    let path ← (← getCString vm.heap.str arg0)
    let custom := isObject arg1
    let vm1 := if custom then { vm with scopes := vm.scopes ++ [arg1] } else vm
    let (vm2, res, e) ← choose E d files vm1 path custom
    let vm3 ← (if e ≠ .ok then do
        let a ← arg vm2 0
        let path2 ← (← getCString vm2.heap.str a)
        some (prepend vm2 e (txt "failed to exec file \"" ++ path2 ++ txt "\""))
      else some vm2)
    let vm4 ← (if custom then (popVal vm3.scopes).map fun r => { vm3 with scopes := r.2 } else some vm3)
    ret vm4 res
  else ret vm mkUndefined

end Mjs.Load
