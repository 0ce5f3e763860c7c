import Verif.Model.Apply
import Verif.Model.StrApi
import Verif.Model.Json
import Verif.Model.JsonOut

/-!
# Model of the built-in functions of scripts, as functions of the engine

The C functions that scripts call (`src/mjs_builtin.c`, `src/mjs_string.c`, `src/mjs_array.c`, `src/mjs_object.c`,
`src/mjs_primitive.c`, `src/mjs_core.c`, `src/mjs_json.c`) read `this`, `mjs_nargs` and `mjs_arg`, work on the heap, set
an error or not, and end with `mjs_return`.  A `Body` is the part between reading the arguments and `mjs_return`.
Simplification: the arguments are read before the work; nothing in between changes the stacks.
-/

namespace Mjs.Builtin
open Mjs Mjs.Str Mjs.Obj Mjs.Core Mjs.Exec

/-- What the work of a C function leaves: the heap, the value for `mjs_return`, and the error given to `mjs_prepend_errorf`. -/
structure Done where
  heap : Heap
  val : Val
  err : Option (Err × List UInt8) := none

/-- From `this`, the arguments, the heap and the answers of the allocator. -/
abbrev Body := Val → List Val → Heap → (Nat → Allocs) → Option Done

/-- All arguments: `mjs_nargs` and `mjs_arg`. -/
def argsOf (vm : Vm) : Option (List Val) := do
  let n ← nargs vm
  (List.range n.toNat).mapM fun (i : Nat) => arg vm i

/-- The engine after the work.  The answers of the allocator with odd numbers are left for what follows; `mjs_prepend_errorf`
without an error is a failed assert (mjs_core.c:137). -/
def leave (vm : Vm) (r : Done) : Option Vm :=
  let vm1 := { vm with heap := r.heap, al := fun k => vm.al (2 * k + 1) }
  match r.err with
  | none => some vm1
  | some (e, text) => if e = .ok then none else some (prepend vm1 e text)

/-- The C function with this body. -/
def cfunction (b : Body) (vm : Vm) : Option Vm := do
  let args ← argsOf vm
  let r ← b vm.this args vm.heap fun k => vm.al (2 * k)
  let vm1 ← leave vm r
  ret vm1 r.val

/-! ## Checks of arguments -/

/-- The text `mjs_check_arg` sets, mjs_util.c:318 and 330-332; `none` if the argument is accepted (or `mjs_get_type` aborts). -/
def checkText (name : String) (arg : Option Val) (expected : Ty) : Option (List UInt8) :=
  match arg with
  | none => some (txt "missing argument " ++ txt name)
  | some v =>
    match getType v with
    | none => none
    | some t =>
      if t ≠ expected then
        some (txt name ++ txt " should be a " ++ typeName expected ++ txt ", " ++ typeName t ++ txt " given")
      else none

/-- The text of the first check that fails. -/
def firstText (checks : List (String × Option Val × Ty)) : List UInt8 :=
  (checks.findSome? fun c => checkText c.1 c.2.1 c.2.2).getD []

/-- From the outcome of a method of strings. -/
def ofStr (h : Heap) (text : List UInt8) : Str.Out → Option Done
  | .ub => none
  | .typeError r => some ⟨h, r, some (.type, text)⟩
  | .ok st r => some ⟨{ h with str := st }, r, none⟩

/-! ## Methods of strings and arrays -/

/-- `mjs_string_char_code_at`, mjs_string.c:376-400. -/
def charCodeAt : Body := fun this args h _ =>
  ofStr h (firstText [("this", some this, .string), ("index", args[0]?, .number)]) (Str.charCodeAt h.str this args)

/-- `mjs_string_index_of`, mjs_string.c:334-374. -/
def indexOf : Body := fun this args h _ =>
  ofStr h (firstText [("this", some this, .string), ("searchValue", args[0]?, .string), ("fromIndex", args[1]?, .number)])
    (Str.indexOf h.str this args)

/-- `mjs_string_slice`, mjs_string.c:290-332. -/
def slice : Body := fun this args h al =>
  ofStr h (firstText [("this", some this, .string), ("beginSlice", args[0]?, .number), ("endSlice", args[1]?, .number)])
    (Str.slice (al 0).hr h.str this args (al 0).strs)

/-- From the outcome of a method of arrays.  The text of an error of `mjs_set` is empty (mjs_array.c:133, 206). -/
def ofArr (checks : List (String × Option Val × Ty)) (o : Arr.Out) : Done :=
  ⟨o.heap, o.ret, if o.err = .ok then none else some (o.err, firstText checks)⟩

/-- `mjs_array_push_internal`, mjs_array.c:118-144. -/
def push : Body := fun this args h al => (Arr.pushMethod h this args al).map (ofArr [("this", some this, .objectArray)])

/-- `mjs_array_splice`, mjs_array.c:153-238. -/
def splice : Body := fun this args h al => (Arr.splice h this args al).map
  (ofArr ([("this", some this, .objectArray), ("start", args[0]?, .number)] ++
    (if args.length ≥ 2 then [("deleteCount", args[1]?, .number)] else [])))

/-! ## Functions -/

/-- `mjs_chr`, mjs_builtin.c:108-116. -/
def chr : Body := fun _ args h al =>
  let arg0 := (args[0]?).getD mkUndefined
  let n := getInt arg0
  if isNumber arg0 ∧ n ≥ 0 ∧ n ≤ 255 then
    (mkStringCopy (al 0).hr h.str (.loc [UInt8.ofNat n.toNat]) 1 (al 0).strs).map fun r => ⟨{ h with str := r.1 }, r.2, none⟩
  else some ⟨h, mkNull, none⟩

/-- `mjs_op_isnan`, mjs_primitive.c:153-160. -/
def isNaN : Body := fun _ args h _ => some ⟨h, opIsnan ((args[0]?).getD mkUndefined), none⟩

/-- `mjs_die`, mjs_core.c:170-187.  The text ends at a NUL in the message. -/
def die : Body := fun _ args h _ => do
  match ← checkArg args[0]? .string with
  | none => some ⟨h, mkUndefined, some (.type, firstText [("msg", args[0]?, .string)])⟩
  | some v =>
    let bs ← strBytes h.str v
    some ⟨h, mkUndefined, some (.type, cstr bs)⟩

/-- `mjs_op_create_object`, mjs_object.c:268-281; `lit` is the address of the literal `"__p"`. -/
def objectCreate (lit : Nat) : Body := fun _ args h al => do
  match ← checkArg args[0]? .objectGeneric with
  | none => some ⟨h, mkUndefined, some (.type, firstText [("proto", args[0]?, .objectGeneric)])⟩
  | some v => (createObject h lit v (al 0) (al 1)).map fun r => ⟨r.1, r.2, none⟩

/-- `mjs_op_json_parse`, mjs_json.c:503-516; `d` is the depth of C calls there is room for.  The text of an error may be there
several times; here it is there once. -/
def jsonParse (E : Env) (d : Nat) : Body := fun _ args h al =>
  let arg0 := (args[0]?).getD mkUndefined
  if isString arg0 then
    (strBytes h.str arg0).bind fun bs =>
      match Json.parse E d h al bs with
      | .done _ v c => some ⟨c.heap, v, if c.error = .ok then none else some (c.error, txt "invalid JSON string")⟩
      | _ => none
  else some ⟨h, mkUndefined, some (.type, txt "string argument required")⟩

/-- `mjs_op_json_stringify`, mjs_json.c:486-501; `d` is the depth of C calls there is room for, `fresh n` what a new block of `n`
bytes holds. -/
def jsonStringify (E : Env) (d : Nat) (fresh : Nat → List UInt8) : Body := fun _ args h al =>
  match args with
  | [] => some ⟨h, mkUndefined, some (.type, txt "missing a value to stringify")⟩
  | v :: _ =>
    match JsonOut.stringify E.numText h d v [] 0 0 fresh with
    | some (.block mem _) =>
      (mkStringCopy (al 0).hr h.str (.loc mem) (cstr mem).length (al 0).strs).map fun r => ⟨{ h with str := r.1 }, r.2, none⟩
    | _ => none

end Mjs.Builtin
