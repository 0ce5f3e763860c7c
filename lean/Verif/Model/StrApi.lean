import Verif.Model.Str
import Verif.Model.Num

/-!
# Model of the string methods of scripts: `slice`, `indexOf`, `charCodeAt`/`at` (`src/mjs_string.c`)

Each is called with `this` and a list of argument values (`mjs_arg`, `mjs_nargs`).
-/

namespace Mjs.Str
open Mjs Mjs.Mbuf

/-- Outcome of a builtin. -/
inductive Out where
  /-- undefined behaviour or `abort()` -/
  | ub
  /-- a TypeError was set, and `ret` returned -/
  | typeError (ret : Val)
  | ok (st : Store) (ret : Val)

/-- `mjs_check_arg`, mjs_util.c:309-341, for an argument that may be absent: `none` for the `abort()` in
`mjs_get_type`, `some none` for an error. -/
def checkArg (arg : Option Val) (expected : Ty) : Option (Option Val) :=
  match arg with
  | none => some none                                                       -- lines 317-320
  | some v =>
    match getType v with                                                    -- line 328
    | none => none
    | some t => if t ≠ expected then some none else some (some v)           -- lines 329-340

/-- Conversion of a `size_t` to `int`: modulo 2^32. -/
def cInt (n : Nat) : Int := (BitVec.ofNat 32 n).toInt

/-- `mjs_normalize_idx`, mjs_util.c:343-354. -/
def normalizeIdx (idx size : Int) : Int :=
  let idx := if idx < 0 then (if size + idx < 0 then 0 else size + idx) else idx
  if idx > size then size else idx

/-- Pointer arithmetic `p + i`, `i ≥ 0`. -/
def Ptr.add : Ptr → Nat → Ptr
  | .null, _ => .null
  | .ext a, i => .ext (a + i)
  | .own a, i => .own (a + i)
  | .loc bs, i => .loc (bs.drop i)

/-- `mjs_string_slice`, mjs_string.c:290-332. -/
def slice (hr : Nat) (st : Store) (this : Val) (args : List Val) (als : Nat → Alloc) : Out :=
  match checkArg (some this) .string with                                   -- line 301
  | none => .ub
  | some none => .typeError (mkInt 0)
  | some (some _) =>
  match getString st this with                                              -- line 304
  | none => .ub
  | some (s, size) =>
  match checkArg args[0]? .number with                                      -- line 307
  | none => .ub
  | some none => .typeError (mkInt 0)
  | some (some b) =>
  let begin_ := normalizeIdx (getInt b) (cInt size)                                -- line 310
  match (if args.length ≥ 2 then                                            -- lines 312-322
      (checkArg args[1]? .number).map fun o => o.map fun e => normalizeIdx (getInt e) (cInt size)
    else some (some (cInt size))) with
  | none => .ub
  | some none => .typeError (mkInt 0)
  | some (some e) =>
  let end_ := if e < begin_ then begin_ else e                              -- lines 324-326
  match mkStringCopy hr st (s.add begin_.toNat) (end_ - begin_).toNat als with   -- line 328
  | none => .ub
  | some (st', v) => .ok st' v

/-- `mg_strstr`, mg_str.c:149-159, from index `i` on with `cnt` more positions to try. -/
def strstrLoop (h n : List UInt8) (i : Nat) : Nat → Option Nat
  | 0 => none
  | cnt + 1 => if memcmp ((h.drop i).take n.length) n = 0 then some i else strstrLoop h n (i + 1) cnt

/-- `mg_strstr`, mg_str.c:149-159: the index of the returned pointer, `none` for NULL. -/
def strstr (h n : List UInt8) : Option Nat :=
  if n.length > h.length then none else strstrLoop h n 0 (h.length - n.length + 1)

/-- The start index of `indexOf`, mjs_string.c:351-358. -/
def indexOfFrom (args : List Val) (strLen : Nat) : Option (Option Nat) :=
  if args.length > 1 then
    (checkArg args[1]? .number).map fun o => o.map fun v =>
      let idx := getInt v
      let idx := if idx < 0 then 0 else idx
      if idx.toNat > strLen then (cInt strLen).toNat else idx.toNat
  else some (some 0)

/-- `mjs_string_index_of`, mjs_string.c:334-374.  The bytes of both strings are read in full (the search reads parts of
them). -/
def indexOf (st : Store) (this : Val) (args : List Val) : Out :=
  match checkArg (some this) .string with                                   -- line 342
  | none => .ub
  | some none => .typeError (mkInt (-1))
  | some (some _) =>
  match checkArg args[0]? .string with                                      -- line 347
  | none => .ub
  | some none => .typeError (mkInt (-1))
  | some (some sub) =>
  match strBytes st this, strBytes st sub with                              -- lines 345, 350
  | some str, some substr =>
    match indexOfFrom args str.length with
    | none => .ub
    | some none => .typeError (mkInt (-1))
    | some (some idx) =>
      match strstr (str.drop idx) substr with                               -- lines 360-370
      | some i => .ok st (mkInt (idx + i))
      | none => .ok st (mkInt (-1))
  | _, _ => .ub

/-- `mjs_string_char_code_at`, mjs_string.c:376-400. -/
def charCodeAt (st : Store) (this : Val) (args : List Val) : Out :=
  match checkArg (some this) .string with                                   -- line 384
  | none => .ub
  | some none => .typeError mkUndefined
  | some (some _) =>
  match getString st this with                                              -- line 387
  | none => .ub
  | some (s, size) =>
  match checkArg args[0]? .number with                                      -- line 390
  | none => .ub
  | some none => .typeError mkUndefined
  | some (some i) =>
  let idx := normalizeIdx (getInt i) (cInt size)                                   -- line 393
  if idx ≥ 0 ∧ idx < cInt size then                                              -- line 394
    match load st.cmem st.owned (s.add idx.toNat) 1 with
    | some [b] => .ok st (mkInt b.toNat)                                    -- line 395
    | _ => .ub
  else .ok st mkUndefined

end Mjs.Str
