import Verif.Model.Json

/-!
# The other users of the JSON parser: src/frozen/frozen.c

`json_prettify`, `json_scanf_array_elem`, `json_next_key` and `json_next_elem`.  Texts are as in Model/Json.  The path handed to a
callback is a C string: what stands before its first NUL.
-/

namespace Mjs.Pretty
open Mjs Mjs.Json

/-- A path as the C string functions see it. -/
def cstr (p : List UInt8) : List UInt8 := p.takeWhile (· ≠ 0)

/-- `struct prettify_data`, frozen.c:1270-1274: what was printed, the level, the last token (`none` for `JSON_TYPE_INVALID`).
Levels are `int`s in C; they stay below the length of the text. -/
structure PD where
  out : List UInt8
  level : Int
  last : Option TokT

/-- The printer, which appends. -/
def PD.print (pd : PD) (t : List UInt8) : PD := { pd with out := pd.out ++ t }

/-- `indent`, frozen.c:1276-1278. -/
def PD.indent (pd : PD) (level : Int) : PD := pd.print ((List.replicate level.toNat [32, 32]).flatten)

/-- The condition of frozen.c:1282-1284 and 1312-1314: the last token is a value, not the beginning of one. -/
def PD.behind (pd : PD) : Bool := pd.last ≠ none ∧ pd.last ≠ some .arrayStart ∧ pd.last ≠ some .objectStart

/-- `print_key`, frozen.c:1280-1295.  A name that is a null pointer has length 0. -/
def printKey (pd : PD) (path : List UInt8) (name : Option (List UInt8)) : PD :=
  let pd := if pd.behind then pd.print [44] else pd
  let pd := if path ≠ [] then pd.print [10] else pd
  let pd := pd.indent pd.level
  if path ≠ [] ∧ path.getLast? ≠ some 93 then (((pd.print [34]).print (name.getD [])).print [34]).print [58, 32] else pd

/-- `prettify_cb`, frozen.c:1297-1333. -/
def prettifyCb (pd : PD) (e : Event) : Option PD :=
  let path := cstr e.path
  some <| match e.type with
    | .objectStart | .arrayStart =>
      let pd := (printKey pd path e.name).print (if e.type = .arrayStart then [91] else [123])
      { pd with level := pd.level + 1, last := some e.type }
    | .objectEnd | .arrayEnd =>
      let pd := { pd with level := pd.level - 1 }
      let pd := if pd.behind then (pd.print [10]).indent pd.level else pd
      { pd.print (if e.type = .arrayEnd then [93] else [125]) with last := some e.type }
    | _ =>
      let pd := printKey pd path e.name
      let pd := if e.type = .string then pd.print [34] else pd
      let pd := pd.print (e.ptr.take e.len)
      let pd := if e.type = .string then pd.print [34] else pd
      { pd with last := some e.type }

/-- `json_prettify`, frozen.c:1335-1339: what `json_walk` returns, with what was printed. -/
def prettify (d : Nat) (text : List UInt8) : Res PD := walk prettifyCb d text ⟨[], 0, none⟩

/-! ## One element of an array -/

/-- `struct json_token`, frozen.h:54-58: the buffer from the pointer on, the length, the type.  `none` stands for a null pointer. -/
structure Token where
  ptr : Option (List UInt8)
  len : Nat
  type : TokT

/-- The token handed to a callback: its pointer is null where a container begins, frozen.c:297, 417. -/
def tokenOf (e : Event) : Token := ⟨if e.type = .objectStart ∨ e.type = .arrayStart then none else some e.ptr, e.len, e.type⟩

/-- `json_scanf_array_elem_cb`, frozen.c:826-838; the context is `info->token` if `info->found`. -/
def arrayElemCb (want : List UInt8) (c : Option Token) (e : Event) : Option (Option Token) :=
  some (if cstr e.path = want then some (tokenOf e) else c)

/-- `"%s[%d]"` cut to the 255 bytes that fit, frozen.c:848. -/
def elemPath (path : List UInt8) (idx : Int) : List UInt8 :=
  (path ++ (if idx < 0 then 91 :: 45 :: (indexText idx.natAbs).drop 1 else indexText idx.natAbs)).take 255

/-- What `json_walk` leaves in the context, whatever it returns; `none` for undefined behaviour. -/
def left {σ : Type} : Res σ → Option σ
  | .ok s => some s.ctx
  | .err _ c => some c
  | _ => none

/-- `json_scanf_array_elem`, frozen.c:840-851: the result, and the token if one was found. -/
def arrayElem (d : Nat) (text path : List UInt8) (idx : Int) : Option (Int × Option Token) :=
  (left (walk (arrayElemCb (elemPath path idx)) d text none)).map fun c => (match c with | none => -1 | some t => t.len, c)

/-! ## The next member or element -/

/-- `struct next_data`, frozen.c:1364-1372.  A handle is a pointer into the text: how many bytes there are from it to the end; `none` for a
null pointer.  `key` is `none` for a null pointer. -/
structure ND where
  handle : Option Nat
  found : Bool
  key : Option (List UInt8)
  val : Option Token
  idx : Int

/-- `atoi` of a C string whose first bytes are these and whose next is no digit; `none` if the number is no `int`. -/
def atoi (s : List UInt8) : Option Int :=
  let s := s.dropWhile fun c => c == 32 || (9 ≤ c.toNat && c.toNat ≤ 13)
  let neg := s.head? = some 45
  let s := if s.head? = some 45 ∨ s.head? = some 43 then s.drop 1 else s
  let n : Int := ((s.takeWhile isDigit).foldl (fun a c => a * 10 + (c.toNat - 48)) 0 : Nat)
  let n := if neg then -n else n
  if -2147483648 ≤ n ∧ n ≤ 2147483647 then some n else none

/-- `next_set_key`, frozen.c:1374-1391; `json_next` lets neither `key` nor `idx` be null. -/
def setKey (d : ND) (name : Option (List UInt8)) (isArray : Bool) : Option ND :=
  if isArray then
    match name with
    | none => none
    | some nm => (atoi nm).map fun i => { d with key := none, idx := i }
  else some { d with key := name, idx := -1 }

/-- `json_next_cb`, frozen.c:1393-1413. -/
def nextCb (path : List UInt8) (d : ND) (e : Event) : Option ND :=
  let q := cstr e.path
  if d.found then some d
  else if q.length ≤ path.length then some d
  else if q.take path.length ≠ path then some d
  else
    let p := q.drop path.length
    if 46 ∈ p.drop 1 then some d
    else if 91 ∈ p.drop 1 then some d
    else if e.type = .objectStart ∨ e.type = .arrayStart then setKey d e.name (p.head? = some 91)
    else if d.handle.all (e.ptr.length < ·) then
      (if e.type ≠ .objectEnd ∧ e.type ≠ .arrayEnd then setKey d e.name (p.head? = some 91) else some d).map fun d =>
        { d with val := some (tokenOf e), handle := some e.ptr.length, found := true }
    else some d

/-- `json_next`, frozen.c:1415-1423: the handle that is returned, with key, value and index.  `json_next_key` (1425-1430) and
`json_next_elem` (1432-1437) leave out the index and the key. -/
def jsonNext (d : Nat) (text : List UInt8) (handle : Option Nat) (path : List UInt8) : Option (Option Nat × ND) :=
  (left (walk (nextCb path) d text ⟨handle, false, none, none, 0⟩)).map fun c => (if c.found then c.handle else none, c)

end Mjs.Pretty
