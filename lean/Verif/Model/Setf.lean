import Verif.Model.Pretty
import Verif.Model.JsonEsc

/-!
# Setting a value in a JSON text: `json_vsetf` of src/frozen/frozen.c

What `json_vprintf` prints for the format of the new value is a parameter.  Offsets are `int`s in C; they stay within the length of the text.
-/

namespace Mjs.Setf
open Mjs Mjs.Json Mjs.Pretty

/-- `struct json_setf_data`, frozen.c:1144-1151, without the path and the text. -/
structure SD where
  matched : Nat
  pos : Nat
  stop : Nat
  prev : Nat
  deriving DecidableEq

/-- `get_matched_prefix_len`, frozen.c:1153-1157, of two C strings. -/
def matchedLen : List UInt8 → List UInt8 → Nat
  | a :: s, b :: t => if a = b then matchedLen s t + 1 else 0
  | _, _ => 0

/-- `json_vsetf_cb`, frozen.c:1159-1199, for a text of `n` bytes.  The pointer of a token is null where a container begins (1163). -/
def setfCb (n : Nat) (path : List UInt8) (d : SD) (e : Event) : Option SD :=
  let q := cstr e.path
  let len := matchedLen q path
  if e.type = .objectStart ∨ e.type = .arrayStart then some d
  else
    let off := n - e.ptr.length
    let d := if len > d.matched then { d with matched := len } else d
    let d := if len < d.matched ∧ d.pos = 0 ∧ (e.type = .objectEnd ∨ e.type = .arrayEnd) then { d with pos := d.prev, stop := d.prev } else d
    let d := if q = path then { d with pos := off, stop := off + e.len } else d
    some (if d.pos = 0 then { d with prev := off + e.len }
      else if (e.ptr.head? = some 91 ∨ e.ptr.head? = some 123) ∧ off + 1 < d.pos ∧ off + 1 > d.prev then { d with prev := off + 1 } else d)

/-- `json_printf(out, "%.*s", n, s)`: at most `n` bytes, and none from a NUL on. -/
def clip (n : Nat) (s : List UInt8) : List UInt8 := (s.take n).takeWhile (· ≠ 0)

/-- `s[prev - 1]`, frozen.c:1216, 1230; `none` before the beginning. -/
def before (s : List UInt8) (prev : Nat) : Option UInt8 := if prev = 0 then none else s[prev - 1]?

/-- `strcspn(&json_path[off], ".[")`. -/
def stepLen (path : List UInt8) : Nat := (path.takeWhile fun c => c ≠ 46 && c ≠ 91).length

/-- The loop that adds missing keys, frozen.c:1229-1242: what it prints, and `off` behind it.  Every round but the last moves `off`, so `fuel` above the
length of the path is enough. -/
def addKeys (s : List UInt8) (prev : Nat) (path : List UInt8) : Nat → Nat → Nat → Option (List UInt8 × Nat)
  | 0, _, _ => none
  | fuel + 1, off, depth =>
    let n := stepLen (path.drop off)
    if n > 0 then
      (before s prev).bind fun c =>
        let comma : List UInt8 := if c ≠ 123 ∧ c ≠ 91 ∧ depth = 0 then [44] else []
        if off > 0 ∧ path[off - 1]? ≠ some 46 then some (comma, off)
        else (JsonEsc.escape (path.drop off) n).bind fun key =>
          let out := comma ++ (34 :: (key ++ [34, 58]))
          match path[off + n]? with
          | none => (addKeys s prev path fuel (off + n) depth).map fun a => (out ++ a.1, a.2)
          | some c => (addKeys s prev path fuel (off + n + 1) (depth + 1)).map fun a => (out ++ ((if c = 46 then 123 else 91) :: a.1), a.2)
    else some ([], off)

/-- The loop that closes them, frozen.c:1247-1251. -/
def closeKeys (path : List UInt8) (matched off : Nat) : List UInt8 :=
  ((List.range (off - matched)).map fun i => match path[off - i]? with
    | some 46 => [125]
    | some 91 => [93]
    | _ => ([] : List UInt8)).flatten

/-- `json_vsetf`, frozen.c:1201-1256: what is printed, and the result.  `value` is what the format prints, `none` for a null format.  The byte behind the
text, which may be read in line 1219, is taken to be no comma. -/
def setf (d : Nat) (s path : List UInt8) (value : Option (List UInt8)) : Option (List UInt8 × Int) :=
  (left (walk (setfCb s.length path) d s ⟨0, 0, s.length, 0⟩)).bind fun data =>
    let res : Int := if data.stop > data.pos then 1 else 0
    match value with
    | none =>
      (before s data.prev).map fun c =>
        let rest := s.drop data.stop
        let stop := if (c = 123 ∨ c = 91) ∧ (rest.dropWhile isSpace).head? = some 44 then data.stop + (rest.takeWhile isSpace).length + 1 else data.stop
        (clip data.prev s ++ clip (s.length - stop) (s.drop stop), if stop > data.pos then 1 else 0)
    | some v =>
      (addKeys s data.prev path (path.length + 1) data.matched 0).map fun a =>
        (clip data.pos s ++ (a.1 ++ (v ++ (closeKeys path data.matched a.2 ++ clip (s.length - data.stop) (s.drop data.stop)))), res)

end Mjs.Setf
