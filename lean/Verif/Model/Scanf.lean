import Verif.Model.Pretty
import Verif.Model.JsonEsc

/-!
# Reading values out of a JSON text: `json_vscanf` of src/frozen/frozen.c

`strtol`, `strtoul` and `sscanf` (frozen.c:981-1024) are a parameter.  `malloc` does not fail.  A run is described by what is stored, in order; what a target
holds at the end is the last of it.
-/

namespace Mjs.Scanf
open Mjs Mjs.Json Mjs.Pretty

/-- What the loop of `json_vscanf` hands to `json_walk`: `info.type`, `info.fmt`, `info.path`, frozen.c:889-896. -/
structure Conv where
  type : UInt8
  fmt : List UInt8
  path : List UInt8
  deriving DecidableEq

/-- The path up to its last dot, with the dot: `strrchr(path, '.')`. -/
def upToDot (path : List UInt8) : List UInt8 := (path.reverse.dropWhile (· ≠ 46)).reverse

/-- The delimiters behind a conversion, frozen.c:1056. -/
def delim (c : UInt8) : Bool := c = 44 || c = 32 || c = 9 || c = 13 || c = 10 || c = 93 || c = 125

/-- The delimiters behind a key, frozen.c:1069. -/
def keyDelim (c : UInt8) : Bool := c = 58 || c = 32 || c = 13 || c = 10 || c = 9

/-- The loop of `json_vscanf`, frozen.c:1034-1082, on what remains of the format and with the path so far.  `none` where the path does not fit into its 256
bytes or a conversion into the 20 bytes of `fmtbuf`.  Every round moves forward, so `fuel` above the length of the format is enough. -/
def plan : Nat → List UInt8 → List UInt8 → Option (List Conv)
  | 0, _, _ => none
  | _ + 1, [], _ => some []
  | fuel + 1, c :: f, path =>
    if c = 123 then (if path.length + 1 ≤ 255 then plan fuel f (path ++ [46]) else none)
    else if c = 125 then plan fuel f (if 46 ∈ path then (upToDot path).dropLast else path)
    else if c = 37 then
      let t := f.head?.getD 0
      if t = 77 ∨ t = 86 ∨ t = 72 ∨ t = 66 ∨ t = 81 ∨ t = 84 then (plan fuel (f.drop 1) path).map (⟨t, [], path⟩ :: ·)
      else
        let conv := f.takeWhile fun c => !delim c
        if conv.length + 1 ≤ 19 then (plan fuel ((f.drop conv.length).dropWhile delim) path).map (⟨t, 37 :: conv, path⟩ :: ·) else none
    else if isAlpha c || charLen c > 1 then
      let key := (c :: f).takeWhile fun c => !keyDelim c
      let path := (if 46 ∈ path then upToDot path else path) ++ key
      if path.length ≤ 255 then plan fuel (((c :: f).drop key.length).dropWhile keyDelim) path else none
    else plan fuel f path

/-- What a conversion stores: `%B`, the call of a function for `%M`, `%Q`, `%H`, `%V`, `%T`, and what the C library stores. -/
inductive Write (α : Type) where
  | bool (b : Bool)
  | call (s : List UInt8)
  | str (s : Option (List UInt8))
  | hex (s : List UInt8)
  | b64 (s : List UInt8)
  | token (t : Token)
  | lib (a : α)

/-- `info->num_conversions`, and all that was stored. -/
structure Info (α : Type) where
  count : Int
  log : List (Write α)

variable {α : Type}

/-- `hexdec`, frozen.c:549-554, over the pairs of a token, 958-963. -/
def hexPairs : List UInt8 → List UInt8
  | a :: b :: t => (hexTo a * 16 ||| hexTo b) :: hexPairs t
  | _ => []

/-- The `switch` of `json_scanf_cb`, frozen.c:917-1025, for the bytes of the token.  `lib fmt text` is what `strtol`, `strtoul` or `sscanf` add to the count
and store. -/
def store (lib : List UInt8 → List UInt8 → Int × Option α) (c : Conv) (i : Info α) (t : Token) (text : List UInt8) : Info α :=
  if c.type = 66 then ⟨i.count + 1, i.log ++ [.bool (t.type = .true)]⟩
  else if c.type = 77 then ⟨i.count + 1, i.log ++ [.call text]⟩
  else if c.type = 81 then
    if t.type = .null then ⟨i.count, i.log ++ [.str none]⟩
    else match unescape text with
      | some s => ⟨i.count + 1, i.log ++ [.str (some s)]⟩
      | none => i
  else if c.type = 72 then ⟨i.count + 1, i.log ++ [.hex (hexPairs text)]⟩
  else if c.type = 86 then ⟨i.count + 1, i.log ++ [.b64 (JsonEsc.b64dec text)]⟩
  else if c.type = 84 then ⟨i.count + 1, i.log ++ [.token t]⟩
  else if text.length ≥ 32 then i
  else
    let a := lib c.fmt text
    ⟨i.count + a.1, i.log ++ (a.2.map Write.lib).toList⟩

/-- `json_scanf_cb`, frozen.c:896-1026. -/
def scanfCb (lib : List UInt8 → List UInt8 → Int × Option α) (c : Conv) (i : Info α) (e : Event) : Option (Info α) :=
  some (match (tokenOf e).ptr with
    | none => i
    | some p => if cstr e.path ≠ c.path then i else store lib c i (tokenOf e) (p.take e.len))

/-- `json_vscanf`, frozen.c:1028-1084: the result, and what is stored for each conversion. -/
def scanf (lib : List UInt8 → List UInt8 → Int × Option α) (d : Nat) (s fmt : List UInt8) : Option (Int × List (List (Write α))) :=
  (plan (fmt.length + 1) fmt []).bind fun cs =>
    (cs.foldlM (fun (a : Int × List (List (Write α))) c => (left (walk (scanfCb lib c) d s ⟨a.1, []⟩)).map fun i => (i.count, a.2 ++ [i.log])) (0, []))

end Mjs.Scanf
