import Verif.Model.Json

/-!
# Model of the writers of src/frozen/frozen.c: `json_escape`, Base64

What is passed to the printer of `struct json_out` is collected in a list, in the order of the calls.
-/

namespace Mjs.JsonEsc
open Mjs

/-- `isprint` in the "C" locale. -/
def isPrint (c : UInt8) : Bool := 32 ≤ c.toNat && c.toNat ≤ 126

/-- `specials`, frozen.c:441. -/
def specials : List UInt8 := [98, 116, 110, 118, 102, 114]

/-- `hex_digits`, frozen.c:440. -/
def hexDigits : List UInt8 := [48, 49, 50, 51, 52, 53, 54, 55, 56, 57, 97, 98, 99, 100, 101, 102]

/-- The loop of `json_escape`, frozen.c:443-461, from `i` on: what is printed.  `mem` is all that can be read from `p` on;
reading outside of it is `none`. -/
def escapeFrom (mem : List UInt8) (len i : Nat) : Option (List UInt8) :=
  if i < len then
    (mem[i]?).bind fun ch =>
      if ch = 34 ∨ ch = 92 then (escapeFrom mem len (i + 1)).map ([92, ch] ++ ·)
      else if 8 ≤ ch.toNat ∧ ch.toNat ≤ 13 then
        (specials[ch.toNat - 8]?).bind fun e => (escapeFrom mem len (i + 1)).map ([92, e] ++ ·)
      else if isPrint ch then (escapeFrom mem len (i + 1)).map ([ch] ++ ·)
      else if Json.charLen ch = 1 then
        (hexDigits[(ch.toNat >>> 4) % 15]?).bind fun x => (hexDigits[ch.toNat % 15]?).bind fun y =>
          (escapeFrom mem len (i + 1)).map ([92, 117, 48, 48, x, y] ++ ·)
      else if i + Json.charLen ch ≤ mem.length then
        (escapeFrom mem len (i + Json.charLen ch)).map ((mem.drop i).take (Json.charLen ch) ++ ·)
      else none
  else some []
termination_by len - i
decreasing_by
  all_goals first
    | omega
    | (have : 0 < Json.charLen ch := by unfold Json.charLen; repeat' split
                                        all_goals decide
       omega)

/-- `json_escape`, frozen.c:438-464.  It returns the length of what it prints. -/
def escape (mem : List UInt8) (len : Nat) : Option (List UInt8) := escapeFrom mem len 0

/-- `b64idx`, frozen.c:486-496. -/
def b64idx (c : Nat) : UInt8 :=
  UInt8.ofNat (if c < 26 then c + 65 else if c < 52 then c - 26 + 97 else if c < 62 then c - 52 + 48 else if c = 62 then 43 else 47)

/-- `b64rev`, frozen.c:498-512.  `char` is signed; a negative one is none of those asked for. -/
def b64rev (ch : UInt8) : Nat :=
  let c := ch.toNat
  if c ≥ 65 ∧ c ≤ 90 then c - 65 else if c ≥ 97 ∧ c ≤ 122 then c + 26 - 97 else if c ≥ 48 ∧ c ≤ 57 then c + 52 - 48
  else if c = 43 then 62 else if c = 47 then 63 else 64

/-- One round of the loop of `b64enc`, frozen.c:518-525: `b`, `c` are 0 and the marks replaced if there are no such bytes. -/
def encRound (a : UInt8) (b c : Option UInt8) : List UInt8 :=
  let a := a.toNat
  let b' := match b with | some b => b.toNat | none => 0
  let c' := match c with | some c => c.toNat | none => 0
  [b64idx (a >>> 2), b64idx ((a &&& 3) <<< 4 ||| (b' >>> 4)),
   if b.isNone then 61 else b64idx ((b' &&& 15) <<< 2 ||| (c' >>> 6)),
   if c.isNone then 61 else b64idx (c' &&& 63)]

/-- `b64enc`, frozen.c:514-528: what is printed. -/
def b64enc : List UInt8 → List UInt8
  | [] => []
  | [a] => encRound a none none
  | [a, b] => encRound a (some b) none
  | a :: b :: c :: t => encRound a (some b) (some c) ++ b64enc t

/-- `b64dec`, frozen.c:530-546: what is written to `dst`. -/
def b64dec : List UInt8 → List UInt8
  | p :: q :: r :: s :: t =>
    let a := b64rev p; let b := b64rev q; let c := b64rev r; let d := b64rev s
    UInt8.ofNat ((a <<< 2) ||| (b >>> 4)) ::
      ((if r ≠ 61 then UInt8.ofNat ((b <<< 4) ||| (c >>> 2)) ::
          (if s ≠ 61 then [UInt8.ofNat ((c <<< 6) ||| d)] else []) else []) ++ b64dec t)
  | _ => []

end Mjs.JsonEsc
