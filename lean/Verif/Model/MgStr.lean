import Verif.Model.StrApi

/-!
# Model of counted strings (`src/common/mg_str.c`) and hex conversion (`src/common/str_util.c`)

A `struct mg_str` is the list of its `len` bytes.
-/

namespace Mjs.MgStr

/-- `int c1 = str1.p[i]`: `char` is signed on the supported machines (x86-64). -/
def schar (b : UInt8) : Int := b.toBitVec.toInt

/-- `mg_strcmp`, mg_str.c:96-108. -/
def strcmp : List UInt8 → List UInt8 → Int
  | a :: as, b :: bs => if schar a < schar b then -1 else if schar a > schar b then 1 else strcmp as bs
  | _ :: _, [] => 1
  | [], _ :: _ => -1
  | [], [] => 0

/-- `mg_strncmp`, mg_str.c:111-122. -/
def strncmp (a b : List UInt8) (n : Nat) : Int :=
  let s1 := if a.length > n then a.take n else a
  let s2 := if b.length > n then b.take n else b
  strcmp s1 s2

/-- `mg_str_starts_with`, mg_str.c:174-178. -/
def startsWith (s pre : List UInt8) : Bool :=
  if s.length < pre.length then false else strcmp (s.take pre.length) pre = 0

/-- `mg_strchr`, mg_str.c:87-93, from index `i` on: the index of the returned pointer; `c` is the `int` argument. -/
def strchrFrom (i : Nat) (c : Int) : List UInt8 → Option Nat
  | [] => none
  | b :: bs => if schar b = c then some i else strchrFrom (i + 1) c bs

/-- `mg_strchr`, mg_str.c:87-93. -/
def strchr (s : List UInt8) (c : Int) : Option Nat := strchrFrom 0 c s

/-- `isspace` in the "C" locale. -/
def isspace (b : UInt8) : Bool := b == 32 || (9 ≤ b && b ≤ 13)

/-- The first loop of `mg_strstrip`, mg_str.c:163-166. -/
def stripFront : List UInt8 → List UInt8
  | [] => []
  | b :: bs => if isspace b then stripFront bs else b :: bs

/-- The second loop of `mg_strstrip`, mg_str.c:167-169. -/
def stripBack (s : List UInt8) : List UInt8 :=
  match _h : s.getLast? with
  | none => s
  | some b => if isspace b then stripBack s.dropLast else s
termination_by s.length
decreasing_by
  have : s ≠ [] := by rintro rfl; simp at _h
  have := List.length_pos_iff.2 this
  simp; omega

/-- `mg_strstrip`, mg_str.c:162-171. -/
def strstrip (s : List UInt8) : List UInt8 := stripBack (stripFront s)

/-- The digits of `cs_to_hex`, str_util.c:304. -/
def hexDigits : List UInt8 := [48, 49, 50, 51, 52, 53, 54, 55, 56, 57, 97, 98, 99, 100, 101, 102]

/-- `cs_to_hex`, str_util.c:303-311: everything written to `to`, with the final NUL. -/
def toHex : List UInt8 → List UInt8
  | [] => [0]
  | b :: bs => hexDigits[(b >>> 4).toNat]! :: hexDigits[(b &&& 0x0f).toNat]! :: toHex bs

/-- `fourbit`, str_util.c:313-322. -/
def fourbit (ch : UInt8) : Nat :=
  if 48 ≤ ch ∧ ch ≤ 57 then ch.toNat - 48
  else if 97 ≤ ch ∧ ch ≤ 102 then ch.toNat - 97 + 10
  else if 65 ≤ ch ∧ ch ≤ 70 then ch.toNat - 65 + 10
  else 0

/-- `cs_from_hex`, str_util.c:325-332, on a readable text `p`: everything written to `to`; a read outside of the text is
`none`. -/
def fromHex (p : List UInt8) (i len : Nat) : Option (List UInt8) :=
  if i < len then
    (p[i]?).bind fun a => (p[i + 1]?).bind fun b =>
      (fromHex p (i + 2) len).map fun t => UInt8.ofNat ((fourbit a <<< 4) + fourbit b) :: t
  else some [0]
termination_by len - i

end Mjs.MgStr
