import Verif.Model.Glob

/-!
# Model of the comparisons that ignore case, `c_strnstr` and `cs_to64` (`src/common/str_util.c`, `src/common/mg_str.c`)

Memory is the list of the bytes that can be read from a pointer on; a read behind it is `none`.  `tolower`, `isspace` and `isdigit` are those
of the "C" locale.
-/

namespace Mjs.CaseCmp
open Mjs.Glob (lower)

/-- `mg_ncasecmp`, str_util.c:358-366. -/
def ncasecmp : List UInt8 → List UInt8 → Nat → Option Int
  | _, _, 0 => some 0
  | a :: s1, b :: s2, len + 1 =>
    let diff : Int := (lower a).toNat - (lower b).toNat
    if diff = 0 ∧ a ≠ 0 ∧ len > 0 then ncasecmp s1 s2 len else some diff
  | _, _, _ + 1 => none

/-- `mg_casecmp`, str_util.c:369-371; `size_t` has 64 bits. -/
def casecmp (s1 s2 : List UInt8) : Option Int := ncasecmp s1 s2 (2 ^ 64 - 1)

/-- `strlen`. -/
def strlen : List UInt8 → Option Nat
  | [] => none
  | c :: s => if c = 0 then some 0 else (strlen s).map (· + 1)

/-- `mg_vcasecmp`, mg_str.c:52-59; the difference of the lengths is converted to `int`. -/
def vcasecmp (str1 str2 : List UInt8) : Option Int := do
  let n2 ← strlen str2
  let r ← ncasecmp str1 str2 (if str1.length < n2 then str1.length else n2)
  if r = 0 then some (BitVec.ofInt 32 ((str1.length : Int) - n2)).toInt else some r

/-- `tolower((int) c)` of a `char`, mg_str.c:128-129: `char` is signed, and for negative arguments the behaviour is undefined. -/
def tolower (c : UInt8) : Option Nat := if c < 128 then some (lower c).toNat else none

/-- `mg_strcasecmp`, mg_str.c:125-137. -/
def strcasecmp : List UInt8 → List UInt8 → Option Int
  | a :: as, b :: bs => do
    let c1 ← tolower a
    let c2 ← tolower b
    if c1 < c2 then some (-1) else if c1 > c2 then some 1 else strcasecmp as bs
  | _ :: _, [] => some 1
  | [], _ :: _ => some (-1)
  | [], [] => some 0

/-- `strncmp(a, b, n) == 0`. -/
def sameN : List UInt8 → List UInt8 → Nat → Option Bool
  | _, _, 0 => some true
  | a :: s1, b :: s2, n + 1 => if a ≠ b then some false else if a = 0 then some true else sameN s1 s2 n
  | _, _, _ + 1 => none

/-- The loop of `c_strnstr`, str_util.c:277-285, from index `i` on; the index of the returned pointer. -/
def strnstrFrom (s find : List UInt8) (findLen i slen : Nat) : Option (Option Nat) :=
  if i < slen then
    if i + findLen > slen then some none
    else (sameN (s.drop i) find findLen).bind fun b => if b then some (some i) else strnstrFrom s find findLen (i + 1) slen
  else some none
termination_by slen - i

/-- `c_strnstr`, str_util.c:273-288. -/
def strnstr (s find : List UInt8) (slen : Nat) : Option (Option Nat) :=
  (strlen find).bind fun n => strnstrFrom s find n 0 slen

/-- `isspace`. -/
def isspace (b : UInt8) : Bool := b == 32 || (9 ≤ b && b ≤ 13)

/-- The digits of `cs_to64`, str_util.c:344-348; an overflow of `int64_t` is undefined. -/
def digits64 (result : Nat) : List UInt8 → Option Nat
  | [] => none
  | c :: s =>
    if 48 ≤ c ∧ c ≤ 57 then
      if result * 10 + (c.toNat - 48) < 2 ^ 63 then digits64 (result * 10 + (c.toNat - 48)) s else none
    else some result

/-- `cs_to64`, str_util.c:336-350. -/
def to64 : List UInt8 → Option Int
  | [] => none
  | c :: s =>
    if c ≠ 0 ∧ isspace c then to64 s
    else if c = 45 then (digits64 0 s).map fun n => -(n : Int)
    else (digits64 0 (c :: s)).map fun n => (n : Int)

end Mjs.CaseCmp
