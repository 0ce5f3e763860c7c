import Verif.Model.Tok
import Verif.Model.Ieee

/-!
# Model of `strtod` of the C library

`mjs_parser.c:305`, `mjs_exec.c:744` (`OP_PUSH_DBL`) and `mjs_json.c:360` read numbers with `strtod`.  The model of the parser and the
interpreter (`Exec.Env`) leaves open which double it gives; `Tok.strtodLen` says how much of the text it reads.  Here the double is
computed, as C11 7.22.1.3 and the GNU C library have it: the double nearest to the number that the text writes.
-/

namespace Mjs.Strtod
open Mjs.Tok Mjs.Ieee

/-- The value of a digit. -/
def digitVal (c : UInt8) : Nat :=
  if isDigit c then c.toNat - 48 else if c < 97 then c.toNat - 65 + 10 else c.toNat - 97 + 10

/-- The number that digits write. -/
def natOf (base : Nat) (ds : List UInt8) : Nat := ds.foldl (fun n c => base * n + digitVal c) 0

/-- The exponent: the digits behind the letter and the sign. -/
def exponent (x : List UInt8) : Int :=
  match x with
  | [] => 0
  | _ :: 45 :: ds => -(natOf 10 ds : Int)
  | _ :: 43 :: ds => natOf 10 ds
  | _ :: ds => natOf 10 ds

/-- The digits behind the point. -/
def fraction (f : UInt8 → Bool) (r : List UInt8) : List UInt8 :=
  match r with
  | 46 :: r' => r'.takeWhile f
  | _ => []

/-- The bits of the double for `n * base ^ e`. -/
def scale (n base : Nat) (e : Int) : Nat := ofQuot (n * base ^ e.toNat * 2 ^ 1074) (base ^ (-e).toNat)

/-- `strtod(t, NULL)` of a text that begins with a digit and that `strtod` reads to its end. -/
def strtod (t : List UInt8) : Val :=
  if hexPrefixLen t ≠ 0 then
    let i := (t.drop 2).takeWhile isXDigit
    let r := t.drop (2 + i.length)
    let f := fraction isXDigit r
    pack false (scale (natOf 16 (i ++ f)) 2 (exponent (r.drop (fractionLen isXDigit r)) - 4 * f.length))
  else
    let i := t.takeWhile isDigit
    let r := t.drop i.length
    let f := fraction isDigit r
    pack false (scale (natOf 10 (i ++ f)) 10 (exponent (r.drop (fractionLen isDigit r)) - f.length))

end Mjs.Strtod
