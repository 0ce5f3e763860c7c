import Verif.Model.Exec
import Verif.Model.Printf

/-!
# Model of the text of values: `mjs_jprintf`, `mjs_sprintf`, `mjs_fprintf` (`src/mjs_util.c`), `print` (`src/mjs_builtin.c`), and
the printing to buffers and files of `src/frozen/frozen.c`

The C library is the one of Linux (glibc): `snprintf` of an integer writes its decimal digits, `%f` the exact decimal fraction rounded to
six digits, to the even digit if two are equally near.  `malloc`, which `json_vprintf` calls for texts of more than 20 characters, does
not fail.
-/

namespace Mjs.Print
open Mjs Mjs.Str Mjs.Obj Mjs.Core Mjs.Exec Mjs.Printf Mjs.Spec.Double

/-- The decimal digits of a natural number, as `snprintf` writes them. -/
def dec (n : Nat) : List UInt8 := (digitsRev n 10 (by decide)).reverse

/-- `snprintf` with `%lld`. -/
def decInt (n : Int) : List UInt8 := (if n < 0 then [45] else []) ++ dec n.natAbs

/-- `modf(d, &iv) == 0`, mjs_util.c:49: the infinities have no fraction either, a NaN is not equal to 0. -/
def integral (d : Val) : Bool := !isnan d && (decide (IsInf d) || decide (magnitude d % 2 ^ 1074 = 0))

/-- `n` as `w` digits, with zeros in front. -/
def padded (w n : Nat) : List UInt8 := List.replicate (w - (dec n).length) 48 ++ dec n

/-- `snprintf` with `%f` of a number that is not infinite. -/
def fixed (d : Val) : List UInt8 :=
  (if negative d then [45] else []) ++
    (if isnan d then txt "nan"
     else
      let n := roundEven (magnitude d * 10 ^ 6) 1074
      dec (n / 10 ^ 6) ++ 46 :: padded 6 (n % 10 ^ 6))

/-- `mjs_jprintf` of a number, mjs_util.c:47-53. -/
def numText (v : Val) : List UInt8 :=
  let d := getDouble v
  if integral d then decInt (toI64 d) else fixed d

/-- `isprint` of the C locale. -/
def isprint (c : UInt8) : Bool := 32 ≤ c && c ≤ 126

/-- `%02x` of a byte. -/
def hex2 (c : UInt8) : List UInt8 :=
  let ds := (digitsRev c.toNat 16 (by decide)).reverse
  List.replicate (2 - ds.length) 48 ++ ds

/-- The loop over the bytes of a string, mjs_util.c:57-64: the pieces that are printed. -/
def strPieces : List UInt8 → List (List UInt8)
  | [] => []
  | c :: r => (if isprint c then [[c]] else [txt "\\x", hex2 c]) ++ strPieces r

/-- `mjs_jprintf`, mjs_util.c:46-82: the pieces that are printed one after the other; each `%` of a format is one.  `none`: memory that
is not readable is read. -/
def pieces (st : Store) (v : Val) : Option (List (List UInt8)) :=
  if isNumber v then some [numText v]
  else if isBoolean v then some [if getBool v then txt "true" else txt "false"]
  else if isString v then do
    let (p, n) ← getString st v
    if n = 0 then some []
    else do
      let bs ← Str.load st.cmem st.owned p n
      some (strPieces bs)
  else if isArray v then some [txt "<array>"]
  else if isObject v then some [txt "<object>"]
  else if isForeign v then some [txt "<foreign_ptr@", (digitsRev (getPtr v).toNat 16 (by decide)).reverse, txt ">"]
  else if isFunction v then some [txt "<function@", decInt ((getFuncAddr v).setWidth 32).toInt, txt ">"]
  else if isNull v then some [txt "null"]
  else if isUndefined v then some [txt "undefined"]
  else some [txt "<???", decInt v.toInt, txt ">"]

/-- `json_printer_buf`, frozen.c:467-478: the block of memory and `out->u.buf.len`; the buffer begins at `off` and has `size` bytes.
`none`: something is written outside the block. -/
def printerBuf (off size : Nat) (st : List UInt8 × Nat) (piece : List UInt8) : Option (List UInt8 × Nat) :=
  let n := min piece.length (size - st.2)
  if off + st.2 + n ≤ st.1.length then
    let mem := st.1.take (off + st.2) ++ piece.take n ++ st.1.drop (off + st.2 + n)
    let len := st.2 + n
    if size = 0 then some (mem, len)
    else
      let idx := if len ≥ size then size - 1 else len
      if off + idx < mem.length then some (mem.set (off + idx) 0, len) else none
  else none

/-- `mjs_sprintf`, mjs_util.c:84-87. -/
def sprintf (st : Store) (v : Val) (mem : List UInt8) (off size : Nat) : Option (List UInt8) := do
  let ps ← pieces st v
  (ps.foldlM (printerBuf off size) (mem, 0)).map (·.1)

/-- `mjs_fprintf` to a file, mjs_util.c:89-92 and `json_printer_file`, frozen.c:481-483: what is written (if it can be written). -/
def fprintf (st : Store) (v : Val) : Option (List UInt8) := (pieces st v).map List.flatten

/-- The conversion of a number in `mjs_to_string`, mjs_conversion.c:22-26: the C string in the 50 bytes of `buf`, which begin as zeros. -/
def toStringNum (st : Store) (v : Val) : Option (List UInt8) :=
  (sprintf st v (List.replicate 50 0) 0 50).map fun mem => mem.takeWhile (· ≠ 0)

/-- The loop of `mjs_print`, mjs_builtin.c:20-23, from argument `i` on: what is written to the standard output. -/
def printArgs (vm : Vm) (i : Nat) : Nat → Option (List UInt8)
  | 0 => some []
  | n + 1 => do
    let v ← arg vm i
    let t ← fprintf vm.heap.str v
    let r ← printArgs vm (i + 1) n
    some (t ++ 32 :: r)

/-- `mjs_print`, mjs_builtin.c:18-26: what is written to the standard output, and the engine. -/
def print (vm : Vm) : Option (List UInt8 × Vm) := do
  let n ← nargs vm
  let t ← printArgs vm 0 n.toNat
  let vm' ← ret vm mkUndefined
  some (t ++ [10], vm')

end Mjs.Print
