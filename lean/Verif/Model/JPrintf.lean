import Verif.Model.Json
import Verif.Model.JsonEsc

/-!
# Printing JSON with a format: `json_vprintf` and `json_vasprintf` of src/frozen/frozen.c

What the C library's `vsnprintf` prints and what callbacks print are parameters.  The pieces given to the printer are kept apart; `json_escape` and `b64enc`, which
call the printer several times, give one piece here.  The result, the sum of what the printers return, is not modelled.
-/

namespace Mjs.JPrintf
open Mjs Mjs.Json

/-- An argument: an `int`, a 64 bit integer, a `double`, a pointer (null, or all that can be read from there on), a callback.  On x86-64, all but the `double` take one
slot of the same kind. -/
inductive Arg where
  | int (n : Int)
  | long (n : Int)
  | dbl (bits : BitVec 64)
  | ptr (p : Option (List UInt8))
  | fn (i : Nat)
  deriving DecidableEq

/-- What is outside: `vsnprintf` with a format and arguments (`none`: it never gives a text), and callbacks: what they print and the arguments that are left. -/
structure Env where
  sys : List UInt8 → List Arg → Option (List UInt8)
  call : Nat → List Arg → Option (List UInt8 × List Arg)

/-- `va_arg(ap, int)` and the like where the value is not used, frozen.c:706-725: any argument that is no `double`. -/
def takeWord : List Arg → Option (List Arg)
  | .dbl _ :: _ => none
  | _ :: r => some r
  | [] => none

/-- `va_arg(ap, double)`, frozen.c:717. -/
def takeDouble : List Arg → Option (List Arg)
  | .dbl _ :: r => some r
  | _ => none

/-- `end_of_format_specifier`, frozen.c:645. -/
def specChars : List UInt8 :=
  [115, 100, 102, 70, 101, 69, 103, 71, 108, 104, 117, 73, 99, 120, 46, 42, 45, 48, 49, 50, 51, 52, 53, 54, 55, 56, 57]

/-- The arguments are moved on, frozen.c:703-727, for the format `%` and `spec`; `PRId64` and `PRIu64` are `ld` and `lu`. -/
def advance (spec : List UInt8) (args : List Arg) : Option (List Arg) :=
  if spec = [108, 100] ∨ spec = [108, 117] then takeWord args
  else if spec = [46, 42, 115] then (takeWord args).bind takeWord
  else if spec.getLast? = some 103 ∨ spec.getLast? = some 102 then takeDouble args
  else takeWord args

/-- What is left to the C library, frozen.c:634-737; `fmt2` has 20 bytes, and the NUL goes to `fmt2[n + 1]`. -/
def system (E : Env) (f : List UInt8) (args : List Arg) : Option (List (List UInt8) × List UInt8 × List Arg) :=
  let spec := f.takeWhile fun c => specChars.contains c
  if spec.length + 1 ≥ 20 then none
  else (E.sys (37 :: spec) args).bind fun t => (advance spec args).map fun r => ([t], f.dropWhile (fun c => specChars.contains c), r)

/-- `"%lu"` of the C library. -/
def dec (n : Nat) : List UInt8 := (Nat.toDigits 10 n).map fun c => UInt8.ofNat c.toNat

/-- `"%lld"` of the C library. -/
def signed (n : Int) : List UInt8 := (if n < 0 then [45] else []) ++ dec n.natAbs

/-- `hex[(b >> 4) & 0xf]` and `hex[b & 0xf]`, frozen.c:594-595. -/
def hexByte (b : UInt8) : List (List UInt8) := [[JsonEsc.hexDigits.getD (b.toNat >>> 4) 0], [JsonEsc.hexDigits.getD (b.toNat % 16) 0]]

/-- A conversion, behind the `%`, frozen.c:565-738: the pieces, the rest of the format, the rest of the arguments. -/
def conv (E : Env) (f : List UInt8) (args : List Arg) : Option (List (List UInt8) × List UInt8 × List Arg) :=
  if f.take 3 = [108, 108, 100] ∨ f.take 3 = [108, 108, 117] then                         -- lld, llu
    match args with
    | .long n :: r => some ([if f.take 3 = [108, 108, 117] then dec (n % 2 ^ 64).toNat else signed n], f.drop 3, r)
    | _ => none
  else if f.take 2 = [122, 117] then                                                      -- zu
    match args with
    | .long n :: r => some ([dec (n % 2 ^ 64).toNat], f.drop 2, r)
    | _ => none
  else if f.head? = some 77 then                                                          -- M
    match args with
    | .fn i :: r => (E.call i r).map fun a => ([a.1], f.drop 1, a.2)
    | _ => none
  else if f.head? = some 66 then                                                          -- B
    match args with
    | .int n :: r => some ([if n ≠ 0 then [116, 114, 117, 101] else [102, 97, 108, 115, 101]], f.drop 1, r)
    | _ => none
  else if f.head? = some 72 then                                                          -- H
    match args with
    | .int n :: .ptr p :: r =>
      if n.toNat ≤ (p.getD []).length then some ([34] :: (((p.getD []).take n.toNat).flatMap hexByte ++ [[34]]), f.drop 1, r) else none
    | _ => none
  else if f.head? = some 86 then                                                          -- V
    match args with
    | .ptr p :: .int n :: r =>
      if n.toNat ≤ (p.getD []).length then some ([[34], JsonEsc.b64enc ((p.getD []).take n.toNat), [34]], f.drop 1, r) else none
    | _ => none
  else if f.head? = some 81 then                                                          -- Q
    match args with
    | .ptr none :: r => some ([[110, 117, 108, 108]], f.drop 1, r)
    | .ptr (some m) :: r =>
      if (0 : UInt8) ∈ m then (JsonEsc.escape m (m.takeWhile (· ≠ 0)).length).map fun t => ([[34], t, [34]], f.drop 1, r) else none
    | _ => none
  else if f.take 3 = [46, 42, 81] then                                                    -- .*Q
    match args with
    | .int _ :: .ptr none :: r => some ([[110, 117, 108, 108]], f.drop 3, r)
    | .int n :: .ptr (some m) :: r => (JsonEsc.escape m (n % 2 ^ 64).toNat).map fun t => ([[34], t, [34]], f.drop 3, r)
    | _ => none
  else system E f args

/-- The bytes that are printed as they are, frozen.c:561. -/
def marks : List UInt8 := [58, 44, 32, 13, 10, 9, 91, 93, 123, 125, 34]

/-- The bytes of a key, frozen.c:741. -/
def isKey (c : UInt8) : Bool := c == 95 || isAlpha c || isDigit c

/-- `json_vprintf`, frozen.c:557-752, with `fuel` above the length of the format: every round moves on. -/
def printf (E : Env) : Nat → List UInt8 → List Arg → Option (List (List UInt8) × List Arg)
  | 0, _, _ => none
  | _ + 1, [], args => some ([], args)
  | fuel + 1, c :: f, args =>
    if c ∈ marks then (printf E fuel f args).map fun a => ([c] :: a.1, a.2)
    else if c = 37 then (conv E f args).bind fun r => (printf E fuel r.2.1 r.2.2).map fun a => (r.1 ++ a.1, a.2)
    else if c = 95 ∨ isAlpha c = true then
      (printf E fuel ((c :: f).dropWhile isKey) args).map fun a => ([34] :: (((c :: f).takeWhile isKey).map ([·]) ++ [34] :: a.1), a.2)
    else (printf E fuel f args).map fun a => ([c] :: a.1, a.2)

/-- `json_vprintf` from the beginning: the pieces. -/
def print (E : Env) (fmt : List UInt8) (args : List Arg) : Option (List (List UInt8)) := (printf E (fmt.length + 1) fmt args).map (·.1)

/-- `json_sprinter`, frozen.c:1439-1449: the C string that `buf` points to, null before the first piece; `ok` says whether there is memory. -/
def sprinter (ok : Bool) (buf : Option (List UInt8)) (s : List UInt8) : Option (List UInt8) :=
  if ok then some (((buf.getD []).takeWhile (· ≠ 0)) ++ s) else buf

/-- `json_vasprintf`, frozen.c:1451-1458; `mem i` says whether there is memory for piece `i`. -/
def asprintf (E : Env) (mem : Nat → Bool) (fmt : List UInt8) (args : List Arg) : Option (Option (List UInt8)) :=
  (print E fmt args).map fun ps => (ps.zipIdx).foldl (fun buf p => sprinter (mem p.2) buf p.1) none

end Mjs.JPrintf
