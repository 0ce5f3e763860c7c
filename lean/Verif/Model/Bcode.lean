import Verif.Model.Code

/-!
# Making and keeping code

`src/mjs_bcode.c`, the assembly of a script in `mjs_parse` (`src/mjs_parser.c`) and the lookup of file names and line
numbers (`src/mjs_util.c`).

Not modelled: failing allocations (`mbuf_insert` and `mbuf_resize` are not checked by this code; the program assumes that
they succeed), and the code parts that are memory-mapped `.jsc` files.
-/

namespace Mjs.Bcode
open Mjs Mjs.Str Mjs.Core Mjs.Exec Mjs.Code

/-! ## Emitting code -/

/-- The parts of `struct pstate` and `struct mjs` the emitter works on. -/
structure Gen where
  /-- `mjs->bcode_gen` -/
  buf : List UInt8 := []
  /-- `cur_idx` -/
  cur : Nat := 0
  /-- `start_bcode_idx` -/
  start : Nat := 0
  /-- `last_emitted_line_no` -/
  lastLine : Nat := 1
  /-- `offset_lineno_map` -/
  map : List UInt8 := []
deriving Repr

/-- `add_lineno_map_item`, mjs_bcode.c:13-36, with `line_no` as `line`.  `cur_idx` is not before the start of the code, and
both are `int`s. -/
def addLine (g : Gen) (line : Nat) : Gen :=
  if g.lastLine < line then
    { g with map := g.map ++ vint (g.cur - g.start) ++ vint line, lastLine := line }
  else g

/-- Bytes put at `cur_idx`. -/
def insert (g : Gen) (bs : List UInt8) : Gen :=
  { g with buf := g.buf.take g.cur ++ bs ++ g.buf.drop g.cur, cur := g.cur + bs.length }

/-- `emit_byte`, mjs_bcode.c:38-42. -/
def emitByte (g : Gen) (line : Nat) (b : UInt8) : Gen := insert (addLine g line) [b]

/-- `emit_int`, mjs_bcode.c:44-51. -/
def emitInt (g : Gen) (line : Nat) (n : Nat) : Gen := insert (addLine g line) (vint n)

/-- `emit_str`, mjs_bcode.c:53-61. -/
def emitStr (g : Gen) (line : Nat) (s : List UInt8) : Gen := insert (addLine g line) (vint s.length ++ s)

/-- `MJS_INIT_OFFSET_SIZE`, mjs_internal.h:86-88. -/
def initOffsetSize : Nat := 1

/-- `mjs_bcode_insert_offset`, mjs_bcode.c:63-89.  `none`: the assert of line 67. -/
def insertOffset (g : Gen) (offset v : Nat) : Option Gen :=
  if offset < g.buf.length then
    some { g with
      buf := g.buf.take offset ++ vint v ++ g.buf.drop (offset + initOffsetSize)
      cur := if g.cur ≥ offset then g.cur + (vint v).length - initOffsetSize else g.cur }
  else none

/-! ## Scripts -/

/-- A `mjs_header_item_t` in memory, mjs_core.h:144. -/
def u32 (n : Nat) : List UInt8 :=
  [UInt8.ofNat n, UInt8.ofNat (n / 256), UInt8.ofNat (n / 65536), UInt8.ofNat (n / 16777216)]

/-- The header of a script, mjs_parser.c:966-984, 994-997, 1011-1014. -/
def header (path : List UInt8) (total mapOff : Nat) : List UInt8 :=
  BCODE_HEADER :: u32 total ++ u32 (12 + path.length + 1) ++ u32 mapOff ++ path ++ [0]

/-- A script: header, code (with its `OP_EXIT`), length of the line map, line map, mjs_parser.c:955-1014. -/
def assemble (path code map : List UInt8) : List UInt8 :=
  let mapOff := 12 + path.length + 1 + code.length
  header path (mapOff + (vint map.length).length + map.length) mapOff ++ code ++ vint map.length ++ map

/-- `mjs_bcode_commit`, mjs_bcode.c:130-148, with `mjs_bcode_part_add`, 91-94. -/
def commit (vm : Vm) (bytes : List UInt8) : Vm :=
  { vm with parts := vm.parts ++ [{ startIdx := vm.bcodeLen, data := bytes }], bcodeLen := vm.bcodeLen + bytes.length }

/-! ## File names and lines -/

/-- The bytes up to a NUL; `none` if there is none. -/
def cstr : List UInt8 → Option (List UInt8)
  | [] => none
  | c :: r => if c = 0 then some [] else (cstr r).map (c :: ·)

/-- `mjs_get_bcode_filename`, mjs_util.c:356-361, as the C string it points at. -/
def fileName (p : Part) : Option (List UInt8) := cstr (p.data.drop 13)

/-- `mjs_get_bcode_filename_by_offset`, mjs_util.c:363-370.  Inner `none`: NULL. -/
def fileNameAt (vm : Vm) (offset : Nat) : Option (Option (List UInt8)) :=
  match partAt vm offset with
  | none => some none
  | some p => (fileName p).map some

/-- The header item number `k` of a part. -/
def hdrItem (p : Part) (k : Nat) : Option Nat := (bytesAt p.data (1 + 4 * k) 4).map packLE

/-- The loop of `mjs_get_lineno_by_offset`, mjs_util.c:399-411, at position `i` of a map that ends at `e`. -/
def lineLoop (data : List UInt8) (i e offset : Nat) (prev : Int) : Option Int :=
  if i < e then do
    let (o, l1) ← operand data i
    let (ln, l2) ← operand data (i + l1)
    if o ≥ offset then some prev else lineLoop data (i + l1 + l2) e offset (cInt ln)
  else some 1
partial_fixpoint

/-- `mjs_get_lineno_by_offset`, mjs_util.c:372-414.  The difference of line 389 is taken as a `size_t`; the program keeps it
in an `int` and makes it a `uint64_t` again, which is the same for code below 2 GB. -/
def lineno (vm : Vm) (offset : Nat) : Option Int :=
  match partAt vm offset with
  | none => some 1
  | some p => do
    let mapOff ← hdrItem p 2
    let bcodeOff ← hdrItem p 1
    let (n, l) ← operand p.data (1 + mapOff)
    lineLoop p.data (1 + mapOff + l) (1 + mapOff + l + n) (wrap ((offset : Int) - (1 + bcodeOff + p.startIdx : Nat))) 1

end Mjs.Bcode
