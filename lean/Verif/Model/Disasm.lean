import Verif.Model.Bcode

/-!
# Listing code: `mjs_disasm` of src/mjs_util.c

Only built with `MJS_ENABLE_DEBUG`.  What is logged about an instruction is not modelled; the positions that are visited are.  Reading beyond the code is `none`.
-/

namespace Mjs.Disasm
open Mjs Mjs.Str Mjs.Exec Mjs.Bcode

/-- `mjs_disasm_single`, mjs_util.c:114-251: the number of bytes behind the opcode. -/
def single (code : List UInt8) (i : Nat) : Option Nat :=
  match code[i]? with
  | none => none
  | some op =>
    if op = PUSH_FUNC ∨ op = PUSH_INT then (operand code (i + 1)).map (·.2)                                   -- lines 123-134
    else if op = SET_ARG then                                                                                 -- lines 135-144
      (operand code (i + 1)).bind fun a => (operand code (i + a.2 + 1)).map fun n => a.2 + n.2 + n.1
    else if op = PUSH_STR ∨ op = PUSH_DBL then (operand code (i + 1)).map fun n => n.2 + n.1                  -- lines 145-151
    else if op = JMP ∨ op = JMP_TRUE ∨ op = JMP_NEUTRAL_TRUE ∨ op = JMP_FALSE ∨ op = JMP_NEUTRAL_FALSE then   -- lines 152-164
      (operand code (i + 1)).map (·.2)
    else if op = LOOP then (operand code (i + 1)).bind fun a => (operand code (i + a.2 + 1)).map fun b => a.2 + b.2  -- lines 165-176
    else if op = EXPR then code[i + 1]?.map fun _ => 1                                                        -- lines 177-230
    else if op = BCODE_HEADER then                                                                            -- lines 231-245
      (bytesAt code (i + 1) 12).bind fun _ => (Bcode.cstr (code.drop (i + 12 + 1))).map fun s => 12 + (s.length + 1)
    else some 0

/-- A header item, `memcpy` of mjs_util.c:261-264. -/
def item (code : List UInt8) (at_ : Nat) : Option Nat := (bytesAt code at_ 4).map packLE

/-- The loop of `mjs_disasm`, mjs_util.c:257-273: the positions that are visited.  `fuel` bounds the rounds; sums of sizes do not overflow. -/
def loop (code : List UInt8) : Nat → Nat → Nat → Nat → Nat → Option (List Nat)
  | 0, _, _, _, _ => none
  | fuel + 1, i, start, total, mapOff =>
    if i < code.length then
      (single code i).bind fun delta =>
      (if code[i]? = some BCODE_HEADER then (item code (i + 1)).bind fun t => (item code (i + 1 + 2 * 4)).map fun m => (i, t, m) else some (start, total, mapOff)).bind fun h =>
      let j := i + delta
      let j := if h.2.2 > 0 ∧ j = h.1 + h.2.2 then h.1 + h.2.1 - 1 else j
      (loop code fuel (j + 1) h.1 h.2.1 h.2.2).map (i :: ·)
    else some []

/-- `mjs_disasm`, mjs_util.c:253-274. -/
def disasm (fuel : Nat) (code : List UInt8) : Option (List Nat) := loop code fuel 0 0 0 0

end Mjs.Disasm
