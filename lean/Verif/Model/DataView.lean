import Verif.Model.Num

/-!
# Model of `src/mjs_dataview.c`

The memory is a list of bytes, a pointer an index into it; an access outside of it is `none`.  `int` arithmetic that
overflows by shifting wraps around, as compilers do (strict C leaves `res <<= 8` on a negative `int` undefined).
-/

namespace Mjs.DataView
open Mjs

/-- Reading a byte at an address computed in `int` arithmetic. -/
def byteAt (mem : List UInt8) (a : Int) : Option UInt8 := if a < 0 then none else mem[a.toNat]?

/-- Writing a byte. -/
def setByte (mem : List UInt8) (a : Int) (b : UInt8) : Option (List UInt8) :=
  if a < 0 ∨ mem.length ≤ a.toNat then none else some (mem.set a.toNat b)

/-- The loop of `mjs_mem_get_uint`, mjs_dataview.c:43-46, and of `mjs_mem_get_int`, 60-63: `n` more rounds. -/
def getLoop (mem : List UInt8) (p inc : Int) (res : BitVec 32) : Nat → Option (BitVec 32)
  | 0 => some res
  | n + 1 => (byteAt mem p).bind fun b => getLoop mem (p + inc) inc ((res <<< 8) ||| BitVec.ofNat 32 b.toNat) n

/-- `mjs_mem_get_uint`, mjs_dataview.c:38-48, before the conversion to `double`. -/
def getUint (mem : List UInt8) (ptr : Nat) (size : Nat) (bigendian : Bool) : Option (BitVec 32) :=
  let inc : Int := if bigendian then 1 else -1
  let p : Int := ptr + (if bigendian then 0 else (size : Int) - 1)
  getLoop mem p inc 0 size

/-- `mjs_mem_get_int`, mjs_dataview.c:54-73, before the conversion to `double`: the shifts of lines 66-70. -/
def getInt32 (mem : List UInt8) (ptr : Nat) (size : Nat) (bigendian : Bool) : Option (BitVec 32) :=
  (getUint mem ptr size bigendian).map fun (res : BitVec 32) => BitVec.sshiftRight (res <<< (8 * (4 - size))) (8 * (4 - size))

/-- The script-visible result of `mjs_mem_get_uint`: the double of an `unsigned int`. -/
def memGetUint (mem : List UInt8) (ptr size : Nat) (bigendian : Bool) : Option Val :=
  (getUint mem ptr size bigendian).map fun r => ofIntD r.toNat
/-- The script-visible result of `mjs_mem_get_int`: the double of an `int`. -/
def memGetInt (mem : List UInt8) (ptr size : Nat) (bigendian : Bool) : Option Val :=
  (getInt32 mem ptr size bigendian).map fun r => ofIntD r.toInt

/-- The loop of `mjs_mem_set_uint`, mjs_dataview.c:78-81. -/
def setLoop (mem : List UInt8) (p inc : Int) (val : BitVec 32) : Nat → Option (List UInt8)
  | 0 => some mem
  | n + 1 => (setByte mem p (UInt8.ofNat (val &&& 0xff#32).toNat)).bind fun mem' => setLoop mem' (p + inc) inc (val >>> 8) n

/-- `mjs_mem_set_uint`, mjs_dataview.c:75-82. -/
def setUint (mem : List UInt8) (ptr : Nat) (val : BitVec 32) (size : Nat) (bigendian : Bool) : Option (List UInt8) :=
  let p : Int := ptr + (if bigendian then (size : Int) - 1 else 0)
  setLoop mem p (if bigendian then -1 else 1) val size

/-- `mjs_mem_set_int`, mjs_dataview.c:84-86: the `int` is converted to `unsigned`. -/
def setInt (mem : List UInt8) (ptr : Nat) (val : BitVec 32) (size : Nat) (bigendian : Bool) : Option (List UInt8) :=
  setUint mem ptr val size bigendian

/-- `mjs_mem_set_dbl`, mjs_dataview.c:30-32: `memcpy` of the 8 bytes of the double (little endian machine). -/
def setDbl (mem : List UInt8) (ptr : Nat) (d : BitVec 64) : Option (List UInt8) :=
  if ptr + 8 ≤ mem.length then
    some (mem.take ptr ++ (List.range 8).map (fun i => UInt8.ofNat ((d >>> (8 * i)).toNat % 256)) ++ mem.drop (ptr + 8))
  else none

/-- `mjs_mem_get_dbl`, mjs_dataview.c:24-28. -/
def getDbl (mem : List UInt8) (ptr : Nat) : Option (BitVec 64) :=
  if ptr + 8 ≤ mem.length then
    some (BitVec.ofNat 64 (((mem.drop ptr).take 8).foldr (fun b acc => b.toNat + 256 * acc) 0))
  else none

/-- `mjs_mem_set_ptr`, mjs_dataview.c:20-22: a pointer of 8 bytes (little endian machine). -/
def setPtr (mem : List UInt8) (ptr : Nat) (val : BitVec 64) : Option (List UInt8) := setDbl mem ptr val

/-- `mjs_mem_get_ptr`, mjs_dataview.c:16-18: the address `base + offset`; nothing is read. -/
def getPtrAt (base : BitVec 64) (offset : BitVec 32) : BitVec 64 := base + offset.signExtend 64

/-- `mjs_mem_to_ptr`, mjs_dataview.c:12-14. -/
def toPtr (val : BitVec 32) : BitVec 64 := val.setWidth 64

end Mjs.DataView
