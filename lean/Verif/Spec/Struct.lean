import Verif.Spec.Endian
import Verif.Spec.Double
import Verif.Spec.Invisible
import Verif.Model.Struct

/-!
# C structures, and the objects that show them
-/

namespace Mjs.Spec.Struct
open Mjs Mjs.Str Mjs.Obj Mjs.Core Mjs.Spec.Endian Mjs.Spec.Double

/-- What a script sees: a value without parts, a string, or an object with these keys in this order. -/
inductive Tree where
  | imm (v : Val)
  | str (bs : List UInt8)
  | obj (l : List (List UInt8 × Tree))

mutual
/-- How many allocations the tree takes: one for each string, each object and each property. -/
def cost : Tree → Nat
  | .imm _ => 0
  | .str _ => 1
  | .obj l => costs l + 1
def costs : List (List UInt8 × Tree) → Nat
  | [] => 0
  | (_, t) :: l => cost t + 1 + costs l
end

mutual
/-- How deep the objects in the objects are. -/
def depth : Tree → Nat
  | .imm _ => 1
  | .str _ => 1
  | .obj l => depths l + 1
def depths : List (List UInt8 × Tree) → Nat
  | [] => 0
  | (_, t) :: l => max (depth t) (depths l)
end

/-! ### C memory -/

/-- The `n` bytes at `a` are the unsigned number `x`, least significant byte first. -/
def Unsigned (cmem : Nat → Option UInt8) (n a x : Nat) : Prop := ∃ bs, readC cmem a n = some bs ∧ x = leValue bs

/-- The `n` bytes at `a` are the number `x` in two's complement. -/
def Signed (cmem : Nat → Option UInt8) (n a : Nat) (x : Int) : Prop := ∃ u, Unsigned cmem n a u ∧ x = signedValue n u

/-- At `a` is a C string. -/
def CString (cmem : Nat → Option UInt8) (a : Nat) (bs : List UInt8) : Prop :=
  readC cmem a (bs.length + 1) = some (bs ++ [0]) ∧ (0 : UInt8) ∉ bs ∧ bs.length ≤ 2 ^ 31

/-- At `a` are these bytes; NULL is an address of no bytes. -/
def Data (cmem : Nat → Option UInt8) (a : Nat) (bs : List UInt8) : Prop :=
  readC cmem a bs.length = some bs ∧ bs.length ≤ 2 ^ 31 ∧ (a ≠ 0 ∨ bs = [])

/-- The sign and the magnitude times 2^149 of a `float` that is a number; all of them are doubles. -/
def floatMagnitude (x : Nat) : Nat :=
  if x / 2 ^ 23 % 2 ^ 8 = 0 then x % 2 ^ 23 else (2 ^ 23 + x % 2 ^ 23) * 2 ^ (x / 2 ^ 23 % 2 ^ 8 - 1)

/-- The double `d` is the `float` with the bits `x`. -/
def IsFloat (x : Nat) (d : BitVec 64) : Prop :=
  if x / 2 ^ 23 % 2 ^ 8 = 255 then (if x % 2 ^ 23 = 0 then IsInf d ∧ (negative d ↔ 2 ^ 31 ≤ x) else d = tagNan)
  else Finite d ∧ (negative d ↔ 2 ^ 31 ≤ x) ∧ magnitude d = floatMagnitude x * 2 ^ 925

/-- The double `d` as a script gets it: there is one NaN. -/
def AsNumber (x d : BitVec 64) : Prop := if IsNaN x then d = tagNan else d = x

/-! ### Structures -/

mutual
/-- A field of type `type` (numbered as in mjs_object_public.h) with the additional argument `arg` at the address `p` is shown as
this.  `custom` is what the functions in descriptions show. -/
inductive Field (cmem : Nat → Option UInt8) (custom : Nat → Nat → Tree → Prop) : Nat → Nat → Nat → Tree → Prop
  -- structures inside, and by pointer
  | struct {arg p l} : p ≠ 0 → arg ≠ 0 → Struct cmem custom p arg l → Field cmem custom 1 arg p (.obj l)
  | noStruct {arg p} : p = 0 ∨ arg = 0 → Field cmem custom 1 arg p (.imm mkUndefined)
  | nullPtr {arg p} : Unsigned cmem 8 p 0 → Field cmem custom 2 arg p (.imm mkNull)
  | structPtr {arg p q l} : Unsigned cmem 8 p q → q ≠ 0 → arg ≠ 0 → Struct cmem custom q arg l → Field cmem custom 2 arg p (.obj l)
  | noDefs {p q} : Unsigned cmem 8 p q → q ≠ 0 → Field cmem custom 2 0 p (.imm mkUndefined)
  -- numbers
  | int {arg p n v} : Signed cmem 4 p n → IsInt v n → v = 0 ∨ n ≠ 0 → Field cmem custom 3 arg p (.imm v)
  | int8 {arg p n v} : Signed cmem 1 p n → IsInt v n → v = 0 ∨ n ≠ 0 → Field cmem custom 12 arg p (.imm v)
  | int16 {arg p n v} : Signed cmem 2 p n → IsInt v n → v = 0 ∨ n ≠ 0 → Field cmem custom 13 arg p (.imm v)
  | uint8 {arg p n v} : Unsigned cmem 1 p n → IsInt v n → v = 0 ∨ n ≠ 0 → Field cmem custom 14 arg p (.imm v)
  | uint16 {arg p n v} : Unsigned cmem 2 p n → IsInt v n → v = 0 ∨ n ≠ 0 → Field cmem custom 15 arg p (.imm v)
  | double {arg p x v} : Unsigned cmem 8 p x → AsNumber (BitVec.ofNat 64 x) v → Field cmem custom 5 arg p (.imm v)
  | float {arg p x v} : Unsigned cmem 4 p x → IsFloat x v → Field cmem custom 6 arg p (.imm v)
  -- `bool` and pointers
  | false {arg p} : Unsigned cmem 1 p 0 → Field cmem custom 4 arg p (.imm (mkBoolean false))
  | true {arg p} : Unsigned cmem 1 p 1 → Field cmem custom 4 arg p (.imm (mkBoolean true))
  | pointer {arg p q v} : Unsigned cmem 8 p q → q < 2 ^ 48 → isForeign v = true → (getPtr v).toNat = q → Field cmem custom 8 arg p (.imm v)
  -- texts
  | charPtr {arg p q bs} : Unsigned cmem 8 p q → q ≠ 0 → CString cmem q bs → Field cmem custom 7 arg p (.str bs)
  | noMgStr {arg p} : Unsigned cmem 8 p 0 → Field cmem custom 9 arg p (.imm mkNull)
  | mgStrPtr {arg p q a bs} : Unsigned cmem 8 p q → q ≠ 0 → Unsigned cmem 8 q a → Unsigned cmem 8 (q + 8) bs.length → Data cmem a bs →
      Field cmem custom 9 arg p (.str bs)
  | mgStr {arg p a bs} : Unsigned cmem 8 p a → Unsigned cmem 8 (p + 8) bs.length → Data cmem a bs → Field cmem custom 10 arg p (.str bs)
  | data {p bs} : Data cmem p bs → Field cmem custom 11 bs.length p (.str bs)
  -- the rest
  | custom {arg p t} : custom arg p t → Field cmem custom 16 arg p t
  | other {type arg p} : type = 0 ∨ 16 < type → Field cmem custom type arg p (.imm mkUndefined)
/-- The structure at `base` with the description at `defs` is shown as an object with these keys. -/
inductive Struct (cmem : Nat → Option UInt8) (custom : Nat → Nat → Tree → Prop) : Nat → Nat → List (List UInt8 × Tree) → Prop
  | done {base defs} : Unsigned cmem 8 defs 0 → Struct cmem custom base defs []
  | member {base defs name p : Nat} {k : List UInt8} {offset : Int} {type arg t l} : Unsigned cmem 8 defs name → name ≠ 0 → CString cmem name k →
      Signed cmem 4 (defs + 8) offset → Unsigned cmem 4 (defs + 12) type → Unsigned cmem 8 (defs + 16) arg →
      (p : Int) = base + offset → Field cmem custom type arg p t → Struct cmem custom base (defs + 24) l → k ∉ l.map (·.1) →
      Struct cmem custom base defs ((k, t) :: l)
end

/-! ### Objects -/

mutual
/-- The value is that tree: objects have their keys in this order in the list of their properties. -/
inductive Sees (h : Heap) : Val → Tree → Prop
  | imm {v} : Sees h v (.imm v)
  | str {v bs} : Reads h.str v bs → Sees h v (.str bs)
  | obj {v c es l} : isObject v = true → isArray v = false → h.objs.mem (getPtrRaw v).toNat = some c → Chain h.props.mem c.head es →
      SeesAll h es l → Sees h v (.obj l)
inductive SeesAll (h : Heap) : List Ent → List (List UInt8 × Tree) → Prop
  | nil : SeesAll h [] []
  | cons {e k t es l} : e.key = k → Reads h.str e.name k → Sees h e.val t → SeesAll h es l → SeesAll h (e :: es) ((k, t) :: l)
end

/-- The functions in descriptions return the values that `ct` says: numbers and the like. -/
def Returns (cmem : Nat → Option UInt8) (custom : Struct.Customs) (ct : Nat → Nat → Tree → Prop) : Prop :=
  ∀ arg p t, ct arg p t → ∃ v, t = .imm v ∧ Spec.Invisible.IsImm v ∧ ∀ s : Struct.St, s.heap.str.cmem = cmem → custom arg p s = some (s, v)

/-- The value is the object with these keys: in the list of its properties, and for `mjs_get` with any name. -/
def IsObjectOf (h : Heap) (v : Val) (l : List (List UInt8 × Tree)) : Prop :=
  Sees h v (.obj l) ∧
  ∀ name k, KeyPtr h.str name k → (0 : UInt8) ∉ k → ∃ u, Obj.get h v name k.length = some u ∧
    match l.lookup k with
    | some t => Sees h u t
    | none => u = mkUndefined

end Mjs.Spec.Struct
