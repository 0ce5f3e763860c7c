/-!
# Code kept in `.jsc` files: src/mjs_exec.c, src/common/cs_file.c

For builds with `MJS_GENERATE_JSC` and `CS_MMAP`.  A mapping is taken to show what the file holds now, as Linux does for pages that were not written to.
-/

namespace Mjs.Jsc

/-- `struct mjs_bcode_part`: code in memory of its own, in a mapped file of which `len` bytes are used (`in_rom`), or nowhere (`data.p` is NULL). -/
inductive Part where
  | ram (code : List UInt8)
  | rom (file : List UInt8) (len : Nat)
  | null
deriving DecidableEq

/-- The files by name, the parts of an engine in order, and how many file descriptors are open. -/
structure Disk where
  files : List UInt8 → Option (List UInt8)
  parts : List Part
  fds : Nat

/-- What the operating system answers: whether the first mapping succeeds if there is such a file, whether the file can be opened for writing, how many bytes can be written, and whether the
second mapping succeeds. -/
structure Oracle where
  maps : Bool
  opens : Bool
  writes : Nat
  mapsAgain : Bool

/-- The name of the file for the code, mjs_exec.c:1008-1019; `none`: the script's name does not end in `.js`. -/
def jscName (path : List UInt8) : Option (List UInt8) :=
  if path.length > 3 ∧ path.drop (path.length - 3) = [46, 106, 115] then some (path.take (path.length - 3) ++ [46, 106, 115, 99]) else none

/-- `cs_mmap_file`, cs_file.c:55-66: the bytes and the number of descriptors, since the descriptor is not closed.  A mapping of no bytes fails. -/
def mmap (d : Disk) (ok : Bool) (f : List UInt8) : Option (List UInt8) × Nat :=
  match d.files f with
  | none => (none, d.fds)
  | some b => (if ok ∧ b ≠ [] then some b else none, d.fds + 1)

/-- `mjs_exec_internal` from the new part of code to its execution, mjs_exec.c:1005-1068. -/
def keep (d : Disk) (generate : Bool) (path code : List UInt8) (o : Oracle) : Disk :=
  match (if generate then jscName path else none) with
  | none => { d with parts := d.parts ++ [.ram code] }
  | some f =>
    let m := mmap d o.maps f                                           -- lines 1032-1043
    let d1 : Disk := { d with fds := m.2 }
    let rewrite := !(m.1 == some code)
    if rewrite ∧ ¬ o.opens then { d1 with parts := d.parts ++ [.ram code] }
    else
      let d2 : Disk := if rewrite then { d1 with files := fun g => if g = f then some (code.take o.writes) else d1.files g } else d1
      let m2 := mmap d2 o.mapsAgain f                                  -- lines 1058-1065
      { d2 with fds := m2.2, parts := d.parts ++ [match m2.1 with
        | some b => .rom f b.length
        | none => .null] }

/-- The code of a part as it is executed; `none`: memory that is not there is read. -/
def view (d : Disk) : Part → Option (List UInt8)
  | .ram code => some code
  | .rom f len => (d.files f).bind fun b => if len ≤ b.length then some (b.take len) else none
  | .null => none

/-- One script after the other is executed. -/
def history : Disk → List (Bool × List UInt8 × List UInt8 × Oracle) → Disk
  | d, [] => d
  | d, (g, path, code, o) :: r => history (keep d g path code o) r

end Mjs.Jsc
