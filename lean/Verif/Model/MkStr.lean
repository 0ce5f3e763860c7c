import Verif.Model.Builtin
import Verif.Model.Convert

/-!
# Model of `mkstr` (src/mjs_string.c:402-464)
-/

namespace Mjs.Builtin
open Mjs Mjs.Str Mjs.Obj Mjs.Core Mjs.Exec

/-- The choice of the arguments by their number, mjs_string.c:416-433: pointer, offset, length, copy; a variable that gets no
argument is undefined. -/
def mkstrArgs : List Val → Option (Val × Val × Val × Val)
  | [p, l] => some (p, mkUndefined, l, mkUndefined)
  | [p, o, l] => some (p, o, l, mkUndefined)
  | [p, o, l, c] => some (p, o, l, c)
  | _ => none

/-- `mjs_mk_string(mjs, p, len, copy)` with a C address and an `int` as length, mjs_string.c:45-131; the length becomes a
`size_t`, and `~0`, from -1, stands for the length of the C string (line 60).  Results `none`: `strlen(NULL)`, and a copy of so
many bytes that no memory has them (another negative length).  Simplification: an address below 0 is `none` too. -/
def mkString (hr : Nat) (st : Store) (addr len : Int) (copy : Bool) (als : Nat → Mbuf.Alloc) : Option (Store × Val) := do
  if addr < 0 then none
  let a := addr.toNat
  let n ← (if len = -1 then (if a = 0 then none else strlen st.cmem a)
    else if len < 0 then (if copy then none else some (2 ^ 64 - (-len).toNat))
    else some len.toNat)
  if copy then mkStringCopy hr st (if a = 0 then .null else .ext a) n als
  else mkStringForeign hr st a n als

/-- `mjs_mkstr`, mjs_string.c:402-464. -/
def mkstr : Body := fun _ args h al =>
  match mkstrArgs args with
  | none => some ⟨h, mkUndefined, some (.type,                                     -- lines 428-432
      txt "mkstr takes 2, 3 or 4 arguments: (ptr, len), (ptr, offset, len) or (ptr, offset, len, copy)")⟩
  | some (p, o, l, c) =>
    if ¬ isForeign p then some ⟨h, mkUndefined, some (.type, txt "ptr should be a foreign pointer")⟩   -- lines 435-438
    else if o ≠ mkUndefined ∧ ¬ isNumber o then some ⟨h, mkUndefined, some (.type, txt "offset should be a number")⟩ -- lines 440-443
    else if ¬ isNumber l then some ⟨h, mkUndefined, some (.type, txt "len should be a number")⟩        -- lines 445-448
    else do
      let copy ← isTruthy h.str c                                                  -- line 450
      let r ← mkString (al 0).hr h.str (((getPtr p).toNat : Int) + (if o ≠ mkUndefined then getInt o else 0)) (getInt l) copy
        (al 0).strs                                                                -- lines 454-460
      some ⟨{ h with str := r.1 }, r.2, none⟩

end Mjs.Builtin
