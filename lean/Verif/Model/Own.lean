/-!
# `mjs_own` and `mjs_disown` (src/mjs_core.c)
-/

namespace Mjs.Own

/-- `mjs->owned_values`, mjs_core.h:122: the address of its block, 0 before the first allocation (`mbuf_init(…, 0)`,
mjs_core.c:82), and the registered addresses.  Simplification: the buffer is seen as a list of pointers. -/
structure Owned where
  buf : Nat
  ptrs : List Nat

/-- `mjs_own`, mjs_core.c:283-285.  `ans` is the address of the block after `mbuf_append`, `none` when that fails: then
nothing is registered, and the caller is not told. -/
def own (o : Owned) (v : Nat) (ans : Option Nat) : Owned :=
  match ans with
  | none => o
  | some b => ⟨b, o.ptrs ++ [v]⟩

/-- The loop of `mjs_disown`, mjs_core.c:291-298, with `i` places to go: the last pointer takes the place of the one found. -/
def disownLoop (ptrs : List Nat) (v : Nat) : Nat → List Nat × Bool
  | 0 => (ptrs, false)
  | i + 1 => if ptrs[i]? = some v then ((ptrs.set i (ptrs.getLast?.getD 0)).dropLast, true) else disownLoop ptrs v i

/-- `mjs_disown`, mjs_core.c:287-301.  `none`: without a block the first pointer compared is `NULL - 8`, which is above
`NULL`, and the loop reads there. -/
def disown (o : Owned) (v : Nat) : Option (Owned × Bool) :=
  if o.buf = 0 then none
  else
    let r := disownLoop o.ptrs v o.ptrs.length
    some (⟨o.buf, r.1⟩, r.2)

end Mjs.Own
