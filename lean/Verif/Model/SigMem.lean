import Verif.Model.FfiCall

/-!
# The memory of FFI signatures: mjs_ffi.c

The signature of a callback is a block of its own, which `cb_sig` of the function's signature points to.
-/

namespace Mjs.SigMem
open Mjs.Ffi

/-- `mjs_ffi_sig_free`, mjs_ffi.c:1017-1022 (also what `mjs_ffi_sig_destructor`, lines 631-634, does when a signature is collected): the signature, and how many blocks are freed. -/
def sigFree (s : Sig) : Sig × Nat :=
  match s.cb with
  | some _ => ({ s with cb := none }, 1)
  | none => (s, 0)

/-- `mjs_ffi_sig_copy`, mjs_ffi.c:1008-1015: the copy, and how many blocks are allocated for it.  `calloc` is taken to succeed. -/
def sigCopy : Sig → Sig × Nat
  | ⟨none, vals, fn, cnt, cb, valid⟩ => (⟨none, vals, fn, cnt, cb, valid⟩, 0)
  | ⟨some c, vals, fn, cnt, cb, valid⟩ => (⟨some (sigCopy c).1, vals, fn, cnt, cb, valid⟩, (sigCopy c).2 + 1)

/-- `mjs_ffi_args_free_list`, mjs_ffi.c:994-1002, called by `mjs_destroy`, mjs_core.c:66: how many blocks are freed. -/
def argsFreeList : List Node → Nat
  | [] => 0
  | _ :: l => argsFreeList l + 1

/-- The blocks `mjs_ffi_cb_free` frees with a registration, mjs_ffi.c:983-984. -/
def nodeFree (n : Node) : Nat := (sigFree n.sig).2 + 1

end Mjs.SigMem
