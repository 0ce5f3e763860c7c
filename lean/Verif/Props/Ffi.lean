import Verif.Lemmas.FfiSafe

/-!
# C48: FFI signatures are accepted only if callable
-/

namespace Mjs.Props
open Mjs.Ffi Mjs.FfiSpec Mjs.Spec

/-- C48: for every string that writes a C declaration, `ffi` accepts it exactly if the resolver knows the function (by
the first 99 bytes of its name) and the declaration can be called; the function it makes then has the types of the
declaration, in order. -/
theorem C48_exact (res : Resolver) (d : Decl) (s : List UInt8) (h : DeclText d s) :
    ffi res s = match res.bind (· (d.name.take 99)) with
      | none => .error .error
      | some addr => if DeclOk d then .ok (sigOf addr d) else .error .error := parse_decl res h

/-- C48: whatever the string, a function `ffi` makes has a C function, a supported result, at most six arguments with
their number stored, at most one callback and one user data, either both or neither, and the callback's own signature
has exactly one user data and no callback. -/
theorem C48_accepted (res : Resolver) (s : List UInt8) (sig : Sig) (h : ffi res s = .ok sig) : FunctionFormed sig :=
  ffi_formed res s sig h

/-- C48: reading a signature never leaves the string (its last byte is followed by nothing in the model) and always
ends. -/
theorem C48_no_overread (res : Resolver) (s : List UInt8) : ffi res s ≠ .error .ub :=
  by
  unfold ffi
  exact parse_safe res .func (Nat.lt_succ_self _) []

/-- C48, the part that is proved: exactness on declarations, the form of whatever is accepted, and no read outside the
string.  Missing: that no string stops the process, which is false (`C48_violation_pointer`,
`C48_violation_void`). -/
theorem C48_signatures_partial (res : Resolver) (s : List UInt8) :
    (∀ d, DeclText d s → ffi res s = match res.bind (· (d.name.take 99)) with
      | none => .error .error
      | some addr => if DeclOk d then .ok (sigOf addr d) else .error .error) ∧
    (∀ sig, ffi res s = .ok sig → FunctionFormed sig) ∧ ffi res s ≠ .error .ub :=
  ⟨fun d h => C48_exact res d s h, C48_accepted res s, C48_no_overread res s⟩

/-- The signature `int (*foo)(int)` given to `ffi` stops the process with a failed assertion, with every resolver. -/
theorem C48_violation_pointer (res : Resolver) : ffi res (ascii "int (*foo)(int)") = .error .abort := by
  cases res <;> rfl

/-- So does `void ()()`. -/
theorem C48_violation_two_lists (res : Resolver) : ffi res (ascii "void ()()") = .error .abort := by
  cases res <;> rfl

/-- A callback with `void` between two user data passes the check of signatures and then fails an assertion (with a
resolver that finds every function). -/
theorem C48_violation_void (a : Nat) :
    ffi (some fun _ => some a) (ascii "void f(void (*)(userdata, void, userdata), userdata)") = .error .abort := by rfl

/-- A pair of brackets with a blank between them is not an empty list. -/
theorem C48_blank_list (a : Nat) : ffi (some fun _ => some a) (ascii "int f( )") = .error .error := by rfl

/-- The arguments after a leading comma are dropped: `int f(,int)` is taken as a function without arguments. -/
theorem C48_leading_comma (a : Nat) :
    ffi (some fun _ => some a) (ascii "int f(,int)") = ffi (some fun _ => some a) (ascii "int f()") := by rfl

/-! ## Examples -/

theorem spell_int : TypeText .int (ascii "int") := ⟨[], ascii "int", [], by simp [Blank], .int, by simp [Blank], rfl⟩

/-- A declaration with a callback meets the hypothesis of `C48_exact`, and is accepted. -/
example : ∃ d, DeclText d (ascii "int f(int, void (*cb)(int, userdata), userdata);") ∧ DeclOk d := by
  refine ⟨{ ret := .int, name := ascii "f", params := [.plain .int, .fn .none [.int, .userdata], .plain .userdata] },
    ⟨[], ascii "int", [32], [], ascii "int, void (*cb)(int, userdata), userdata", [59], ?_, .int, ?_, Or.inl (by simp),
      by decide, ?_, ?_, ?_, by decide, by decide⟩, by decide⟩
  · simp [Blank]
  · simp [Blank]
  · intro c hc; simp [ascii] at hc; subst hc; simp [NameChar]
  · simp [Blank]
  · refine .some ?_
    refine Joined.more (a := Param.plain .int) (s := ascii "int")
      (s' := ascii " void (*cb)(int, userdata), userdata") ⟨by decide, spell_int⟩ ?_
    refine Joined.more (a := Param.fn .none [.int, .userdata]) (s := ascii " void (*cb)(int, userdata)") (s' := ascii " userdata")
      ⟨ascii " void ", ascii "*cb", [], ascii "int, userdata", [], ?_, by decide, by simp [Blank], ?_, by simp [Blank],
        by decide⟩ (.one ⟨by decide, [32], ascii "userdata", [], by simp [Blank], .userdata, by simp [Blank], by decide⟩)
    · exact ⟨[32], ascii "void", [32], by simp [Blank], .void, by simp [Blank], by decide⟩
    · refine .some (Joined.more (a := CType.int) (s := ascii "int") (s' := ascii " userdata") ⟨by decide, spell_int⟩ (.one ⟨by decide, ?_⟩))
      exact ⟨[32], ascii "userdata", [], by simp [Blank], .userdata, by simp [Blank], by decide⟩

/-- What `ffi` makes of it, with a resolver that finds every function at address 7. -/
example : ffi (some fun _ => some 7) (ascii "int f(int, void (*cb)(int, userdata), userdata);") =
    .ok (sigOf 7 { ret := .int, name := ascii "f",
                   params := [.plain .int, .fn .none [.int, .userdata], .plain .userdata] }) := by rfl

/-- A string that writes no declaration is accepted too, and `C48_accepted` covers it. -/
example : ∃ sig, ffi (some fun _ => some 7) (ascii "void f(void foo(userdata), userdata)") = .ok sig ∧
    (sig.cb.bind Sig.fn) = some (.sym 7) := ⟨_, rfl, rfl⟩

/-- Seven parameters are refused. -/
example : ffi (some fun _ => some 7) (ascii "int f(int,int,int,int,int,int,int)") = .error .error := by rfl

end Mjs.Props
