import Verif.Lemmas.FfiCallback
import Verif.Lemmas.FfiSafe

/-!
# C49, C50, C51: calls through FFI, registrations of callbacks, callbacks
-/

namespace Mjs.Props
open Mjs.Ffi Mjs.FfiSpec Mjs.Spec Mjs.Spec.Double

/-! ## C49 -/

/-- C49, the part about calls: for every function that `ffi` makes, if the number of arguments is right, every argument fits its
parameter, and the floating point parameters are ones the code can pass, the C function is called with every argument, in order,
as the parameter's type says, and no error is reported.  (`rest`: the code may pass more words than there are parameters.) -/
theorem C49_call_partial (P : Fpu) (junk : Nat → Arg) (id : Nat) (regs : List Node) (res : Resolver) (s : List UInt8) (sig : Sig)
    (hs : ffi res s = .ok sig) (vs : List Val) (hl : vs.length = (params sig).length)
    (hfit : ∀ (k : Nat) t v, (params sig)[k]? = some t → vs[k]? = some v → Fits P t v)
    (hfp : FpOk (sig.vals.headD .none) (params sig)) :
    ∃ ws rest regs', call2 P junk (some id) regs sig vs = .ok (.ran (some (ws ++ rest)) false regs') ∧ ws.length = vs.length ∧
      ∀ (k : Nat) t v, (params sig)[k]? = some t → vs[k]? = some v →
        ∃ w, ws[k]? = some w ∧ Receives P sig regs' (cbVal (params sig) vs) t v w :=
  call2_ok P junk id regs (ffi_formed res s sig hs) hl hfit hfp

/-- C49: with a wrong number of arguments a TypeError is reported and nothing is called. -/
theorem C49_count (P : Fpu) (junk : Nat → Arg) (al : Option Nat) (regs : List Node) (res : Resolver) (s : List UInt8) (sig : Sig)
    (hs : ffi res s = .ok sig) (vs : List Val) (hl : vs.length ≠ (params sig).length) :
    call2 P junk al regs sig vs = .ok .refused := by
  have := (ffi_formed res s sig hs).1.2.2.1
  unfold call2
  rw [if_pos (by rw [this]; exact hl)]

/-- C49: whatever the arguments, a call does not stop the process (if there is memory). -/
theorem C49_total (P : Fpu) (junk : Nat → Arg) (id : Nat) (regs : List Node) (res : Resolver) (s : List UInt8) (sig : Sig)
    (hs : ffi res s = .ok sig) (vs : List Val) : ∃ o, call2 P junk (some id) regs sig vs = .ok o := by
  rcases call2_total P junk id regs (ffi_formed res s sig hs) vs with h | ⟨p, e, r, h, _⟩
  · exact ⟨_, h⟩
  · exact ⟨_, h⟩

/-- C49, the part about wrong types: an argument of a wrong type for a pointer, string or callback parameter is
refused without a call, whatever the other arguments are; one for an `int` or `bool` parameter is at least reported. -/
theorem C49_wrong_type_partial (P : Fpu) (junk : Nat → Arg) (id : Nat) (regs : List Node) (res : Resolver) (s : List UInt8) (sig : Sig)
    (hs : ffi res s = .ok sig) (vs : List Val) (k : Nat) (t : CType) (v : Val) (ht : (params sig)[k]? = some t) (hv : vs[k]? = some v)
    (hw : WrongType t v) :
    (t ∈ [CType.charPtr, .voidPtr, .mgStrPtr, .callback] → call2 P junk (some id) regs sig vs = .ok .refused) ∧
    (t ∈ [CType.int, .bool] → call2 P junk (some id) regs sig vs = .ok .refused ∨
      ∃ p regs', call2 P junk (some id) regs sig vs = .ok (.ran p true regs')) := by
  rcases call2_total P junk id regs (ffi_formed res s sig hs) vs with h | ⟨p, e, r, h, _, hwr, _⟩
  · exact ⟨fun _ => h, fun _ => .inl h⟩
  · have := hwr k t v ht hv hw
    refine ⟨fun hm => ?_, fun hm => ?_⟩
    · rcases this with rfl | rfl | ⟨rfl | rfl, _⟩ <;> simp at hm
    · rcases this with rfl | rfl | ⟨_, rfl⟩
      · simp at hm
      · simp at hm
      · exact .inr ⟨p, r, h⟩

/-- C49, results: what C returns arrives in JavaScript as the declared type says (for a pointer: if a foreign value can hold
it). -/
theorem C49_result_partial (P : Fpu) (t : CType) (ht : t ∈ [CType.none, .int, .bool, .double, .float, .voidPtr, .charPtr])
    (c : BitVec 64) (hc : t = .voidPtr → c.toNat < 2 ^ 48) : Returns P t c (toJs P t c) := by
  cases t with
  | none => exact .void
  | int =>
    refine .int (mkInt_isInt _ ?_)
    have h1 := BitVec.toInt_lt (x := c.setWidth 32)
    have h2 := BitVec.le_toInt (x := c.setWidth 32)
    omega
  | bool => exact .bool (c != 0#64) (by simp)
  | double =>
    by_cases h : IsNaN c
    · simp only [toJs]; rw [mkNumber_nan h]; exact .nan h
    · simp only [toJs]; rw [mkNumber_real h]; exact .double h
  | float =>
    by_cases h : IsNaN (P.widen (c.setWidth 32))
    · simp only [toJs]; rw [mkNumber_nan h]; exact .nanf h
    · simp only [toJs]; rw [mkNumber_real h]; exact .float h
  | voidPtr => exact .ptr ((C04_constructors.2.2.2.2.1 c .foreign).2 rfl) (C06_foreign_roundtrip_partial c (hc rfl)).1
  | charPtr =>
    by_cases h : c = 0#64
    · subst h; exact .null
    · simp only [toJs, ne_eq, h, not_false_eq_true, if_true]; exact .text h
  | _ => simp at ht

/-- The violation for `int`: a value that is no number and no boolean is reported, but the C function is called all the same,
with 0. -/
theorem C49_violation_int_called (P : Fpu) (junk : Nat → Arg) (al : Option Nat) (regs : List Node) (v : Val) (hv : WrongType .int v) :
    ∃ sig rest, ffi (some fun _ => some 7) (ascii "int f(int)") = .ok sig ∧ params sig = [.int] ∧
      call2 P junk al regs sig [v] = .ok (.ran (some (.word (.bits 0#64) :: rest)) true regs) := by
  refine ⟨sigOf 7 { ret := .int, name := ascii "f", params := [.plain .int] },
    [.word (junk 1).v, .word (junk 2).v, .word (junk 3).v], rfl, rfl, ?_⟩
  simp [WrongType] at hv
  simp [call2, sigOf, Param.type, cbOf, convArgs, convArg, hv.1, hv.2, passCb, resType, padded, Conv.setInt, Conv.set, ffiCall, wordCall,
    isD, isF, List.range_succ]

/-- The violation for `double`: every value is taken for a number.  A string is not refused; its bits are passed. -/
theorem C49_violation_double_unchecked (P : Fpu) (junk : Nat → Arg) (al : Option Nat) (regs : List Node) (v : Val) :
    ∃ sig, ffi (some fun _ => some 7) (ascii "int f(int, double)") = .ok sig ∧ params sig = [.int, .double] ∧
      call2 P junk al regs sig [mkBoolean true, v] = .ok (.ran (some [.word (.bits 1#64), .double (.bits v)]) false regs) :=
  ⟨sigOf 7 { ret := .int, name := ascii "f", params := [.plain .int, .plain .double] }, rfl, rfl, rfl⟩

/-- The violation for more than three parameters with a `double` among them: such a signature is accepted, nothing is ever
called, and no error is reported (the result is 0). -/
theorem C49_violation_not_called (P : Fpu) (junk : Nat → Arg) (al : Option Nat) (regs : List Node) (a b c d : Val) :
    ∃ sig, ffi (some fun _ => some 7) (ascii "int f(double, double, double, double)") = .ok sig ∧
      call2 P junk al regs sig [a, b, c, d] = .ok (.ran none false regs) :=
  ⟨sigOf 7 { ret := .int, name := ascii "f", params := [.plain .double, .plain .double, .plain .double, .plain .double] }, rfl, rfl⟩

/-- So it is for a `double` and a `float`. -/
theorem C49_violation_mixed (P : Fpu) (junk : Nat → Arg) (al : Option Nat) (regs : List Node) (a b : Val) :
    ∃ sig, ffi (some fun _ => some 7) (ascii "double f(double, float)") = .ok sig ∧
      call2 P junk al regs sig [a, b] = .ok (.ran none false regs) :=
  ⟨sigOf 7 { ret := .double, name := ascii "f", params := [.plain .double, .plain .float] }, rfl, rfl⟩

/-- The violation for a `float` parameter with a `double` result: the argument is passed as a word, in a register the C function
does not look at. -/
theorem C49_violation_class (P : Fpu) (junk : Nat → Arg) (al : Option Nat) (regs : List Node) (a : Val) :
    ∃ sig rest, ffi (some fun _ => some 7) (ascii "double f(float)") = .ok sig ∧
      call2 P junk al regs sig [a] = .ok (.ran (some (.word (.bits ((P.narrow a).setWidth 64)) :: rest)) false regs) :=
  ⟨sigOf 7 { ret := .double, name := ascii "f", params := [.plain .float] }, _, rfl, rfl⟩

/-- A function parameter that is no pointer is taken for a callback, but the C function receives the C function of
that name, not the JavaScript callback. -/
theorem C49_violation_function_type (P : Fpu) (junk : Nat → Arg) (id : Nat) (f u : Val) (hf : isFunction f = true) :
    ∃ sig rest regs', ffi (some fun n => some n.length) (ascii "void f(void strlen(userdata), userdata)") = .ok sig ∧
      call2 P junk (some id) [] sig [f, u] = .ok (.ran (some (.word (.code (.sym 6)) :: .word (.reg id) :: rest)) false regs') := by
  refine ⟨⟨some ⟨none, padded .none [.userdata], some (.sym 6), 1, false, true⟩, padded .none [.callback, .userdata], some (.sym 1), 2, false,
    true⟩, [.word (junk 2).v, .word (junk 3).v],
    [⟨id, ⟨none, padded .none [.userdata], some (.sym 6), 1, false, true⟩, f, u⟩], rfl, ?_⟩
  simp only [call2, padded, convArgs, convArg, hf]
  rfl

/-! ## C50 -/

/-- C50: after every history of calls with callbacks and of frees, the registrations are exactly those expected: one for each
function and user data passed and not freed since, with the memory and the callback signature of the first time; no two
share their memory. -/
theorem C50_registrations (h : List RegOp) (hf : FreshIds h) :
    (∀ f u i s, expected h f u = some (i, s) ↔ ∃ n ∈ actual h, n.func = f ∧ n.userdata = u ∧ n.id = i ∧ n.sig = s) ∧
    ((actual h).map Node.id).Nodup ∧ ((actual h).map fun n => (n.func, n.userdata)).Nodup := by
  have I := reg_inv h hf
  refine ⟨fun f u i s => ⟨I.all f u i s, ?_⟩, I.ids, I.keys⟩
  rintro ⟨n, hn, rfl, rfl, rfl, rfl⟩
  exact I.one n hn

/-- C50: a call through FFI changes the registrations as passing its callback and user data does, and not at all if it has
none. -/
theorem C50_call (P : Fpu) (junk : Nat → Arg) (id : Nat) (h : List RegOp) (res : Resolver) (s : List UInt8) (sig : Sig)
    (hs : ffi res s = .ok sig) (vs : List Val) (p : Option (List Passed)) (e : Bool) (regs' : List Node)
    (hc : call2 P junk (some id) (actual h) sig vs = .ok (.ran p e regs')) :
    (CType.callback ∉ params sig ∧ regs' = actual h) ∨ ∃ cb f u, sig.cb = some cb ∧ cbVal (params sig) vs = some f ∧
      udVal (params sig) vs = some u ∧ regs' = actual (.pass cb f u id :: h) := by
  rcases call2_total P junk id (actual h) (ffi_formed res s sig hs) vs with h' | ⟨p', e', r', h', _, _, hr⟩
  · rw [hc] at h'; simp at h'
  · rw [hc] at h'
    simp only [Except.ok.injEq, Outcome.ran.injEq] at h'
    obtain ⟨rfl, rfl, rfl⟩ := h'
    rcases hr with hr | ⟨cb, f, u, i, h1, h2, h3, h4⟩
    · exact .inl hr
    · exact .inr ⟨cb, f, u, h1, h2, h3, by simp only [actual, h4]⟩

/-- C50: passing a function and user data again uses the registration that there is, and needs no memory. -/
theorem C50_reuse (h : List RegOp) (hf : FreshIds h) (al : Option Nat) (cb : Sig) (f u : Val) (i : Nat) (s : Sig)
    (he : expected h f u = some (i, s)) : register al (actual h) cb f u = .ok (actual h, i) := by
  have I := reg_inv h hf
  obtain ⟨n, hn, h1, h2, h3, _⟩ := I.all f u i s he
  cases hm : matching (actual h) f u with
  | none => exact absurd ⟨h1, h2⟩ (matching_none hm hn)
  | some m =>
    obtain ⟨hm1, hm2, hm3⟩ := matching_some hm
    have := I.one m hm1
    rw [hm2, hm3, he] at this
    simp only [Option.some.injEq, Prod.mk.injEq] at this
    simp [register, hm, this.1]

/-- C50: `ffi_cb_free` of a function removes exactly the registration of that function and user data and returns 1, or
changes nothing and returns 0 if there is none. -/
theorem C50_free_partial (h : List RegOp) (hf : FreshIds h) (f u : Val) (hfn : isFunction f = true) :
    (cbFree (actual h) f u).2 = some (if (expected h f u).isSome then 1 else 0) ∧
    (cbFree (actual h) f u).1 = (actual h).filter (fun n => !(n.func == f && n.userdata == u)) ∧
    (expected h f u = none → (cbFree (actual h) f u).1 = actual h) := by
  have I := reg_inv h hf
  simp only [cbFree, hfn, if_true]
  cases hm : matching (actual h) f u with
  | some m =>
    obtain ⟨hm1, hm2, hm3⟩ := matching_some hm
    have := I.one m hm1
    rw [hm2, hm3] at this
    exact ⟨by simp [this], eraseP_keys I.keys f u, by simp [this]⟩
  | none =>
    have hn : expected h f u = none := by
      cases he : expected h f u with
      | none => rfl
      | some q =>
        obtain ⟨n, hn, h1, h2, _⟩ := I.all f u q.1 q.2 he
        exact absurd ⟨h1, h2⟩ (matching_none hm hn)
    refine ⟨by simp [hn], ?_, fun _ => rfl⟩
    refine (List.filter_eq_self.2 ?_).symm
    intro n hn
    have := matching_none hm hn
    by_cases h1 : n.func = f
    · by_cases h2 : n.userdata = u
      · exact absurd ⟨h1, h2⟩ this
      · simp [h2]
    · simp [h1]

/-- The violation: a callback that is a foreign pointer or another function made by `ffi` is registered, but cannot be freed:
`ffi_cb_free` reports a TypeError for it and leaves it. -/
theorem C50_violation_cannot_free (cb : Sig) (f u : Val) (id : Nat) (hf : isFunction f = false) :
    expected [.pass cb f u id] f u = some (id, cb) ∧
    cbFree (actual [.pass cb f u id]) f u = ([{ id := id, sig := cb, func := f, userdata := u }], none) := by
  refine ⟨by simp [expected], ?_⟩
  simp [cbFree, hf, actual, register, matching]

/-! ## C51 -/

/-- C51, the part that is proved: when C calls the function made up for a callback of a declared type that can be passed, giving it
the arguments of that type with the registration as user data, the JavaScript function registered is called with the same
number of arguments, each with what C passed at its place; the user data is the one registered.  Missing: negative `int`s
(`C51_violation_negative`), callbacks with a `double` and more than two parameters (`C51_violation_third`,
`C51_violation_crash`), and a registration made for another callback type (`C51_violation_stale_type`). -/
theorem C51_callback_partial (P : Fpu) (addr : Cell → BitVec 64) (junk : Nat → Cell) (regs : List Node)
    (hr : (regs.map Node.id).Nodup) (n : Node) (hn : n ∈ regs) (ret : CType) (ts : List CType) (hsig : n.sig = cbSigOf ret ts)
    (hok : CbOk ret ts) (hd : CType.double ∈ ts → ts.length = 2) (ps : List Passed) (hl : ps.length = ts.length)
    (hp : ∀ (k : Nat) t p, ts[k]? = some t → ps[k]? = some p → Passable n.id t p) :
    ∃ rs, callback P addr junk regs (implOf ts) ps = .ok (n.func, rs) ∧ rs.length = ts.length ∧
      ∀ (k : Nat) t p, ts[k]? = some t → ps[k]? = some p → ∃ r, rs[k]? = some r ∧ Arrives P n.userdata n.id t p r :=
  callback_ok P addr junk hr hn hsig hok hd hl hp

/-- C51: the hypotheses above come from a declaration and a call: the function passed for the callback is the one made up for its
declared type, and the registration, if the pair of function and user data is new, has that type. -/
theorem C51_registered (d : Decl) (hd : DeclOk d) (a : Nat) (ret : CType) (ts : List CType) (hm : Param.fn ret ts ∈ d.params) :
    ∃ cb, (sigOf a d).cb = some cb ∧ cb = cbSigOf ret ts ∧ cb.fn = some (.impl (implOf ts)) ∧ CbOk ret ts ∧
      ∀ (h : List RegOp) (f u : Val) (id : Nat), expected h f u = none → FreshIds (.pass cb f u id :: h) →
        ((actual (.pass cb f u id :: h)).map Node.id).Nodup ∧
        ∃ n ∈ actual (.pass cb f u id :: h), n.func = f ∧ n.userdata = u ∧ n.id = id ∧ n.sig = cbSigOf ret ts := by
  have hcb : cbOf d.params = some (cbSigOf ret ts) := by
    have h1 := hd.2.2.2.1
    generalize d.params = ps at hm h1
    unfold cbOf
    induction ps with
    | nil => simp at hm
    | cons p ps ih =>
      rw [List.map_cons, List.count_cons] at h1
      rcases List.mem_cons.1 hm with rfl | hm'
      · simp
      · cases p with
        | plain t =>
          rw [List.findSome?_cons]
          exact ih hm' (by omega)
        | fn r as =>
          exfalso
          have : 0 < (ps.map Param.type).count .callback := List.count_pos_iff.2 (List.mem_map.2 ⟨_, hm', rfl⟩)
          simp [Param.type] at h1
          exact absurd (List.mem_map.2 ⟨_, hm', rfl⟩ : CType.callback ∈ ps.map Param.type) (List.count_eq_zero.1 (by omega))
  refine ⟨_, hcb, rfl, rfl, hd.2.2.2.2.2.2 _ hm, ?_⟩
  intro h f u id he hf
  have I := reg_inv _ hf
  refine ⟨I.ids, I.all f u id _ ?_⟩
  simp [expected, he]

/-- The violation for negative numbers: an `int` argument below zero (zero extended, as compilers do) arrives as the
number plus 2 to the 32. -/
theorem C51_violation_negative (P : Fpu) (addr : Cell → BitVec 64) (u : Val) (n : Int) (h1 : -2 ^ 31 ≤ n) (h2 : n < 0) :
    ∃ v, jsArg P addr u .int (.bits ((BitVec.ofInt 32 n).setWidth 64)) = .ok (.val v) ∧ IsInt v (n + 2 ^ 32) := by
  refine ⟨_, rfl, ?_⟩
  have e : ((Cell.num addr (.bits ((BitVec.ofInt 32 n).setWidth 64))).toNat : Int) = n + 2 ^ 32 := by
    show (((BitVec.ofInt 32 n).setWidth 64).toNat : Int) = n + 2 ^ 32
    rw [BitVec.toNat_setWidth, BitVec.toNat_ofInt]
    omega
  rw [e]
  exact mkInt_isInt _ (by omega)

/-- The violation for a `double` among more than two: with `void (*)(userdata, double, int)` the third argument is lost and arrives
as 0. -/
theorem C51_violation_third (P : Fpu) (addr : Cell → BitVec 64) (junk : Nat → Cell) (f u : Val) (d x : BitVec 64) :
    CbOk .none [.userdata, .double, .int] ∧ ∃ a, callback P addr junk [⟨5, cbSigOf .none [.userdata, .double, .int], f, u⟩]
      (implOf [.userdata, .double, .int]) [.word (.reg 5), .double (.bits d), .word (.bits x)] =
      .ok (f, [.val u, a, .val (mkInt 0)]) := ⟨by decide, _, rfl⟩

/-- With `void (*)(int, userdata, double)` the number in the first place is used as a pointer to the registration. -/
theorem C51_violation_crash (P : Fpu) (addr : Cell → BitVec 64) (junk : Nat → Cell) (f u : Val) (d x : BitVec 64) :
    CbOk .none [.int, .userdata, .double] ∧ callback P addr junk [⟨5, cbSigOf .none [.int, .userdata, .double], f, u⟩]
      (implOf [.int, .userdata, .double]) [.word (.bits x), .word (.reg 5), .double (.bits d)] = .error .ub :=
  ⟨by decide, rfl⟩

/-- The violation for a function and user data passed first as `void (*)(int, userdata)` and then, to another C function, as
`void (*)(userdata)`: the second C function calls with the user data alone, and JavaScript receives the address of the registration as
a number in the first place. -/
theorem C51_violation_stale_type (P : Fpu) (addr : Cell → BitVec 64) (junk : Nat → Cell) (f u : Val) :
    ∃ n : Nat, (addr (.reg 5)).toNat = n ∧
      callback P addr junk (actual [.pass (cbSigOf .none [.userdata]) f u 6, .pass (cbSigOf .none [.int, .userdata]) f u 5])
        (implOf [.userdata]) [.word (.reg 5)] = .ok (f, [.val (mkInt n), .val u]) := by
  refine ⟨_, rfl, ?_⟩
  have e : actual [.pass (cbSigOf .none [.userdata]) f u 6, .pass (cbSigOf .none [.int, .userdata]) f u 5] =
      [⟨5, cbSigOf .none [.int, .userdata], f, u⟩] := by simp [actual, register, matching]
  rw [e]
  rfl

/-- What a callback returns to C: a number as `int` (if it fits), a boolean as `bool`, and 0 if the JavaScript function failed. -/
theorem C51_return (P : Fpu) :
    (∀ t, cbReturn P t none = .ok 0#64) ∧ (∀ v, cbReturn P .none (some v) = .ok 0#64) ∧
    (∀ v n, TruncatesTo v n → -2 ^ 31 ≤ n → n < 2 ^ 31 → cbReturn P .int (some v) = .ok (BitVec.ofInt 64 n)) ∧
    (∀ b : Bool, cbReturn P .bool (some (mkBoolean b)) = .ok (if b then 1#64 else 0#64)) := by
  refine ⟨fun _ => rfl, fun _ => rfl, ?_, ?_⟩
  · intro v n h h1 h2
    simp only [cbReturn, getInt_trunc h h1 h2]
  · intro b; cases b <;> rfl

/-! ## Examples -/

/-- A number. -/
theorem fits_one (P : Fpu) : Fits P .int (mkInt 1) := by
  refine .inr (.inr ⟨_, .int (n := 1) ⟨(mkInt_isInt 1 (by decide)).1, ?_⟩ (by decide) (by decide)⟩)
  rw [(mkInt_isInt 1 (by decide)).2]
  exact Int.mul_tdiv_cancel _ (Int.ne_of_gt (Int.pow_pos (by decide)))

/-- A call with a number, a callback and user data meets the hypotheses of `C49_call_partial`. -/
example (P : Fpu) : ∃ sig, ffi (some fun _ => some 7) (ascii "int f(int, void (*cb)(int, userdata), userdata);") = .ok sig ∧
    FpOk (sig.vals.headD .none) (params sig) ∧
    ∀ f u, isFunction f = true → ∀ (k : Nat) t v, (params sig)[k]? = some t → [mkInt 1, f, u][k]? = some v → Fits P t v := by
  refine ⟨sigOf 7 { ret := .int, name := ascii "f", params := [.plain .int, .fn .none [.int, .userdata], .plain .userdata] }, rfl, ?_, ?_⟩
  · show FpOk .int [.int, .callback, .userdata]
    simp [FpOk]
  · intro f u hf k t v h1 h2
    have e : params (sigOf 7 { ret := .int, name := ascii "f", params := [.plain .int, .fn .none [.int, .userdata], .plain .userdata] }) =
      [.int, .callback, .userdata] := rfl
    rw [e] at h1
    match k with
    | 0 => simp at h1 h2; subst h1 h2; exact fits_one P
    | 1 => simp at h1 h2; subst h1 h2; exact .inr (.inl ⟨rfl, .inl hf⟩)
    | 2 => simp at h1 h2; subst h1 h2; exact .inl rfl
    | k + 3 => simp at h1

/-- A floating point call. -/
example (P : Fpu) : ∃ sig, ffi (some fun _ => some 7) (ascii "double pow(double, double)") = .ok sig ∧ params sig = [.double, .double] ∧
    FpOk .double [.double, .double] ∧ Fits P .double 0x3ff0000000000000#64 :=
  ⟨sigOf 7 { ret := .double, name := ascii "pow", params := [.plain .double, .plain .double] }, rfl, rfl, by simp [FpOk],
    .inr (.inr ⟨_, .double (by decide)⟩)⟩

/-- A number is of the wrong type for a string parameter. -/
example : WrongType .charPtr 0x3ff0000000000000#64 := ⟨by decide, by decide⟩

/-- A history with two registrations, one freed and one passed twice. -/
example (cb cb' : Sig) (f g u : Val) (hf : isFunction f = true) (hfg : g ≠ f) :
    let h := [.pass cb' g u 3, .free f u, .pass cb f u 2, .pass cb g u 1, .pass cb f u 1 ]
    expected h f u = none ∧ expected h g u = some (1, cb) := by
  simp [expected, hf, hfg, hfg.symm]

example (cb : Sig) (f g u : Val) : FreshIds [.pass cb g u 2, .pass cb f u 1] := by
  simp [FreshIds, actual, register, matching]

/-- A callback with a number, a string and user data. -/
example (P : Fpu) (addr : Cell → BitVec 64) (junk : Nat → Cell) (f u : Val) :
    let ts := [CType.int, .charPtr, .userdata]
    CbOk .int ts ∧ ∃ rs, callback P addr junk [⟨5, cbSigOf .int ts, f, u⟩] (implOf ts)
      [.word (.bits 3#64), .word (.bits 0x1000#64), .word (.reg 5)] = .ok (f, rs) ∧ rs.length = 3 := by
  intro ts
  have hok : CbOk .int ts := by decide
  refine ⟨hok, ?_⟩
  obtain ⟨rs, h1, h2, _⟩ := C51_callback_partial P addr junk [⟨5, cbSigOf .int ts, f, u⟩] (by simp) ⟨5, cbSigOf .int ts, f, u⟩ (by simp) .int ts rfl
    hok (by simp [ts]) [.word (.bits 3#64), .word (.bits 0x1000#64), .word (.reg 5)] rfl (by
      intro k t p ht hp
      match k with
      | 0 => simp [ts] at ht hp; subst ht hp; exact ⟨_, by decide, rfl⟩
      | 1 => simp [ts] at ht hp; subst ht hp; exact ⟨_, rfl⟩
      | 2 => simp [ts] at ht hp; subst ht hp; rfl
      | k + 3 => simp [ts] at ht)
  exact ⟨rs, h1, h2⟩

end Mjs.Props
