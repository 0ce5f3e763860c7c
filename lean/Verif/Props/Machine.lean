import Verif.Props.Flow

/-!
# C37, C38: what a run of the machine leaves behind

These hold for every code, not only for code that the parser generates.
-/

namespace Mjs.Props
open Mjs Mjs.Mbuf Mjs.Str Mjs.Arena Mjs.Obj Mjs.Spec Mjs.Core Mjs.Code Mjs.Sem Mjs.Exec

theorem restoreFrame_error {vm vm' : Vm} {off : Nat} (h : restoreFrame vm = some (vm', off)) : vm'.error = vm.error := by
  simp only [restoreFrame, Option.bind_eq_bind, Option.bind_eq_some_iff] at h
  obtain ⟨_, _, _, _, _, _, _, _, _, _, _, _, h⟩ := h
  cases h
  rfl

theorem execOp_clean {E : Env} {m : Mach} {prev : UInt8} {vm : Vm} (h : execOp E m prev = some (.clean vm)) : vm.error = m.vm.error := by
  by_cases hop : m.op.toNat = 30
  · unfold execOp at h
    simp only [hop, Option.bind_eq_bind, Option.bind_eq_some_iff] at h
    obtain ⟨⟨vm', off⟩, h1, h⟩ := h
    simp only at h
    split at h
    · obtain ⟨bp, _, h⟩ := Option.bind_eq_some_iff.1 h
      cases h
    · cases h
      exact restoreFrame_error h1
  · exfalso
    unfold execOp at h
    split at h <;> first
      | (exact absurd ‹_› hop)
      | (cases h; done)
      | (simp only [Option.bind_eq_bind, Option.bind_eq_some_iff, Option.map_eq_some_iff] at h
         repeat' (first | (cases h; done) | (obtain ⟨_, _, h⟩ := h) | (simp only [Option.bind_eq_some_iff] at h) | (split at h))
         )
      | skip

/-! ## C37 -/

/-- The depths of the five stacks are the same. -/
structure SameDepths (a b : Vm) : Prop where
  stack : a.stack.length = b.stack.length
  callStack : a.callStack.length = b.callStack.length
  argStack : a.argStack.length = b.argStack.length
  scopes : a.scopes.length = b.scopes.length
  loopAddrs : a.loopAddrs.length = b.loopAddrs.length

theorem setLen_length {s t : List Val} {n : Nat} (h : setLen s n = some t) : t.length = n := by
  unfold setLen at h
  split at h
  · cases h; simp; omega
  · cases h

/-- The machine stops without an error, or the stacks are cut back and undefined is pushed. -/
theorem loop_error (E : Env) (s : Saved) (m : Mach) (vm : Vm) (h : loop E s m = some vm) (hok : m.vm.error = .ok) :
    vm.error = .ok ∨ vm.stack.length = s.stack + 1 ∧ vm.stack.getLast? = some mkUndefined ∧ vm.callStack.length = s.callStack ∧
      vm.argStack.length = s.argStack ∧ vm.scopes.length = s.scopes ∧ vm.loopAddrs.length = s.loopAddrs := by
  revert hok
  refine loop.partial_correctness E s (fun m vm => m.vm.error = .ok → (vm.error = .ok ∨ vm.stack.length = s.stack + 1 ∧
    vm.stack.getLast? = some mkUndefined ∧ vm.callStack.length = s.callStack ∧
      vm.argStack.length = s.argStack ∧ vm.scopes.length = s.scopes ∧ vm.loopAddrs.length = s.loopAddrs)) ?_ m vm h
  clear h m vm
  intro loop ih m vm h hok
  split at h
  · obtain ⟨op, _, h⟩ := Option.bind_eq_some_iff.1 h
    obtain ⟨r, h2, h⟩ := Option.bind_eq_some_iff.1 h
    cases r with
    | clean v =>
      cases h
      exact .inl ((execOp_clean h2).trans hok)
    | go m' =>
      simp only at h
      split at h
      · right
        unfold unwind at h
        simp only [Option.bind_eq_bind, Option.bind_eq_some_iff] at h
        obtain ⟨a, ha, b, hb, c, hc, d, hd, e, he, h⟩ := h
        cases h
        simp only [push, List.length_append, List.length_cons, List.length_nil, setLen_length ha, setLen_length hb, setLen_length hc,
          setLen_length hd, setLen_length he]
        simp
      · rename_i hne
        exact ih _ _ h (by simpa using hne)
  · cases h
    exact .inl hok

/-- **C37.** Whatever code is run from whatever state: if the run ends with an error, the five stacks have the depths they had
before, and the result is undefined.  The only other error is that the code ended normally and left no result to return. -/
theorem C37_error_leaves_depths {E : Env} {vm vm2 : Vm} {off : Nat} {r : Val} (h : execute E vm off = some (vm2, r))
    (he : vm2.error ≠ .ok) :
    r = mkUndefined ∧ (SameDepths vm2 vm ∨ vm2.stack = [] ∧ vm2.msg = some (txt "stack underflow")) := by
  unfold execute at h
  simp only [Option.bind_eq_bind, Option.bind_eq_some_iff] at h
  obtain ⟨bp, _, vm1, hl, n, _, part, _, h⟩ := h
  have key := loop_error _ _ _ _ hl rfl
  cases hs : vm1.stack.getLast? with
  | none =>
    have hnil : vm1.stack = [] := by simpa using hs
    have hp : pop { vm1 with parts := vm1.parts.set n { part with execRes := some vm1.error } } =
        (mkUndefined, setErrorf { vm1 with parts := vm1.parts.set n { part with execRes := some vm1.error } } .internal
          (some (txt "stack underflow"))) := by
      simp [pop, popVal, hnil]
    rw [hp] at h
    cases h
    exact ⟨rfl, .inr ⟨hnil, rfl⟩⟩
  | some v =>
    have hp : pop { vm1 with parts := vm1.parts.set n { part with execRes := some vm1.error } } =
        (v, { vm1 with parts := vm1.parts.set n { part with execRes := some vm1.error }, stack := vm1.stack.dropLast }) := by
      simp [pop, popVal, hs]
    rw [hp] at h
    cases h
    rcases key with key | ⟨k1, k2, k3, k4, k5, k6⟩
    · exact absurd key he
    · rw [hs] at k2
      cases k2
      exact ⟨rfl, .inl ⟨by simp only [List.length_dropLast, k1]; rfl, k3, k4, k5, k6⟩⟩

/-- **C37 for scripts.** When a script ends with an error, the stacks hold the same values as before, not only as many. -/
theorem C37_script {E : Env} [Natives E] {vm vm' : Vm} {ss : List Script} {k : Nat} {p : Part} {s : Script} {n d : Nat}
    (h : Loaded vm ss) (hr : Room vm d) (hk : IsScript vm ss k p s)
    (he : evalScript E ss n d p s (setErrorf vm .ok none) = some (.err vm')) :
    ∃ vm2, execute E vm p.startIdx = some (vm2, mkUndefined) ∧ vm2.error ≠ .ok ∧ vm2.error = vm'.error ∧ SameStacks vm2 vm := by
  obtain ⟨vm2, h1, _, h2, _, h3, h4, _⟩ := C35_script_error h hr hk he
  exact ⟨vm2, h1, h3, h2, h4⟩

/-- `1()` is an error: the hypotheses of C37 hold. -/
example : ∃ vm vm2, Loaded vm [demoErr] ∧ execute demoEnv vm 0 = some (vm2, mkUndefined) ∧ vm2.error = .type ∧ SameDepths vm2 vm := by
  have hd : (demo.bind fun r => (executeN 60 demoEnv
      (Bcode.commit { heap := r.1, scopes := [r.2], al := fun _ => demoAl } demoErr.bytes) 0).map fun o =>
        (o.1.error, o.1.stack.length)) = some (.type, 0) := by decide +kernel
  obtain ⟨r, hr, hd⟩ := Option.bind_eq_some_iff.1 hd
  obtain ⟨⟨vm2, v⟩, ho, hd⟩ := Option.map_eq_some_iff.1 hd
  obtain ⟨hl, _, _⟩ := demo_loads demoErr r (by decide +kernel) (by simp [demoErr, NumSs, NumS, NumE, NumEs])
  simp only [Prod.mk.injEq] at hd
  have hx := execute_runN ho
  obtain ⟨rfl, h | h⟩ := C37_error_leaves_depths hx (by rw [hd.1]; decide)
  · exact ⟨_, vm2, hl, hx, hd.1, h⟩
  · have hd2 : (demo.bind fun r => (executeN 60 demoEnv
        (Bcode.commit { heap := r.1, scopes := [r.2], al := fun _ => demoAl } demoErr.bytes) 0).map fun o =>
          decide (o.1.msg = some (txt "stack underflow"))) = some false := by decide +kernel
    rw [hr, Option.bind_some, ho, Option.map_some] at hd2
    simp [h.2] at hd2

/-- `(function() { 1(); })()`. -/
def demoErrCall : Script where
  path := txt "g.js"
  body := [.exprs (.call (.func 0 none [] [.exprs (.call (.int 1) []) []]) []) []]
  map := []

/-- **`this` is not restored.** A script is run while `this` is set (a C function that was called as a method runs it); an error
inside a function leaves the `this` of that function. -/
theorem C37_this_not_restored : ∃ vm vm2, Loaded vm [demoErrCall] ∧ vm.this = mkBoolean true ∧
    execute demoEnv vm 0 = some (vm2, mkUndefined) ∧ vm2.error = .type ∧ vm2.this = mkUndefined := by
  have hd : (demo.bind fun r => (executeN 60 demoEnv
      (Bcode.commit { heap := r.1, scopes := [r.2], al := fun _ => demoAl, this := mkBoolean true } demoErrCall.bytes) 0).map fun o =>
        (o.1.error, o.1.this, o.2)) = some (.type, mkUndefined, mkUndefined) := by decide +kernel
  obtain ⟨r, hr, hd⟩ := Option.bind_eq_some_iff.1 hd
  obtain ⟨⟨vm2, v⟩, ho, hd⟩ := Option.map_eq_some_iff.1 hd
  obtain ⟨hl, _, _⟩ := demo_loads demoErrCall r (by decide +kernel) (by simp [demoErrCall, NumSs, NumS, NumE, NumEs])
  simp only [Prod.mk.injEq] at hd
  obtain ⟨h1, h2, rfl⟩ := hd
  exact ⟨Bcode.commit { heap := r.1, scopes := [r.2], al := fun _ => demoAl, this := mkBoolean true } demoErrCall.bytes, vm2,
    ⟨hl.parts, hl.len, hl.small, hl.nums⟩, rfl, execute_runN ho, h1, h2⟩

/-! ## C38 -/

/-- **C38, the call.** `st` is the stack below the function `f` and its arguments, `t` is what `this` will be.  The machine goes on
with the function's code; the result is undefined so far. -/
theorem C38_call {E : Env} {vm : Vm} {bp bp' : Part} {i off : Nat} {prev : UInt8} {st args as : List Val} {f t : Val}
    (hs : vm.stack = st ++ f :: args) (ha : vm.argStack = as ++ [t, mkInt (st.length + 1 : Nat)]) (hf : isFunction f = true)
    (hl : vm.stack.length < 2 ^ 31) (ho : (getFuncAddr f).toNat = off + 1) (hp : partAt vm off = some bp') (hb : bp'.startIdx ≤ off)
    (hsz : off < 2 ^ 64) :
    ∃ vm1, execOp E ⟨vm, bp, i, CALL⟩ prev = some (.go ⟨vm1, bp', off - bp'.startIdx, CALL⟩) ∧
      vm1.this = t ∧ vm1.stack = st ++ mkUndefined :: args ∧ vm1.argStack = as ∧ vm1.scopes = vm.scopes ∧
      vm1.loopAddrs = vm.loopAddrs ∧ vm1.heap = vm.heap ∧ vm1.parts = vm.parts ∧ vm1.bcodeLen = vm.bcodeLen ∧ vm1.error = vm.error ∧
      vm1.callStack = vm.callStack ++ [vm.this, mkInt (bp.startIdx + i : Nat), mkInt vm.scopes.length, mkInt vm.loopAddrs.length,
        mkInt (st.length + 1 : Nat)] := by
  have hlen : st.length + 1 ≤ vm.stack.length := by rw [hs]; simp
  have hri : getInt (mkInt (st.length + 1 : Nat)) = (st.length + 1 : Nat) := getInt_mkInt _ (by omega) (by omega)
  generalize hr : mkInt (st.length + 1 : Nat) = r at *
  have e := call_eq (E := E) ⟨vm, bp, i, CALL⟩ r f t st.length off as bp' (by rw [ha]; exact vtop_append2 _ _ _)
    (by
      rw [hri]
      show vptr vm.stack _ = _
      unfold vptr vptrIdx
      rw [cInt_small hl]
      have h0 : ((st.length + 1 : Nat) : Int) - 1 = st.length := by omega
      simp only [h0, show ¬ ((st.length : Int) < 0) by omega, if_false]
      rw [if_pos ⟨by omega, by omega⟩]
      rfl)
    (by show vm.stack[st.length]? = _; rw [hs]; simp) (by
      show popVal vm.argStack = _
      rw [ha, show as ++ [t, r] = (as ++ [t]) ++ [r] by simp]
      exact popVal_append _ _) hf
    (by rw [ho]; exact (congrArg wrap (by omega)).trans (wrap_nat off hsz)) hp
  rw [execOp_call, e]
  refine ⟨{ vm with
      argStack := as, this := t
      callStack := vm.callStack ++ [vm.this, mkInt (bp.startIdx + i : Nat), mkInt vm.scopes.length, mkInt vm.loopAddrs.length, r]
      stack := vm.stack.set st.length mkUndefined }, ?_, rfl, ?_, rfl, rfl, rfl, rfl, rfl, rfl, rfl, rfl⟩
  · show some (Next.go _) = _
    rw [show wrap ((off : Int) - bp'.startIdx) = off - bp'.startIdx from (congrArg wrap (by omega)).trans (wrap_nat _ (by omega))]
  · show vm.stack.set st.length mkUndefined = _
    rw [hs]
    simp

/-- **C38, the return.** The function may have changed everything above what its caller left: the result `r`, more values on the
stack, more scopes and loops.  After the return the machine is behind the call, with the caller's `this`, scopes, loops and call
stack, and the result in place of the function and its arguments. -/
theorem C38_return {E : Env} {vm vm2 : Vm} {bp bp2 : Part} {i i2 : Nat} {prev : UInt8} {st rest moreScopes moreLoops : List Val} {r : Val}
    (hc : vm2.callStack = vm.callStack ++ [vm.this, mkInt (bp.startIdx + i : Nat), mkInt vm.scopes.length, mkInt vm.loopAddrs.length,
      mkInt (st.length + 1 : Nat)])
    (hs : vm2.stack = st ++ r :: rest) (hsc : vm2.scopes = vm.scopes ++ moreScopes) (hlo : vm2.loopAddrs = vm.loopAddrs ++ moreLoops)
    (hp : partAt vm2 (bp.startIdx + i) = some bp) (ho : bp.startIdx + i < 2 ^ 31 - 1) (l1 : st.length + 1 < 2 ^ 31)
    (l2 : vm.scopes.length < 2 ^ 31) (l3 : vm.loopAddrs.length < 2 ^ 31) :
    ∃ vm3, execOp E ⟨vm2, bp2, i2, RETURN⟩ prev = some (.go ⟨vm3, bp, i, RETURN⟩) ∧
      vm3.this = vm.this ∧ vm3.stack = st ++ [r] ∧ vm3.scopes = vm.scopes ∧ vm3.loopAddrs = vm.loopAddrs ∧
      vm3.callStack = vm.callStack ∧ vm3.argStack = vm2.argStack ∧ vm3.heap = vm2.heap ∧ vm3.error = vm2.error := by
  have w1 := wrap_getInt (bp.startIdx + i) (by omega)
  have w2 := wrap_getInt _ l2
  have w3 := wrap_getInt _ l3
  have w4 := wrap_getInt _ l1
  generalize mkInt (bp.startIdx + i : Nat) = a at *
  generalize mkInt (vm.scopes.length : Nat) = b at *
  generalize mkInt (vm.loopAddrs.length : Nat) = c at *
  generalize mkInt (st.length + 1 : Nat) = d at *
  have e := restoreFrame_eq vm2 vm.callStack vm.this a b c d hc
  have hst : setLen vm2.stack (st.length + 1) = some (st ++ [r]) := by
    rw [hs, show st ++ r :: rest = (st ++ [r]) ++ rest by simp]
    have := setLen_append (st ++ [r]) rest
    simpa using this
  rw [w1, w2, w3, w4, hst, hsc, hlo] at e
  simp only [Option.map_some, List.take_left'] at e
  refine ⟨{ vm2 with
      callStack := vm.callStack, this := vm.this, scopes := vm.scopes, loopAddrs := vm.loopAddrs, stack := st ++ [r] },
    (execOp_return vm2 _ bp2 bp i2 _ prev e (by unfold offsetExit; omega) (by rw [← hp]; exact partAt_congr rfl rfl _)).trans ?_,
    rfl, rfl, rfl, rfl, rfl, rfl, rfl, rfl⟩
  rw [show wrap (((bp.startIdx + i : Nat) : Int) - bp.startIdx) = i from (congrArg wrap (by omega)).trans (wrap_nat _ (by omega))]

/-- **C38, the result.** The value of a return statement becomes the result. -/
theorem C38_result {E : Env} {vm2 : Vm} {bp : Part} {i : Nat} {prev : UInt8} {cs st rest : List Val} {t a s l r v : Val}
    (hc : vm2.callStack = cs ++ [t, a, s, l, mkInt (st.length + 1 : Nat)]) (hs : vm2.stack = st ++ r :: rest ++ [v])
    (l1 : vm2.stack.length < 2 ^ 31) (l2 : vm2.callStack.length < 2 ^ 31) :
    execOp E ⟨vm2, bp, i, SETRETVAL⟩ prev = some (.go ⟨{ vm2 with stack := st ++ v :: rest }, bp, i, SETRETVAL⟩) := by
  have hlen : vm2.stack.length = st.length + 1 + rest.length + 1 := by rw [hs]; simp; omega
  have hlr : (st ++ r :: rest).length = st.length + 1 + rest.length := by simp; omega
  have h5 : ¬ vm2.callStack.length < 5 := by rw [hc]; simp
  have hri : getInt (mkInt (st.length + 1 : Nat)) = (st.length + 1 : Nat) := getInt_mkInt _ (by omega) (by omega)
  generalize mkInt (st.length + 1 : Nat) = d at *
  have ha : at? vm2.callStack (-1) = some d := by
    have e : cs ++ [t, a, s, l, d] = (cs ++ [t, a, s, l]) ++ [d] := by simp
    rw [hc, e]
    exact at_last _ _ (by
      have := l2
      rw [hc] at this
      simp only [List.length_append, List.length_cons, List.length_nil] at this ⊢
      omega)
  have hv : vptr (st ++ r :: rest) (BitVec.ofInt 32 (getInt d - 1)).toInt = some st.length := by
    rw [hri, show ((st.length + 1 : Nat) : Int) - 1 = st.length by omega, int32_self _ (by omega) (by omega)]
    unfold vptr vptrIdx
    rw [cInt_small (by rw [hlr]; omega)]
    simp only [show ¬ ((st.length : Int) < 0) by omega, if_false]
    rw [if_pos ⟨by omega, by rw [hlr]; omega⟩]
    rfl
  have e : setRetval vm2 = some { vm2 with stack := st ++ v :: rest } := by
    have h := setRetval_eq vm2 ⟨vm2.parts, vm2.bcodeLen, st ++ r :: rest, vm2.callStack, vm2.argStack, vm2.loopAddrs⟩ v d st.length h5 ha hv
    have e1 : on vm2 (Stacks.push ⟨vm2.parts, vm2.bcodeLen, st ++ r :: rest, vm2.callStack, vm2.argStack, vm2.loopAddrs⟩ v) = vm2 := by
      obtain ⟨⟩ := vm2
      simp only at hs
      subst hs
      simp [on, Stacks.push, Stacks.pushes]
    rw [e1] at h
    rw [h]
    have e2 : (st ++ r :: rest).set st.length v = st ++ v :: rest := by simp
    rw [e2]
    rfl
  rw [execOp_setRetval, e]
  rfl

/-- A call with one argument, a function that returns at once, and the return. -/
example (E : Env) (h : Heap) : ∃ vm vm1 vm3 : Vm, ∃ bp : Part, vm.stack = [mkNull, mkFunction 6#64, mkBoolean true] ∧
    execOp E ⟨vm, bp, 3, CALL⟩ 0 = some (.go ⟨vm1, bp, 5, CALL⟩) ∧ execOp E ⟨vm1, bp, 5, RETURN⟩ 0 = some (.go ⟨vm3, bp, 3, RETURN⟩) ∧
    vm3.stack = [mkNull, mkUndefined] := by
  let bp : Part := ⟨0, List.replicate 20 0, none⟩
  let vm : Vm := ⟨h, [bp], 20, [mkNull, mkFunction 6#64, mkBoolean true], [], [mkUndefined, mkInt (1 + 1 : Nat)], [], [], mkNull, 0, .ok,
    none, fun _ => demoAl⟩
  obtain ⟨vm1, e, h1, h2, h3, h4, h5, h6, h8, h9, _, h7⟩ := C38_call (E := E) (vm := vm) (bp := bp) (bp' := bp) (i := 3) (off := 5) (prev := 0)
    (st := [mkNull]) (args := [mkBoolean true]) (as := []) (f := mkFunction 6#64) (t := mkUndefined) rfl rfl (by decide) (show 3 < 2 ^ 31 by decide)
    (by decide) rfl (by decide) (by decide)
  obtain ⟨vm3, e3, g1, g2, _⟩ := C38_return (E := E) (vm := vm) (vm2 := vm1) (bp := bp) (bp2 := bp) (i := 3) (i2 := 5) (prev := 0)
    (st := [mkNull]) (rest := [mkBoolean true]) (moreScopes := []) (moreLoops := []) (r := mkUndefined) h7 h2 (by rw [h4]; rfl)
    (by rw [h5]; rfl) ((partAt_congr h8 h9 _).trans rfl) (by decide) (by decide) (show 0 < 2 ^ 31 by decide)
    (show 0 < 2 ^ 31 by decide)
  exact ⟨vm, vm1, vm3, bp, rfl, e, e3, g2⟩

end Mjs.Props
