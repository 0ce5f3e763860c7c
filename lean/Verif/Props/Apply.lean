import Verif.Lemmas.Apply
import Verif.Lemmas.Run
import Verif.Model.Apply
import Verif.Props.Script

/-!
# C54: calling functions from C
-/

namespace Mjs.Props
open Mjs Mjs.Str Mjs.Obj Mjs.Core Mjs.Code Mjs.Sem Mjs.Exec

section
variable {E : Env} [Natives E] {vm vm' : Vm} {ss : List Script} {f t : Val} {args : List Val} {fn : Fn} {n d : Nat}

/-- **C54, a function that returns.** `mjs_apply` of a function of the loaded scripts: the body is run with `this` and the
arguments, the result is the value it returns, and the stacks, the scopes and `this` are as before the call. -/
theorem C54_returned {v : Val} (h : Loaded vm ss) (hr : Room vm (d + args.length + 2)) (hf : isFunction f = true)
    (hF : functions ss (getFuncAddr f).toNat = some fn)
    (he : runBody E (functions ss) n d fn t args (setErrorf vm .ok none) = some (.ok vm' (.ret v))) :
    ∃ vm2, Exec.apply E vm f t args = some (vm2, some v, .ok) ∧ vm'.error = .ok ∧ After vm vm' vm2 :=
  apply_function h hr hf hF _ he

/-- **C54, a function that fails.** The error is the one of the body; the stacks, the scopes and `this` are as before the call. -/
theorem C54_failed (h : Loaded vm ss) (hr : Room vm (d + args.length + 2)) (hf : isFunction f = true)
    (hF : functions ss (getFuncAddr f).toNat = some fn)
    (he : runBody E (functions ss) n d fn t args (setErrorf vm .ok none) = some (.err vm')) :
    ∃ vm2, Exec.apply E vm f t args = some (vm2, some mkUndefined, vm'.error) ∧ vm'.error ≠ .ok ∧ After vm vm' vm2 :=
  apply_function h hr hf hF _ he

/-- **C54 fails for functions that end without `return`:** the result is not undefined, it is the function itself.  (A call from a
script gives undefined.)  The stacks are as before the call. -/
theorem C54_violation_no_return {v : Val} (h : Loaded vm ss) (hr : Room vm (d + args.length + 2)) (hf : isFunction f = true)
    (hF : functions ss (getFuncAddr f).toNat = some fn)
    (he : runBody E (functions ss) n d fn t args (setErrorf vm .ok none) = some (.ok vm' (.normal v))) :
    (∃ vm2, Exec.apply E vm f t args = some (vm2, some f, .ok) ∧ vm'.error = .ok ∧ After vm vm' vm2) ∧
      ∃ vm3, callFn E (functions ss) (n + 1) (d + 1) f t args (setErrorf vm .ok none) = some (.ok vm3 mkUndefined) := by
  refine ⟨apply_function h hr hf hF _ he, ?_⟩
  refine ⟨{ vm' with scopes := vm.scopes, this := vm.this }, ?_⟩
  rw [callFn_eq hf hF, he]
  rfl

/-- **C54 as a call.** Whatever a call in a script gives, `mjs_apply` gives too, unless the function ends without `return`: then
a call gives undefined and `mjs_apply` gives the function.  (C functions: `C54_like_call_native_partial`.) -/
theorem C54_like_call_partial {v : Val} (h : Loaded vm ss) (hr : Room vm (d + args.length + 2)) (hn : isNative f = false)
    (he : callFn E (functions ss) (n + 1) (d + 1) f t args (setErrorf vm .ok none) = some (.ok vm' v)) :
    ∃ vm2 r, Exec.apply E vm f t args = some (vm2, some r, .ok) ∧ (r = v ∨ v = mkUndefined ∧ r = f) ∧ After vm vm' vm2 := by
  by_cases hf : isFunction f = true
  · cases hF : functions ss (getFuncAddr f).toNat with
    | none => rw [callFn, if_pos hf, hF] at he; cases he
    | some fn =>
      rw [callFn_eq hf hF] at he
      obtain ⟨o, ho, he⟩ := Option.bind_eq_some_iff.1 he
      cases o with
      | err w => cases he
      | ok w c =>
        cases c with
        | normal u =>
          cases he
          obtain ⟨vm2, h1, _, a⟩ := apply_function h hr hf hF _ ho
          exact ⟨vm2, f, h1, .inr ⟨rfl, rfl⟩, a.heap, a.al, a.error, a.msg, a.this, a.stacks, a.code⟩
        | ret u =>
          cases he
          obtain ⟨vm2, h1, _, a⟩ := apply_function h hr hf hF _ ho
          exact ⟨vm2, _, h1, .inl rfl, a.heap, a.al, a.error, a.msg, a.this, a.stacks, a.code⟩
        | brk => cases he
        | cont => cases he
  · rw [callFn, if_neg hf, hn] at he
    cases he

/-- **C54, the error of a call.** When a call in a script fails, so does `mjs_apply`, with the same error. -/
theorem C54_like_call_failed (h : Loaded vm ss) (hr : Room vm (d + args.length + 2)) (hf : isFunction f = true)
    (he : callFn E (functions ss) (n + 1) (d + 1) f t args (setErrorf vm .ok none) = some (.err vm')) :
    ∃ vm2, Exec.apply E vm f t args = some (vm2, some mkUndefined, vm'.error) ∧ vm'.error ≠ .ok ∧ After vm vm' vm2 := by
  cases hF : functions ss (getFuncAddr f).toNat with
  | none => rw [callFn, if_pos hf, hF] at he; cases he
  | some fn =>
    rw [callFn_eq hf hF] at he
    obtain ⟨o, ho, he⟩ := Option.bind_eq_some_iff.1 he
    cases o with
    | err w => cases he; exact apply_function h hr hf hF _ ho
    | ok w c => cases c <;> cases he

/-- **C54, what is not callable.** A TypeError; nothing is stored in `*res`, and nothing changes but the error. -/
theorem C54_not_callable (E : Env) (vm : Vm) (f t : Val) (args : List Val) (hf : isFunction f = false) (hff : isForeign f = false)
    (hfs : isFfiSig f = false) :
    ∃ msg, Exec.apply E vm f t args = some ({ vm with error := .type, msg := msg }, none, .type) := by
  unfold Exec.apply
  rw [if_pos (by simp [hf, hff, hfs])]
  exact ⟨_, rfl⟩

/-- **C54, C functions and imported functions.** `seen` is the engine that the C function gets: it delivers `this` and the arguments, and
`mjs_return` works.  When the function
returns `x` (`mjs_return`) without an error, that is the result.  When it sets an error and leaves the stacks as it found them,
but for the value it returns, the error is the result and the stacks are as before the call.  Without an error they are not:
`C54_violation_leak`. -/
theorem C54_foreign_partial (hf : isCFun f = true) (hr : Room vm (args.length + 2)) :
    ∃ seen, Delivered seen t args ∧ seen.heap = vm.heap ∧ seen.scopes = vm.scopes ∧ seen.error = vm.error ∧
      (∀ u x, SameStacks u seen → ∃ v, ret u x = some v) ∧
      (∀ (E : Env) u v x, native E f seen = some v → SameStacks u seen → u.error = .ok → ret u x = some v →
        ∃ vm2, Exec.apply E vm f t args = some (vm2, some x, .ok) ∧ vm2.heap = u.heap ∧ vm2.this = vm.this) ∧
      ∀ (E : Env) u v x, native E f seen = some v → SameStacks u seen → u.error ≠ .ok → ret u x = some v →
        ∃ vm2, Exec.apply E vm f t args = some (vm2, some x, u.error) ∧ vm2.heap = u.heap ∧ vm2.this = vm.this ∧ SameStacks vm2 vm := by
  refine ⟨applied vm f t args, applied_delivers hr, rfl, rfl, rfl,
    fun u x hs => ⟨_, ret_applied hr hs.stack hs.callStack⟩, ?_, ?_⟩
  · intro E u v x hc hs he hv
    rw [ret_applied hr hs.stack hs.callStack] at hv
    cases hv
    have ha := apply_foreign_ok (vm := vm) (x := x) hf hc List.getElem?_concat_length he
    exact ⟨_, ha, rfl, rfl⟩
  · intro E u v x hc hs he hv
    rw [ret_applied hr hs.stack hs.callStack] at hv
    cases hv
    obtain ⟨r1, r2, r3, r4, r5⟩ := hr
    have ha := apply_foreign_err (vm := vm) (x := x) (t := t) hf hc ⟨rfl, hs.callStack, hs.argStack, hs.scopes, hs.loopAddrs⟩ he
      ⟨by omega, by omega, by omega, by omega, by omega⟩
    exact ⟨_, ha, rfl, rfl, rfl, rfl, hs.argStack, rfl, rfl⟩

theorem applied_put (vm : Vm) (f t : Val) (args : List Val) : applied vm f t args = CallAt.put
    ⟨vm.stack, vm.callStack ++ [vm.this, mkInt offsetExit, mkInt vm.scopes.length, mkInt vm.loopAddrs.length], vm.argStack,
      vm.loopAddrs, vm.parts, vm.bcodeLen⟩ { vm with this := t } (f :: args) := by
  unfold applied CallAt.put
  simp only [List.append_assoc, List.cons_append, List.nil_append]

theorem cfun_native (hf : isCFun f = true) : isFunction f = false ∧ isNative f = true := by
  unfold isCFun at hf
  constructor
  · unfold isForeign isFfiSig at hf
    unfold isFunction
    simp only [Bool.or_eq_true, beq_iff_eq] at hf
    rcases hf with hf | hf <;> rw [hf] <;> decide
  · unfold isNative
    simp only [Bool.or_eq_true] at hf ⊢
    rcases hf with hf | hf
    · exact .inr hf
    · exact .inl (.inr hf)

/-- **C54 as a call, C functions.** Where a script's call of a C function gives a value, so does `mjs_apply`; the heap and `this`
are the same, the call stack and the stack of values are not (`C54_violation_leak`).  Where the call fails, so does `mjs_apply`,
with the same error, and the stacks are as before. -/
theorem C54_like_call_native_partial {F : Nat → Option Fn} {o : Out Val} (hr : Room vm (args.length + 2)) (hok : vm.error = .ok)
    (hf : isCFun f = true) (he : callFn E F (n + 1) (d + 1) f t args vm = some o) :
    ∃ vm2 r e, Exec.apply E vm f t args = some (vm2, some r, e) ∧ vm2.this = vm.this ∧ match o with
      | .ok vm' v => r = v ∧ e = .ok ∧ vm2.heap = vm'.heap ∧ vm2.scopes = vm'.scopes
      | .err vm' => e = vm'.error ∧ e ≠ .ok ∧ vm2.heap = vm'.heap ∧ vm2.msg = vm'.msg ∧ SameStacks vm2 vm := by
  obtain ⟨h1, h2⟩ := cfun_native hf
  obtain ⟨r1, r2, r3, r4, r5⟩ := hr
  rw [callFn, if_neg (by rw [h1]; decide), if_pos h2] at he
  unfold withThis at he
  obtain ⟨o', ho, rfl⟩ := Option.map_eq_some_iff.1 he
  have hk : CallAt.Fits ⟨vm.stack, vm.callStack ++ [vm.this, mkInt offsetExit, mkInt vm.scopes.length, mkInt vm.loopAddrs.length],
      vm.argStack, vm.loopAddrs, vm.parts, vm.bcodeLen⟩ args.length :=
    ⟨by show vm.stack.length + _ + 1 < _; omega, by simp only [List.length_append, List.length_cons, List.length_nil]; omega⟩
  cases o' with
  | ok vm' v =>
    obtain ⟨g1, g2, g3⟩ := Natives.ok ho hok
    have g4 := g3 _ hk
    rw [← applied_put] at g4
    have ha := apply_foreign_ok (vm := vm) (x := v) hf g4 List.getElem?_concat_length g1
    exact ⟨_, _, _, ha, rfl, rfl, rfl, rfl, rfl⟩
  | err vm' =>
    obtain ⟨g1, g2, g3⟩ := Natives.err ho hok
    obtain ⟨x, g4⟩ := g3 _ hk
    rw [← applied_put] at g4
    have ha := apply_foreign_err (vm := vm) (x := x) (t := t) hf g4
      ⟨rfl, by unfold CallAt.put applied; simp only [List.append_assoc, List.cons_append, List.nil_append], rfl, g2, rfl⟩ g1
      ⟨by omega, by omega, by omega, by omega, by omega⟩
    exact ⟨_, _, _, ha, rfl, rfl, g1, rfl, rfl, rfl, rfl, rfl, rfl, rfl⟩

theorem mapM_range {h : Heap} {arr : Val} {xs : List Val} (hx : ∀ (i : Nat) x, xs[i]? = some x → Arr.get h arr i = some x) :
    ∀ (k : Nat), k ≤ xs.length → (List.range k).mapM (Arr.get h arr) = some (xs.take k) := by
  intro k
  induction k with
  | zero => intro _; rfl
  | succ k ih =>
    intro hk
    obtain ⟨x, he⟩ : ∃ x, xs[k]? = some x := ⟨xs[k], List.getElem?_eq_getElem (by omega)⟩
    rw [List.range_succ, List.mapM_append, ih (by omega)]
    simp only [List.mapM_cons, List.mapM_nil, hx k x he, Option.bind_eq_bind, Option.bind_some, Option.pure_def]
    rw [List.take_add_one, he]
    rfl

/-- **C54 in scripts.** The engine runs the method `apply` of the function `f` with arguments `t` and an array: the function is
called with `this = t` and the elements of the array, and its result replaces the call. -/
theorem C54_method {below cs : List Val} {w arr v : Val} (h : Loaded vm ss) (hr : Room vm (d + args.length + 2))
    (ht : vm.this = f) (hs : vm.stack = below ++ [w, t, arr]) (hc : vm.callStack = cs ++ [mkInt (below.length + 1)])
    (ha : isArray arr = true) (hl : Arr.length vm.heap arr = some args.length)
    (hx : ∀ (i : Nat) x, args[i]? = some x → Arr.get vm.heap arr i = some x)
    (hf : isFunction f = true) (hF : functions ss (getFuncAddr f).toNat = some fn)
    (he : runBody E (functions ss) n d fn t args (setErrorf vm .ok none) = some (.ok vm' (.ret v))) :
    ∃ vm2, applyMethod E vm = some vm2 ∧ vm2.stack = below ++ [v] ∧ vm2.error = .ok ∧ vm2.heap = vm'.heap ∧
      SameStacks { vm2 with stack := vm.stack } vm ∧ vm2.this = f := by
  obtain ⟨vm2, h1, h2, a⟩ := C54_returned h hr hf hF he
  obtain ⟨r1, r2, r3, r4, r5⟩ := hr
  have hp : getretvalpos vm = some (below.length : Int) := retpos vm below [t, arr] cs w hs hc (by omega) (by omega)
  have hl1 : vm.stack.length = below.length + 3 := by rw [hs]; simp
  have a0 : arg vm 0 = some t := by
    unfold arg
    rw [hp, hl1, cInt_small (by omega)]
    simp only [Option.bind_eq_bind, Option.bind_some]
    rw [if_pos (by omega), at_nat _ (by omega) _ (below.length + 1) (by omega), hs]
    simp
  have a1 : arg vm 1 = some arr := by
    unfold arg
    rw [hp, hl1, cInt_small (by omega)]
    simp only [Option.bind_eq_bind, Option.bind_some]
    rw [if_pos (by omega), at_nat _ (by omega) _ (below.length + 2) (by omega), hs]
    simp
  have hi : itemsOf vm.heap arr = some args := by
    unfold itemsOf
    rw [hl]
    simp only [Option.bind_eq_bind, Option.bind_some]
    rw [mapM_range hx _ (Nat.le_refl _), List.take_length]
  have hp2 : getretvalpos vm2 = some (below.length : Int) := by
    rw [← hp]; unfold getretvalpos; rw [a.stacks.callStack, a.stacks.stack]
  have hret : ret vm2 v = some { vm2 with stack := below ++ [v] } := by
    unfold ret
    rw [hp2]
    simp only [Option.bind_eq_bind, Option.bind_some]
    rw [if_neg (by omega), a.stacks.stack, hs]
    simp [push]
  refine ⟨{ vm2 with stack := below ++ [v] }, ?_, rfl, a.error.trans h2, a.heap,
    ⟨rfl, a.stacks.callStack, a.stacks.argStack, a.stacks.scopes, a.stacks.loopAddrs⟩, a.this.trans ht⟩
  unfold applyMethod
  rw [a1]
  simp only [Option.bind_eq_bind, Option.bind_some, ha, if_true, hi, a0, ht, h1, Option.getD_some, hret]

end

/-! ## C functions: what does not hold -/

/-- A C function, or an imported function, that uses the engine only to read its arguments and to return undefined. -/
def Plain (E : Env) (f : Val) : Prop := ∀ vm, native E f vm = ret vm mkUndefined

/-- `k` calls of `f` from C, one after the other; the result code of the last one. -/
def calls (E : Env) (f t : Val) (args : List Val) : Nat → Vm → Err → Option (Vm × Err)
  | 0, vm, e => some (vm, e)
  | k + 1, vm, _ => (Exec.apply E vm f t args).bind fun r => calls E f t args k r.1 r.2.2

/-- **C54 fails for C functions: every call leaves its frame on the call stack and its result on the data stack**, whatever
the function, as long as there is no error. -/
theorem C54_violation_leak {E : Env} {f t : Val} {args : List Val} (hf : isCFun f = true) (hp : Plain E f) :
    ∀ (k : Nat) (vm : Vm) (e : Err), Room vm (k + args.length + 2) → vm.error = .ok →
      ∃ vm2 e2, calls E f t args k vm e = some (vm2, e2) ∧ vm2.error = .ok ∧
        vm2.callStack.length = vm.callStack.length + 5 * k ∧ vm2.stack.length = vm.stack.length + k := by
  intro k
  induction k with
  | zero => intro vm e _ he; exact ⟨vm, e, rfl, he, rfl, rfl⟩
  | succ k ih =>
    intro vm e hr he
    obtain ⟨r1, r2, r3, r4, r5⟩ := hr
    have hc := (hp (applied vm f t args)).trans
      (ret_applied (vm := vm) (f := f) (t := t) ⟨by omega, by omega, by omega, by omega, by omega⟩ rfl rfl)
    have ha := apply_foreign_ok (vm := vm) (x := mkUndefined) hf hc List.getElem?_concat_length he
    obtain ⟨vm2, e2, h1, h2, h3, h4⟩ := ih ({ applied vm f t args with stack := vm.stack ++ [mkUndefined], this := vm.this }) .ok
      ⟨by simp only [List.length_append, List.length_cons, List.length_nil]; omega,
       by show (vm.callStack ++ [_, _, _, _, _]).length + _ < _; simp only [List.length_append, List.length_cons, List.length_nil]; omega,
       by show vm.argStack.length + _ < _; omega, by show vm.loopAddrs.length + _ < _; omega,
       by show vm.scopes.length + _ < _; omega⟩ he
    refine ⟨vm2, e2, ?_, h2, ?_, ?_⟩
    · rw [calls, ha]; exact h1
    · rw [h3]
      show (vm.callStack ++ [_, _, _, _, _]).length + _ = _
      simp only [List.length_append, List.length_cons, List.length_nil]; omega
    · rw [h4]
      simp only [List.length_append, List.length_cons, List.length_nil]; omega

/-- **C54 fails for C functions after an error:** the error of an earlier call is reported for a function that does not fail. -/
theorem C54_violation_old_error {E : Env} {vm : Vm} {f t : Val} {args : List Val} (hf : isCFun f = true)
    (hp : Plain E f) (hr : Room vm (args.length + 2)) (he : vm.error ≠ .ok) :
    ∃ vm2, Exec.apply E vm f t args = some (vm2, some mkUndefined, vm.error) := by
  have hc := (hp (applied vm f t args)).trans (ret_applied (vm := vm) (f := f) (t := t) hr rfl rfl)
  obtain ⟨r1, r2, r3, r4, r5⟩ := hr
  have ha := apply_foreign_err (vm := vm) (x := mkUndefined) (t := t) hf hc ⟨rfl, rfl, rfl, rfl, rfl⟩ he
    ⟨by omega, by omega, by omega, by omega, by omega⟩
  exact ⟨_, ha⟩


/-! ## Concrete cases -/

/-- `(function() { return 5; }); (function() { 6; }); (function() { 1(); });` -/
def demoFns : Script where
  path := txt "f.js"
  body := [.exprs (.func 0 none [] [.ret (some (.int 5))]) [], .exprs (.func 1 none [] [.exprs (.int 6) []]) [],
    .exprs (.func 2 none [] [.exprs (.call (.int 1) []) []]) []]
  map := []

/-- The engine with that script, and the function at an address run with one argument: the hypotheses of C54 hold. -/
theorem demo_fn (a : Nat) (p : Sem.Out Comp → Bool) (hd : (demo.bind fun r => (functions [demoFns] a).bind fun fn =>
      (runBody demoEnv (functions [demoFns]) 20 20 fn mkNull [mkInt 1] (setErrorf (Bcode.commit
        { heap := r.1, scopes := [r.2], al := fun _ => demoAl } demoFns.bytes) .ok none)).map p) = some true) :
    ∃ vm fn o, Loaded vm [demoFns] ∧ Room vm (20 + [mkInt 1].length + 2) ∧ functions [demoFns] a = some fn ∧
      runBody demoEnv (functions [demoFns]) 20 20 fn mkNull [mkInt 1] (setErrorf vm .ok none) = some o ∧ p o = true := by
  obtain ⟨r, hr, hd⟩ := Option.bind_eq_some_iff.1 hd
  obtain ⟨fn, hf, hd⟩ := Option.bind_eq_some_iff.1 hd
  obtain ⟨o, ho, hd⟩ := Option.map_eq_some_iff.1 hd
  obtain ⟨hl, q, _⟩ := demo_loads demoFns r (by decide +kernel) (by simp [demoFns, NumSs, NumS, NumE, NumEs, NumO])
  have q1 := q.stack; have q2 := q.callStack; have q3 := q.argStack; have q4 := q.loopAddrs; have q5 := q.scopes
  refine ⟨_, fn, o, hl, ⟨?_, ?_, ?_, ?_, ?_⟩, hf, ho, hd⟩ <;> simp only [List.length_cons, List.length_nil] <;> omega

/-- `(function() { return 5; })` called from C gives 5. -/
example : ∃ vm vm2, Exec.apply demoEnv vm (mkFunction 20) mkNull [mkInt 1] = some (vm2, some (mkInt 5), .ok) ∧ SameStacks vm2 vm := by
  obtain ⟨vm, fn, o, hl, hr, hf, he, hp⟩ := demo_fn 20 (fun o => match o with | .ok _ (.ret v) => v == mkInt 5 | _ => false)
    (by decide +kernel)
  match o, hp with
  | .ok vm' (.ret v), hp =>
    simp only [beq_iff_eq] at hp
    subst hp
    obtain ⟨vm2, h1, _, h2⟩ := C54_returned (f := mkFunction 20) hl hr (by decide +kernel) hf he
    exact ⟨vm, vm2, h1, h2.stacks⟩

/-- `(function() { 6; })` called from C gives the function. -/
example : ∃ vm vm2, Exec.apply demoEnv vm (mkFunction 31) mkNull [mkInt 1] = some (vm2, some (mkFunction 31), .ok) := by
  obtain ⟨vm, fn, o, hl, hr, hf, he, hp⟩ := demo_fn 31 (fun o => match o with | .ok _ (.normal _) => true | _ => false)
    (by decide +kernel)
  match o, hp with
  | .ok vm' (.normal v), hp =>
    obtain ⟨⟨vm2, h1, _⟩, _⟩ := C54_violation_no_return (f := mkFunction 31) hl hr (by decide +kernel) hf he
    exact ⟨vm, vm2, h1⟩

/-- `(function() { 1(); })` called from C gives a TypeError. -/
example : ∃ vm vm2, Exec.apply demoEnv vm (mkFunction 40) mkNull [mkInt 1] = some (vm2, some mkUndefined, .type) ∧ SameStacks vm2 vm := by
  obtain ⟨vm, fn, o, hl, hr, hf, he, hp⟩ := demo_fn 40 (fun o => match o with | .err vm' => decide (vm'.error = .type) | _ => false)
    (by decide +kernel)
  match o, hp with
  | .err vm', hp =>
    simp only [decide_eq_true_eq] at hp
    obtain ⟨vm2, h1, _, h2⟩ := C54_failed (f := mkFunction 40) hl hr (by decide +kernel) hf he
    exact ⟨vm, vm2, hp ▸ h1, h2.stacks⟩

/-- A number is not callable. -/
example (vm : Vm) : ∃ msg, Exec.apply demoEnv vm (mkInt 1) mkNull [] = some ({ vm with error := .type, msg := msg }, none, .type) :=
  C54_not_callable demoEnv vm _ _ _ (by decide +kernel) (by decide +kernel) (by decide +kernel)

/-- A C function at address 9 that returns undefined: three calls leave 15 entries of the call stack and 3 values behind. -/
example (h : Heap) : ∃ vm2 e2, calls { demoEnv with cfun := fun _ vm => ret vm mkUndefined } (mkFn 9) mkNull [mkInt 1] 3
      { heap := h } .ok = some (vm2, e2) ∧ vm2.error = .ok ∧ vm2.callStack.length = 15 ∧ vm2.stack.length = 3 :=
  C54_violation_leak (E := { demoEnv with cfun := fun _ vm => ret vm mkUndefined }) (f := mkFn 9) (args := [mkInt 1])
    (by decide +kernel) (fun _ => rfl) 3 { heap := h } .ok ⟨by simp, by simp, by simp, by simp, by simp⟩ rfl


/-- `(function() { return 5; }).apply(null, [])`: the machine is at the method, and the call gives 5. -/
example : ∃ vm vm2, applyMethod demoEnv vm = some vm2 ∧ vm2.stack = [mkInt 5] ∧ vm2.error = .ok := by
  have hd : (demo.bind fun r => (mkArray r.1 demoAl).bind fun a => (functions [demoFns] 20).bind fun fn =>
      (runBody demoEnv (functions [demoFns]) 20 20 fn mkNull [] (setErrorf { Bcode.commit
        { heap := a.1, scopes := [r.2], al := fun _ => demoAl } demoFns.bytes with
          this := mkFunction 20, stack := [mkUndefined, mkNull, a.2], callStack := [mkInt 1] } .ok none)).map fun o =>
        (match o with | .ok _ (.ret v) => v == mkInt 5 | _ => false) && isArray a.2 && isObject a.2 &&
          ((getObjectStruct a.2).bind fun o => (a.1.objs.mem o).map fun c => c.head) == some 0) = some true := by decide +kernel
  obtain ⟨r, hr, hd⟩ := Option.bind_eq_some_iff.1 hd
  obtain ⟨a, ha, hd⟩ := Option.bind_eq_some_iff.1 hd
  obtain ⟨fn, hf, hd⟩ := Option.bind_eq_some_iff.1 hd
  obtain ⟨o, ho, hd⟩ := Option.map_eq_some_iff.1 hd
  simp only [Bool.and_eq_true, beq_iff_eq] at hd
  obtain ⟨⟨⟨h1, h2⟩, h3⟩, h4⟩ := hd
  obtain ⟨ob, h5, h6⟩ := Option.bind_eq_some_iff.1 h4
  obtain ⟨c, h7, h8⟩ := Option.map_eq_some_iff.1 h6
  match o, h1 with
  | .ok vm' (.ret v), h1 =>
    simp only [beq_iff_eq] at h1
    subst h1
    obtain ⟨hl, q, _⟩ := demo_loads demoFns (a.1, r.2) (by decide +kernel) (by simp [demoFns, NumSs, NumS, NumE, NumEs, NumO])
    have q3 := q.argStack; have q4 := q.loopAddrs; have q5 := q.scopes
    obtain ⟨vm2, e1, e2, e3, _⟩ := C54_method (n := 20) (d := 20) (args := []) (f := mkFunction 20) (below := []) (cs := [])
      (vm := { Bcode.commit { heap := a.1, scopes := [r.2], al := fun _ => demoAl } demoFns.bytes with
          this := mkFunction 20, stack := [mkUndefined, mkNull, a.2], callStack := [mkInt 1] })
      ⟨hl.parts, hl.len, hl.small, hl.nums⟩ ⟨by simp, by simp, by simp; simp at q3; omega, by simp; simp at q4; omega, by simp; simp at q5; omega⟩
      rfl rfl rfl h2 (by
        show Arr.length a.1 a.2 = some 0
        rw [Arr.length, if_neg (by simp [h3]), h5]
        simp only [Option.bind_eq_bind, Option.bind_some, h7]
        rw [Arr.lengthLoop, if_pos h8]) (by simp) (by decide +kernel) hf ho
    exact ⟨_, vm2, e1, e2, e3⟩


/-- A C function that returns 7: the call gives 7. -/
example (h : Heap) : ∃ vm2, Exec.apply { demoEnv with cfun := fun _ vm => ret vm (mkInt 7) } { heap := h } (mkFn 9) mkNull [mkInt 1] =
    some (vm2, some (mkInt 7), .ok) := by
  have hf : isCFun (mkFn 9) = true := by decide +kernel
  have hr : Room ({ heap := h } : Vm) ([mkInt 1].length + 2) := ⟨by simp, by simp, by simp, by simp, by simp⟩
  obtain ⟨seen, _, _, _, h1, h0, h2, _⟩ := C54_foreign_partial (t := mkNull) hf hr
  obtain ⟨v, hv⟩ := h0 seen (mkInt 7) ⟨rfl, rfl, rfl, rfl, rfl⟩
  obtain ⟨vm2, e, _⟩ := h2 { demoEnv with cfun := fun _ vm => ret vm (mkInt 7) } seen v (mkInt 7) hv ⟨rfl, rfl, rfl, rfl, rfl⟩ h1 hv
  exact ⟨vm2, e⟩

end Mjs.Props
