import Verif.Lemmas.Script
import Verif.Props.Object

/-!
# C32, C33, C35: a loaded script does what its source means

`evalScript` (Spec/Layout.lean, Spec/Sem.lean) is the meaning of a script: an evaluation of its syntax tree.  `execute` is the
model of `mjs_execute`: a machine that runs the bytes of the script.  They agree, for all scripts, all engine states and all
numbers of loop iterations and nested calls.
-/

namespace Mjs.Props
open Mjs Mjs.Str Mjs.Obj Mjs.Core Mjs.Code Mjs.Sem Mjs.Exec

/-- **C35, scripts that end with a value.** If the meaning of a script is the value `v` and the engine state `vm'`, then running
its code gives `v`, with the objects and strings of `vm'`, no error, and all stacks, `this` and the loaded code as before. -/
theorem C35_script_value {E : Env} [Natives E] {vm vm' : Vm} {ss : List Script} {k : Nat} {p : Part} {s : Script} {n d : Nat} {v : Val}
    (h : Loaded vm ss) (hr : Room vm d) (hk : IsScript vm ss k p s)
    (he : evalScript E ss n d p s (setErrorf vm .ok none) = some (.ok vm' (.normal v))) :
    ∃ vm2, execute E vm p.startIdx = some (vm2, v) ∧ vm2.heap = vm'.heap ∧ vm2.error = .ok ∧ vm2.this = vm.this ∧
      SameStacks vm2 vm ∧ SameCode vm2 vm := by
  obtain ⟨vm2, h1, h2, _, h3, _, h4, h5, h6⟩ := execute_script h hr hk _ he
  exact ⟨vm2, h1, h2, h3, h4, h5, h6⟩

/-- **C35, scripts that end with an error.** If the meaning of a script is an error, then running its code returns
undefined, with that error code, that message, and the objects and strings there were when it happened; and all stacks and the
loaded code are as before. -/
theorem C35_script_error {E : Env} [Natives E] {vm vm' : Vm} {ss : List Script} {k : Nat} {p : Part} {s : Script} {n d : Nat}
    (h : Loaded vm ss) (hr : Room vm d) (hk : IsScript vm ss k p s)
    (he : evalScript E ss n d p s (setErrorf vm .ok none) = some (.err vm')) :
    ∃ vm2, execute E vm p.startIdx = some (vm2, mkUndefined) ∧ vm2.heap = vm'.heap ∧ vm2.error = vm'.error ∧ vm2.msg = vm'.msg ∧
      vm2.error ≠ .ok ∧ SameStacks vm2 vm ∧ SameCode vm2 vm := by
  obtain ⟨vm2, h1, h2, _, h3, h4, h5, h6, h7⟩ := execute_script h hr hk _ he
  exact ⟨vm2, h1, h2, h3, h4, by rw [h3]; exact h5, h6, h7⟩

/-! ## Expressions -/

/-- The outcome of an expression as the outcome of a statement. -/
def asStmt : Out Val → Out Comp
  | .ok vm v => .ok vm (.normal v)
  | .err vm => .err vm

/-- The meaning of a script that is one expression. -/
theorem evalScript_expr {E : Env} [Natives E] {ss : List Script} {p : Part} {s : Script} {e : Expr} (hb : s.body = [.exprs e []]) {n d : Nat}
    {vm : Vm} {out : Out Val} (he : eval E (fnAt (funsFrom 0 ss)) n d (layoutE (p.startIdx + s.start) e) vm = some out) :
    evalScript E ss (n + 2) (d + 2) p s vm = some (asStmt out) := by
  unfold evalScript
  rw [hb]
  cases n with
  | zero => rw [eval] at he; cases he
  | succ n =>
    cases d with
    | zero => rw [eval] at he; cases he; simp
    | succ d =>
      simp only [layoutSs, layoutS, layoutMore, layoutRest]
      rw [evalSs]
      have hs : evalS E (fnAt (funsFrom 0 ss)) (n + 2) (d + 2) (.exprs (layoutE (p.startIdx + s.start) e) []) vm =
          some (asStmt out) := by
        rw [evalS]
        show Sem.bind _ _ vm = _
        unfold Sem.bind
        rw [he]
        cases out with
        | err vm' => rfl
        | ok vm' v =>
          show evalMore E _ (n + 1) (d + 1) v [] vm' = _
          rw [evalMore]; rfl
      show Sem.bind (evalS E _ (n + 2) (d + 2) _) _ vm = _
      unfold Sem.bind
      rw [hs]
      cases out with
      | err vm' => rfl
      | ok vm' v =>
        show evalRest E _ (n + 2) (d + 2) v [] vm' = _
        rw [evalRest]; rfl

/-- **C32.** Running the code of an expression gives the value of the expression; nothing else is left on any stack.  (`eval`
is the meaning of expressions, Spec/Sem.lean.) -/
theorem C32_expression_value {E : Env} [Natives E] {vm vm' : Vm} {ss : List Script} {k : Nat} {p : Part} {s : Script} {e : Expr} {n d : Nat} {v : Val}
    (h : Loaded vm ss) (hr : Room vm (d + 2)) (hk : IsScript vm ss k p s) (hb : s.body = [.exprs e []])
    (he : eval E (fnAt (funsFrom 0 ss)) n d (layoutE (p.startIdx + s.start) e) (setErrorf vm .ok none) = some (.ok vm' v)) :
    ∃ vm2, execute E vm p.startIdx = some (vm2, v) ∧ vm2.heap = vm'.heap ∧ vm2.error = .ok ∧ vm2.this = vm.this ∧
      SameStacks vm2 vm ∧ SameCode vm2 vm :=
  C35_script_value h hr hk (evalScript_expr hb he)

/-- **C32, errors.** If the meaning of the expression is an error, running its code stops with that error. -/
theorem C32_expression_error {E : Env} [Natives E] {vm vm' : Vm} {ss : List Script} {k : Nat} {p : Part} {s : Script} {e : Expr} {n d : Nat}
    (h : Loaded vm ss) (hr : Room vm (d + 2)) (hk : IsScript vm ss k p s) (hb : s.body = [.exprs e []])
    (he : eval E (fnAt (funsFrom 0 ss)) n d (layoutE (p.startIdx + s.start) e) (setErrorf vm .ok none) = some (.err vm')) :
    ∃ vm2, execute E vm p.startIdx = some (vm2, mkUndefined) ∧ vm2.heap = vm'.heap ∧ vm2.error = vm'.error ∧ vm2.msg = vm'.msg ∧
      vm2.error ≠ .ok ∧ SameStacks vm2 vm ∧ SameCode vm2 vm :=
  C35_script_error h hr hk (evalScript_expr hb he)

/-! ## `&&` and `||` -/

section
variable {E : Env} [Natives E] {vm vm1 vm2 : Vm} {ss : List Script} {k : Nat} {p : Part} {s : Script} {a b : Expr} {n d : Nat} {x y : Val}

theorem truthy_ok {vm : Vm} {x : Val} {c : Bool} (he : vm.error = .ok) (ht : isTruthy vm.heap.str x = some c) :
    truthy x vm = some (.ok vm c) := by
  simp [truthy, prim, ht, he]

/-- Without an error, the meaning of an expression has none. -/
def NoErr (vm : Vm) : Prop := vm.error = .ok

theorem logic_pos {E : Env} [Natives E] {F : Nat → Option Fn} {n d : Nat} {e : Expr} {vm : Vm} {out : Out Val} (h : eval E F n d e vm = some out) :
    ∃ n' d', n = n' + 1 ∧ d = d' + 1 := by
  cases n with
  | zero => rw [eval] at h; cases h
  | succ n =>
    cases d with
    | zero => rw [eval] at h; cases h; simp
    | succ d => exact ⟨n, d, rfl, rfl⟩

/-- **C33, `a && b` with a false `a`.** The value is that of `a`, and the objects and strings are those after `a` alone: `b` is
not evaluated. -/
theorem C33_and_false (h : Loaded vm ss) (hr : Room vm (d + 3)) (hk : IsScript vm ss k p s) (hb : s.body = [.exprs (.and a b) []])
    (ha : eval E (fnAt (funsFrom 0 ss)) n d (layoutE (p.startIdx + s.start) a) (setErrorf vm .ok none) = some (.ok vm1 x))
    (hok : vm1.error = .ok) (hx : isTruthy vm1.heap.str x = some false) :
    ∃ vm2, execute E vm p.startIdx = some (vm2, x) ∧ vm2.heap = vm1.heap ∧ vm2.error = .ok ∧ SameStacks vm2 vm := by
  have he : eval E (fnAt (funsFrom 0 ss)) (n + 1) (d + 1) (layoutE (p.startIdx + s.start) (.and a b)) (setErrorf vm .ok none) =
      some (.ok vm1 x) := by
    rw [layoutE, eval]
    show Sem.bind _ _ _ = _
    unfold Sem.bind
    rw [ha]
    show Sem.bind (truthy x) _ vm1 = _
    unfold Sem.bind
    rw [truthy_ok hok hx]
    rfl
  obtain ⟨vm2, h1, h2, h3, _, h4, _⟩ := C32_expression_value h hr hk hb he
  exact ⟨vm2, h1, h2, h3, h4⟩

/-- **C33, `a || b` with a true `a`.** -/
theorem C33_or_true (h : Loaded vm ss) (hr : Room vm (d + 3)) (hk : IsScript vm ss k p s) (hb : s.body = [.exprs (.or a b) []])
    (ha : eval E (fnAt (funsFrom 0 ss)) n d (layoutE (p.startIdx + s.start) a) (setErrorf vm .ok none) = some (.ok vm1 x))
    (hok : vm1.error = .ok) (hx : isTruthy vm1.heap.str x = some true) :
    ∃ vm2, execute E vm p.startIdx = some (vm2, x) ∧ vm2.heap = vm1.heap ∧ vm2.error = .ok ∧ SameStacks vm2 vm := by
  have he : eval E (fnAt (funsFrom 0 ss)) (n + 1) (d + 1) (layoutE (p.startIdx + s.start) (.or a b)) (setErrorf vm .ok none) =
      some (.ok vm1 x) := by
    rw [layoutE, eval]
    show Sem.bind _ _ _ = _
    unfold Sem.bind
    rw [ha]
    show Sem.bind (truthy x) _ vm1 = _
    unfold Sem.bind
    rw [truthy_ok hok hx]
    rfl
  obtain ⟨vm2, h1, h2, h3, _, h4, _⟩ := C32_expression_value h hr hk hb he
  exact ⟨vm2, h1, h2, h3, h4⟩

/-- **C33, the second operand.** If `a` does not decide (`c` is true for `&&`, false for `||`), the value is that of `b`,
evaluated after `a`. -/
theorem C33_second (isAnd : Bool) (h : Loaded vm ss) (hr : Room vm (d + 3)) (hk : IsScript vm ss k p s)
    (hb : s.body = [.exprs (if isAnd then .and a b else .or a b) []])
    (ha : eval E (fnAt (funsFrom 0 ss)) n d (layoutE (p.startIdx + s.start) a) (setErrorf vm .ok none) = some (.ok vm1 x))
    (hok : vm1.error = .ok) (hx : isTruthy vm1.heap.str x = some isAnd)
    (hy : eval E (fnAt (funsFrom 0 ss)) n d
      (layoutE (p.startIdx + s.start + (code a).length + 1 + (vint (DROP :: code b).length).length + 1) b) vm1 = some (.ok vm2 y)) :
    ∃ vm3, execute E vm p.startIdx = some (vm3, y) ∧ vm3.heap = vm2.heap ∧ vm3.error = .ok ∧ SameStacks vm3 vm := by
  have he : eval E (fnAt (funsFrom 0 ss)) (n + 1) (d + 1) (layoutE (p.startIdx + s.start) (if isAnd then .and a b else .or a b))
      (setErrorf vm .ok none) = some (.ok vm2 y) := by
    cases isAnd
    · simp only [Bool.false_eq_true, if_false]
      rw [layoutE, eval]
      show Sem.bind _ _ _ = _
      unfold Sem.bind
      rw [ha]
      show Sem.bind (truthy x) _ vm1 = _
      unfold Sem.bind
      rw [truthy_ok hok hx]
      exact hy
    · simp only [if_true]
      rw [layoutE, eval]
      show Sem.bind _ _ _ = _
      unfold Sem.bind
      rw [ha]
      show Sem.bind (truthy x) _ vm1 = _
      unfold Sem.bind
      rw [truthy_ok hok hx]
      exact hy
  obtain ⟨vm3, h1, h2, h3, _, h4, _⟩ := C32_expression_value h hr hk hb he
  exact ⟨vm3, h1, h2, h3, h4⟩
end

/-! ## A concrete script -/

/-- `if (1 < 2) { while (true) { break; } } (function() { return 5; })()` -/
def demoScript : Script where
  path := txt "a.js"
  body := [.ite (.bin .lt (.int 1) (.int 2)) (.block [.while .tru [.break]]),
    .exprs (.call (.func 0 none [] [.ret (some (.int 5)), .exprs (.int 6) []]) []) []]
  map := []

/-- Arithmetic is not used by the script: any environment does. -/
def demoEnv : Env where
  numText _ := []
  numVal _ := 0#64
  add a _ := a
  sub a _ := a
  mul a _ := a
  div a _ := a
  cfun _ _ := none
  ffi _ := none
  atFn := 1
  indexOfFn := 2
  sliceFn := 3
  spliceFn := 4
  pushFn := 5
  applyFn := 6

instance : Natives demoEnv := Natives.none _

/-- An engine with a global object and one loaded script. -/
def demoVm : Option Vm := demo.map fun r =>
  Bcode.commit { heap := r.1, scopes := [r.2], al := fun _ => demoAl } demoScript.bytes

/-- The script's value is 5: the body of `if` is entered and left by `break`, the function is called and returns. -/
theorem demo_script : ∃ vm vm' p n d, Loaded vm [demoScript] ∧ Room vm d ∧ IsScript vm [demoScript] 0 p demoScript ∧
    evalScript demoEnv [demoScript] n d p demoScript (setErrorf vm .ok none) = some (.ok vm' (.normal (mkInt 5))) := by
  have hd : (demoVm.bind fun vm => (evalScript demoEnv [demoScript] 30 30 ⟨0, demoScript.bytes, none⟩ demoScript
      (setErrorf vm .ok none)).map fun o => match o with
        | .ok _ (.normal v) => v == mkInt 5
        | _ => false) = some true := by decide +kernel
  unfold demoVm at hd
  cases hm : demo with
  | none => rw [hm] at hd; simp at hd
  | some r =>
    rw [hm] at hd
    simp only [Option.map_some, Option.bind_some] at hd
    cases he : evalScript demoEnv [demoScript] 30 30 ⟨0, demoScript.bytes, none⟩ demoScript
      (setErrorf (Bcode.commit { heap := r.1, scopes := [r.2], al := fun _ => demoAl } demoScript.bytes) .ok none) with
    | none => rw [he] at hd; simp at hd
    | some o =>
      rw [he] at hd
      simp only [Option.map_some, Option.some.injEq] at hd
      cases o with
      | err _ => simp at hd
      | ok vm' c =>
        cases c with
        | normal v =>
          simp only [beq_iff_eq] at hd
          subst hd
          refine ⟨_, vm', _, 30, 30, ⟨?_, ?_, ?_, ?_⟩, ⟨?_, ?_, ?_, ?_, ?_⟩, ⟨?_, ?_⟩, he⟩
          · exact ⟨rfl, rfl, trivial⟩
          · simp [Bcode.commit]
          · have : demoScript.bytes.length < 2 ^ 31 - 1 := by decide +kernel
            simpa [Bcode.commit] using this
          · simp [demoScript, NumSs, NumS, NumE, NumEs, NumO]
          all_goals simp [Bcode.commit]
        | _ => simp at hd

/-- So the machine computes 5, by C35. -/
example : ∃ vm vm2, execute demoEnv vm 0 = some (vm2, mkInt 5) ∧ vm2.error = .ok ∧ SameStacks vm2 vm := by
  obtain ⟨vm, vm', p, n, d, h, hr, hk, he⟩ := demo_script
  obtain ⟨vm2, h1, _, h2, _, h3, _⟩ := C35_script_value h hr hk he
  have hp : p.startIdx = 0 := by
    have := h.parts
    have hk := hk.part
    cases hv : vm.parts with
    | nil => rw [hv] at hk; simp at hk
    | cons q qs => rw [hv] at this hk; simp at hk; subst hk; exact this.1
  exact ⟨vm, vm2, hp ▸ h1, h2, h3⟩

/-- The engine of the demo with another script. -/
theorem demo_loads (s : Script) (r : Heap × Val) (hb : s.bytes.length < 2 ^ 31 - 1) (hn : NumSs s.body) :
    let vm := Bcode.commit { heap := r.1, scopes := [r.2], al := fun _ => demoAl } s.bytes
    Loaded vm [s] ∧ Room vm 100 ∧ IsScript vm [s] 0 ⟨0, s.bytes, none⟩ s := by
  refine ⟨⟨⟨rfl, rfl, trivial⟩, by simp [Bcode.commit], by simpa [Bcode.commit] using hb, by simpa using hn⟩,
    ⟨?_, ?_, ?_, ?_, ?_⟩, ⟨by simp [Bcode.commit], by simp⟩⟩ <;> simp [Bcode.commit]

/-- `(1 < 2) && (function() { return 5; })()`: the hypotheses of C33 hold, with a call in the second operand. -/
def demoAnd : Script where
  path := txt "b.js"
  body := [.exprs (.and (.bin .lt (.int 1) (.int 2)) (.call (.func 0 none [] [.ret (some (.int 5))]) [])) []]
  map := []

example : ∃ vm vm3, execute demoEnv vm 0 = some (vm3, mkInt 5) ∧ vm3.error = .ok ∧ SameStacks vm3 vm := by
  let F := fnAt (funsFrom 0 [demoAnd])
  have hd : (demo.bind fun r => (eval demoEnv F 20 20 (layoutE demoAnd.start (.bin .lt (.int 1) (.int 2)))
      (setErrorf (Bcode.commit { heap := r.1, scopes := [r.2], al := fun _ => demoAl } demoAnd.bytes) .ok none)).bind fun o => match o with
        | .ok vm1 x => (eval demoEnv F 20 20 (layoutE (demoAnd.start + (code (.bin .lt (.int 1) (.int 2))).length + 1 +
            (vint (DROP :: code (.call (.func 0 none [] [.ret (some (.int 5))]) [])).length).length + 1)
            (.call (.func 0 none [] [.ret (some (.int 5))]) [])) vm1).map fun o => match o with
          | .ok _ y => decide (vm1.error = .ok) && isTruthy vm1.heap.str x == some true && y == mkInt 5
          | _ => false
        | _ => some false) = some true := by decide +kernel
  obtain ⟨r, hr, hd⟩ := Option.bind_eq_some_iff.1 hd
  obtain ⟨o, ho, hd⟩ := Option.bind_eq_some_iff.1 hd
  cases o with
  | err _ => simp at hd
  | ok vm1 x =>
    obtain ⟨o, ho2, hd⟩ := Option.map_eq_some_iff.1 hd
    cases o with
    | err _ => simp at hd
    | ok vm2 y =>
      simp only [Bool.and_eq_true, decide_eq_true_eq, beq_iff_eq] at hd
      obtain ⟨⟨h1, h2⟩, rfl⟩ := hd
      obtain ⟨hl, hroom, hk⟩ := demo_loads demoAnd r (by decide +kernel) (by simp [demoAnd, NumSs, NumS, NumE, NumEs, NumO])
      obtain ⟨vm3, e1, _, e2, e3⟩ := C33_second (d := 20) true hl
        ⟨by have := hroom.stack; omega, by have := hroom.callStack; omega, by have := hroom.argStack; omega,
          by have := hroom.loopAddrs; omega, by have := hroom.scopes; omega⟩ hk rfl (by rw [Nat.zero_add]; exact ho) h1 h2
        (by rw [Nat.zero_add]; exact ho2)
      exact ⟨_, vm3, e1, e2, e3⟩

/-- `true || 1()` is true: the second operand, which would be an error, is not evaluated. -/
def demoOr : Script where
  path := txt "c.js"
  body := [.exprs (.or .tru (.call (.int 1) [])) []]
  map := []

example : ∃ vm vm2, execute demoEnv vm 0 = some (vm2, mkBoolean true) ∧ vm2.error = .ok := by
  have hd : (demo.map fun _ => ()) = some () := by decide +kernel
  obtain ⟨r, hr, _⟩ := Option.map_eq_some_iff.1 hd
  obtain ⟨hl, hroom, hk⟩ := demo_loads demoOr r (by decide +kernel) (by simp [demoOr, NumSs, NumS, NumE, NumEs])
  obtain ⟨vm2, e1, _, e2, _⟩ := C33_or_true (E := demoEnv) (n := 1) (d := 1) (vm1 := setErrorf _ .ok none) (x := mkBoolean true) hl
    ⟨by have := hroom.stack; omega, by have := hroom.callStack; omega, by have := hroom.argStack; omega,
      by have := hroom.loopAddrs; omega, by have := hroom.scopes; omega⟩ hk rfl (by rw [layoutE, eval]; rfl) rfl rfl
  exact ⟨_, vm2, e1, e2⟩

/-- `1()` is an error: the hypotheses of C32 and C35 for errors hold. -/
def demoErr : Script where
  path := txt "d.js"
  body := [.exprs (.call (.int 1) []) []]
  map := []

example : ∃ vm vm2, execute demoEnv vm 0 = some (vm2, mkUndefined) ∧ vm2.error = .type ∧ SameStacks vm2 vm := by
  have hd : (demo.bind fun r => (eval demoEnv (fnAt (funsFrom 0 [demoErr])) 20 20 (layoutE demoErr.start (.call (.int 1) []))
      (setErrorf (Bcode.commit { heap := r.1, scopes := [r.2], al := fun _ => demoAl } demoErr.bytes) .ok none)).map fun o => match o with
        | .err vm1 => decide (vm1.error = .type)
        | _ => false) = some true := by decide +kernel
  obtain ⟨r, hr, hd⟩ := Option.bind_eq_some_iff.1 hd
  obtain ⟨o, ho, hd⟩ := Option.map_eq_some_iff.1 hd
  cases o with
  | ok _ _ => simp at hd
  | err vm1 =>
    obtain ⟨hl, hroom, hk⟩ := demo_loads demoErr r (by decide +kernel) (by simp [demoErr, NumSs, NumS, NumE, NumEs])
    obtain ⟨vm2, e1, _, e2, _, _, e3, _⟩ := C32_expression_error (d := 20) hl
      ⟨by have := hroom.stack; omega, by have := hroom.callStack; omega, by have := hroom.argStack; omega,
        by have := hroom.loopAddrs; omega, by have := hroom.scopes; omega⟩ hk rfl (by rw [Nat.zero_add]; exact ho)
    exact ⟨_, vm2, e1, e2.trans (by simpa using hd), e3⟩

end Mjs.Props
