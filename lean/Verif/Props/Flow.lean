import Verif.Lemmas.Means
import Verif.Lemmas.Run
import Verif.Props.Script

/-!
# C35 and C53: statements and loops, rule by rule

The rules below are about the meaning of statements (Spec/Means.lean); by `C35_meaning_runs` the machine does what the meaning
says.
-/

namespace Mjs.Props
open Mjs Mjs.Str Mjs.Obj Mjs.Core Mjs.Code Mjs.Sem Mjs.Exec

section
variable {E : Env} [Natives E] {F : Nat → Option Fn} {d : Nat} {vm vm1 vm2 : Vm}

/-- The statements of a script, with the addresses of its functions filled in. -/
def stmts (p : Part) (s : Script) : List Stmt := layoutSs (p.startIdx + s.start) s.body

/-- **C35.** The machine does what the statements of a script mean, with no bound on the number of steps. -/
theorem C35_meaning_runs {ss : List Script} {k : Nat} {p : Part} {s : Script} {v : Val}
    (h : Loaded vm ss) (hr : Room vm d) (hk : IsScript vm ss k p s)
    (he : MeansSs E (fnAt (funsFrom 0 ss)) d (stmts p s) (setErrorf vm .ok none) (.ok vm1 (.normal v))) :
    ∃ vm2, execute E vm p.startIdx = some (vm2, v) ∧ vm2.heap = vm1.heap ∧ vm2.error = .ok ∧ vm2.this = vm.this ∧
      SameStacks vm2 vm ∧ SameCode vm2 vm :=
  let ⟨_, he⟩ := he
  C35_script_value h hr hk he

/-- A program means at most one thing. -/
theorem C35_unique {d' : Nat} {ss : List Stmt} {o o' : Out Comp} (h : MeansSs E F d ss vm o) (h' : MeansSs E F d' ss vm o') : o = o' :=
  MeansSs.det h h'

/-- **C35, `if`/`else`.** Exactly the branch the condition selects runs, after the condition. -/
theorem C35_if_else {c : Expr} {s t : Stmt} {b : Bool} {o : Out Comp} (hc : Cond E F d c vm vm1 b)
    (hb : MeansS E F d (if b then s else t) vm1 o) : MeansS E F (d + 1) (.itee c s t) vm o := by
  obtain ⟨n, x, h1, h2⟩ := cond_eval hc
  obtain ⟨m, hb⟩ := hb
  refine ⟨n + m + 1, ?_⟩
  rw [evalS, bind_ok (eval_mono h1 (by omega) (Nat.le_refl _)), bind_ok h2]
  cases b
  · exact evalS_mono hb (by omega) (Nat.le_refl _)
  · exact evalS_mono hb (by omega) (Nat.le_refl _)

/-- **C35, `if` without `else`.** -/
theorem C35_if_true {c : Expr} {s : Stmt} {o : Out Comp} (hc : Cond E F d c vm vm1 true)
    (hb : MeansS E F d s vm1 o) : MeansS E F (d + 1) (.ite c s) vm o := by
  obtain ⟨n, x, h1, h2⟩ := cond_eval hc
  obtain ⟨m, hb⟩ := hb
  refine ⟨n + m + 1, ?_⟩
  rw [evalS, bind_ok (eval_mono h1 (by omega) (Nat.le_refl _)), bind_ok h2]
  exact evalS_mono hb (by omega) (Nat.le_refl _)

theorem C35_if_false {c : Expr} {s : Stmt} (hc : Cond E F d c vm vm1 false) :
    MeansS E F (d + 1) (.ite c s) vm (.ok vm1 (.normal mkUndefined)) := by
  obtain ⟨n, x, h1, h2⟩ := cond_eval hc
  refine ⟨n + 1, ?_⟩
  rw [evalS, bind_ok h1, bind_ok h2]
  rfl

theorem evalRest_of_Ss {n d : Nat} {v : Val} {s : Stmt} {ss : List Stmt} {o : Out Comp} (h : evalSs E F n d (s :: ss) vm = some o) :
    evalRest E F n d v (s :: ss) vm = some o := by
  cases n with
  | zero => rw [evalSs.eq_1] at h; cases h
  | succ n =>
  cases d with
  | zero => rw [evalSs.eq_2 _ _ _ _ (by simp)] at h; cases h
  | succ d =>
    rw [evalSs] at h
    rw [evalRest]
    rcases bind_some h with ⟨vm1, c, h1, h⟩ | ⟨vm1, h1, rfl⟩
    · rw [bind_ok h1]
      cases c with
      | normal w => exact (Mono.of_le (Nat.le_refl _)).evalRest _ _ _ _ (Nat.le_succ _) _ _ h
      | _ => exact h
    · rw [bind_err h1]

/-- **C35, statement lists.** If the first statement ends normally, the others follow in the state it leaves. -/
theorem C35_sequence {s t : Stmt} {ss : List Stmt} {v : Val} {o : Out Comp} (hs : MeansS E F d s vm (.ok vm1 (.normal v)))
    (ht : MeansSs E F d (t :: ss) vm1 o) : MeansSs E F (d + 1) (s :: t :: ss) vm o := by
  obtain ⟨n, hs⟩ := hs
  obtain ⟨m, ht⟩ := ht
  refine ⟨n + m + 1, ?_⟩
  rw [evalSs, bind_ok (evalS_mono hs (by omega) (Nat.le_refl _))]
  exact evalRest_of_Ss (evalSs_mono ht (by omega) (Nat.le_refl _))

/-- **C35/C53, `break`, `continue`, `return` and errors end a statement list.** -/
theorem C35_sequence_ends {s : Stmt} {ss : List Stmt} {o : Out Comp} (hs : MeansS E F d s vm o)
    (ho : ∀ vm' v, o ≠ .ok vm' (.normal v)) : MeansSs E F (d + 1) (s :: ss) vm o := by
  obtain ⟨n, hs⟩ := hs
  refine ⟨n + 1, ?_⟩
  rw [evalSs]
  cases o with
  | err vm' => rw [bind_err hs]
  | ok vm' c =>
    rw [bind_ok hs]
    cases c with
    | normal v => exact absurd rfl (ho _ _)
    | _ => rfl

/-- **C35, `while`.** The loop is entered with a new scope `vm1`, its iterations follow the rules `Loops` (the body runs while
the condition is true), and the scope is left afterwards. -/
theorem C35_while {c : Expr} {body : List Stmt} {r : Comp} (hs : enterScope vm = some (.ok vm1 ()))
    (h : Loops E F d c body vm1 (.ok vm2 r)) :
    MeansS E F (d + 2) (.while c body) vm (.ok { vm2 with scopes := vm.scopes } r) := by
  obtain ⟨n, h⟩ := h.eval
  refine ⟨n + 1, ?_⟩
  rw [evalS, bind_ok (show current vm = some (.ok vm vm) from rfl), bind_ok hs, bind_ok h]
  rfl

/-- **C35, `for`.** -/
theorem C35_for {init : Stmt} {c inc : Expr} {body : List Stmt} {r : Comp} {vm3 : Vm} {v : Val} (hs : enterScope vm = some (.ok vm1 ()))
    (hi : MeansS E F d init vm1 (.ok vm2 (.normal v))) (h : ForLoops E F d c inc body vm2 (.ok vm3 r)) :
    MeansS E F (d + 2) (.for init c inc body) vm (.ok { vm3 with scopes := vm.scopes } r) := by
  obtain ⟨n, h⟩ := h.eval
  obtain ⟨m, hi⟩ := hi
  refine ⟨n + m + 1, ?_⟩
  rw [evalS, bind_ok (show current vm = some (.ok vm vm) from rfl), bind_ok hs, bind_ok (evalS_mono hi (by omega) (by omega))]
  show (_ : Sem Comp) _ = _
  exact (bind_ok (evalFor_mono h (by omega) (by omega))).trans rfl

/-! ## `break` and `continue` -/

/-- **C53, `break` ends the innermost loop.** A loop that contains a `break`, as a statement of whatever encloses it, ends
normally or with `return`: it is never the enclosing loop that is left or continued. -/
theorem C53_innermost {s : Stmt} {r : Comp}
    (hs : (∃ c b, s = .while c b) ∨ (∃ i c inc b, s = .for i c inc b) ∨ (∃ l x e b, s = .forIn l x e b))
    (h : MeansS E F d s vm (.ok vm1 r)) : r ≠ .brk ∧ r ≠ .cont :=
  let ⟨_, h⟩ := h
  loop_absorbs hs h

/-- **C53, `break` at run time.** A script that is a `while` loop: when the condition is true and the body reaches a `break` of
this loop, the script ends there, with the objects and strings of that moment, and with all stacks (the loop stack too) as before. -/
theorem C53_break_partial {ss : List Script} {k : Nat} {p : Part} {s : Script} {c : Expr} {body : List Stmt} {vm3 : Vm}
    (h : Loaded vm ss) (hr : Room vm (d + 4)) (hk : IsScript vm ss k p s) (hp : stmts p s = [.while c body])
    (hs : enterScope (setErrorf vm .ok none) = some (.ok vm1 ()))
    (hc : Cond E (fnAt (funsFrom 0 ss)) d c vm1 vm2 true)
    (hb : MeansSs E (fnAt (funsFrom 0 ss)) d body vm2 (.ok vm3 .brk)) :
    ∃ vm4, execute E vm p.startIdx = some (vm4, mkUndefined) ∧ vm4.heap = vm3.heap ∧ vm4.error = .ok ∧ SameStacks vm4 vm := by
  obtain ⟨n, hl⟩ := C35_while (E := E) hs (.brk hc hb)
  have hm : MeansSs E (fnAt (funsFrom 0 ss)) (d + 4) (stmts p s) (setErrorf vm .ok none)
      (.ok { vm3 with scopes := (setErrorf vm .ok none).scopes } (.normal mkUndefined)) := by
    refine ⟨n + 2, ?_⟩
    rw [hp, evalSs, bind_ok (evalS_mono hl (Nat.le_succ _) (Nat.le_succ _))]
    show evalRest E _ (n + 1) (d + 3) _ [] _ = _
    rw [evalRest]
    rfl
  obtain ⟨vm4, h1, h2, h3, _, h4, _⟩ := C35_meaning_runs h hr hk hm
  exact ⟨vm4, h1, h2, h3, h4⟩

/-- **C53, `continue` at run time.** When the body reaches a `continue` of this loop, what follows is what the loop does when it
starts in the state of that moment. -/
theorem C53_continue_partial {ss : List Script} {k : Nat} {p : Part} {s : Script} {c : Expr} {body : List Stmt} {vm3 vm4 : Vm} {v : Val}
    (h : Loaded vm ss) (hr : Room vm (d + 4)) (hk : IsScript vm ss k p s) (hp : stmts p s = [.while c body])
    (hs : enterScope (setErrorf vm .ok none) = some (.ok vm1 ()))
    (hc : Cond E (fnAt (funsFrom 0 ss)) d c vm1 vm2 true)
    (hb : MeansSs E (fnAt (funsFrom 0 ss)) d body vm2 (.ok vm3 .cont))
    (hn : Loops E (fnAt (funsFrom 0 ss)) d c body vm3 (.ok vm4 (.normal v))) :
    ∃ vm5, execute E vm p.startIdx = some (vm5, v) ∧ vm5.heap = vm4.heap ∧ vm5.error = .ok ∧ SameStacks vm5 vm := by
  obtain ⟨n, hl⟩ := C35_while (E := E) hs (.cont hc hb hn)
  have hm : MeansSs E (fnAt (funsFrom 0 ss)) (d + 4) (stmts p s) (setErrorf vm .ok none)
      (.ok { vm4 with scopes := (setErrorf vm .ok none).scopes } (.normal v)) := by
    refine ⟨n + 2, ?_⟩
    rw [hp, evalSs, bind_ok (evalS_mono hl (Nat.le_succ _) (Nat.le_succ _))]
    show evalRest E _ (n + 1) (d + 3) _ [] _ = _
    rw [evalRest]
    rfl
  obtain ⟨vm4, h1, h2, h3, _, h4, _⟩ := C35_meaning_runs h hr hk hm
  exact ⟨vm4, h1, h2, h3, h4⟩
end

/-! ## What does not hold -/

/-- `while (true) { (function() { break; })(); }` -/
def demoBreak : Script where
  path := txt "e.js"
  body := [.while .tru [.exprs (.call (.func 0 none [] [.break]) []) []]]
  map := []

/-- **C53 fails for a `break` outside of the loops of its function**: it ends the loop of the caller.  By the C53 of the
specification the script would be an error or run forever; it ends normally, and the frame of the call stays on the call stack. -/
theorem C53_break_ends_callers_loop : ∃ vm vm2 v, Loaded vm [demoBreak] ∧ execute demoEnv vm 0 = some (vm2, v) ∧ vm2.error = .ok ∧
    vm.callStack.length = 0 ∧ vm2.callStack.length = 5 := by
  have hd : (demo.bind fun r => (executeN 60 demoEnv
      (Bcode.commit { heap := r.1, scopes := [r.2], al := fun _ => demoAl } demoBreak.bytes) 0).map fun o =>
        (decide (o.1.error = .ok), o.1.callStack.length)) = some (true, 5) := by decide +kernel
  obtain ⟨r, hr, hd⟩ := Option.bind_eq_some_iff.1 hd
  obtain ⟨o, ho, hd⟩ := Option.map_eq_some_iff.1 hd
  obtain ⟨hl, _, _⟩ := demo_loads demoBreak r (by decide +kernel) (by simp [demoBreak, NumSs, NumS, NumE, NumEs])
  simp only [Prod.mk.injEq, decide_eq_true_eq] at hd
  exact ⟨_, o.1, o.2, hl, execute_runN ho, hd.1, rfl, hd.2⟩

/-! ## A loop that meets the hypotheses -/

/-- `while (1 < 2) { { break; } }` -/
def demoWhile : Script where
  path := txt "f.js"
  body := [.while (.bin .lt (.int 1) (.int 2)) [.block [.break]]]
  map := []

example : ∃ vm vm4, execute demoEnv vm 0 = some (vm4, mkUndefined) ∧ vm4.error = .ok ∧ SameStacks vm4 vm := by
  let F := fnAt (funsFrom 0 [demoWhile])
  have hd : (demo.bind fun r => (enterScope (setErrorf
      (Bcode.commit { heap := r.1, scopes := [r.2], al := fun _ => demoAl } demoWhile.bytes) .ok none)).bind fun o => match o with
        | .ok vm1 _ => (eval demoEnv F 9 9 (.bin .lt (.int 1) (.int 2)) vm1).bind fun o => match o with
          | .ok vm2 x => (evalSs demoEnv F 9 9 [.block [.break]] vm2).map fun o => match o with
            | .ok _ .brk => decide (vm2.error = .ok) && isTruthy vm2.heap.str x == some true
            | _ => false
          | _ => some false
        | _ => some false) = some true := by decide +kernel
  obtain ⟨r, hr, hd⟩ := Option.bind_eq_some_iff.1 hd
  obtain ⟨o, ho, hd⟩ := Option.bind_eq_some_iff.1 hd
  cases o with
  | err _ => simp at hd
  | ok vm1 u =>
    obtain ⟨o, ho2, hd⟩ := Option.bind_eq_some_iff.1 hd
    cases o with
    | err _ => simp at hd
    | ok vm2 x =>
      obtain ⟨o, ho3, hd⟩ := Option.map_eq_some_iff.1 hd
      split at hd
      · simp only [Bool.and_eq_true, decide_eq_true_eq, beq_iff_eq] at hd
        obtain ⟨hl, hroom, hk⟩ := demo_loads demoWhile r (by decide +kernel) (by simp [demoWhile, NumSs, NumS, NumE])
        obtain ⟨vm4, e1, _, e2, e3⟩ := C53_break_partial (d := 9) hl
          ⟨by have := hroom.stack; omega, by have := hroom.callStack; omega, by have := hroom.argStack; omega,
            by have := hroom.loopAddrs; omega, by have := hroom.scopes; omega⟩ hk rfl ho
          ⟨x, ⟨9, ho2⟩, truthy_ok hd.1 hd.2⟩ ⟨9, ho3⟩
        exact ⟨_, vm4, e1, e2, e3⟩
      · simp at hd

end Mjs.Props
