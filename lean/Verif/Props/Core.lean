import Verif.Lemmas.Core

/-!
# C20, C21, C22: registered variables, error reports, arguments and results of C functions
-/

namespace Mjs.Props
open Mjs Mjs.Core Mjs.Obj Mjs.Spec.Core

/-! ## C20 -/

/-- Run a history of `mjs_own` and `mjs_disown` calls: the register and the results of the disown calls. -/
def runReg : Owned → List RegOp → Option (Owned × List Bool)
  | o, [] => some (o, [])
  | o, .own p room :: ops => runReg (own o p room) ops
  | o, .disown p :: ops => (disown o p).bind fun r => (runReg r.1 ops).map fun s => (s.1, r.2 :: s.2)

theorem runReg_counts (ops : List RegOp) (o : Owned) (ho : o.isNull = false) (n : Nat → Nat)
    (hn : ∀ q, o.ptrs.count q = n q) :
    ∃ o', runReg o ops = some (o', (register n ops).2) ∧ ∀ q, o'.ptrs.count q = (register n ops).1 q := by
  induction ops generalizing o n with
  | nil => exact ⟨o, rfl, hn⟩
  | cons op ops ih =>
    cases op with
    | own p room =>
      simp only [runReg, register]
      apply ih
      · cases room <;> simp [own, ho]
      · intro q
        cases room
        · simp [own, hn]
        · simp only [own, if_true, List.count_append, List.count_singleton, hn, and_true]
          by_cases h : q = p
          · simp [h]
          · simp [h, Ne.symm h]
    | disown p =>
      simp only [runReg, register, disown, ho]
      have hd := disownLoop_none o.ptrs p o.ptrs.length (Nat.le_refl _)
      rw [List.take_length] at hd
      cases hl : disownLoop o.ptrs p o.ptrs.length with
      | none =>
        have h0 : n p = 0 := by rw [← hn]; exact List.count_eq_zero.2 (hd.1 hl)
        obtain ⟨o', e1, e2⟩ := ih o ho (fun q => if q = p then n q - 1 else n q) (by
          intro q
          rw [hn]
          by_cases h : q = p
          · simp [h, h0]
          · simp [h])
        exact ⟨o', by simp [e1, h0], e2⟩
      | some l =>
        have h0 : 0 < n p := by
          rw [← hn]
          exact List.count_pos_iff.2 (Decidable.byContradiction fun h => by rw [hd.2 h] at hl; cases hl)
        obtain ⟨o', e1, e2⟩ := ih { o with ptrs := l } ho (fun q => if q = p then n q - 1 else n q) (by
          intro q
          show l.count q = _
          rw [disownLoop_some _ _ _ _ hl, hn])
        exact ⟨o', by rw [ho] at e1; simp [e1, h0], e2⟩

/-- **C20 (partial).** For every history of own and disown calls on a new engine in which something is owned before
anything is disowned: every variable ends up registered as often as it was owned minus successfully disowned, and each
disown says whether the variable was registered.  What is missing: a disown before the first own, see
`C20_disown_first`. -/
theorem C20_register_partial (ops : List RegOp) (h : Started ops) :
    ∃ o, runReg {} ops = some (o, (register (fun _ => 0) ops).2) ∧
      ∀ p, o.ptrs.count p = (register (fun _ => 0) ops).1 p := by
  induction ops with
  | nil => exact ⟨{}, rfl, fun p => rfl⟩
  | cons op ops ih =>
    cases op with
    | disown p => exact h.elim
    | own p room =>
      cases room
      · simpa [runReg, register, own] using ih h
      · exact runReg_counts ops _ rfl _ (by
          intro q
          by_cases hq : q = p
          · simp [own, hq]
          · simp [own, hq, Ne.symm hq])

/-- The register never contains anything else: it has exactly the registered variables. -/
theorem C20_members_partial (ops : List RegOp) (h : Started ops) (o : Owned) (r : List Bool)
    (hr : runReg {} ops = some (o, r)) (p : Nat) : p ∈ o.ptrs ↔ 0 < (register (fun _ => 0) ops).1 p := by
  obtain ⟨o', e1, e2⟩ := C20_register_partial ops h
  rw [hr] at e1
  cases e1
  rw [← e2, List.count_pos_iff]

/-- C20 applies to a history with sharing, a failed disown and lost registrations. -/
example : Started [.own 8 false, .own 16 true, .own 24 true, .own 16 true, .disown 16, .disown 99, .disown 16, .disown 16] ∧
    (register (fun _ => 0) [.own 8 false, .own 16 true, .own 24 true, .own 16 true, .disown 16, .disown 99, .disown 16,
      .disown 16]).2 = [true, false, true, false] ∧
    (runReg {} [.own 16 true, .own 24 true, .own 16 true, .disown 16]).map (·.1.ptrs) = some [16, 24] := by
  refine ⟨trivial, ?_, ?_⟩ <;> decide +kernel

/-- **C20, violated.** On an engine where nothing was ever registered, disown has no defined result: it reads memory in
front of a NULL buffer. -/
theorem C20_disown_first (p : Nat) (ops : List RegOp) : runReg {} (.disown p :: ops) = none := rfl

/-! ## C21 -/

/-- Run a history of error reports, with memory available. -/
def runErr (vm : Vm) : List (ErrOp Err) → Option Vm
  | [] => some vm
  | .clear :: ops => runErr (setErrorf vm .ok none) ops
  | .replace c m :: ops => runErr (setErrorf vm c (some m)) ops
  | .report c m :: ops => (prependErrorf vm c (some m)).bind fun vm => runErr vm ops

/-- The engine's error state shows the reports `s`, latest first: the code is that of the oldest, the message is all
messages, latest first, joined by a colon. -/
def Shows (vm : Vm) (s : List (Err × List UInt8)) : Prop :=
  (vm.error = (s.getLast?.map (·.1)).getD .ok) ∧ (vm.msg = if s = [] then none else some (joined (s.map (·.2))))

/-- **C21.** For every history of error reports, none of which carries the code for "no error": the engine shows the code
of the first report since the last replacement or clearing, and all messages since then, joined; and nothing else of the engine
changes. -/
theorem C21_first_cause (ops : List (ErrOp Err)) (vm : Vm) (s : List (Err × List UInt8)) (hs : Shows vm s)
    (hok : ∀ r ∈ s, r.1 ≠ .ok) (hops : ∀ op ∈ ops, ∀ m, op ≠ .report .ok m ∧ op ≠ .replace .ok m) :
    ∃ vm', runErr vm ops = some vm' ∧ Shows vm' (inForce s ops) ∧
      vm' = { vm with error := vm'.error, msg := vm'.msg } := by
  induction ops generalizing vm s with
  | nil => exact ⟨vm, rfl, hs, rfl⟩
  | cons op ops ih =>
    have hops' : ∀ op ∈ ops, ∀ m, op ≠ .report .ok m ∧ op ≠ .replace .ok m :=
      fun o ho => hops o (List.mem_cons_of_mem _ ho)
    cases op with
    | clear =>
      obtain ⟨vm', e1, e2, e3⟩ := ih (setErrorf vm .ok none) [] ⟨rfl, rfl⟩ (by simp) hops'
      exact ⟨vm', e1, e2, e3⟩
    | replace c m =>
      have hc : c ≠ .ok := fun e => (hops _ (List.mem_cons_self ..) m).2 (by rw [e])
      obtain ⟨vm', e1, e2, e3⟩ := ih (setErrorf vm c (some m)) [(c, m)] ⟨rfl, rfl⟩ (by simpa using hc) hops'
      exact ⟨vm', e1, e2, e3⟩
    | report c m =>
      have hc : c ≠ .ok := fun e => (hops _ (List.mem_cons_self ..) m).1 (by rw [e])
      obtain ⟨h1, h2⟩ := hs
      cases s with
      | nil =>
        simp at h1 h2
        obtain ⟨vm', e1, e2, e3⟩ := ih { vm with error := c, msg := some m } [(c, m)] ⟨rfl, rfl⟩ (by simpa using hc) hops'
        refine ⟨vm', ?_, e2, e3⟩
        simp only [runErr, prependErrorf, if_neg hc, h1, h2, if_pos]
        exact e1
      | cons r s =>
        have he : vm.error ≠ .ok := by
          rw [h1]
          cases hl : (r :: s).getLast? with
          | none => simp at hl
          | some x => exact hok x (List.mem_of_getLast? hl)
        simp only [List.cons_ne_nil, if_false] at h2
        obtain ⟨vm', e1, e2, e3⟩ := ih { vm with msg := some (m ++ [58, 32] ++ joined ((r :: s).map (·.2))) }
          ((c, m) :: r :: s) ⟨by rw [List.getLast?_cons_cons]; exact h1, by simp [joined]⟩
          (fun x hx => (List.mem_cons.1 hx).elim (fun e => e ▸ hc) (hok x)) hops'
        refine ⟨vm', ?_, e2, e3⟩
        simp only [runErr, prependErrorf, if_neg hc, h2, if_neg he]
        exact e1

/-- Reading the error back: the joined message if it has any text, else the name of the error code. -/
theorem C21_strerror (vm : Vm) (s : List (Err × List UInt8)) (hs : Shows vm s) (h : joined (s.map (·.2)) ≠ []) (e : Err) :
    strerror vm e = joined (s.map (·.2)) := by
  have hne : s ≠ [] := by rintro rfl; exact h rfl
  unfold strerror
  rw [hs.2, if_neg hne]
  cases hj : joined (s.map (·.2)) with
  | nil => exact absurd hj h
  | cons => rfl

/-- Without a message text every error code has its name. -/
theorem C21_names (vm : Vm) (h : vm.msg = none ∨ vm.msg = some []) :
    strerror vm .ok = txt "NO_ERROR" ∧ strerror vm .syntax = txt "SYNTAX_ERROR" ∧ strerror vm .reference = txt "REFERENCE_ERROR" ∧
    strerror vm .type = txt "TYPE_ERROR" ∧ strerror vm .outOfMemory = txt "OUT_OF_MEMORY" ∧ strerror vm .internal = txt "INTERNAL_ERROR" ∧
    strerror vm .notImplemented = txt "NOT_IMPLEMENTED" ∧ strerror vm .fileRead = txt "FILE_OPEN_ERROR" ∧
    strerror vm .badArgs = txt "BAD_ARGUMENTS" := by
  unfold strerror
  rcases h with h | h <;> rw [h] <;> exact ⟨rfl, rfl, rfl, rfl, rfl, rfl, rfl, rfl, rfl⟩

/-- C21 applies to: a report, a replacement by a type error, and two more reports on top. -/
example (heap : Heap) : ∃ vm', runErr { heap := heap } [.report .syntax (txt "x"), .replace .type (txt "a"),
      .report .internal (txt "b"), .report .reference (txt "c")] = some vm' ∧
    vm'.error = .type ∧ vm'.msg = some (txt "c: b: a") := by
  obtain ⟨vm', e, h, _⟩ := C21_first_cause [.report .syntax (txt "x"), .replace .type (txt "a"),
    .report .internal (txt "b"), .report .reference (txt "c")] { heap := heap } [] ⟨rfl, rfl⟩ (by simp) (by simp)
  exact ⟨vm', e, h.1, h.2⟩

/-! ## C22 -/

/-- **C22.** Inside a call: the data stack is `below`, the callee and the arguments, and the call frame records the
position of the callee.  Then the number of arguments is theirs, argument `i` is the `i`-th of them and undefined beyond;
and returning `v` leaves `below` and `v` on the stack and changes nothing else.  After that there are no arguments
left. -/
theorem C22_args_and_result (vm : Vm) (below args frame : List Val) (callee v : Val)
    (hs : vm.stack = below ++ callee :: args) (hc : vm.callStack = frame ++ [mkInt (below.length + 1)])
    (h1 : vm.stack.length < 2 ^ 31 - 1) (h2 : vm.callStack.length < 2 ^ 31 - 1) :
    nargs vm = some (args.length : Int) ∧
    (∀ i : Nat, i < 2 ^ 31 → arg vm i = some (args[i]?.getD mkUndefined)) ∧
    ret vm v = some { vm with stack := below ++ [v] } ∧
    nargs { vm with stack := below ++ [v] } = some 0 ∧
    (∀ i : Nat, i < 2 ^ 31 → arg { vm with stack := below ++ [v] } i = some mkUndefined) := by
  have hl : vm.stack.length = below.length + 1 + args.length := by rw [hs]; simp; omega
  have hp := retpos vm below args frame callee hs hc h1 h2
  have hp' := retpos { vm with stack := below ++ [v] } below [] frame v rfl hc (by simp; omega) h2
  refine ⟨?_, ?_, ?_, ?_, ?_⟩
  · simp only [nargs, hp, Option.bind_eq_bind, Option.bind_some, hl, cInt_small (show below.length + 1 + args.length < 2 ^ 31 by omega)]
    by_cases h0 : args.length = 0
    · rw [if_neg (by omega), h0]; rfl
    · rw [if_pos (by omega)]; congr 1; omega
  · intro i _
    simp only [arg, hp, Option.bind_eq_bind, Option.bind_some, hl, cInt_small (show below.length + 1 + args.length < 2 ^ 31 by omega)]
    by_cases hi : i < args.length
    · rw [if_pos (by omega), at_nat _ (by omega) _ (below.length + (1 + i)) (by omega), hs,
        List.getElem?_append_right (by omega)]
      have e2 : below.length + (1 + i) - below.length = i + 1 := by omega
      rw [e2, List.getElem?_cons_succ]
      simp [hi]
    · rw [if_neg (by omega), List.getElem?_eq_none (by omega)]; rfl
  · simp only [ret, hp, Option.bind_eq_bind, Option.bind_some]
    rw [if_neg (by omega), Int.toNat_natCast, hs, List.take_left]
    rfl
  · simp only [nargs, hp', Option.bind_eq_bind, Option.bind_some]
    rw [cInt_small (by simp; omega), if_neg (by simp)]
  · intro i _
    simp only [arg, hp', Option.bind_eq_bind, Option.bind_some]
    rw [cInt_small (by simp; omega), if_neg (by simp; omega)]

/-- C22 applies to a call with two arguments on top of one other value. -/
example (heap : Heap) :
    let vm : Vm := { heap := heap, stack := [7, 8, 9, 10], callStack := [1, 2, 3, 4, mkInt 2] }
    nargs vm = some 2 ∧ arg vm 1 = some 10 ∧ arg vm 2 = some mkUndefined ∧
      (ret vm 11).map (·.stack) = some [7, 11] := by
  intro vm
  obtain ⟨e1, e2, e3, _⟩ := C22_args_and_result vm [7] [9, 10] [1, 2, 3, 4] 8 11 rfl rfl
    (show 4 < 2 ^ 31 - 1 by decide) (show 5 < 2 ^ 31 - 1 by decide)
  exact ⟨e1, e2 1 (by decide), e2 2 (by decide), by rw [e3]; rfl⟩

/-- **C22, stacks in memory.** The stacks are byte buffers: a push appends the value (or, when memory runs out, does
nothing at all), a pop returns the last value and removes it, and indexing from either end finds the value. -/
theorem C22_stack_bytes {m : Mbuf.Mbuf} {vs : List Val} (h : Holds m vs) :
    (∀ (hr : Nat) (v : Val) (al1 al2 : Mbuf.Alloc), 8 * vs.length + 8 < 2 ^ 52 → Mbuf.AllocOk al1 → Mbuf.AllocOk al2 →
      ∃ m', pushValM hr m v al1 al2 = some m' ∧
        (Holds m' (vs ++ [v]) ∨ (m' = m ∧ (2 ^ 64 - 1 - m.addr < 8 ∨ (m.size < m.len + 8 ∧ al1 = none))))) ∧
    (∀ ws v, vs = ws ++ [v] → ∃ m', popValM m = some (v, m') ∧ Holds m' ws) ∧
    (vs = [] → popValM m = none) ∧
    (∀ i : Nat, i < 2 ^ 31 → vs.length < 2 ^ 31 → vptrM m i = vs[i]?) ∧
    (∀ i : Nat, i < 2 ^ 31 → vs.length < 2 ^ 31 → vptrM m (-1 - i) = vs.reverse[i]?) ∧
    stackSizeM m = vs.length := by
  have hl := h.len
  refine ⟨fun hr v a b hz h1 h2 => pushValM_spec h v a b hz h1 h2, ?_, ?_, ?_, ?_, by unfold stackSizeM; omega⟩
  · rintro ws v rfl
    exact popValM_spec h
  · rintro rfl
    unfold popValM
    rw [if_neg (by simp at hl; omega)]
  · intro i _ hv
    rw [vptrM_spec h, at_nat _ hv _ _ rfl]
  · intro i _ hv
    rw [vptrM_spec h, at_neg _ hv _ _ rfl]

/-- The hypothesis of `C22_stack_bytes` holds for a new, empty stack. -/
example : Holds (Mbuf.init 0 none) [] := ⟨⟨Nat.le_refl _, fun _ => rfl⟩, rfl⟩

end Mjs.Props
