import Verif.Lemmas.Steps

/-! What each instruction does, in terms of `At` and `Sims`. -/

namespace Mjs.Exec
open Mjs Mjs.Str Mjs.Obj Mjs.Core Mjs.Code Mjs.Sem

/-- A part of the code: where it is in memory, and that the address of each of its bytes leads to it. -/
structure Good (b : Vm) (bp : Part) : Prop where
  small : bp.startIdx + bp.data.length < 2 ^ 31 - 1
  found : ∀ j, j < bp.data.length → partAt b (bp.startIdx + j) = some bp

/-- Room on the stacks for `d` levels of nesting. -/
structure Fits (st : Stacks) (vm : Vm) (d : Nat) : Prop where
  stack : st.stack.length + 16 * d < 2 ^ 31 - 64
  callStack : st.callStack.length + 16 * d < 2 ^ 31 - 64
  argStack : st.argStack.length + 16 * d < 2 ^ 31 - 64
  loopAddrs : st.loopAddrs.length + 16 * d < 2 ^ 31 - 64
  scopes : vm.scopes.length + 16 * d < 2 ^ 31 - 64

/-- Ready to execute code that needs `d` levels of nesting above these stacks. -/
structure Ready (b : Vm) (d : Nat) (vm : Vm) (st : Stacks) (bp : Part) : Prop where
  good : Good b bp
  err : vm.error = .ok
  above : Above b (on vm st)
  fits : Fits st vm d

/-- The machine is at `pc`, ready to execute code that needs `d` levels of nesting. -/
structure Start (b : Vm) (d : Nat) (vm : Vm) (st : Stacks) (bp : Part) (pc : Nat) (m : Mach) : Prop where
  good : Good b bp
  pos : At m vm st bp pc
  err : vm.error = .ok
  above : Above b (on vm st)
  fits : Fits st vm d

/-- No error, and scopes and `this` as before. -/
structure Kept (vm vm' : Vm) : Prop where
  err : vm'.error = .ok
  scopes : vm'.scopes = vm.scopes
  this : vm'.this = vm.this

theorem Kept.trans {a c e : Vm} (h : Kept a c) (h' : Kept c e) : Kept a e :=
  ⟨h'.err, h'.scopes.trans h.scopes, h'.this.trans h.this⟩

theorem Kept.refl {a : Vm} (h : a.error = .ok) : Kept a a := ⟨h, rfl, rfl⟩

theorem Local.kept {α : Type} {f : Vm → Option (Vm × α)} (h : Local f) {vm vm1 : Vm} {a : α} (e : f vm = some (vm1, a))
    (he : vm1.error = .ok) : Kept vm vm1 :=
  ⟨he, h.scopes e, by rw [h.same e]; rfl⟩

variable {E : Env} {b : Vm} {α β : Type}

theorem prefix_app {α : Type} {a c : List α} (d : List α) (h : a <+: c) : a <+: c ++ d := h.trans (List.prefix_append c d)

theorem Above.pushes {vm vm' : Vm} {st : Stacks} (h : Above b (on vm st)) (hs : vm'.scopes = vm.scopes) (l : List Val) :
    Above b (on vm' (st.pushes l)) :=
  ⟨h.parts, h.len, prefix_app l h.stack, h.callStack, h.argStack, (by rw [on_scopes, hs]; exact h.scopes), h.loopAddrs⟩

/-- Further on, with some values on the stack. -/
theorem Start.pushes {d d' : Nat} {vm vm' : Vm} {st : Stacks} {bp : Part} {pc pc' : Nat} {m m' : Mach} {l : List Val}
    (h : Start b d vm st bp pc m) (hk : Kept vm vm') (ha : At m' vm' (st.pushes l) bp pc')
    (hl : l.length + 16 * d' ≤ 16 * d) : Start b d' vm' (st.pushes l) bp pc' m' := by
  obtain ⟨f1, f2, f3, f4, f5⟩ := h.fits
  refine ⟨h.good, ha, hk.err, h.above.pushes hk.scopes l, ⟨?_, ?_, ?_, ?_, ?_⟩⟩
  · simp only [Stacks.pushes, List.length_append]; omega
  · show st.callStack.length + _ < _; omega
  · show st.argStack.length + _ < _; omega
  · show st.loopAddrs.length + _ < _; omega
  · rw [hk.scopes]; omega

theorem Start.push {d d' : Nat} {vm vm' : Vm} {st : Stacks} {bp : Part} {pc pc' : Nat} {m m' : Mach} {v : Val}
    (h : Start b d vm st bp pc m) (hk : Kept vm vm') (ha : At m' vm' (st.push v) bp pc') (hl : d' < d) :
    Start b d' vm' (st.push v) bp pc' m' := h.pushes hk ha (by simp only [List.length_singleton]; omega)

theorem Start.same {d d' : Nat} {vm vm' : Vm} {st : Stacks} {bp : Part} {pc pc' : Nat} {m m' : Mach}
    (h : Start b d vm st bp pc m) (hk : Kept vm vm') (ha : At m' vm' st bp pc') (hl : d' ≤ d) :
    Start b d' vm' st bp pc' m' := by
  have := h.pushes (l := []) hk (by rw [pushes_nil]; exact ha) (d' := d') (by simp; omega)
  rwa [pushes_nil] at this

theorem Start.less {d d' : Nat} {vm : Vm} {st : Stacks} {bp : Part} {pc : Nat} {m : Mach}
    (h : Start b d vm st bp pc m) (hl : d' ≤ d) : Start b d' vm st bp pc m := h.same (.refl h.err) h.pos hl

theorem At.cast {m : Mach} {vm : Vm} {st : Stacks} {bp : Part} {pc pc' : Nat} (h : At m vm st bp pc) (e : pc = pc') :
    At m vm st bp pc' := e ▸ h

theorem Start.ready {d : Nat} {vm : Vm} {st : Stacks} {bp : Part} {pc : Nat} {m : Mach} (h : Start b d vm st bp pc m) :
    Ready b d vm st bp := ⟨h.good, h.err, h.above, h.fits⟩

theorem Ready.start {d : Nat} {vm : Vm} {st : Stacks} {bp : Part} {pc : Nat} {m : Mach} (h : Ready b d vm st bp)
    (ha : At m vm st bp pc) : Start b d vm st bp pc m := ⟨h.good, ha, h.err, h.above, h.fits⟩

/-- Later, with some values on the stack. -/
theorem Ready.pushes {d d' : Nat} {vm vm' : Vm} {st : Stacks} {bp : Part} {l : List Val}
    (h : Ready b d vm st bp) (hk : Kept vm vm') (hl : l.length + 16 * d' ≤ 16 * d) : Ready b d' vm' (st.pushes l) bp :=
  ((h.start (m := ⟨on vm st, bp, 0, 0⟩) ⟨rfl, rfl, rfl⟩).pushes (m' := ⟨on vm' (st.pushes l), bp, 0, 0⟩) hk ⟨rfl, rfl, rfl⟩ hl).ready

theorem Ready.same {d d' : Nat} {vm vm' : Vm} {st : Stacks} {bp : Part} (h : Ready b d vm st bp) (hk : Kept vm vm')
    (hl : d' ≤ d) : Ready b d' vm' st bp :=
  ((h.start (m := ⟨on vm st, bp, 0, 0⟩) ⟨rfl, rfl, rfl⟩).same (m' := ⟨on vm' st, bp, 0, 0⟩) hk ⟨rfl, rfl, rfl⟩ hl).ready

theorem Ready.push {d d' : Nat} {vm vm' : Vm} {st : Stacks} {bp : Part} {v : Val}
    (h : Ready b d vm st bp) (hk : Kept vm vm') (hl : d' < d) : Ready b d' vm' (st.push v) bp :=
  h.pushes hk (by simp only [List.length_singleton]; omega)

/-! ## Opcodes -/

theorem execOp_pushNull (vm : Vm) (bp : Part) (i : Nat) (prev : UInt8) :
    execOp E ⟨vm, bp, i, PUSH_NULL⟩ prev = some (.go ⟨push vm mkNull, bp, i, PUSH_NULL⟩) := rfl
theorem execOp_pushUndef (vm : Vm) (bp : Part) (i : Nat) (prev : UInt8) :
    execOp E ⟨vm, bp, i, PUSH_UNDEF⟩ prev = some (.go ⟨push vm mkUndefined, bp, i, PUSH_UNDEF⟩) := rfl
theorem execOp_pushTrue (vm : Vm) (bp : Part) (i : Nat) (prev : UInt8) :
    execOp E ⟨vm, bp, i, PUSH_TRUE⟩ prev = some (.go ⟨push vm (mkBoolean true), bp, i, PUSH_TRUE⟩) := rfl
theorem execOp_pushFalse (vm : Vm) (bp : Part) (i : Nat) (prev : UInt8) :
    execOp E ⟨vm, bp, i, PUSH_FALSE⟩ prev = some (.go ⟨push vm (mkBoolean false), bp, i, PUSH_FALSE⟩) := rfl
theorem execOp_pushThis (vm : Vm) (bp : Part) (i : Nat) (prev : UInt8) :
    execOp E ⟨vm, bp, i, PUSH_THIS⟩ prev = some (.go ⟨push vm vm.this, bp, i, PUSH_THIS⟩) := rfl
theorem execOp_pushObj (vm : Vm) (bp : Part) (i : Nat) (prev : UInt8) :
    execOp E ⟨vm, bp, i, PUSH_OBJ⟩ prev = (mkObj vm).map fun r => .go ⟨push r.1 r.2, bp, i, PUSH_OBJ⟩ := by
  show (mkObj vm).bind _ = _
  cases mkObj vm <;> rfl
theorem execOp_pushArr (vm : Vm) (bp : Part) (i : Nat) (prev : UInt8) :
    execOp E ⟨vm, bp, i, PUSH_ARRAY⟩ prev = (mkArr vm).map fun r => .go ⟨push r.1 r.2, bp, i, PUSH_ARRAY⟩ := by
  show (mkArr vm).bind _ = _
  cases mkArr vm <;> rfl
theorem execOp_drop (vm : Vm) (bp : Part) (i : Nat) (prev : UInt8) :
    execOp E ⟨vm, bp, i, DROP⟩ prev = some (.go ⟨(pop vm).2, bp, i, DROP⟩) := rfl
theorem execOp_dup (vm : Vm) (bp : Part) (i : Nat) (prev : UInt8) :
    execOp E ⟨vm, bp, i, DUP⟩ prev = some (.go ⟨push vm (vtop vm.stack), bp, i, DUP⟩) := rfl
theorem execOp_swap (vm : Vm) (bp : Part) (i : Nat) (prev : UInt8) :
    execOp E ⟨vm, bp, i, SWAP⟩ prev =
      some (.go ⟨push (push (pop (pop vm).2).2 (pop vm).1) (pop (pop vm).2).1, bp, i, SWAP⟩) := rfl
theorem execOp_findScope (vm : Vm) (bp : Part) (i : Nat) (prev : UInt8) :
    execOp E ⟨vm, bp, i, FIND_SCOPE⟩ prev =
      (findScope E vm (vtop vm.stack)).map fun r => .go ⟨push r.1 r.2, bp, i, FIND_SCOPE⟩ := by
  show (findScope E vm (vtop vm.stack)).bind _ = _
  cases findScope E vm (vtop vm.stack) <;> rfl
theorem execOp_create (vm : Vm) (bp : Part) (i : Nat) (prev : UInt8) :
    execOp E ⟨vm, bp, i, CREATE⟩ prev =
      (createIn E (pop (pop vm).2).2 (pop vm).1 (pop (pop vm).2).1).map fun r => .go ⟨r, bp, i, CREATE⟩ := by
  show (createIn E (pop (pop vm).2).2 (pop vm).1 (pop (pop vm).2).1).bind _ = _
  cases createIn E (pop (pop vm).2).2 (pop vm).1 (pop (pop vm).2).1 <;> rfl
theorem execOp_append (vm : Vm) (bp : Part) (i : Nat) (prev : UInt8) :
    execOp E ⟨vm, bp, i, APPEND⟩ prev =
      (append (pop (pop vm).2).2 (pop (pop vm).2).1 (pop vm).1).map fun r => .go ⟨r, bp, i, APPEND⟩ := by
  show (append (pop (pop vm).2).2 (pop (pop vm).2).1 (pop vm).1).bind _ = _
  cases append (pop (pop vm).2).2 (pop (pop vm).2).1 (pop vm).1 <;> rfl
theorem execOp_get (vm : Vm) (bp : Part) (i : Nat) (prev : UInt8) :
    execOp E ⟨vm, bp, i, GET⟩ prev =
      (getProp E (pop (pop vm).2).2 (pop vm).1 (pop (pop vm).2).1).map fun r =>
        .go ⟨{ push r.1 r.2 with lastGetprop := if prev ≠ FIND_SCOPE then (pop vm).1 else mkUndefined }, bp, i, GET⟩ := by
  show (getProp E (pop (pop vm).2).2 (pop vm).1 (pop (pop vm).2).1).bind _ = _
  cases getProp E (pop (pop vm).2).2 (pop vm).1 (pop (pop vm).2).1 <;> rfl
theorem execOp_newScope (vm : Vm) (bp : Part) (i : Nat) (prev : UInt8) :
    execOp E ⟨vm, bp, i, NEW_SCOPE⟩ prev =
      (mkObj vm).map fun r => .go ⟨{ r.1 with scopes := r.1.scopes ++ [r.2] }, bp, i, NEW_SCOPE⟩ := by
  show (mkObj vm).bind _ = _
  cases mkObj vm <;> rfl
theorem execOp_delScope (vm : Vm) (bp : Part) (i : Nat) (prev : UInt8) (h : vm.scopes ≠ []) :
    execOp E ⟨vm, bp, i, DEL_SCOPE⟩ prev = some (.go ⟨{ vm with scopes := vm.scopes.dropLast }, bp, i, DEL_SCOPE⟩) := by
  show (if 8 * vm.scopes.length ≤ 1 then _ else _) = _
  have := List.length_pos_iff.2 h
  rw [if_neg (by omega)]
theorem execOp_pushScope (vm : Vm) (bp : Part) (i : Nat) (prev : UInt8) :
    execOp E ⟨vm, bp, i, PUSH_SCOPE⟩ prev =
      if vm.scopes.length > 0 then some (.go ⟨push vm (vtop vm.scopes), bp, i, PUSH_SCOPE⟩) else none := rfl
theorem execOp_jmp (vm : Vm) (bp : Part) (i n l : Nat) (prev : UInt8) (h : operand bp.data (i + 1) = some (n, l)) :
    execOp E ⟨vm, bp, i, JMP⟩ prev = some (.go ⟨vm, bp, wrap ((i : Int) + cInt n + l), JMP⟩) := by
  show (operand bp.data (i + 1)).bind _ = _
  rw [h]; rfl
theorem execOp_jmpFalse (vm : Vm) (bp : Part) (i n l : Nat) (prev : UInt8) (c : Bool)
    (h : operand bp.data (i + 1) = some (n, l)) (ht : isTruthy (pop vm).2.heap.str (pop vm).1 = some c) :
    execOp E ⟨vm, bp, i, JMP_FALSE⟩ prev = some (.go (if c then ⟨(pop vm).2, bp, i + l, JMP_FALSE⟩
      else ⟨push (pop vm).2 mkUndefined, bp, wrap ((i : Int) + l + cInt n), JMP_FALSE⟩)) := by
  show (operand bp.data (i + 1)).bind _ = _
  rw [h]
  show (isTruthy (pop vm).2.heap.str (pop vm).1).bind _ = _
  rw [ht]
  cases c <;> rfl
theorem execOp_jmpNeutralTrue (vm : Vm) (bp : Part) (i n l : Nat) (prev : UInt8) (c : Bool)
    (h : operand bp.data (i + 1) = some (n, l)) (ht : isTruthy vm.heap.str (vtop vm.stack) = some c) :
    execOp E ⟨vm, bp, i, JMP_NEUTRAL_TRUE⟩ prev = some (.go (if c then
      ⟨vm, bp, wrap ((i : Int) + l + cInt n), JMP_NEUTRAL_TRUE⟩ else ⟨vm, bp, i + l, JMP_NEUTRAL_TRUE⟩)) := by
  show (operand bp.data (i + 1)).bind _ = _
  rw [h]
  show (isTruthy vm.heap.str (vtop vm.stack)).bind _ = _
  rw [ht]
  cases c <;> rfl
theorem execOp_jmpNeutralFalse (vm : Vm) (bp : Part) (i n l : Nat) (prev : UInt8) (c : Bool)
    (h : operand bp.data (i + 1) = some (n, l)) (ht : isTruthy vm.heap.str (vtop vm.stack) = some c) :
    execOp E ⟨vm, bp, i, JMP_NEUTRAL_FALSE⟩ prev = some (.go (if c then ⟨vm, bp, i + l, JMP_NEUTRAL_FALSE⟩ else
      ⟨vm, bp, wrap ((i : Int) + l + cInt n), JMP_NEUTRAL_FALSE⟩)) := by
  show (operand bp.data (i + 1)).bind _ = _
  rw [h]
  show (isTruthy vm.heap.str (vtop vm.stack)).bind _ = _
  rw [ht]
  cases c <;> rfl
theorem execOp_pushInt (vm : Vm) (bp : Part) (i n l : Nat) (prev : UInt8) (h : operand bp.data (i + 1) = some (n, l)) :
    execOp E ⟨vm, bp, i, PUSH_INT⟩ prev =
      some (.go ⟨push vm (mkInt (BitVec.ofNat 64 n).toInt), bp, i + l, PUSH_INT⟩) := by
  show (operand bp.data (i + 1)).bind _ = _
  rw [h]; rfl
theorem execOp_pushDbl (vm : Vm) (bp : Part) (i n l : Nat) (prev : UInt8) (h : operand bp.data (i + 1) = some (n, l)) :
    execOp E ⟨vm, bp, i, PUSH_DBL⟩ prev =
      some (.go ⟨push vm (mkNumber (E.numVal ((bp.data.drop (i + 1 + l)).take (Tok.strtodLen (bp.data.drop (i + 1 + l)))))),
        bp, wrap ((i : Int) + l + cInt n), PUSH_DBL⟩) := by
  show (operand bp.data (i + 1)).bind _ = _
  rw [h]; rfl
theorem execOp_pushFunc (vm : Vm) (bp : Part) (i n l : Nat) (prev : UInt8) (h : operand bp.data (i + 1) = some (n, l)) :
    execOp E ⟨vm, bp, i, PUSH_FUNC⟩ prev =
      some (.go ⟨push vm (mkFunction (BitVec.ofInt 64 ((bp.startIdx : Int) + i - cInt n))), bp, i + l, PUSH_FUNC⟩) := by
  show (operand bp.data (i + 1)).bind _ = _
  rw [h]; rfl
theorem execOp_pushStr (vm : Vm) (bp : Part) (i l : Nat) (bs : List UInt8) (prev : UInt8)
    (h : operand bp.data (i + 1) = some (bs.length, l)) (hl : bs.length < 2 ^ 31)
    (hb : bytesAt bp.data (i + 1 + l) bs.length = some bs) :
    execOp E ⟨vm, bp, i, PUSH_STR⟩ prev =
      (mkStr vm bs).map fun r => .go ⟨push r.1 r.2, bp, i + l + bs.length, PUSH_STR⟩ := by
  show (operand bp.data (i + 1)).bind _ = _
  rw [h]
  have : sizeOfInt bs.length = some bs.length := by
    unfold sizeOfInt; rw [cInt_small hl, if_pos (by omega)]; simp
  show (sizeOfInt bs.length).bind _ = _
  rw [this]
  show (bytesAt bp.data (i + 1 + l) bs.length).bind _ = _
  rw [hb]
  show (mkStr vm bs).bind _ = _
  cases mkStr vm bs <;> rfl
theorem execOp_expr (vm : Vm) (bp : Part) (i : Nat) (op : UInt8) (prev : UInt8) (h : bp.data[i + 1]? = some op) :
    execOp E ⟨vm, bp, i, EXPR⟩ prev = (execExpr E vm op.toNat).map fun r => .go ⟨r, bp, i + 1, EXPR⟩ := by
  show (bp.data[i + 1]?).bind _ = _
  rw [h]
  show (execExpr E vm op.toNat).bind _ = _
  cases execExpr E vm op.toNat <;> rfl
theorem execOp_args (vm : Vm) (bp : Part) (i : Nat) (prev : UInt8) :
    execOp E ⟨vm, bp, i, ARGS⟩ prev =
      some (.go ⟨{ vm with
        lastGetprop := if prev ≠ GET then mkUndefined else vm.lastGetprop
        argStack := vm.argStack ++ [if prev ≠ GET then mkUndefined else vm.lastGetprop, mkInt vm.stack.length] },
        bp, i, ARGS⟩) := by
  have : execOp E ⟨vm, bp, i, ARGS⟩ prev = some (.go ⟨{ (if prev ≠ GET then { vm with lastGetprop := mkUndefined } else vm) with
      argStack := (if prev ≠ GET then { vm with lastGetprop := mkUndefined } else vm).argStack ++
        [(if prev ≠ GET then { vm with lastGetprop := mkUndefined } else vm).lastGetprop,
         mkInt (if prev ≠ GET then { vm with lastGetprop := mkUndefined } else vm).stack.length] }, bp, i, ARGS⟩) := rfl
  rw [this]
  by_cases h : prev = GET
  · simp only [h, ne_eq, not_true_eq_false, if_false]
  · simp only [ne_eq, h, not_false_eq_true, if_true]
theorem execOp_call (vm : Vm) (bp : Part) (i : Nat) (prev : UInt8) :
    execOp E ⟨vm, bp, i, CALL⟩ prev = (call E ⟨vm, bp, i, CALL⟩).map .go := rfl
theorem execOp_setArg (vm : Vm) (bp : Part) (i : Nat) (prev : UInt8) :
    execOp E ⟨vm, bp, i, SET_ARG⟩ prev = (setArg E ⟨vm, bp, i, SET_ARG⟩).map .go := rfl
theorem execOp_setRetval (vm : Vm) (bp : Part) (i : Nat) (prev : UInt8) :
    execOp E ⟨vm, bp, i, SETRETVAL⟩ prev = (setRetval vm).map fun r => .go ⟨r, bp, i, SETRETVAL⟩ := by
  show (setRetval vm).bind _ = _
  cases setRetval vm <;> rfl
theorem execOp_forInNext (vm : Vm) (bp : Part) (i : Nat) (prev : UInt8) :
    execOp E ⟨vm, bp, i, FOR_IN_NEXT⟩ prev = (forInNext E vm).map fun r => .go ⟨r, bp, i, FOR_IN_NEXT⟩ := by
  show (forInNext E vm).bind _ = _
  cases forInNext E vm <;> rfl
theorem execOp_exit (vm : Vm) (bp : Part) (i : Nat) (prev : UInt8) :
    execOp E ⟨vm, bp, i, EXIT⟩ prev = some (.go ⟨vm, bp, bp.data.length, EXIT⟩) := rfl
theorem execOp_return (vm vm' : Vm) (bp bp' : Part) (i off : Nat) (prev : UInt8) (h : restoreFrame vm = some (vm', off))
    (ho : off ≠ offsetExit) (hp : partAt vm' off = some bp') :
    execOp E ⟨vm, bp, i, RETURN⟩ prev = some (.go ⟨vm', bp', wrap ((off : Int) - bp'.startIdx), RETURN⟩) := by
  show (restoreFrame vm).bind _ = _
  rw [h]
  show (if off ≠ offsetExit then _ else _) = _
  rw [if_pos ho]
  show (partAt vm' off).bind _ = _
  rw [hp]; rfl
theorem execOp_returnExit (vm vm' : Vm) (bp : Part) (i : Nat) (prev : UInt8) (h : restoreFrame vm = some (vm', offsetExit)) :
    execOp E ⟨vm, bp, i, RETURN⟩ prev = some (.clean vm') := by
  show (restoreFrame vm).bind _ = _
  rw [h]
  rfl
theorem execOp_loop (vm : Vm) (bp : Part) (i o1 l1 o2 l2 : Nat) (prev : UInt8)
    (h1 : operand bp.data (i + 1) = some (o1, l1)) (h2 : operand bp.data (i + 1 + l1) = some (o2, l2)) :
    execOp E ⟨vm, bp, i, LOOP⟩ prev = some (.go ⟨{ vm with
      loopAddrs := vm.loopAddrs ++ [mkInt vm.scopes.length, mkInt (wrap ((i : Int) + 1 + l1 + cInt o1)),
         mkInt (wrap ((i : Int) + 1 + l1 + l2 + cInt o2))] }, bp, i + l1 + l2, LOOP⟩) := by
  show (operand bp.data (i + 1)).bind _ = _
  rw [h1]
  show (operand bp.data (i + 1 + l1)).bind _ = _
  rw [h2]; rfl

end Mjs.Exec
