import Verif.Lemmas.CompileEval

/-! Calls do what they mean. -/

namespace Mjs.Exec
open Mjs Mjs.Str Mjs.Obj Mjs.Core Mjs.Code Mjs.Sem

variable {E : Env} [Natives E] {F : Nat → Option Fn} {b : Vm} {α β : Type} {d n : Nat} {vm : Vm} {st : Stacks} {bp : Part} {pc : Nat}
  {m : Mach}

theorem popVal_append (s : List Val) (v : Val) : popVal (s ++ [v]) = some (v, s) := by
  simp [popVal]

theorem vtop_append2 (s : List Val) (v w : Val) : vtop (s ++ [v, w]) = w := by
  simp [vtop]

theorem popVal_append2 (s : List Val) (v w : Val) : popVal (s ++ [v, w]) = some (w, s ++ [v]) := by
  rw [show s ++ [v, w] = (s ++ [v]) ++ [w] by simp]
  exact popVal_append _ _

theorem partAt_above {vm' : Vm} (h : Above b vm') {j : Nat} (hg : Good b bp) (hj : j < bp.data.length) :
    partAt vm' (bp.startIdx + j) = some bp := by
  rw [← hg.found j hj]
  unfold partAt partIdx
  rw [h.parts, h.len]

theorem partAt_congr {a c : Vm} (h1 : a.parts = c.parts) (h2 : a.bcodeLen = c.bcodeLen) (off : Nat) : partAt a off = partAt c off := by
  unfold partAt partIdx
  rw [h1, h2]

theorem wrap_getInt (n : Nat) (h : n < 2 ^ 31) : wrap (getInt (mkInt n)) = n := by
  rw [getInt_mkInt _ (by omega) (by omega)]
  exact wrap_nat n (by omega)

theorem setLen_append (a c : List Val) : setLen (a ++ c) a.length = some a := by
  simp [setLen]

/-- Popping a frame. -/
theorem restoreFrame_eq (vm : Vm) (cs : List Val) (t a s l r : Val) (h : vm.callStack = cs ++ [t, a, s, l, r]) :
    restoreFrame vm = (setLen vm.stack (wrap (getInt r))).map fun st =>
      ({ vm with callStack := cs, this := t, scopes := vm.scopes.take (wrap (getInt s)),
                 loopAddrs := vm.loopAddrs.take (wrap (getInt l)), stack := st }, wrap (getInt a)) := by
  unfold restoreFrame
  have e : cs ++ [t, a, s, l, r] = ((((cs ++ [t]) ++ [a]) ++ [s]) ++ [l]) ++ [r] := by simp
  rw [h, e]
  show (popVal (((((cs ++ [t]) ++ [a]) ++ [s]) ++ [l]) ++ [r])).bind _ = _
  rw [popVal_append]
  show (popVal ((((cs ++ [t]) ++ [a]) ++ [s]) ++ [l])).bind _ = _
  rw [popVal_append]
  show (popVal (((cs ++ [t]) ++ [a]) ++ [s])).bind _ = _
  rw [popVal_append]
  show (popVal ((cs ++ [t]) ++ [a])).bind _ = _
  rw [popVal_append]
  show (popVal (cs ++ [t])).bind _ = _
  rw [popVal_append]
  show (setLen vm.stack (wrap (getInt r))).bind _ = _
  cases setLen vm.stack (wrap (getInt r)) <;> rfl

theorem Frame.addr_lt {f : FrameCtx} (h : Frame b f st vm) : f.addr < 2 ^ 31 := by
  unfold FrameCtx.addr
  cases hr : f.ret with
  | none => decide
  | some r =>
    obtain ⟨g, h1, h2⟩ := h.good r hr
    have := g.small
    show r.1.startIdx + r.2 - 1 < _
    omega

/-- Leaving a function. -/
theorem restoreFrame_spec {f : FrameCtx} {v : Val} {rest : List Val} (h : Frame b f st vm) (hf : Fits st vm d)
    (hs : st.stack = f.st.stack ++ v :: rest) :
    restoreFrame (on vm st) = some (on { vm with scopes := f.scopes, this := f.this } (f.st.push v), f.addr) := by
  have hlt := h.addr_lt
  have h1 := h.scopes.length_le
  have h2 := h.loops.length_le
  have f1 := hf.stack
  have f4 := hf.loopAddrs
  have f5 := hf.scopes
  rw [hs] at f1
  simp only [List.length_append, List.length_cons] at f1
  have e2 : setLen (on vm st).stack (f.st.stack.length + 1) = some (f.st.stack ++ [v]) := by
    show setLen st.stack _ = _
    rw [hs, show f.st.stack ++ v :: rest = (f.st.stack ++ [v]) ++ rest by simp,
      show f.st.stack.length + 1 = (f.st.stack ++ [v]).length by simp]
    exact setLen_append _ _
  rw [restoreFrame_eq (on vm st) _ _ _ _ _ _ h.call, wrap_getInt (f.st.stack.length + 1) (by omega),
    wrap_getInt f.scopes.length (by omega), wrap_getInt f.st.loopAddrs.length (by omega),
    wrap_getInt f.addr (by omega), e2]
  simp only [Option.map_some, Option.some.injEq, Prod.mk.injEq, and_true]
  rw [show (on vm st).scopes.take f.scopes.length = f.scopes from take_prefix h.scopes,
    show (on vm st).loopAddrs.take f.st.loopAddrs.length = f.st.loopAddrs from take_prefix h.loops]
  simp only [on, Stacks.push, Stacks.pushes, h.parts.1, h.parts.2, h.args]

omit [Natives E] in
/-- `OP_RETURN`. -/
theorem sim_return {x : Sem α} {f : FrameCtx} {v : Val} {rest : List Val} {vm0 : Vm} {c : List UInt8} {Q : Vm → α → Mach → Prop}
    (h : Frame b f st vm) (he : vm.error = .ok) (hpa : st.parts = b.parts ∧ st.bcodeLen = b.bcodeLen) (hf : Fits st vm d)
    (ha : At m vm st bp pc) (hp : Placed bp pc (RETURN :: c))
    (hs : st.stack = f.st.stack ++ v :: rest) (hx : ∀ m', Returned f v vm m' → Sims E b x vm0 m' Q) : Sims E b x vm0 m Q := by
  have hrf := restoreFrame_spec h hf hs
  cases hr : f.ret with
  | none =>
    refine hx m ?_
    unfold Returned
    rw [hr]
    unfold FrameCtx.addr at hrf
    rw [hr] at hrf
    exact ⟨by rw [ha.bp, ha.i]; exact hp.head, by rw [ha.vm]; exact hrf⟩
  | some r =>
    obtain ⟨g, hp1, hp2⟩ := h.good r hr
    have hsm := g.small
    have haddr : f.addr = r.1.startIdx + r.2 - 1 := by unfold FrameCtx.addr; rw [hr]
    rw [haddr] at hrf
    have hpart : partAt (on { vm with scopes := f.scopes, this := f.this } (f.st.push v)) (r.1.startIdx + r.2 - 1) = some r.1 := by
      have := g.found (r.2 - 1) (by omega)
      rw [show r.1.startIdx + r.2 - 1 = r.1.startIdx + (r.2 - 1) by omega, ← this]
      have e1 : f.st.parts = b.parts := by rw [← h.parts.1]; exact hpa.1
      have e2 : f.st.bcodeLen = b.bcodeLen := by rw [← h.parts.2]; exact hpa.2
      unfold partAt partIdx
      simp only [on, Stacks.push, Stacks.pushes, e1, e2]
    have ei : wrap (((r.1.startIdx + r.2 - 1 : Nat) : Int) - r.1.startIdx) = r.2 - 1 := by unfold wrap; omega
    refine Sims.step ha hp.head
      (execOp_return _ _ _ _ _ _ _ hrf (by unfold offsetExit; omega) hpart)
      he (by rw [ei]; omega) ?_
    intro m' h1 h2
    rw [ei] at h1
    refine hx m' ?_
    unfold Returned
    rw [hr]
    exact ⟨h1.cast (by omega), h2⟩

theorem setRetval_eq (vm : Vm) (st : Stacks) (v rp : Val) (pos : Nat) (h5 : ¬ st.callStack.length < 5)
    (ha : at? st.callStack (-1) = some rp) (hv : vptr st.stack (BitVec.ofInt 32 (getInt rp - 1)).toInt = some pos) :
    setRetval (on vm (st.push v)) = some (on vm { st with stack := st.stack.set pos v }) := by
  unfold setRetval
  rw [if_neg (show ¬ (on vm (st.push v)).callStack.length < 5 from h5),
    show at? (on vm (st.push v)).callStack (-1) = some rp from ha, pop_on]
  show (vptr st.stack (BitVec.ofInt 32 (getInt rp - 1)).toInt).bind _ = _
  rw [hv]
  rfl

omit [Natives E] in
/-- `OP_SETRETVAL`. -/
theorem sim_setRetval {x : Sem α} {f : FrameCtx} {v w : Val} {rest : List Val} {vm0 : Vm} {c : List UInt8} {Q : Vm → α → Mach → Prop}
    (h : Frame b f st vm) (R : Ready b d vm st bp) (ha : At m vm (st.push v) bp pc) (hp : Placed bp pc (SETRETVAL :: c))
    (hs : st.stack = f.st.stack ++ w :: rest)
    (hx : ∀ m', At m' vm { st with stack := f.st.stack ++ v :: rest } bp (pc + 1) → Sims E b x vm0 m' Q) : Sims E b x vm0 m Q := by
  have hlt := R.good.lt hp (by simp)
  simp only [List.length_cons] at hlt
  have f1 := R.fits.stack
  have f2 := R.fits.callStack
  have hl : st.stack.length = f.st.stack.length + 1 + rest.length := by rw [hs]; simp; omega
  have hr : setRetval (on vm (st.push v)) = some (on vm { st with stack := f.st.stack ++ v :: rest }) := by
    have h5 : ¬ st.callStack.length < 5 := by rw [h.call]; simp
    have ha : at? st.callStack (-1) = some (mkInt (f.st.stack.length + 1 : Nat)) := by
      have hc := h.call
      have e : ∀ a c e g k : Val, f.st.callStack ++ [a, c, e, g, k] = (f.st.callStack ++ [a, c, e, g]) ++ [k] := by simp
      rw [e] at hc
      rw [hc]
      refine at_last _ _ ?_
      rw [hc] at f2
      simp only [List.length_append, List.length_singleton] at f2 ⊢
      omega
    have hv : vptr st.stack (BitVec.ofInt 32 (getInt (mkInt (f.st.stack.length + 1 : Nat)) - 1)).toInt = some f.st.stack.length := by
      rw [getInt_mkInt _ (by omega) (by omega), int32_self _ (by omega) (by omega)]
      unfold vptr vptrIdx
      rw [cInt_small (by omega)]
      have h0 : ¬ ((f.st.stack.length + 1 : Nat) : Int) - 1 < 0 := by omega
      simp only [h0, if_false]
      rw [if_pos (by omega)]
      congr 1; omega
    rw [setRetval_eq vm st v _ _ h5 ha hv]
    have e : st.stack.set f.st.stack.length v = f.st.stack ++ v :: rest := by rw [hs]; simp
    rw [e]
  refine Sims.step ha hp.head (by rw [execOp_setRetval, hr]; rfl) (vm' := vm) (st' := { st with stack := f.st.stack ++ v :: rest })
    R.err (by omega) ?_
  intro m' h1 _
  exact hx m' h1

omit [Natives E] in
/-- `OP_NEW_SCOPE`. -/
theorem sim_enter {c : List UInt8} (R : Ready b d vm st bp) (ha : At m vm st bp pc) (hp : Placed bp pc (NEW_SCOPE :: c)) :
    Sims E b enterScope vm m fun vm' _ m' =>
      vm'.error = .ok ∧ (∃ o, vm'.scopes = vm.scopes ++ [o]) ∧ vm'.this = vm.this ∧ At m' vm' st bp (pc + 1) := by
  have hlt := R.good.lt hp (by simp)
  simp only [List.length_cons] at hlt
  unfold enterScope
  refine Sims.bind (Q := fun vm' o m' => Kept vm vm' ∧ At m' { vm' with scopes := vm'.scopes ++ [o] } st bp (pc + 1)) ?_ ?_
  · refine Sims.instrW (g := fun _ => st) (st' := st) (w := fun o v => { v with scopes := v.scopes ++ [o] }) ha mkObj_local hp.head
      (execOp_newScope _ _ _ _) (fun _ _ => ⟨rfl, rfl, rfl, rfl⟩) (fun _ _ => rfl) (by omega) ?_ ?_
    · intro vm' o hs
      obtain ⟨q1, q2, q3, q4, q5, q6, q7⟩ := R.above
      refine ⟨q1, q2, q3, q4, q5, ?_, q7⟩
      show b.scopes <+: vm'.scopes ++ [o]
      rw [hs]; exact prefix_app _ q6
    · intro vm' o m' he hf h1 h2
      exact ⟨mkObj_local.kept hf he, h1⟩
  · intro vm1 o m1 ⟨k1, a1⟩
    refine Sims.current ?_
    intro out e
    cases e
    exact ⟨m1, .refl _, k1.err, ⟨o, by show vm1.scopes ++ [o] = _; rw [k1.scopes]⟩, k1.this, a1⟩

omit [Natives E] in
/-- `OP_SET_ARG` for each parameter. -/
theorem sim_params {args below cs : List Val} {w : Val} {c : List UInt8} {ps : List Name} (hst : st.stack = below ++ w :: args)
    (hcs : st.callStack = cs ++ [mkInt (below.length + 1 : Nat)]) :
    ∀ {i : Nat} {vm : Vm} {m : Mach} {pc : Nat}, Ready b d vm st bp → At m vm st bp pc →
    Placed bp pc (codeParams i ps ++ c) → i ≤ pc →
    Sims E b (bindParams E args i ps) vm m fun vm' _ m' => Kept vm vm' ∧ At m' vm' st bp (pc + (codeParams i ps).length) := by
  induction ps with
  | nil =>
    intro i vm m pc R ha _ _
    simp only [bindParams]
    exact Sims.pure ⟨.refl R.err, ha⟩
  | cons p ps ih =>
    intro i vm m pc R ha hp hi
    have hp0 : Placed bp pc (SET_ARG :: (vint i ++ (vint p.length ++ (p ++ (codeParams (i + 1) ps ++ c))))) := by
      simpa [codeParams, strB] using hp
    have hlt := R.good.lt hp0 (by simp)
    simp only [List.length_append, List.length_cons] at hlt
    have h1 := operand_vint hp0.tail (by omega)
    have h2 := operand_vint hp0.tail.right (by omega)
    have hle := hp0.le (by simp)
    simp only [List.length_append, List.length_cons] at hle
    have hb : bytesAt bp.data (pc + 1 + (vint i).length + (vint p.length).length) p.length = some p :=
      bytes_placed hp0.tail.right.right.left (by omega)
    have f1 := R.fits.stack
    have f2 := R.fits.callStack
    simp only [bindParams]
    refine Sims.bind (Q := fun vm' _ m' => Kept vm vm' ∧
      At m' vm' st bp (pc + 1 + (vint i).length + (vint p.length).length + p.length)) ?_ ?_
    · have hloc : Local (fun vm => (mkStr vm p).bind fun r =>
          (setVm E r.1 (vtop r.1.scopes) r.2 (args.getD i mkUndefined)).bind fun vm => some (vm, ())) := by
        refine (mkStr_local p).bind (g := fun k vm => (setVm E vm (vtop vm.scopes) k (args.getD i mkUndefined)).bind fun vm => some (vm, ())) ?_
        intro k vm c hc
        simp only [put_scopes, hc]
        have := (setVm_local E (vtop vm.scopes) k (args.getD i mkUndefined)).lift vm c hc
        simp only [Option.map_eq_bind] at this
        exact this
      refine Sims.instr (g := fun _ => st) (st' := st) ha hloc hp0.head (h' := fun r => r.1)
        (k := pc + (vint i).length + (vint p.length).length + p.length) ?_ (fun _ _ => rfl) (by omega) ?_ ?_
      · rw [execOp_setArg]
        unfold setArg
        have e1 : operand bp.data (pc + (vint i).length + 1) = some (p.length, (vint p.length).length) := by
          rw [← h2]; congr 1; omega
        have e2 : sizeOfInt p.length = some p.length := by
          unfold sizeOfInt; rw [cInt_small (by omega), if_pos (by omega)]; simp
        simp only [h1, e1, e2, hb, Option.bind_eq_bind, Option.bind_some]
        rw [show mkStr (on vm st) p = _ from (mkStr_local p).on vm st]
        cases hms : mkStr vm p with
        | none => rfl
        | some r =>
          obtain ⟨vm1, k⟩ := r
          simp only [Option.map_some, Option.bind_some]
          have ea : arg (on vm1 st) (cInt i) = some (args.getD i mkUndefined) := by
            have hr : getretvalpos (on vm1 st) = some (below.length : Int) :=
              retpos (on vm1 st) below args cs w hst (by show st.callStack = _; rw [hcs]; simp)
                (by show st.stack.length < _; omega) (by show st.callStack.length < _; omega)
            unfold arg
            rw [hr, cInt_small (n := i) (by omega)]
            have hl : (on vm1 st).stack.length = below.length + 1 + args.length := by
              show st.stack.length = _; rw [hst]; simp; omega
            rw [hl, cInt_small (by rw [← hl]; show st.stack.length < _; omega)]
            simp only [Option.bind_eq_bind, Option.bind_some]
            by_cases hia : i < args.length
            · rw [if_pos (by omega), at_nat _ (by show st.stack.length < _; omega) _ (below.length + 1 + i) (by omega)]
              show st.stack[below.length + 1 + i]? = _
              rw [hst, List.getElem?_append_right (by omega)]
              rw [show below.length + 1 + i - below.length = i + 1 by omega]
              simp [List.getD, hia]
            · rw [if_neg (by omega)]
              simp [List.getD, hia]
          rw [ea]
          simp only [Option.bind_some]
          cases setVm E (on vm1 st) (vtop (on vm1 st).scopes) k (args.getD i mkUndefined) <;> rfl
      · intro vm' _ hs
        have := R.above.pushes hs []
        rwa [pushes_nil] at this
      · intro vm' _ m' he hf h3 h4
        exact ⟨hloc.kept hf he, h3.cast (by omega)⟩
    · intro vm1 _ m1 ⟨k1, a1⟩
      have hp1 : Placed bp (pc + 1 + (vint i).length + (vint p.length).length + p.length) (codeParams (i + 1) ps ++ c) :=
        hp0.tail.right.right.right
      refine (ih (R.same k1 (Nat.le_refl _)) a1 hp1 (by have := vint_pos i; omega)).mono ?_
      intro vm2 _ m2 ⟨k2, a2⟩
      refine ⟨k1.trans k2, a2.cast ?_⟩
      simp only [codeParams, strB, List.length_append, List.length_cons]
      omega

omit [Natives E] in
theorem call_eq (m : Mach) (r f t : Val) (pos off : Nat) (as : List Val) (bp' : Part) (h1 : vtop m.vm.argStack = r)
    (h2 : vptr m.vm.stack (getInt r - 1) = some pos) (h3 : m.vm.stack[pos]? = some f)
    (h4 : popVal m.vm.argStack = some (r, as ++ [t])) (hf : isFunction f)
    (h5 : wrap ((getFuncAddr f).toNat - 1 : Int) = off) (h6 : partAt m.vm off = some bp') :
    call E m = some { m with
      vm := { m.vm with
        argStack := as, this := t
        callStack := m.vm.callStack ++ [m.vm.this, mkInt (m.bp.startIdx + m.i : Nat), mkInt m.vm.scopes.length,
          mkInt m.vm.loopAddrs.length, r]
        stack := m.vm.stack.set pos mkUndefined }
      bp := bp', i := wrap ((off : Int) - bp'.startIdx) } := by
  unfold call
  simp only [h1, h2, h3, h4, hf, Option.bind_eq_bind, Option.bind_some, if_true, h5, pushFrame, popVal_append]
  have h6' : ∀ a c t, partAt { m.vm with argStack := a, this := t, callStack := c } off = some bp' :=
    fun _ _ _ => (partAt_congr rfl rfl _).trans h6
  rw [h6']
  rfl

omit [Natives E] in
theorem call_bad (m : Mach) (r f : Val) (pos : Nat) (as : List Val) (h1 : vtop m.vm.argStack = r)
    (h2 : vptr m.vm.stack (getInt r - 1) = some pos) (h3 : m.vm.stack[pos]? = some f)
    (h4 : popVal m.vm.argStack = some (r, as)) (hf : ¬ isFunction f) (hf' : ¬ isNative f = true) :
    call E m = some { m with vm := setErrorf { m.vm with argStack := as } .type (some (txt "calling non-callable")) } := by
  unfold call
  simp only [isNative, Bool.or_eq_true, not_or] at hf'
  simp only [h1, h2, h3, h4, hf, hf'.1.1, hf'.1.2, hf'.2, Option.bind_eq_bind, Option.bind_some, if_false, Bool.or_self, Bool.false_eq_true]

/-- What `OP_CALL` finds on the stacks. -/
theorem calling_facts {f t : Val} {args : List Val} (F1 : Fits (st.calling f t args) vm d) :
    vtop (on vm (st.calling f t args)).argStack = mkInt (st.stack.length + 1 : Nat) ∧
    vptr (on vm (st.calling f t args)).stack (getInt (mkInt (st.stack.length + 1 : Nat)) - 1) = some st.stack.length ∧
    (on vm (st.calling f t args)).stack[st.stack.length]? = some f ∧
    popVal (on vm (st.calling f t args)).argStack = some (mkInt (st.stack.length + 1 : Nat), st.argStack ++ [t]) := by
  have f1 := F1.stack
  simp only [Stacks.calling, List.length_append, List.length_cons] at f1
  refine ⟨vtop_append2 _ _ _, ?_, ?_, popVal_append2 _ _ _⟩
  · rw [getInt_mkInt _ (by omega) (by omega)]
    unfold vptr vptrIdx
    rw [show (on vm (st.calling f t args)).stack.length = st.stack.length + (args.length + 1) by simp [on, Stacks.calling],
      cInt_small (by omega)]
    have h0 : ¬ ((st.stack.length + 1 : Nat) : Int) - 1 < 0 := by omega
    simp only [h0, if_false]
    rw [if_pos (by omega)]
    congr 1; omega
  · simp [on, Stacks.calling]

omit [Natives E] in
/-- `OP_CALL` of a function. -/
theorem call_function {f t : Val} {args : List Val} {bp' : Part} {pc' : Nat} (hf : isFunction f) (F1 : Fits (st.calling f t args) vm d)
    (hp : partAt (on vm st) ((getFuncAddr f).toNat - 1) = some bp')
    (ha : (getFuncAddr f).toNat = bp'.startIdx + pc' + 1) :
    call E ⟨on vm (st.calling f t args), bp, pc, CALL⟩ =
      some ⟨on { vm with this := t } { st with
        stack := st.stack ++ mkUndefined :: args
        callStack := st.callStack ++ [vm.this, mkInt (bp.startIdx + pc : Nat), mkInt vm.scopes.length,
          mkInt st.loopAddrs.length, mkInt (st.stack.length + 1 : Nat)] }, bp', pc', CALL⟩ := by
  have hlt := (getFuncAddr f).isLt
  obtain ⟨e1, e2, e3, e4⟩ := calling_facts F1
  have e5 : wrap (((getFuncAddr f).toNat : Int) - 1) = (getFuncAddr f).toNat - 1 := by unfold wrap; omega
  have e6 : wrap ((((getFuncAddr f).toNat - 1 : Nat) : Int) - bp'.startIdx) = pc' := by unfold wrap; omega
  rw [call_eq ⟨on vm (st.calling f t args), bp, pc, CALL⟩ _ f t _ _ _ bp' e1 e2 e3 e4 hf e5
    ((partAt_congr rfl rfl _).trans hp), e6]
  have e7 : (st.stack ++ f :: args).set st.stack.length mkUndefined = st.stack ++ mkUndefined :: args := by simp
  simp only [on, Stacks.calling, e7]

theorem foreign_not {f : Val} (h : isForeign f = true) : isString f = false ∧ isFfiSig f = false := by
  unfold isForeign at h
  unfold isString isFfiSig
  simp only [beq_iff_eq] at h
  rw [h]
  decide

omit [Natives E] in
theorem call_native_eq (m : Mach) (r f t : Val) (pos : Nat) (as : List Val) (h1 : vtop m.vm.argStack = r)
    (h2 : vptr m.vm.stack (getInt r - 1) = some pos) (h3 : m.vm.stack[pos]? = some f)
    (h4 : popVal m.vm.argStack = some (r, as ++ [t])) (hf : ¬ isFunction f) (hn : isNative f = true) :
    call E m = (native E f { m.vm with
        argStack := as, this := t
        callStack := m.vm.callStack ++ [m.vm.this, mkInt (m.bp.startIdx + m.i : Nat), mkInt m.vm.scopes.length,
          mkInt m.vm.loopAddrs.length, r] }).bind fun v => (restoreFrame v).map fun y => { m with vm := y.1 } := by
  unfold call native
  simp only [h1, h2, h3, h4, hf, Option.bind_eq_bind, Option.bind_some, if_false, pushFrame, popVal_append, Bool.false_eq_true]
  cases hff : isForeign f with
  | true =>
    simp only [(foreign_not hff).1, (foreign_not hff).2, Bool.or_self, Bool.false_eq_true, if_false, if_true]
    cases E.cfun (getPtr f).toNat _ with
    | none => rfl
    | some v => simp only [Option.bind_some]; cases restoreFrame v <;> rfl
  | false =>
    rw [isNative, hff, Bool.or_false] at hn
    simp only [hn, Bool.false_eq_true, if_false, if_true]
    cases E.ffi _ with
    | none => rfl
    | some v => simp only [Option.bind_some]; cases restoreFrame v <;> rfl

/-- Where `OP_CALL` calls a C function. -/
def callAt (vm : Vm) (st : Stacks) (bp : Part) (pc : Nat) : CallAt :=
  ⟨st.stack, st.callStack ++ [vm.this, mkInt (bp.startIdx + pc : Nat), mkInt vm.scopes.length, mkInt st.loopAddrs.length],
    st.argStack, st.loopAddrs, st.parts, st.bcodeLen⟩

omit [Natives E] in
/-- `OP_CALL` of a C function. -/
theorem call_native {f t x : Val} {args : List Val} {vm' : Vm} (hf : ¬ isFunction f) (hn : isNative f = true)
    (F1 : Fits (st.calling f t args) vm d) (hs : vm'.scopes = vm.scopes)
    (hc : (callAt vm st bp pc).Fits args.length →
      native E f ((callAt vm st bp pc).put { vm with this := t } (f :: args)) = some ((callAt vm st bp pc).put vm' [x])) :
    call E ⟨on vm (st.calling f t args), bp, pc, CALL⟩ = some ⟨on { vm' with this := vm.this } (st.push x), bp, pc, CALL⟩ := by
  obtain ⟨e1, e2, e3, e4⟩ := calling_facts F1
  obtain ⟨f1, f2, f3, f4, f5⟩ := F1
  simp only [Stacks.calling, List.length_append, List.length_cons, List.length_nil] at f1 f2 f3 f4
  rw [call_native_eq ⟨on vm (st.calling f t args), bp, pc, CALL⟩ _ f t _ _ e1 e2 e3 e4 hf hn]
  have hk := hc ⟨by show st.stack.length + _ + 1 < _; omega,
    by simp only [callAt, List.length_append, List.length_cons, List.length_nil]; omega⟩
  unfold CallAt.put callAt at hk
  simp only [List.append_assoc, List.cons_append, List.nil_append] at hk
  show (native E f _).bind _ = _
  have e : ({ on vm (st.calling f t args) with
      argStack := st.argStack, this := t
      callStack := st.callStack ++ [vm.this, mkInt (bp.startIdx + pc : Nat), mkInt vm.scopes.length,
        mkInt st.loopAddrs.length, mkInt (st.stack.length + 1 : Nat)] } : Vm) = { vm with
      this := t, stack := st.stack ++ f :: args
      callStack := st.callStack ++ [vm.this, mkInt (bp.startIdx + pc : Nat), mkInt vm.scopes.length,
        mkInt st.loopAddrs.length, mkInt (st.stack.length + 1 : Nat)]
      argStack := st.argStack, loopAddrs := st.loopAddrs, parts := st.parts, bcodeLen := st.bcodeLen } := rfl
  refine (congrArg (fun v => (native E f v).bind _) e).trans ?_
  rw [hk, Option.bind_some, restoreFrame_eq _ _ _ _ _ _ _ rfl, wrap_getInt (st.stack.length + 1) (by omega),
    wrap_getInt vm.scopes.length (by omega), wrap_getInt st.loopAddrs.length (by omega)]
  have e2 : setLen (st.stack ++ [x]) (st.stack.length + 1) = some (st.stack ++ [x]) := by
    have := setLen_append (st.stack ++ [x]) []
    simpa using this
  simp only [e2, Option.map_some, List.take_length, ← hs]
  rfl

/-- Calls. -/
theorem callFn_step (ih : IH E F b n) (hW : World F b) {f t : Val} {args : List Val} (S : Start b d vm (st.calling f t args) bp pc m)
    (hp : Placed bp pc [CALL]) (hA : Above b (on vm st)) :
    Sims E b (callFn E F (n + 1) d f t args) vm m (VQ vm st bp (pc + 1)) := by
  cases d with
  | zero => rw [callFn]; exact Sims.undef; simp
  | succ d =>
  have hlt := S.good.lt hp (by simp)
  have hle := hp.le (by simp)
  simp only [List.length_singleton] at hlt hle
  rw [callFn]
  by_cases hf : isFunction f
  · rw [if_pos hf]
    cases hF : F (getFuncAddr f).toNat with
    | none => exact Sims.undef
    | some fn =>
      obtain ⟨bp', pc', g', ha, h1, hp', hw'⟩ := hW _ _ hF
      have hle' := hp'.le (by simp [codeFun])
      have hpart : partAt (on vm st) ((getFuncAddr f).toNat - 1) = some bp' := by
        rw [show (getFuncAddr f).toNat - 1 = bp'.startIdx + (pc' - 1) by omega]
        exact partAt_above hA g' (by simp only [codeFun, List.length_cons, List.length_append] at hle'; omega)
      have hc := call_function (E := E) (bp := bp) (pc := pc) (pc' := pc' - 1) hf S.fits hpart (by omega)
      obtain ⟨f1, f2, f3, f4, f5⟩ := S.fits
      simp only [Stacks.calling, List.length_append, List.length_cons, List.length_nil] at f1 f2 f3 f4
      have hlt' := g'.lt hp' (by simp [codeFun])
      have hp1 : Placed bp' pc' (NEW_SCOPE :: (codeParams 0 fn.params ++ (codeSs fn.body ++ [RETURN]))) := by
        simpa [codeFun] using hp'
      refine Sims.current ?_
      refine Sims.setThis ?_
      refine Sims.step S.pos hp.head (by rw [execOp_call, hc]; rfl) (vm' := { vm with this := t })
        (bp' := bp') (k := pc' - 1) S.err (by omega) ?_
      intro m1 a1 _
      rw [show pc' - 1 + 1 = pc' by omega] at a1
      generalize hst1 : ({ st with
        stack := st.stack ++ mkUndefined :: args
        callStack := st.callStack ++ [vm.this, mkInt (bp.startIdx + pc : Nat), mkInt vm.scopes.length,
          mkInt st.loopAddrs.length, mkInt (st.stack.length + 1 : Nat)] } : Stacks) = st1 at *
      have R1 : Ready b d { vm with this := t } st1 bp' := by
        refine ⟨g', S.err, ?_, ?_⟩
        · obtain ⟨q1, q2, q3, q4, q5, q6, q7⟩ := hA
          subst hst1
          exact ⟨q1, q2, prefix_app _ q3, prefix_app _ q4, q5, q6, q7⟩
        · subst hst1
          refine ⟨?_, ?_, ?_, ?_, ?_⟩
          · simp only [List.length_append, List.length_cons]; omega
          · simp only [List.length_append, List.length_cons, List.length_nil]; omega
          · show st.argStack.length + _ < _; omega
          · show st.loopAddrs.length + _ < _; omega
          · show vm.scopes.length + _ < _; omega
      refine Sims.bind (sim_enter R1 a1 hp1) ?_
      intro vm2 _ m2 ⟨er2, ⟨o, s2⟩, t2, a2⟩
      have R2 : Ready b d vm2 st1 bp' := by
        obtain ⟨q1, q2, q3, q4, q5, q6, q7⟩ := R1.above
        obtain ⟨g1, g2, g3, g4, g5⟩ := R1.fits
        refine ⟨g', er2, ⟨q1, q2, q3, q4, q5, ?_, q7⟩, ⟨g1, g2, g3, g4, ?_⟩⟩
        · rw [on_scopes, s2]; exact prefix_app _ q6
        · rw [s2]
          show (vm.scopes ++ [o]).length + _ < _
          simp only [List.length_append, List.length_singleton]; omega
      have hstk : st1.stack = st.stack ++ mkUndefined :: args := by subst hst1; rfl
      have hcs : st1.callStack = (st.callStack ++ [vm.this, mkInt (bp.startIdx + pc : Nat), mkInt vm.scopes.length,
          mkInt st.loopAddrs.length]) ++ [mkInt (st.stack.length + 1 : Nat)] := by
        subst hst1
        generalize mkInt (st.stack.length + 1 : Nat) = r
        generalize mkInt (bp.startIdx + pc : Nat) = r'
        simp only [List.append_assoc, List.cons_append, List.nil_append]
      refine Sims.bind (sim_params (c := codeSs fn.body ++ [RETURN]) hstk hcs R2 a2 hp1.tail (by omega)) ?_
      intro vm3 _ m3 ⟨k3, a3⟩
      have hp3 := hp1.tail.right
      have s3 : vm3.scopes = vm.scopes ++ [o] := k3.scopes.trans s2
      have hfr : Frame b ⟨st, some (bp, pc + 1), vm.scopes, vm.this⟩ st1 vm3 := by
        refine ⟨fun r hr => by cases hr; exact ⟨S.good, by show 1 ≤ pc + 1; omega, hle⟩, ?_, ?_, ?_, ?_, ?_, ?_⟩
        · subst hst1; exact ⟨rfl, rfl⟩
        · subst hst1; rfl
        · rw [s3]; exact List.prefix_append _ _
        · subst hst1; exact List.prefix_refl _
        · rw [hstk]; exact ⟨mkUndefined, args, by simp⟩
        · subst hst1; rfl
      refine Sims.bind (ih.ss none (some ⟨st, some (bp, pc + 1), vm.scopes, vm.this⟩) ((R2.same k3 (Nat.le_refl _)).start a3) hp3.left hw'
        (fun l h => by cases h) (fun f h => by cases h; exact hfr)) ?_
      intro vm4 c m4 ⟨k4, h4⟩
      refine Sims.setScopes (Sims.setThis ?_)
      cases c with
      | normal v =>
        have R4 : Ready b 0 vm4 (st1.push v) bp' := by
          obtain ⟨q1, q2, q3, q4, q5, q6, q7⟩ := R2.above
          obtain ⟨g1, g2, g3, g4, g5⟩ := R2.fits
          have ks := (k3.trans k4).scopes
          refine ⟨g', k4.err, ⟨q1, q2, prefix_app _ q3, q4, q5, by rw [on_scopes, ks]; exact q6, q7⟩, ⟨?_, ?_, ?_, ?_, ?_⟩⟩
          · show (st1.stack ++ [v]).length + _ < _
            rw [hstk]; simp only [List.length_append, List.length_cons, List.length_nil]; omega
          · show st1.callStack.length + _ < _; omega
          · show st1.argStack.length + _ < _; omega
          · show st1.loopAddrs.length + _ < _; omega
          · rw [ks]; omega
        have hfr4 : Frame b ⟨st, some (bp, pc + 1), vm.scopes, vm.this⟩ (st1.push v) vm4 := by
          obtain ⟨w1, w3, w4, w5, w6, w7, w8⟩ := hfr
          exact ⟨w1, w3, w4, by rw [k4.scopes]; exact w5, w6, w7.imp fun _ h => prefix_app _ h, w8⟩
        refine sim_return (v := mkUndefined) (rest := args ++ [v]) hfr4 k4.err ⟨R4.above.parts, R4.above.len⟩ R4.fits h4 hp3.right (by
          show st1.stack ++ [v] = _; rw [hstk]; simp) ?_
        intro m5 ⟨a5, o5⟩
        exact Sims.pure ⟨⟨k4.err, rfl, rfl⟩, a5, by rw [o5]; decide⟩
      | ret v =>
        obtain ⟨a5, o5⟩ := h4 _ rfl
        exact Sims.pure ⟨⟨k4.err, rfl, rfl⟩, a5, by rw [o5]; decide⟩
      | brk => exact Sims.undef
      | cont => exact Sims.undef
  · rw [if_neg hf]
    by_cases hf' : isNative f = true
    · rw [if_pos hf']
      intro out e
      unfold withThis at e
      obtain ⟨o, ho, e⟩ := Option.map_eq_some_iff.1 e
      cases o with
      | ok vm' v =>
        cases e
        obtain ⟨h1, h2, h3⟩ := Natives.ok ho S.err
        have hc := call_native (bp := bp) (pc := pc) hf hf' S.fits h2 (h3 _)
        obtain ⟨m1, s1, a1, o1⟩ := step1 S.pos hp.head (by rw [execOp_call, hc]; rfl) (vm' := { vm' with this := vm.this }) h1 (by omega)
        exact ⟨m1, s1, ⟨h1, h2, rfl⟩, a1, by rw [o1]; decide⟩
      | err vm' =>
        cases e
        obtain ⟨h1, h2, h3⟩ := Natives.err ho S.err
        have hF := S.fits
        by_cases hk : (callAt vm st bp pc).Fits args.length
        · obtain ⟨x, hx⟩ := h3 _ hk
          have hc := call_native (bp := bp) (pc := pc) hf hf' hF h2 (fun _ => hx)
          obtain ⟨mv, mb, mi, mo⟩ := m
          obtain ⟨w1, w2, w3⟩ := S.pos
          simp only at w1 w2 w3
          subst w1 w2 w3
          refine ⟨_, CALL, _, .refl _, hp.head, by rw [execOp_call, hc]; rfl, h1, ⟨rfl, rfl, rfl, rfl⟩, ?_⟩
          obtain ⟨q1, q2, q3, q4, q5, q6, q7⟩ := hA
          exact ⟨q1, q2, prefix_app _ q3, q4, q5, h2 ▸ q6, q7⟩
        · refine absurd ?_ hk
          obtain ⟨f1, f2, f3, f4, f5⟩ := hF
          simp only [Stacks.calling, List.length_append, List.length_cons, List.length_nil] at f1 f2 f3 f4
          exact ⟨by show st.stack.length + _ + 1 < _; omega,
            by simp only [callAt, List.length_append, List.length_cons, List.length_nil]; omega⟩
    · rw [if_neg hf']
      obtain ⟨e1, e2, e3, e4⟩ := calling_facts S.fits
      refine Sims.raise S.pos hp.head (st' := { st.calling f t args with argStack := st.argStack ++ [t] })
        (by rw [execOp_call, call_bad ⟨on vm (st.calling f t args), bp, pc, CALL⟩ _ f _ _ e1 e2 e3 e4 hf hf']; rfl) (by decide) ?_
      obtain ⟨q1, q2, q3, q4, q5, q6, q7⟩ := hA
      exact ⟨q1, q2, prefix_app _ q3, q4, prefix_app _ q5, q6, q7⟩

end Mjs.Exec
