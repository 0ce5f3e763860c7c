import Verif.Lemmas.CompileExpr

/-! The code of expressions does what they mean: the cases of the induction. -/

namespace Mjs.Exec
open Mjs Mjs.Str Mjs.Obj Mjs.Core Mjs.Code Mjs.Sem

variable {E : Env} [Natives E] {F : Nat → Option Fn} {b : Vm} {α β : Type} {d n : Nat} {vm : Vm} {st : Stacks} {bp : Part} {pc : Nat}
  {m : Mach}

omit [Natives E] in
/-- An instruction that pushes a constant. -/
theorem sim_const {v : Val} {op : UInt8} {e : Expr} (S : Start b d vm st bp pc m) (hp : Placed bp pc [op])
    (hx : execOp E ⟨on vm st, bp, pc, op⟩ m.op = some (.go ⟨push (on vm st) v, bp, pc, op⟩)) (hl : LastOp e op) :
    Sims E b (Pure.pure v) vm m (EQ vm st bp (pc + 1) e) := by
  have hlt := S.good.lt hp (by simp)
  refine Sims.step S.pos hp.head hx (vm' := vm) (st' := st.push v) S.err (by simp at hlt; omega) ?_
  intro m' h1 h2
  exact Sims.pure ⟨.refl S.err, h1, by rw [h2]; exact hl⟩

theorem cInt_nat {n : Nat} (h : n < 2 ^ 31) : cInt n = n := cInt_small h

omit [Natives E] in
/-- A jump. -/
theorem sim_jmp {x : Sem α} {vm0 : Vm} {k : Nat} {c : List UInt8} {Q : Vm → α → Mach → Prop} (he : vm.error = .ok)
    (ha : At m vm st bp pc) (hp : Placed bp pc (JMP :: vint k ++ c)) (hk : pc + 1 + (vint k).length + k < 2 ^ 31)
    (hs : ∀ m', At m' vm st bp (pc + 1 + (vint k).length + k) → m'.op = JMP → Sims E b x vm0 m' Q) : Sims E b x vm0 m Q := by
  have hv : operand bp.data (pc + 1) = some (k, (vint k).length) := operand_vint (c := c) hp.tail (by omega)
  refine Sims.step ha hp.head (by rw [execOp_jmp _ _ _ _ _ _ hv]) (vm' := vm) (st' := st) he (k := wrap ((pc : Int) + cInt k + (vint k).length)) ?_ ?_
  · rw [cInt_nat (by omega)]; unfold wrap; omega
  · intro m' h1 h2
    refine hs m' (h1.cast ?_) h2
    rw [cInt_nat (by omega)]; unfold wrap; omega

omit [Natives E] in
/-- A conditional jump that drops the condition; not taken if the value is true. -/
theorem sim_jmpFalse {x : Bool → Sem α} {k : Nat} {v : Val} {cd : List UInt8} {Q : Vm → α → Mach → Prop} (he : vm.error = .ok)
    (ha : At m vm (st.push v) bp pc) (hp : Placed bp pc (JMP_FALSE :: vint k ++ cd)) (hk : pc + 1 + (vint k).length + k < 2 ^ 31)
    (ht : ∀ m', At m' vm st bp (pc + 1 + (vint k).length) → m'.op = JMP_FALSE → Sims E b (x true) vm m' Q)
    (hf : ∀ m', At m' vm (st.push mkUndefined) bp (pc + 1 + (vint k).length + k) → m'.op = JMP_FALSE → Sims E b (x false) vm m' Q) :
    Sims E b (Sem.truthy v >>= x) vm m Q := by
  have hv : operand bp.data (pc + 1) = some (k, (vint k).length) := operand_vint (c := cd) hp.tail (by omega)
  refine Sims.truthy he fun c hc => ?_
  have hx := execOp_jmpFalse (E := E) (on vm (st.push v)) bp pc k (vint k).length m.op c hv (by rw [pop_on]; exact hc)
  rw [pop_on] at hx
  cases c with
  | true =>
    refine Sims.step ha hp.head hx (vm' := vm) (st' := st) he (by omega) ?_
    intro m' h1 h2
    exact ht m' (h1.cast (by omega)) h2
  | false =>
    refine Sims.step ha hp.head hx (vm' := vm) (st' := st.push mkUndefined) he (k := wrap ((pc : Int) + (vint k).length + cInt k)) ?_ ?_
    · rw [cInt_nat (by omega)]; unfold wrap; omega
    · intro m' h1 h2
      refine hf m' (h1.cast ?_) h2
      rw [cInt_nat (by omega)]; unfold wrap; omega

omit [Natives E] in
/-- A conditional jump that keeps the condition. -/
theorem sim_jmpNeutral {x : Bool → Sem α} {k : Nat} {v : Val} {cd : List UInt8} {Q : Vm → α → Mach → Prop} (sense : Bool) (he : vm.error = .ok)
    (ha : At m vm (st.push v) bp pc)
    (hp : Placed bp pc ((if sense then JMP_NEUTRAL_TRUE else JMP_NEUTRAL_FALSE) :: vint k ++ cd)) (hk : pc + 1 + (vint k).length + k < 2 ^ 31)
    (ht : ∀ m', At m' vm (st.push v) bp (pc + 1 + (vint k).length + k) → Sims E b (x sense) vm m' Q)
    (hf : ∀ m', At m' vm (st.push v) bp (pc + 1 + (vint k).length) → Sims E b (x (!sense)) vm m' Q) :
    Sims E b (Sem.truthy v >>= x) vm m Q := by
  have hv : operand bp.data (pc + 1) = some (k, (vint k).length) := operand_vint (c := cd) hp.tail (by omega)
  refine Sims.truthy he fun c hc => ?_
  have hcc : isTruthy (on vm (st.push v)).heap.str (vtop (on vm (st.push v)).stack) = some c := by rw [vtop_on]; exact hc
  have e1 : wrap ((pc : Int) + (vint k).length + cInt k) = pc + (vint k).length + k := by
    rw [cInt_nat (by omega)]; unfold wrap; omega
  have hx : execOp E ⟨on vm (st.push v), bp, pc, if sense then JMP_NEUTRAL_TRUE else JMP_NEUTRAL_FALSE⟩ m.op =
      some (.go ⟨on vm (st.push v), bp, if c = sense then pc + (vint k).length + k else pc + (vint k).length,
        if sense then JMP_NEUTRAL_TRUE else JMP_NEUTRAL_FALSE⟩) := by
    cases sense with
    | true =>
      simp only [if_true]
      rw [execOp_jmpNeutralTrue _ _ _ _ _ _ c hv hcc, e1]
      cases c <;> rfl
    | false =>
      simp only [Bool.false_eq_true, if_false]
      rw [execOp_jmpNeutralFalse _ _ _ _ _ _ c hv hcc, e1]
      cases c <;> rfl
  refine Sims.step ha hp.head hx (vm' := vm) (st' := st.push v) he (by split <;> omega) ?_
  intro m' h1 _
  by_cases h : c = sense
  · subst h
    rw [if_pos rfl] at h1
    exact ht m' (h1.cast (by omega))
  · rw [if_neg h] at h1
    have : c = !sense := by cases c <;> cases sense <;> simp_all
    rw [this]
    exact hf m' (h1.cast (by omega))

omit [Natives E] in
/-- `OP_DROP`. -/
theorem sim_drop {x : Sem α} {vm0 : Vm} {v : Val} {c : List UInt8} {Q : Vm → α → Mach → Prop} (hg : Good b bp) (he : vm.error = .ok)
    (ha : At m vm (st.push v) bp pc) (hp : Placed bp pc (DROP :: c))
    (hs : ∀ m', At m' vm st bp (pc + 1) → m'.op = DROP → Sims E b x vm0 m' Q) : Sims E b x vm0 m Q := by
  have hlt := hg.lt hp (by simp)
  simp only [List.length_cons] at hlt
  exact Sims.step ha hp.head (by rw [execOp_drop, pop_on]) (vm' := vm) (st' := st) he (by omega) hs

omit [Natives E] in
/-- `OP_SWAP`. -/
theorem sim_swap {x : Sem α} {vm0 : Vm} {v w : Val} {c : List UInt8} {Q : Vm → α → Mach → Prop} (hg : Good b bp) (he : vm.error = .ok)
    (ha : At m vm ((st.push v).push w) bp pc) (hp : Placed bp pc (SWAP :: c))
    (hs : ∀ m', At m' vm ((st.push w).push v) bp (pc + 1) → m'.op = SWAP → Sims E b x vm0 m' Q) : Sims E b x vm0 m Q := by
  have hlt := hg.lt hp (by simp)
  simp only [List.length_cons] at hlt
  exact Sims.step ha hp.head (by rw [execOp_swap]; simp only [pop_on]; rfl) (vm' := vm) (st' := (st.push w).push v) he (by omega) hs

omit [Natives E] in
/-- `OP_DUP`. -/
theorem sim_dup {x : Sem α} {vm0 : Vm} {v : Val} {c : List UInt8} {Q : Vm → α → Mach → Prop} (hg : Good b bp) (he : vm.error = .ok)
    (ha : At m vm (st.push v) bp pc) (hp : Placed bp pc (DUP :: c))
    (hs : ∀ m', At m' vm ((st.push v).push v) bp (pc + 1) → m'.op = DUP → Sims E b x vm0 m' Q) : Sims E b x vm0 m Q := by
  have hlt := hg.lt hp (by simp)
  simp only [List.length_cons] at hlt
  exact Sims.step ha hp.head (by rw [execOp_dup, vtop_on]; rfl) (vm' := vm) (st' := (st.push v).push v) he (by omega) hs

omit [Natives E] in
theorem sim_undef {x : Sem α} {vm0 : Vm} {c : List UInt8} {Q : Vm → α → Mach → Prop} (hg : Good b bp) (he : vm.error = .ok)
    (ha : At m vm st bp pc) (hp : Placed bp pc (PUSH_UNDEF :: c))
    (hs : ∀ m', At m' vm (st.push mkUndefined) bp (pc + 1) → m'.op = PUSH_UNDEF → Sims E b x vm0 m' Q) : Sims E b x vm0 m Q := by
  have hlt := hg.lt hp (by simp)
  simp only [List.length_cons] at hlt
  exact Sims.step ha hp.head (by rw [execOp_pushUndef]; rfl) (vm' := vm) (st' := st.push mkUndefined) he (by omega) hs

omit [Natives E] in
/-- A new object or array. -/
theorem sim_new {f : Vm → Option (Vm × Val)} {op : UInt8} {c : List UInt8} (R : Ready b d vm st bp) (ha : At m vm st bp pc)
    (hp : Placed bp pc (op :: c)) (hf : Local f)
    (hx : ∀ vm, execOp E ⟨vm, bp, pc, op⟩ m.op = (f vm).map fun r => .go ⟨push r.1 r.2, bp, pc, op⟩) :
    Sims E b (prim f) vm m fun vm' v m' => Kept vm vm' ∧ At m' vm' (st.push v) bp (pc + 1) ∧ m'.op = op := by
  have hlt := R.good.lt hp (by simp)
  simp only [List.length_cons] at hlt
  refine Sims.instr (g := fun v => st.push v) (st' := st) ha hf hp.head (hx _) (fun _ _ => rfl) (by omega)
    (fun vm' a hs => R.above.pushes hs [a]) ?_
  intro vm' v m' he hf' h1 h2
  exact ⟨hf.kept hf' he, h1, h2⟩

omit [Natives E] in
/-- Numerals in decimal. -/
theorem sim_int {k : Nat} (S : Start b d vm st bp pc m) (hp : Placed bp pc (code (.int k))) (hk : k < 2 ^ 64) :
    Sims E b (Pure.pure (mkInt (BitVec.ofNat 64 k).toInt)) vm m (EQ vm st bp (pc + (code (.int k)).length) (.int k)) := by
  simp only [code, List.length_cons] at *
  have hlt := S.good.lt hp (by simp)
  simp only [List.length_cons] at hlt
  have hv : operand bp.data (pc + 1) = some (k, (vint k).length) := operand_vint (c := []) (by rw [List.append_nil]; exact hp.tail) hk
  refine Sims.step S.pos hp.head (by rw [execOp_pushInt _ _ _ _ _ _ hv]; rfl) (vm' := vm) (st' := st.push _) S.err (by omega) ?_
  intro m' h1 h2
  exact Sims.pure ⟨.refl S.err, h1.cast (by omega), by rw [h2]; show PUSH_INT ≠ GET; decide⟩

omit [Natives E] in
/-- Other numerals. -/
theorem sim_dbl {t : List UInt8} (S : Start b d vm st bp pc m) (hp : Placed bp pc (code (.dbl t)))
    (hw : WfE F bp pc (.dbl t)) :
    Sims E b (Pure.pure (mkNumber (E.numVal t))) vm m (EQ vm st bp (pc + (code (.dbl t)).length) (.dbl t)) := by
  simp only [code, List.length_cons] at *
  have hlt := S.good.lt hp (by simp)
  simp only [List.length_cons, strB_length] at *
  have hpt : Placed bp (pc + 1) (vint t.length ++ t) := hp.tail
  have hv : operand bp.data (pc + 1) = some (t.length, (vint t.length).length) := operand_vint hpt (by omega)
  have ht : (bp.data.drop (pc + 1 + (vint t.length).length)).take
      (Tok.strtodLen (bp.data.drop (pc + 1 + (vint t.length).length))) = t := by
    obtain ⟨r, hr⟩ := hpt.right
    simp only [WfE] at hw
    rw [hw, hr]; simp
  have e1 : wrap ((pc : Int) + (vint t.length).length + cInt t.length) = pc + (vint t.length).length + t.length := by
    rw [cInt_nat (by omega)]; unfold wrap; omega
  refine Sims.step S.pos hp.head (by rw [execOp_pushDbl _ _ _ _ _ _ hv, ht, e1]; rfl) (vm' := vm) (st' := st.push _) S.err (by omega) ?_
  intro m' h1 h2
  exact Sims.pure ⟨.refl S.err, h1.cast (by omega), by rw [h2]; show PUSH_DBL ≠ GET; decide⟩

omit [Natives E] in
/-- The literal of a function: a jump over its code, then its address. -/
theorem sim_func {x : Sem α} {f : List UInt8} {c : List UInt8} {Q : Vm → α → Mach → Prop} (hg : Good b bp) (he : vm.error = .ok)
    (ha : At m vm st bp pc) (hp : Placed bp pc (JMP :: vint f.length ++ f ++ PUSH_FUNC :: vint f.length ++ c))
    (hs : ∀ m', At m' vm (st.push (mkFunction (BitVec.ofNat 64 (bp.startIdx + pc + 1 + (vint f.length).length)))) bp
      (pc + (JMP :: vint f.length ++ f ++ PUSH_FUNC :: vint f.length).length) → m'.op = PUSH_FUNC → Sims E b x vm m' Q) :
    Sims E b x vm m Q := by
  have hlt := hg.lt hp (by simp)
  have hsm := hg.small
  have hle := hp.le (by simp)
  simp only [List.length_append, List.length_cons] at *
  have hp1 : Placed bp pc (JMP :: vint f.length ++ (f ++ PUSH_FUNC :: vint f.length ++ c)) := by simpa using hp
  refine sim_jmp he ha hp1 (by omega) ?_
  intro m1 a1 _
  have hp2 : Placed bp (pc + 1 + (vint f.length).length + f.length) (PUSH_FUNC :: vint f.length ++ c) := by
    have : Placed bp pc ((JMP :: vint f.length ++ f) ++ (PUSH_FUNC :: vint f.length ++ c)) := by simpa using hp
    refine this.right.cast ?_
    simp only [List.length_append, List.length_cons]; omega
  have hv := operand_vint (n := f.length) (c := c) hp2.tail (by omega)
  refine Sims.step a1 hp2.head (by rw [execOp_pushFunc _ _ _ _ _ _ hv]; rfl) (vm' := vm) (st' := st.push _) he (by omega) ?_
  intro m2 a2 h2
  have hlen := vint_pos f.length
  have e1 : BitVec.ofInt 64 ((bp.startIdx : Int) + (pc + 1 + (vint f.length).length + f.length : Nat) - cInt f.length) =
      BitVec.ofNat 64 (bp.startIdx + pc + 1 + (vint f.length).length) := by
    rw [cInt_nat (by omega)]
    rw [show (bp.startIdx : Int) + (pc + 1 + (vint f.length).length + f.length : Nat) - (f.length : Nat) =
      ((bp.startIdx + pc + 1 + (vint f.length).length : Nat) : Int) by omega]
    exact BitVec.ofInt_natCast 64 _
  rw [e1] at a2
  exact hs m2 (a2.cast (by omega)) h2


/-- Expressions. -/
theorem eval_step (ih : IH E F b n) {e : Expr} (S : Start b d vm st bp pc m) (hp : Placed bp pc (code e))
    (hw : WfE F bp pc e) : Sims E b (eval E F (n + 1) d e) vm m (EQ vm st bp (pc + (code e).length) e) := by
  cases d with
  | zero => rw [eval]; exact Sims.undef; simp
  | succ d =>
  have R := S.ready
  cases e with
  | int k => rw [eval]; exact sim_int S hp (by simpa only [WfE] using hw)
  | dbl t => rw [eval]; exact sim_dbl S hp hw
  | str bs =>
    rw [eval]
    simp only [code] at *
    exact (sim_string R S.pos hp).mono fun vm' v m' h => ⟨h.1, h.2.1, by rw [h.2.2]; show PUSH_STR ≠ GET; decide⟩
  | tru => rw [eval]; exact sim_const S hp rfl (show PUSH_TRUE ≠ GET by decide)
  | fls => rw [eval]; exact sim_const S hp rfl (show PUSH_FALSE ≠ GET by decide)
  | null => rw [eval]; exact sim_const S hp rfl (show PUSH_NULL ≠ GET by decide)
  | undef => rw [eval]; exact sim_const S hp rfl (show PUSH_UNDEF ≠ GET by decide)
  | this => rw [eval]; exact Sims.current (sim_const S hp rfl (show PUSH_THIS ≠ GET by decide))
  | get l =>
    rw [eval]
    simp only [code, WfE] at *
    have hlt := S.good.lt hp (by simp)
    simp only [List.length_append, List.length_singleton] at *
    refine Sims.bind (ih.l (S.less (by omega)) hp.left hw) ?_
    intro vm1 p m1 ⟨k1, a1, o1⟩
    obtain ⟨k, o⟩ := p
    refine Sims.bind (Q := fun vm' v m' => Kept vm vm' ∧
      At m' { vm' with lastGetprop := receiver l o } (st.push v) bp
        (pc + ((codeL l).length + 1)) ∧ m'.op = GET) ?_ ?_
    · refine Sims.instrW (g := fun v => st.push v) (st' := st)
        (w := fun _ v => { v with lastGetprop := receiver l o })
        (k := pc + (codeL l).length) a1 (getProp_local E o k) hp.right.head
        (by rw [execOp_get, pop_on]; simp only [pop_on]; rfl) (fun _ _ => ⟨rfl, rfl, rfl, rfl⟩) ?_ (by omega)
        ?_ ?_
      · intro v vm'
        rw [o1]
        cases l <;> rfl
      · intro vm' v hs
        have := R.above.pushes (vm' := vm') (hs.trans k1.scopes) [v]
        exact ⟨this.parts, this.len, this.stack, this.callStack, this.argStack, this.scopes, this.loopAddrs⟩
      · intro vm' v m' he hf h1 h2
        exact ⟨k1.trans ((getProp_local E o k).kept hf he), h1.cast (by omega), h2⟩
    · intro vm2 v m2 ⟨k2, a2, o2⟩
      exact Sims.setLast (Sims.pure ⟨⟨k2.err, k2.scopes, k2.this⟩, a2, o2⟩)
  | obj ps =>
    rw [eval]
    simp only [code, WfE, List.length_cons] at *
    refine Sims.bind (sim_new R S.pos hp mkObj_local fun _ => execOp_pushObj _ _ _ _) ?_
    intro vm1 o m1 ⟨k1, a1, o1⟩
    refine Sims.bind (ih.props (R.same k1 (by omega : d ≤ d + 1)) a1 hp.tail hw) ?_
    intro vm2 _ m2 ⟨k2, a2, o2⟩
    exact Sims.pure ⟨k1.trans k2, a2.cast (by omega), o2 (by rw [o1]; decide)⟩
  | arr es =>
    rw [eval]
    simp only [code, WfE, List.length_cons] at *
    refine Sims.bind (sim_new R S.pos hp mkArr_local fun _ => execOp_pushArr _ _ _ _) ?_
    intro vm1 o m1 ⟨k1, a1, o1⟩
    refine Sims.bind (ih.items (R.same k1 (by omega : d ≤ d + 1)) a1 hp.tail hw) ?_
    intro vm2 _ m2 ⟨k2, a2, o2⟩
    exact Sims.pure ⟨k1.trans k2, a2.cast (by omega), o2 (by rw [o1]; decide)⟩
  | func label name ps body =>
    obtain ⟨hl, hF⟩ := (by simpa only [WfE] using hw : label = _ ∧ _)
    cases name with
    | none =>
      rw [eval]
      simp only [code] at *
      refine sim_func (c := []) (f := codeFun ps body) S.good S.err S.pos (by rw [List.append_nil]; exact hp) ?_
      intro m' h1 h2
      rw [hl]
      exact Sims.pure ⟨.refl S.err, h1, by rw [h2]; show PUSH_FUNC ≠ GET; decide⟩
    | some x =>
      rw [eval]
      simp only [code] at *
      have hp0 : Placed bp pc (create x ++ ((pushStr x ++ [FIND_SCOPE]) ++
          ((JMP :: vint (codeFun ps body).length ++ codeFun ps body ++ PUSH_FUNC :: vint (codeFun ps body).length) ++ [EXPR, 5]))) := by
        simpa [codeFun] using hp
      refine Sims.bind (sim_declare R S.pos hp0.left) ?_
      intro vm1 _ m1 ⟨k1, a1, _⟩
      have hp1 := hp0.right
      refine Sims.bind (sim_resolve (R.same k1 (by omega : d + 1 ≤ d + 1)) a1 hp1.left) ?_
      intro vm2 p m2 ⟨k2, a2, _⟩
      have hp2 := hp1.right
      refine sim_func S.good k2.err a2 hp2 ?_
      intro m3 a3 _
      have hp3 := hp2.right
      have hl' : label = bp.startIdx + (pc + (create x).length + (pushStr x ++ [FIND_SCOPE]).length) + 1 +
          (vint (codeFun ps body).length).length := by
        rw [hl]; simp only [litPos, List.length_append, List.length_singleton]; omega
      rw [← hl'] at a3
      refine (sim_store (op := none) R (k1.trans k2) a3 hp3).mono fun vm' v m' h => h.eq ?_ fun op h => h
      simp [codeFun]; omega
  | call f args =>
    rw [eval]
    simp only [code, WfE] at *
    have hp0 : Placed bp pc (code f ++ ARGS :: (codes args ++ [CALL])) := by simpa using hp
    have hlt := S.good.lt hp (by simp)
    simp only [List.length_append, List.length_singleton] at *
    refine Sims.bind (ih.e (S.less (by omega)) hp0.left hw.1) ?_
    intro vm1 fv m1 ⟨k1, a1, o1⟩
    have hp1 := hp0.right
    -- `OP_ARGS` remembers `this` and the place of the arguments
    have key : ∀ t, (if m1.op ≠ GET then mkUndefined else vm1.lastGetprop) = t →
        Sims E b (do let vs ← evalArgs E F n d args; callFn E F n (d - vs.length) fv t vs) { vm1 with lastGetprop := t } m1
          (EQ vm st bp (pc + ((code f).length + 1 + (codes args).length + 1)) (.call f args)) := by
      intro t ht
      have k1' : Kept vm { vm1 with lastGetprop := t } := ⟨k1.err, k1.scopes, k1.this⟩
      have hl : (on vm1 (st.push fv)).stack.length = st.stack.length + 1 := by simp [on, Stacks.push, Stacks.pushes]
      refine Sims.step a1 hp1.head (by rw [execOp_args]; simp only [on_last, ht, hl]; rfl) (vm' := { vm1 with lastGetprop := t })
        (st' := st.calling fv t []) (bp' := bp) (k := pc + (code f).length) k1.err (by omega) ?_
      intro m2 a2 _
      have f0 := S.fits
      have fits : ∀ vs vm', Kept vm vm' → vs.length ≤ d → Fits (st.calling fv t vs) vm' (d - vs.length) := by
        intro vs vm' hk hv
        obtain ⟨f1, f2, f3, f4, f5⟩ := f0
        refine ⟨?_, ?_, ?_, ?_, ?_⟩
        · simp only [Stacks.calling, List.length_append, List.length_cons]; omega
        · show st.callStack.length + _ < _; omega
        · simp only [Stacks.calling, List.length_append, List.length_cons, List.length_nil]; omega
        · show st.loopAddrs.length + _ < _; omega
        · rw [hk.scopes]; omega
      have above : ∀ vs vm', Kept vm vm' → Above b (on vm' (st.calling fv t vs)) := by
        intro vs vm' hk
        obtain ⟨q1, q2, q3, q4, q5, q6, q7⟩ := S.above
        exact ⟨q1, q2, prefix_app _ q3, q4, prefix_app _ q5, (by rw [on_scopes, hk.scopes]; exact q6), q7⟩
      have cp : ∀ vs, (st.calling fv t []).pushes vs = st.calling fv t vs := by
        intro vs; simp [Stacks.calling, Stacks.pushes]
      refine Sims.bind (ih.args ⟨S.good, a2, k1'.err, above [] _ k1', by simpa using fits [] _ k1' (by simp)⟩
        (hp1.tail.left) hw.2) ?_
      intro vm3 vs m3 ⟨k3, a3, hv⟩
      rw [cp] at a3
      have k3' := k1'.trans k3
      refine (ih.call ⟨S.good, a3, k3.err, above vs _ k3', fits vs _ k3' hv⟩ hp1.tail.right ?_).mono ?_
      · have := S.above.pushes k3'.scopes []
        rwa [pushes_nil] at this
      · intro vm4 v4 m4 h4
        exact ⟨k3'.trans h4.1, h4.2.1.cast (by omega), h4.2.2⟩
    have other : LastOp f m1.op → (∀ op, LastOp f op → op ≠ GET) →
        Sims E b (do setLast mkUndefined
                     let vs ← evalArgs E F n d args
                     callFn E F n (d - vs.length) fv mkUndefined vs) vm1 m1
          (EQ vm st bp (pc + ((code f).length + 1 + (codes args).length + 1)) (.call f args)) := by
      intro h h'
      exact Sims.setLast (key mkUndefined (by simp only [ne_eq, h' _ h, not_false_eq_true, if_true]))
    cases f with
    | get l =>
      refine Sims.bind (x := calleeThis (.get l)) (Q := fun vm' t m' => vm' = vm1 ∧ t = vm1.lastGetprop ∧ m' = m1)
        (Sims.current (Sims.pure ⟨rfl, rfl, rfl⟩)) ?_
      intro vm2 t m2 ⟨e1, e2, e3⟩
      subst e1 e2 e3
      have h : m2.op = GET := o1
      exact key _ (by simp [h])
    | and _ _ => exact Sims.bind (x := calleeThis (.and _ _)) (Q := fun _ _ _ => False) Sims.undef fun _ _ _ h => h.elim
    | or _ _ => exact Sims.bind (x := calleeThis (.or _ _)) (Q := fun _ _ _ => False) Sims.undef fun _ _ _ h => h.elim
    | cond _ _ _ => exact Sims.bind (x := calleeThis (.cond _ _ _)) (Q := fun _ _ _ => False) Sims.undef fun _ _ _ h => h.elim
    | int _ => exact other o1 fun _ h => h
    | dbl _ => exact other o1 fun _ h => h
    | str _ => exact other o1 fun _ h => h
    | tru => exact other o1 fun _ h => h
    | fls => exact other o1 fun _ h => h
    | null => exact other o1 fun _ h => h
    | undef => exact other o1 fun _ h => h
    | this => exact other o1 fun _ h => h
    | obj _ => exact other o1 fun _ h => h
    | arr _ => exact other o1 fun _ h => h
    | func _ _ _ _ => exact other o1 fun _ h => h
    | call _ _ => exact other o1 fun _ h => h
    | un _ _ => exact other o1 fun _ h => h
    | incr _ _ _ => exact other o1 fun _ h => h
    | bin _ _ _ => exact other o1 fun _ h => h
    | assign _ _ _ => exact other o1 fun _ h => h
  | un op e =>
    rw [eval]
    simp only [code, WfE] at *
    refine Sims.bind (ih.e (S.less (by omega)) hp.left hw) ?_
    intro vm1 v m1 ⟨k1, a1, _⟩
    exact (sim_unary R k1 a1 hp.right).mono fun vm' v m' h => h.eq (by simp; omega) fun op h => h
  | incr post plus l =>
    rw [eval]
    simp only [code, WfE] at *
    refine Sims.bind (ih.l (S.less (by omega)) hp.left hw) ?_
    intro vm1 p m1 ⟨k1, a1, _⟩
    exact (sim_incr R k1 a1 hp.right).mono fun vm' v m' h => h.eq (by simp; omega) fun op h => h
  | bin op x y =>
    rw [eval]
    simp only [code, WfE] at *
    rw [List.append_assoc] at hp
    refine Sims.bind (ih.e (S.less (by omega)) hp.left hw.1) ?_
    intro vm1 v m1 ⟨k1, a1, _⟩
    refine Sims.bind (ih.e (S.push k1 a1 (by omega)) hp.right.left hw.2) ?_
    intro vm2 w m2 ⟨k2, a2, _⟩
    exact (sim_binary R (k1.trans k2) a2 hp.right.right).mono fun vm' v m' h => h.eq (by simp; omega) fun op h => h
  | and x y =>
    rw [eval]
    simp only [code, WfE] at *
    have hp0 : Placed bp pc (code x ++ (JMP_NEUTRAL_FALSE :: vint (DROP :: code y).length ++ DROP :: code y)) := by simpa using hp
    have hlt := S.good.lt hp (by simp)
    simp only [List.length_append, List.length_cons] at *
    refine Sims.bind (ih.e (S.less (by omega)) hp0.left hw.1) ?_
    intro vm1 v m1 ⟨k1, a1, _⟩
    have hp1 := hp0.right
    have hp2 : Placed bp (pc + (code x).length + 1 + (vint ((code y).length + 1)).length) (DROP :: code y) :=
      hp1.right.cast (by simp only [List.length_cons]; omega)
    refine sim_jmpNeutral false k1.err a1 hp1 (by omega) ?_ ?_
    · intro m2 a2
      exact Sims.pure ⟨k1, a2.cast (by omega), trivial⟩
    · intro m2 a2
      refine sim_drop S.good k1.err a2 hp2 ?_
      intro m3 a3 _
      refine (ih.e (S.same k1 a3 (by omega)) hp2.tail hw.2).mono fun vm' v m' h => ⟨k1.trans h.1, h.2.1.cast (by omega), trivial⟩
  | or x y =>
    rw [eval]
    simp only [code, WfE] at *
    have hp0 : Placed bp pc (code x ++ (JMP_NEUTRAL_TRUE :: vint (DROP :: code y).length ++ DROP :: code y)) := by simpa using hp
    have hlt := S.good.lt hp (by simp)
    simp only [List.length_append, List.length_cons] at *
    refine Sims.bind (ih.e (S.less (by omega)) hp0.left hw.1) ?_
    intro vm1 v m1 ⟨k1, a1, _⟩
    have hp1 := hp0.right
    have hp2 : Placed bp (pc + (code x).length + 1 + (vint ((code y).length + 1)).length) (DROP :: code y) :=
      hp1.right.cast (by simp only [List.length_cons]; omega)
    refine sim_jmpNeutral true k1.err a1 hp1 (by omega) ?_ ?_
    · intro m2 a2
      exact Sims.pure ⟨k1, a2.cast (by omega), trivial⟩
    · intro m2 a2
      refine sim_drop S.good k1.err a2 hp2 ?_
      intro m3 a3 _
      refine (ih.e (S.same k1 a3 (by omega)) hp2.tail hw.2).mono fun vm' v m' h => ⟨k1.trans h.1, h.2.1.cast (by omega), trivial⟩
  | cond c x y =>
    rw [eval]
    simp only [code, WfE] at *
    have hlt := S.good.lt hp (by simp)
    generalize hra : code x ++ JMP :: vint (DROP :: code y).length = ra at *
    have hral := congrArg List.length hra
    have hp0 : Placed bp pc (code c ++ (JMP_FALSE :: vint ra.length ++ (ra ++ DROP :: code y))) := by simpa using hp
    simp only [List.length_append, List.length_cons] at *
    refine Sims.bind (ih.e (S.less (by omega)) hp0.left hw.1) ?_
    intro vm1 v m1 ⟨k1, a1, _⟩
    have hp1 := hp0.right
    have hp2 : Placed bp (pc + (code c).length + 1 + (vint ra.length).length) (ra ++ DROP :: code y) :=
      hp1.right.cast (by simp only [List.length_cons]; omega)
    refine sim_jmpFalse k1.err a1 hp1 (by omega) ?_ ?_
    · intro m2 a2 _
      have hp3 : Placed bp (pc + (code c).length + 1 + (vint ra.length).length)
          (code x ++ (JMP :: vint (DROP :: code y).length ++ DROP :: code y)) := by
        rw [← hra] at hp2 ⊢; simpa using hp2
      rw [if_pos rfl]
      refine (ih.e (S.same k1 a2 (by omega)) hp3.left hw.2.1).andThen ?_
      intro vm3 v3 m3 ⟨k3, a3, _⟩
      refine sim_jmp k3.err a3 hp3.right (by simp only [List.length_cons]; omega) ?_
      intro m4 a4 _
      exact Sims.pure ⟨k1.trans k3, a4.cast (by simp only [List.length_cons]; omega), trivial⟩
    · intro m2 a2 _
      refine sim_drop S.good k1.err a2 hp2.right ?_
      intro m3 a3 _
      refine (ih.e (S.same k1 a3 (by omega)) hp2.right.tail hw.2.2).mono fun vm' v m' h =>
        ⟨k1.trans h.1, h.2.1.cast (by omega), trivial⟩
  | assign op l e =>
    rw [eval]
    simp only [code, WfE] at *
    rw [List.append_assoc] at hp
    refine Sims.bind (ih.l (S.less (by omega)) hp.left hw.1) ?_
    intro vm1 p m1 ⟨k1, a1, _⟩
    refine Sims.bind (ih.e (st := (st.push p.1).push p.2) (d := d) ?_ hp.right.left hw.2) ?_
    · rw [show (st.push p.1).push p.2 = st.pushes [p.1, p.2] from pushes_push _ _ _] at *
      exact S.pushes k1 a1 (by simp only [List.length_cons, List.length_nil]; omega)
    intro vm2 w m2 ⟨k2, a2, _⟩
    exact (sim_store R (k1.trans k2) a2 hp.right.right).mono fun vm' v m' h => h.eq (by simp; omega) fun op h => h

/-- Key and object. -/
theorem evalL_step (ih : IH E F b n) {l : Lval} (S : Start b d vm st bp pc m) (hp : Placed bp pc (codeL l))
    (hw : WfL F bp pc l) : Sims E b (evalL E F (n + 1) d l) vm m (LQ vm st bp (pc + (codeL l).length) l) := by
  cases d with
  | zero => rw [evalL]; exact Sims.undef; simp
  | succ d =>
  have R := S.ready
  cases l with
  | var x => rw [evalL]; exact sim_resolve R S.pos hp
  | dot e x =>
    rw [evalL]
    simp only [codeL, WfL] at *
    rw [List.append_assoc] at hp
    refine Sims.bind (ih.e (S.less (by omega)) hp.left hw) ?_
    intro vm1 v m1 ⟨k1, a1, _⟩
    refine Sims.bind (sim_string (R.push (d' := d) k1 (by omega)) a1 hp.right.left) ?_
    intro vm2 k m2 ⟨k2, a2, _⟩
    refine sim_swap S.good k2.err a2 hp.right.right ?_
    intro m3 a3 o3
    exact Sims.pure ⟨k1.trans k2, a3.cast (by simp only [List.length_append, List.length_singleton]; omega), o3⟩
  | index e k =>
    rw [evalL]
    simp only [codeL, WfL] at *
    rw [List.append_assoc] at hp
    refine Sims.bind (ih.e (S.less (by omega)) hp.left hw.1) ?_
    intro vm1 v m1 ⟨k1, a1, _⟩
    refine Sims.bind (ih.e (S.push (d' := d) k1 a1 (by omega)) hp.right.left hw.2) ?_
    intro vm2 k m2 ⟨k2, a2, _⟩
    refine sim_swap S.good k2.err a2 hp.right.right ?_
    intro m3 a3 o3
    exact Sims.pure ⟨k1.trans k2, a3.cast (by simp only [List.length_append, List.length_singleton]; omega), o3⟩

/-- Arguments. -/
theorem evalArgs_step (ih : IH E F b n) {es : List Expr} (S : Start b d vm st bp pc m) (hp : Placed bp pc (codes es))
    (hw : WfArgs F bp pc es) : Sims E b (evalArgs E F (n + 1) d es) vm m fun vm' vs m' =>
      Kept vm vm' ∧ At m' vm' (st.pushes vs) bp (pc + (codes es).length) ∧ vs.length ≤ d := by
  cases d with
  | zero => rw [evalArgs]; exact Sims.undef; simp
  | succ d =>
  have R := S.ready
  cases es with
  | nil =>
    rw [evalArgs]
    exact Sims.pure ⟨.refl S.err, by rw [pushes_nil]; exact S.pos, by simp⟩
  | cons e es =>
    rw [evalArgs]
    simp only [codes, WfArgs, List.length_append] at *
    refine Sims.bind (ih.e (S.less (by omega)) hp.left hw.1) ?_
    intro vm1 v m1 ⟨k1, a1, _⟩
    refine Sims.bind (ih.args (S.push (d' := d) k1 a1 (by omega)) hp.right hw.2) ?_
    intro vm2 vs m2 ⟨k2, a2, hv⟩
    rw [pushes_push] at a2
    exact Sims.pure ⟨k1.trans k2, a2.cast (by omega), by simp only [List.length_cons]; omega⟩

omit [Natives E] in
/-- An operation without a result that pops two values. -/
theorem sim_append {v w : Val} {vm0 : Vm} {c : List UInt8} (R : Ready b d vm0 st bp) (hk : Kept vm0 vm)
    (ha : At m vm ((st.push v).push w) bp pc) (hp : Placed bp pc (APPEND :: c)) :
    Sims E b (prim fun vm => (append vm v w).map fun vm => (vm, ())) vm m fun vm' _ m' =>
      Kept vm0 vm' ∧ At m' vm' st bp (pc + 1) ∧ m'.op = APPEND := by
  have hlt := R.good.lt hp (by simp)
  simp only [List.length_cons] at hlt
  have hf := (append_local v w).lift
  refine Sims.instr (g := fun _ => st) (st' := st) ha hf hp.head (h' := fun r => r.1)
    (by rw [execOp_append]; simp only [pop_on, Option.map_map]; rfl) (fun _ _ => rfl) (by omega) (fun vm' a hs => ?_) ?_
  · have := R.above.pushes (hs.trans hk.scopes) []
    rwa [pushes_nil] at this
  · intro vm' u m' he hf' h1 h2
    exact ⟨hk.trans (hf.kept hf' he), h1, h2⟩

/-- Items of an array literal. -/
theorem evalItems_step (ih : IH E F b n) {a : Val} {es : List Expr} (R : Ready b d vm st bp) (ha : At m vm (st.push a) bp pc)
    (hp : Placed bp pc (codeItems es)) (hw : WfItems F bp pc es) :
    Sims E b (evalItems E F (n + 1) d a es) vm m (UQ vm (st.push a) bp (pc + (codeItems es).length) m.op) := by
  cases d with
  | zero => rw [evalItems]; exact Sims.undef; simp
  | succ d =>
  cases es with
  | nil =>
    rw [evalItems]
    exact Sims.pure ⟨.refl R.err, ha, fun h => h⟩
  | cons e es =>
    rw [evalItems]
    simp only [codeItems, WfItems, List.length_append, List.length_cons] at *
    have hp0 : Placed bp pc (DUP :: (code e ++ (APPEND :: codeItems es))) := by simpa using hp
    refine sim_dup R.good R.err ha hp0 ?_
    intro m1 a1 _
    have S2 : Start b d vm ((st.push a).push a) bp (pc + 1) m1 := by
      rw [show (st.push a).push a = st.pushes [a, a] from pushes_push _ _ _] at *
      exact (R.pushes (l := [a, a]) (.refl R.err) (by simp only [List.length_cons, List.length_nil]; omega)).start a1
    refine Sims.bind (ih.e S2 hp0.tail.left hw.1) ?_
    intro vm2 v m2 ⟨k2, a2, _⟩
    refine Sims.bind (sim_append (st := st.push a) (R.push (d' := d) (.refl R.err) (by omega)) k2 a2 hp0.tail.right) ?_
    intro vm3 _ m3 ⟨k3, a3, o3⟩
    refine (ih.items (R.same k3 (by omega : d + 1 ≤ d + 1)) a3 hp0.tail.right.tail hw.2).mono ?_
    intro vm4 _ m4 ⟨k4, a4, o4⟩
    exact ⟨k3.trans k4, a4.cast (by omega), fun _ => o4 (by rw [o3]; decide)⟩

/-- Members of an object literal. -/
theorem evalProps_step (ih : IH E F b n) {a : Val} {ps : List (Name × Expr)} (R : Ready b d vm st bp)
    (ha : At m vm (st.push a) bp pc) (hp : Placed bp pc (codeProps ps)) (hw : WfProps F bp pc ps) :
    Sims E b (evalProps E F (n + 1) d a ps) vm m (UQ vm (st.push a) bp (pc + (codeProps ps).length) m.op) := by
  cases d with
  | zero => rw [evalProps]; exact Sims.undef; simp
  | succ d =>
  cases ps with
  | nil =>
    rw [evalProps]
    exact Sims.pure ⟨.refl R.err, ha, fun h => h⟩
  | cons p ps =>
    obtain ⟨x, e⟩ := p
    rw [evalProps]
    simp only [codeProps, WfProps] at *
    have hp0 : Placed bp pc (DUP :: (pushStr x ++ (SWAP :: (code e ++ ([EXPR, 5] ++ (DROP :: codeProps ps)))))) := by simpa using hp
    refine sim_dup R.good R.err ha hp0 ?_
    intro m1 a1 _
    have R2 : Ready b d vm ((st.push a).push a) bp := by
      rw [show (st.push a).push a = st.pushes [a, a] from pushes_push _ _ _] at *
      exact R.pushes (l := [a, a]) (.refl R.err) (by simp only [List.length_cons, List.length_nil]; omega)
    have hp1 := hp0.tail
    refine Sims.bind (sim_string R2 a1 hp1.left) ?_
    intro vm2 k m2 ⟨k2, a2, _⟩
    have hp2 := hp1.right
    refine sim_swap R.good k2.err a2 hp2 ?_
    intro m3 a3 _
    have hp3 := hp2.tail
    have S3 : Start b d vm2 (((st.push a).push k).push a) bp (pc + 1 + (pushStr x).length + 1) m3 := by
      rw [show ((st.push a).push k).push a = st.pushes [a, k, a] by simp [Stacks.push, Stacks.pushes]] at *
      exact (R.pushes (l := [a, k, a]) k2 (by simp only [List.length_cons, List.length_nil]; omega)).start a3
    refine Sims.bind (ih.e S3 hp3.left hw.1) ?_
    intro vm4 v m4 ⟨k4, a4, _⟩
    refine Sims.bind (sim_store (E := E) (op := none) (p := (k, a)) (v := v) (st := st.push a) (vm0 := vm)
      (R.push (d' := d) (.refl R.err) (by omega)) (k2.trans k4) a4 hp3.right.left) ?_
    intro vm5 w m5 ⟨k5, a5, _⟩
    have hp5 : Placed bp (pc + 1 + (pushStr x).length + 1 + (code e).length + 2) (DROP :: codeProps ps) := hp3.right.right
    refine sim_drop R.good k5.err a5 hp5 ?_
    intro m6 a6 o6
    refine (ih.props (R.same k5 (by omega : d + 1 ≤ d + 1)) a6 hp5.tail hw.2).mono ?_
    intro vm7 _ m7 ⟨k7, a7, o7⟩
    refine ⟨k5.trans k7, a7.cast ?_, fun _ => o7 (by rw [o6]; decide)⟩
    simp only [List.length_append, List.length_cons, List.length_nil]; omega

end Mjs.Exec
