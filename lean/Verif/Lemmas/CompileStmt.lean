import Verif.Lemmas.CompileCall

/-! The code of statements does what they mean: the cases of the induction. -/

namespace Mjs.Exec
open Mjs Mjs.Str Mjs.Obj Mjs.Core Mjs.Code Mjs.Sem

variable {E : Env} [Natives E] {F : Nat → Option Fn} {b : Vm} {α β : Type} {d n : Nat} {vm : Vm} {st : Stacks} {bp : Part} {pc : Nat}
  {m : Mach}

/-! ## Stacks that grow -/

/-- The state `vm'` with stacks `st'` has more on its stacks and scopes. -/
structure Ext (vm : Vm) (st : Stacks) (vm' : Vm) (st' : Stacks) : Prop where
  parts : st'.parts = st.parts
  len : st'.bcodeLen = st.bcodeLen
  call : st'.callStack = st.callStack
  args : st'.argStack = st.argStack
  stack : st.stack <+: st'.stack
  loops : st.loopAddrs <+: st'.loopAddrs
  scopes : vm.scopes <+: vm'.scopes
  err : vm'.error = .ok

theorem Ready.ext {d' : Nat} {vm' : Vm} {st' : Stacks} (R : Ready b d vm st bp) (x : Ext vm st vm' st')
    (h1 : st'.stack.length + 16 * d' ≤ st.stack.length + 16 * d)
    (h2 : st'.loopAddrs.length + 16 * d' ≤ st.loopAddrs.length + 16 * d)
    (h3 : vm'.scopes.length + 16 * d' ≤ vm.scopes.length + 16 * d) : Ready b d' vm' st' bp := by
  obtain ⟨q1, q2, q3, q4, q5, q6, q7⟩ := R.above
  obtain ⟨g1, g2, g3, g4, g5⟩ := R.fits
  have l1 := x.stack.length_le
  refine ⟨R.good, x.err, ⟨x.parts.trans q1, x.len.trans q2, q3.trans x.stack, ?_, ?_, q6.trans x.scopes, q7.trans x.loops⟩,
    ⟨by omega, ?_, ?_, by omega, by omega⟩⟩
  · show b.callStack <+: st'.callStack; rw [x.call]; exact q4
  · show b.argStack <+: st'.argStack; rw [x.args]; exact q5
  · rw [x.call]; omega
  · rw [x.args]; omega

theorem InFrame.ext {fc : Option FrameCtx} {vm' : Vm} {st' : Stacks} (h : InFrame b fc st vm) (x : Ext vm st vm' st') :
    InFrame b fc st' vm' := by
  intro f hf
  obtain ⟨w1, w3, w4, w5, w6, w7, w8⟩ := h f hf
  exact ⟨w1, ⟨x.parts.trans w3.1, x.len.trans w3.2⟩, x.call.trans w4, w5.trans x.scopes, w6.trans x.loops,
    w7.imp fun _ h => h.trans x.stack,
    x.args.trans w8⟩

theorem InLoop.ext {lc : Option LoopCtx} {vm' : Vm} {st' : Stacks} (h : InLoop lc st vm) (hl : st'.loopAddrs = st.loopAddrs)
    (hs : vm.scopes <+: vm'.scopes) : InLoop lc st' vm' := by
  intro l e
  obtain ⟨h1, h2, h3⟩ := h l e
  exact ⟨hl.trans h1, Nat.le_trans h2 hs.length_le, h3⟩

theorem Kept.ext {vm' : Vm} (h : Kept vm vm') (l : List Val) : Ext vm st vm' (st.pushes l) :=
  ⟨rfl, rfl, rfl, rfl, List.prefix_append _ _, List.prefix_refl _, by rw [h.scopes]; exact List.prefix_refl _, h.err⟩

theorem Kept.ext0 {vm' : Vm} (h : Kept vm vm') : Ext vm st vm' st := by
  have := h.ext (st := st) []
  rwa [pushes_nil] at this

/-! ## Loops -/

omit [Natives E] in
theorem execOp_continue (vm : Vm) (bp : Part) (i k : Nat) (prev : UInt8) (o : List Val) (s r c : Val)
    (h : vm.loopAddrs = o ++ [s, r, c]) (hl : vm.loopAddrs.length < 2 ^ 31) (hs : wrap (getInt s) = k)
    (hk : k ≤ vm.scopes.length) :
    execOp E ⟨vm, bp, i, CONTINUE⟩ prev =
      some (.go ⟨{ vm with scopes := vm.scopes.take k }, bp, wrap (getInt c - 1), CONTINUE⟩) := by
  have h3 : vm.loopAddrs.length ≥ 3 := by rw [h]; simp
  have h4 : at? vm.loopAddrs (-3) = some s := by
    rw [at_neg _ hl (-3) 2 (by omega), h]; simp
  have h5 : vtop vm.loopAddrs = c := by rw [h]; simp [vtop]
  show (if vm.loopAddrs.length ≥ 3 then (at? vm.loopAddrs (-3)).bind fun sv => (setLen vm.scopes (wrap (getInt sv))).bind fun sc =>
      some (Next.go ⟨{ vm with scopes := sc }, bp, wrap (getInt (vtop vm.loopAddrs) - 1), CONTINUE⟩)
    else _) = _
  rw [if_pos h3, h4, h5]
  show (setLen vm.scopes (wrap (getInt s))).bind _ = _
  rw [hs, setLen, if_pos hk]
  rfl

omit [Natives E] in
theorem execOp_break (vm : Vm) (bp : Part) (i k : Nat) (prev : UInt8) (o : List Val) (s r c : Val)
    (h : vm.loopAddrs = o ++ [s, r, c]) (hs : wrap (getInt s) = k) (hk : k ≤ vm.scopes.length) :
    execOp E ⟨vm, bp, i, BREAK⟩ prev =
      some (.go ⟨{ vm with scopes := vm.scopes.take k, loopAddrs := o }, bp, wrap (getInt r - 1), BREAK⟩) := by
  have h3 : vm.loopAddrs.length ≥ 3 := by rw [h]; simp
  have e : o ++ [s, r, c] = ((o ++ [s]) ++ [r]) ++ [c] := by simp
  show (if vm.loopAddrs.length ≥ 3 then (popVal vm.loopAddrs).bind fun (_, l1) => (popVal l1).bind fun (bv, l2) =>
      (popVal l2).bind fun (sv, l3) => (setLen vm.scopes (wrap (getInt sv))).bind fun sc =>
      some (Next.go ⟨{ vm with scopes := sc, loopAddrs := l3 }, bp, wrap (getInt bv - 1), BREAK⟩)
    else _) = _
  rw [if_pos h3, h, e, popVal_append]
  show (popVal ((o ++ [s]) ++ [r])).bind _ = _
  rw [popVal_append]
  show (popVal (o ++ [s])).bind _ = _
  rw [popVal_append]
  show (setLen vm.scopes (wrap (getInt s))).bind _ = _
  rw [hs, setLen, if_pos hk]
  rfl

theorem wrap_pred (n : Nat) (h : 1 ≤ n) (h2 : n < 2 ^ 31) : wrap (getInt (mkInt n) - 1) = n - 1 := by
  rw [getInt_mkInt _ (by omega) (by omega)]
  unfold wrap; omega

omit [Natives E] in
/-- `OP_CONTINUE`. -/
theorem sim_continue {x : Sem α} {l : LoopCtx} {vm0 : Vm} {c : List UInt8} {Q : Vm → α → Mach → Prop} (R : Ready b d vm st bp)
    (hl : InLoop (some l) st vm) (ha : At m vm st bp pc) (hp : Placed bp pc (CONTINUE :: c))
    (hx : ∀ m', At m' { vm with scopes := vm.scopes.take l.k } st bp l.cont → Sims E b x vm0 m' Q) : Sims E b x vm0 m Q := by
  obtain ⟨h1, h2, h3, h4, h5, h6⟩ := hl l rfl
  have f4 := R.fits.loopAddrs
  have f5 := R.fits.scopes
  refine Sims.step ha hp.head
    (execOp_continue (on vm st) bp pc l.k _ l.outer _ _ _ h1 (by show st.loopAddrs.length < _; omega) (wrap_getInt _ (by omega)) h2)
    (vm' := { vm with scopes := vm.scopes.take l.k }) (st' := st) R.err (by rw [wrap_pred _ h5 h6]; omega) ?_
  intro m' a' _
  rw [wrap_pred _ h5 h6] at a'
  exact hx m' (a'.cast (by omega))

omit [Natives E] in
/-- `OP_BREAK`. -/
theorem sim_break {x : Sem α} {l : LoopCtx} {vm0 : Vm} {c : List UInt8} {Q : Vm → α → Mach → Prop} (he : vm.error = .ok)
    (f5 : vm.scopes.length < 2 ^ 31)
    (hl : InLoop (some l) st vm) (ha : At m vm st bp pc) (hp : Placed bp pc (BREAK :: c))
    (hx : ∀ m', At m' { vm with scopes := vm.scopes.take l.k } { st with loopAddrs := l.outer } bp l.brk → Sims E b x vm0 m' Q) :
    Sims E b x vm0 m Q := by
  obtain ⟨h1, h2, h3, h4, h5, h6⟩ := hl l rfl
  refine Sims.step ha hp.head
    (execOp_break (on vm st) bp pc l.k _ l.outer _ _ _ h1 (wrap_getInt _ (by omega)) h2)
    (vm' := { vm with scopes := vm.scopes.take l.k }) (st' := { st with loopAddrs := l.outer }) he
    (by rw [wrap_pred _ h3 h4]; omega) ?_
  intro m' a' _
  rw [wrap_pred _ h3 h4] at a'
  exact hx m' (a'.cast (by omega))

omit [Natives E] in
/-- `OP_LOOP`. -/
theorem sim_loop {x : Sem α} {o1 o2 : Nat} {vm0 : Vm} {c : List UInt8} {Q : Vm → α → Mach → Prop} (he : vm.error = .ok)
    (ha : At m vm st bp pc) (hp : Placed bp pc (LOOP :: (vint o1 ++ (vint o2 ++ c))))
    (h1 : pc + 1 + (vint o1).length + o1 < 2 ^ 31) (h2 : pc + 1 + (vint o1).length + (vint o2).length + o2 < 2 ^ 31)
    (hx : ∀ m', At m' vm { st with loopAddrs := st.loopAddrs ++ [mkInt vm.scopes.length,
        mkInt (pc + 1 + (vint o1).length + o1 : Nat), mkInt (pc + 1 + (vint o1).length + (vint o2).length + o2 : Nat)] } bp
        (pc + 1 + (vint o1).length + (vint o2).length) → Sims E b x vm0 m' Q) : Sims E b x vm0 m Q := by
  have hv1 := operand_vint hp.tail (by omega)
  have hv2 := operand_vint hp.tail.right (by omega)
  have e1 : wrap ((pc : Int) + 1 + (vint o1).length + cInt o1) = pc + 1 + (vint o1).length + o1 := by
    rw [cInt_nat (by omega)]; unfold wrap; omega
  have e2 : wrap ((pc : Int) + 1 + (vint o1).length + (vint o2).length + cInt o2) = pc + 1 + (vint o1).length + (vint o2).length + o2 := by
    rw [cInt_nat (by omega)]; unfold wrap; omega
  have e := execOp_loop (E := E) (on vm st) bp pc o1 _ o2 _ m.op hv1 hv2
  rw [e1, e2] at e
  refine Sims.step ha hp.head e (vm' := vm) (st' := { st with loopAddrs := st.loopAddrs ++ [mkInt vm.scopes.length,
        mkInt (pc + 1 + (vint o1).length + o1 : Nat), mkInt (pc + 1 + (vint o1).length + (vint o2).length + o2 : Nat)] }) he (by omega) ?_
  intro m' a' _
  exact hx m' (a'.cast (by omega))

omit [Natives E] in
/-- `OP_DEL_SCOPE`. -/
theorem sim_delScope {x : Sem α} {s : List Val} {o : Val} {vm0 : Vm} {c : List UInt8} {Q : Vm → α → Mach → Prop} (hg : Good b bp)
    (he : vm.error = .ok) (hs : vm.scopes = s ++ [o]) (ha : At m vm st bp pc) (hp : Placed bp pc (DEL_SCOPE :: c))
    (hx : ∀ m', At m' { vm with scopes := s } st bp (pc + 1) → Sims E b x vm0 m' Q) : Sims E b x vm0 m Q := by
  have hlt := hg.lt hp (by simp)
  simp only [List.length_cons] at hlt
  refine Sims.step ha hp.head (execOp_delScope (on vm st) bp pc _ (by show vm.scopes ≠ []; rw [hs]; simp))
    (vm' := { vm with scopes := vm.scopes.dropLast }) (st' := st) he (by omega) ?_
  intro m' a' _
  rw [hs, List.dropLast_concat] at a'
  exact hx m' a'

theorem vint_zero : vint 0 = [0] := Varint.encodeBytes_last 0 (by decide)

/-! ## Declarations and lists of expressions -/

theorem evalMore_step (ih : IH E F b n) {v : Val} {es : List Expr} (R : Ready b d vm st bp) (ha : At m vm (st.push v) bp pc)
    (hp : Placed bp pc (codeMore es)) (hw : WfMore F bp pc es) :
    Sims E b (evalMore E F (n + 1) d v es) vm m fun vm' c m' => Kept vm vm' ∧
      ∃ v', c = .normal v' ∧ At m' vm' (st.push v') bp (pc + (codeMore es).length) := by
  cases d with
  | zero => rw [evalMore]; exact Sims.undef; simp
  | succ d =>
  cases es with
  | nil => rw [evalMore]; exact Sims.pure ⟨.refl R.err, v, rfl, ha⟩
  | cons e es =>
    rw [evalMore]
    simp only [codeMore, WfMore, List.length_append, List.length_cons] at *
    refine sim_drop R.good R.err ha hp ?_
    intro m1 a1 _
    have hp1 : Placed bp (pc + 1) (code e ++ codeMore es) := hp.tail
    refine Sims.bind (ih.e ((R.same (.refl R.err) (by omega : d ≤ d + 1)).start a1) hp1.left hw.1) ?_
    intro vm2 v2 m2 ⟨k2, a2, _⟩
    refine (ih.more (R.same k2 (Nat.le_refl _)) a2 hp1.right hw.2).mono ?_
    intro vm3 c m3 ⟨k3, v3, e3, a3⟩
    exact ⟨k2.trans k3, v3, e3, a3.cast (by omega)⟩

theorem evalLet_step (ih : IH E F b n) {x : Name} {i : Option Expr} (S : Start b d vm st bp pc m) (hp : Placed bp pc (codeLet x i))
    (hw : WfLet F bp pc x i) :
    Sims E b (evalLet E F (n + 1) d x i) vm m fun vm' v m' => Kept vm vm' ∧ At m' vm' (st.push v) bp (pc + (codeLet x i).length) := by
  cases d with
  | zero => rw [evalLet]; exact Sims.undef; simp
  | succ d =>
  have R := S.ready
  cases i with
  | none =>
    rw [evalLet]
    simp only [codeLet, List.length_append, List.length_singleton] at *
    refine Sims.bind (sim_declare R S.pos hp.left) ?_
    intro vm1 _ m1 ⟨k1, a1, _⟩
    refine sim_undef S.good k1.err a1 hp.right ?_
    intro m2 a2 _
    exact Sims.pure ⟨k1, a2.cast (by omega)⟩
  | some e =>
    rw [evalLet]
    simp only [codeLet, WfLet] at *
    have hp0 : Placed bp pc (create x ++ ((pushStr x ++ [FIND_SCOPE]) ++ (code e ++ [EXPR, 5]))) := by simpa using hp
    refine Sims.bind (sim_declare R S.pos hp0.left) ?_
    intro vm1 _ m1 ⟨k1, a1, _⟩
    have hp1 := hp0.right
    refine Sims.bind (sim_resolve (R.same k1 (Nat.le_refl _)) a1 hp1.left) ?_
    intro vm2 p m2 ⟨k2, a2, _⟩
    have hp2 := hp1.right
    have k12 := k1.trans k2
    refine Sims.bind (ih.e (st := (st.push p.1).push p.2) (d := d) ?_ hp2.left ?_) ?_
    · rw [show (st.push p.1).push p.2 = st.pushes [p.1, p.2] from pushes_push _ _ _] at *
      exact S.pushes k12 a2 (by simp only [List.length_cons, List.length_nil]; omega)
    · rw [show pc + (create x).length + (pushStr x ++ [FIND_SCOPE]).length = pc + (create x).length + (pushStr x).length + 1 by
        simp only [List.length_append, List.length_singleton]; omega]
      exact hw
    intro vm3 v m3 ⟨k3, a3, _⟩
    refine (sim_store (op := none) R (k12.trans k3) a3 hp2.right).mono fun vm' v m' h => ⟨h.1, h.2.1.cast ?_⟩
    simp only [List.length_append, List.length_cons, List.length_nil]; omega

theorem evalLets_step (ih : IH E F b n) {v : Val} {ds : List (Name × Option Expr)} (R : Ready b d vm st bp)
    (ha : At m vm (st.push v) bp pc) (hp : Placed bp pc (codeLets ds)) (hw : WfLets F bp pc ds) :
    Sims E b (evalLets E F (n + 1) d v ds) vm m fun vm' c m' => Kept vm vm' ∧
      ∃ v', c = .normal v' ∧ At m' vm' (st.push v') bp (pc + (codeLets ds).length) := by
  cases d with
  | zero => rw [evalLets]; exact Sims.undef; simp
  | succ d =>
  cases ds with
  | nil => rw [evalLets]; exact Sims.pure ⟨.refl R.err, v, rfl, ha⟩
  | cons p ds =>
    obtain ⟨x, i⟩ := p
    rw [evalLets]
    simp only [codeLets, WfLets, List.length_append, List.length_cons] at *
    refine sim_drop R.good R.err ha hp ?_
    intro m1 a1 _
    have hp1 : Placed bp (pc + 1) (codeLet x i ++ codeLets ds) := hp.tail
    refine Sims.bind (ih.let_ ((R.same (.refl R.err) (by omega : d ≤ d + 1)).start a1) hp1.left hw.1) ?_
    intro vm2 v2 m2 ⟨k2, a2⟩
    refine (ih.lets (R.same k2 (Nat.le_refl _)) a2 hp1.right hw.2).mono ?_
    intro vm3 c m3 ⟨k3, v3, e3, a3⟩
    exact ⟨k2.trans k3, v3, e3, a3.cast (by omega)⟩

/-! ## Loops, round by round -/

theorem At.takeAll {k : Nat} (h : At m { vm with scopes := vm.scopes.take k } st bp pc) (hk : k = vm.scopes.length) :
    At m vm st bp pc := by
  subst hk; rw [List.take_length] at h; exact h

theorem InFrame.inner {fc : Option FrameCtx} {l : LoopCtx} (h : InFrame b fc { st with loopAddrs := l.outer } vm)
    (hl : InLoop (some l) st vm) : InFrame b fc st vm := by
  intro f hf
  obtain ⟨w1, w3, w4, w5, w6, w7, w8⟩ := h f hf
  refine ⟨w1, w3, w4, w5, w6.trans ?_, w7, w8⟩
  rw [(hl l rfl).1]
  exact List.prefix_append _ _

/-- The condition is on the stack: the body follows, or the loop ends. -/
theorem sim_round (ih : IH E F b n) {body : List Stmt} {f : Comp → Sem β} {g : Sem β} {l : LoopCtx} {fc : Option FrameCtx} {v : Val}
    {Q : Vm → β → Mach → Prop} (R : Ready b d vm st bp) (ha : At m vm (st.push v) bp pc)
    (hp : Placed bp pc (JMP_FALSE :: (vint (codeSs body ++ [DROP, CONTINUE]).length ++
      (codeSs body ++ [DROP, CONTINUE]) ++ [BREAK])))
    (hw : WfSs F bp (pc + 1 + (vint (codeSs body ++ [DROP, CONTINUE]).length).length) body)
    (hl : InLoop (some l) st vm) (hk : l.k = vm.scopes.length) (hfr : InFrame b fc st vm)
    (hnext : ∀ vm' m' r, Kept vm vm' → At m' vm' st bp l.cont → (r = .cont ∨ ∃ v, r = .normal v) → Sims E b (f r) vm' m' Q)
    (hbrk : ∀ vm' m', Kept vm vm' → At m' vm' { st.push mkUndefined with loopAddrs := l.outer } bp l.brk → Sims E b (f .brk) vm' m' Q)
    (hret : ∀ vm' m' v, Kept vm vm' → (∀ f, fc = some f → Returned f v vm' m') → Sims E b (f (.ret v)) vm' m' Q)
    (hend : ∀ m', At m' vm { st.push mkUndefined with loopAddrs := l.outer } bp l.brk → Sims E b g vm m' Q) :
    Sims E b (Sem.truthy v >>= fun c => if c = true then evalSs E F n d body >>= f else g) vm m Q := by
  have hlt := R.good.lt hp (by simp)
  have hp0 : Placed bp pc (JMP_FALSE :: vint (codeSs body ++ [DROP, CONTINUE]).length ++
      ((codeSs body ++ [DROP, CONTINUE]) ++ [BREAK])) := by simpa using hp
  have hp1 : Placed bp (pc + 1 + (vint (codeSs body ++ [DROP, CONTINUE]).length).length)
      ((codeSs body ++ [DROP, CONTINUE]) ++ [BREAK]) := hp0.tail.right
  have hp2 : Placed bp (pc + 1 + (vint (codeSs body ++ [DROP, CONTINUE]).length).length)
      (codeSs body ++ DROP :: CONTINUE :: [BREAK]) := by simpa using hp1
  generalize hL : (codeSs body ++ [DROP, CONTINUE]).length = L at *
  simp only [List.length_cons, List.length_append, hL, List.length_nil] at hlt
  refine sim_jmpFalse R.err ha hp0 (by omega) ?_ ?_
  · intro m1 a1 _
    rw [if_pos rfl]
    refine Sims.bind (ih.ss (some l) fc (R.start a1) hp2.left hw hl hfr) ?_
    intro vm2 r m2 ⟨k2, h2⟩
    have hk2 : l.k = vm2.scopes.length := by rw [k2.scopes]; exact hk
    cases r with
    | normal v2 =>
      refine sim_drop R.good k2.err h2 hp2.right ?_
      intro m3 a3 _
      refine sim_continue (R.same k2 (Nat.le_refl _)) (hl.ext rfl (by rw [k2.scopes]; exact List.prefix_refl _)) a3 hp2.right.tail ?_
      intro m4 a4
      exact hnext _ _ _ k2 (a4.takeAll hk2) (.inr ⟨v2, rfl⟩)
    | cont => exact hnext _ _ _ k2 ((h2 l rfl).takeAll hk2) (.inl rfl)
    | brk => exact hbrk _ _ k2 ((h2 l rfl).takeAll hk2)
    | ret v2 => exact hret _ _ _ k2 h2
  · intro m1 a1 _
    rw [if_neg (by simp)]
    have hp3 : Placed bp (pc + 1 + (vint L).length + L) [BREAK] := by
      rw [← hL]; exact (hL ▸ hp1).right
    refine sim_break (st := st.push mkUndefined) R.err (by have := R.fits.scopes; omega) (hl.ext rfl (List.prefix_refl _)) a1 hp3 ?_
    intro m2 a2
    exact hend _ (a2.takeAll hk)

theorem WQ.trans {vm1 : Vm} {out : List Val} {fc : Option FrameCtx} {vm' : Vm} {c : Comp} {m' : Mach} (k : Kept vm vm1)
    (h : WQ vm1 st bp pc out fc vm' c m') : WQ vm st bp pc out fc vm' c m' := ⟨k.trans h.1, h.2⟩

theorem InFrame.kept {fc : Option FrameCtx} {vm' : Vm} (h : InFrame b fc st vm) (k : Kept vm vm') : InFrame b fc st vm' :=
  h.ext k.ext0

theorem InLoop.kept {lc : Option LoopCtx} {vm' : Vm} (h : InLoop lc st vm) (k : Kept vm vm') : InLoop lc st vm' :=
  h.ext rfl (by rw [k.scopes]; exact List.prefix_refl _)

theorem Above.kept {vm' : Vm} (h : Above b (on vm st)) (k : Kept vm vm') : Above b (on vm' st) :=
  ⟨h.parts, h.len, h.stack, h.callStack, h.argStack, by rw [on_scopes, k.scopes]; exact h.scopes, h.loopAddrs⟩

theorem evalWhile_step (ih : IH E F b n) {c : Expr} {body : List Stmt} (l : LoopCtx) (fc : Option FrameCtx) (S : Start b d vm st bp pc m)
    (hp : Placed bp pc (code c ++ JMP_FALSE :: (vint (codeSs body ++ [DROP, CONTINUE]).length ++
      (codeSs body ++ [DROP, CONTINUE]) ++ [BREAK])))
    (hc : WfE F bp pc c)
    (hw : WfSs F bp (pc + (code c).length + 1 + (vint (codeSs body ++ [DROP, CONTINUE]).length).length) body)
    (hl : InLoop (some l) st vm) (hpc : l.cont = pc) (hk : l.k = vm.scopes.length)
    (hfr : InFrame b fc { st with loopAddrs := l.outer } vm) (hA : Above b (on vm { st with loopAddrs := l.outer })) :
    Sims E b (evalWhile E F (n + 1) d c body) vm m (WQ vm st bp l.brk l.outer fc) := by
  cases d with
  | zero => rw [evalWhile]; exact Sims.undef; simp
  | succ d =>
  rw [evalWhile]
  refine Sims.bind (ih.e (S.less (by omega)) hp.left hc) ?_
  intro vm1 v m1 ⟨k1, a1, _⟩
  have R1 := S.ready.same k1 (by omega : d ≤ d + 1)
  refine sim_round ih (l := l) (fc := fc) R1 a1 hp.right hw (hl.kept k1) (by rw [k1.scopes]; exact hk)
    ((hfr.inner hl).kept k1) ?_ ?_ ?_ ?_
  · intro vm2 m2 r k2 a2 hr
    have k12 := k1.trans k2
    have := ih.while_ (d := d + 1) (c := c) (body := body) l fc ((S.ready.same k12 (Nat.le_refl _)).start (a2.cast hpc)) hp hc hw (hl.kept k12) hpc
      (by rw [k12.scopes]; exact hk) (hfr.kept k12) (hA.kept k12)
    rcases hr with rfl | ⟨v, rfl⟩
    · exact this.mono fun _ _ _ => WQ.trans k12
    · exact this.mono fun _ _ _ => WQ.trans k12
  · intro vm2 m2 k2 a2
    exact Sims.pure ⟨k1.trans k2, a2⟩
  · intro vm2 m2 v k2 h2
    exact Sims.pure ⟨k1.trans k2, h2⟩
  · intro m2 a2
    exact Sims.pure ⟨k1, a2⟩

theorem evalFor_step (ih : IH E F b n) {c inc : Expr} {body : List Stmt} (l : LoopCtx) (fc : Option FrameCtx)
    (S : Start b d vm st bp (pc + (code inc ++ [DROP]).length) m)
    (hp : Placed bp pc ((code inc ++ [DROP]) ++ (code c ++ JMP_FALSE :: (vint (codeSs body ++ [DROP, CONTINUE]).length ++
      (codeSs body ++ [DROP, CONTINUE]) ++ [BREAK]))))
    (hi : WfE F bp pc inc) (hc : WfE F bp (pc + (code inc ++ [DROP]).length) c)
    (hw : WfSs F bp (pc + (code inc ++ [DROP]).length + (code c).length + 1 +
      (vint (codeSs body ++ [DROP, CONTINUE]).length).length) body)
    (hl : InLoop (some l) st vm) (hpc : l.cont = pc) (hk : l.k = vm.scopes.length)
    (hfr : InFrame b fc { st with loopAddrs := l.outer } vm) (hA : Above b (on vm { st with loopAddrs := l.outer })) :
    Sims E b (evalFor E F (n + 1) d c inc body) vm m (WQ vm st bp l.brk l.outer fc) := by
  cases d with
  | zero => rw [evalFor]; exact Sims.undef; simp
  | succ d =>
  rw [evalFor]
  have hpl := hp.left
  refine Sims.bind (ih.e (S.less (by omega)) hp.right.left hc) ?_
  intro vm1 v m1 ⟨k1, a1, _⟩
  have R1 := S.ready.same k1 (by omega : d ≤ d + 1)
  refine sim_round ih (l := l) (fc := fc) R1 a1 hp.right.right hw (hl.kept k1) (by rw [k1.scopes]; exact hk)
    ((hfr.inner hl).kept k1) ?_ ?_ ?_ ?_
  · intro vm2 m2 r k2 a2 hr
    have k12 := k1.trans k2
    have : Sims E b (eval E F n d inc >>= fun _ => evalFor E F n (d + 1) c inc body) vm2 m2 (WQ vm st bp l.brk l.outer fc) := by
      refine Sims.bind (ih.e ((S.ready.same k12 (by omega : d ≤ d + 1)).start (a2.cast hpc)) hpl.left hi) ?_
      intro vm3 v3 m3 ⟨k3, a3, _⟩
      refine sim_drop S.good k3.err a3 hpl.right ?_
      intro m4 a4 _
      have k13 := k12.trans k3
      have := ih.for_ (d := d + 1) (c := c) (body := body) l fc ((S.ready.same k13 (Nat.le_refl _)).start
        (a4.cast (by simp only [List.length_append, List.length_singleton]; omega))) hp hi hc hw (hl.kept k13) hpc
        (by rw [k13.scopes]; exact hk) (hfr.kept k13) (hA.kept k13)
      exact this.mono fun _ _ _ => WQ.trans k13
    rcases hr with rfl | ⟨v, rfl⟩
    · exact this
    · exact this
  · intro vm2 m2 k2 a2
    exact Sims.pure ⟨k1.trans k2, a2⟩
  · intro vm2 m2 v k2 h2
    exact Sims.pure ⟨k1.trans k2, h2⟩
  · intro m2 a2
    exact Sims.pure ⟨k1, a2⟩

omit [Natives E] in
theorem forInNext_eq (vm : Vm) (st : Stacks) (k o it : Val) (h : st.stack.length + 3 < 2 ^ 31) :
    forInNext E (on vm (((st.push k).push o).push it)) =
      (forInStep E (on vm (((st.push k).push o).push it)) k o it).map fun r =>
        { r.1 with stack := r.1.stack.set (st.stack.length + 2) r.2 } := by
  have e : (((st.push k).push o).push it).stack = st.stack ++ [k, o, it] := by simp [Stacks.push, Stacks.pushes]
  have hlen : (st.stack ++ [k, o, it]).length = st.stack.length + 3 := by simp
  have e1 : vptr (st.stack ++ [k, o, it]) (-1) = some (st.stack.length + 2) := by
    unfold vptr vptrIdx
    rw [hlen, cInt_small (by omega)]
    rw [if_pos (by omega), if_pos (by omega)]
    congr 1; omega
  have e2 : at? (st.stack ++ [k, o, it]) (-2) = some o := by
    rw [at_neg _ (by omega) (-2) 1 (by omega)]; simp
  have e3 : at? (st.stack ++ [k, o, it]) (-3) = some k := by
    rw [at_neg _ (by omega) (-3) 2 (by omega)]; simp
  have e4 : (st.stack ++ [k, o, it])[st.stack.length + 2]? = some it := by
    rw [List.getElem?_append_right (by omega)]; simp
  unfold forInNext
  rw [show (on vm (((st.push k).push o).push it)).stack = st.stack ++ [k, o, it] from e, e1]
  simp only [Option.bind_eq_bind, Option.bind_some, e4, e2, e3]
  by_cases h1 : isObject o
  · simp only [h1, if_true]
    cases forInStep E (on vm (((st.push k).push o).push it)) k o it <;> rfl
  · simp only [h1, Bool.false_eq_true, if_false]
    simp only [forInStep, h1, Bool.false_eq_true, if_false]
    rfl

theorem evalForIn_step (ih : IH E F b n) {k o it : Val} {body : List Stmt} (l : LoopCtx) (fc : Option FrameCtx)
    (R : Ready b d vm st bp) (ha : At m vm (((st.push k).push o).push it) bp pc)
    (hp : Placed bp pc (FOR_IN_NEXT :: DUP :: JMP_FALSE :: (vint (codeSs body ++ [DROP, CONTINUE]).length ++
      (codeSs body ++ [DROP, CONTINUE]) ++ [BREAK])))
    (hw : WfSs F bp (pc + 3 + (vint (codeSs body ++ [DROP, CONTINUE]).length).length) body)
    (hl : InLoop (some l) st vm) (hpc : l.cont = pc) (hk : l.k = vm.scopes.length)
    (hfr : InFrame b fc { st with loopAddrs := l.outer } vm) (hA : Above b (on vm { st with loopAddrs := l.outer })) :
    Sims E b (evalForIn E F (n + 1) d k o it body) vm m (FQ vm st bp l.brk l.outer k o fc) := by
  cases d with
  | zero => rw [evalForIn]; exact Sims.undef; simp
  | succ d =>
  rw [evalForIn]
  have hlt := R.good.lt hp (by simp)
  simp only [List.length_cons] at hlt
  have f1 := R.fits.stack
  have hset : ∀ it' : Val, { ((st.push k).push o).push it with stack := (((st.push k).push o).push it).stack.set (st.stack.length + 2) it' } =
      ((st.push k).push o).push it' := by
    intro it'
    simp only [Stacks.push, Stacks.pushes, List.append_assoc, List.cons_append, List.nil_append]
    congr 1
    rw [List.set_append_right _ _ (by omega)]
    simp
  refine Sims.bind (Q := fun vm' it' m' => Kept vm vm' ∧ At m' vm' (((st.push k).push o).push it') bp (pc + 1))
    (Sims.instr (g := fun it' => ((st.push k).push o).push it') (st' := ((st.push k).push o).push it) ha
      (forInStep_local E k o it) hp.head (by rw [execOp_forInNext, forInNext_eq _ _ _ _ _ (by omega), Option.map_map]; rfl)
      (fun it' v => ?_) (by omega) ?_ ?_) ?_
  · show on v { ((st.push k).push o).push it with stack := (((st.push k).push o).push it).stack.set (st.stack.length + 2) it' } = _
    rw [hset]
  · intro vm' it' hs
    have := R.above.pushes hs [k, o, it']
    simpa [Stacks.push, Stacks.pushes] using this
  · intro vm' it' m' he hf a _
    exact ⟨(forInStep_local E k o it).kept hf he, a⟩
  intro vm1 it1 m1 ⟨k1, a1⟩
  refine sim_dup R.good k1.err a1 hp.tail ?_
  intro m2 a2 _
  have e3 : ((st.push k).push o).push it1 = st.pushes [k, o, it1] := by simp [Stacks.push, Stacks.pushes]
  have R1 : Ready b (d + 1) vm1 st bp := R.same k1 (Nat.le_refl _)
  have R3 : Ready b d vm1 (((st.push k).push o).push it1) bp := by
    rw [e3]
    exact R.pushes k1 (by simp only [List.length_cons, List.length_nil]; omega)
  have x3 : Ext vm st vm1 (((st.push k).push o).push it1) := by rw [e3]; exact k1.ext _
  refine sim_round ih (l := l) (fc := fc) R3 a2 hp.tail.tail hw (hl.ext rfl x3.scopes) (by rw [k1.scopes]; exact hk)
    ((hfr.inner hl).ext x3) ?_ ?_ ?_ ?_
  · intro vm2 m2 r k2 a2 hr
    have k12 := k1.trans k2
    have := ih.forIn (d := d + 1) (body := body) l fc (R.same k12 (Nat.le_refl _)) (a2.cast hpc) hp hw (hl.kept k12) hpc
      (by rw [k12.scopes]; exact hk) (hfr.kept k12) (hA.kept k12)
    rcases hr with rfl | ⟨v, rfl⟩
    · exact this.mono fun _ _ _ h => ⟨k12.trans h.1, h.2⟩
    · exact this.mono fun _ _ _ h => ⟨k12.trans h.1, h.2⟩
  · intro vm2 m2 k2 a2
    exact Sims.pure ⟨k1.trans k2, rfl, it1, a2⟩
  · intro vm2 m2 v k2 h2
    exact Sims.pure ⟨k1.trans k2, h2⟩
  · intro m2 a2
    exact Sims.pure ⟨k1, rfl, it1, a2⟩

/-! ## Statements -/

theorem evalSs_step (ih : IH E F b n) {ss : List Stmt} (lc : Option LoopCtx) (fc : Option FrameCtx) (S : Start b d vm st bp pc m)
    (hp : Placed bp pc (codeSs ss)) (hw : WfSs F bp pc ss) (hl : InLoop lc st vm) (hfr : InFrame b fc st vm) :
    Sims E b (evalSs E F (n + 1) d ss) vm m (SQ vm st bp (pc + (codeSs ss).length) lc fc) := by
  cases d with
  | zero => rw [evalSs]; exact Sims.undef; simp
  | succ d =>
  cases ss with
  | nil =>
    rw [evalSs]
    refine sim_undef S.good S.err S.pos hp ?_
    intro m1 a1 _
    exact Sims.pure ⟨.refl S.err, a1⟩
  | cons s ss =>
    rw [evalSs]
    simp only [codeSs, WfSs, List.length_append] at *
    refine Sims.bind (ih.s lc fc (S.less (by omega)) hp.left hw.1 hl hfr) ?_
    intro vm1 c m1 ⟨k1, h1⟩
    cases c with
    | normal v =>
      refine (ih.rest (d := d) lc fc (S.ready.same k1 (by omega)) h1 hp.right hw.2 (hl.kept k1) (hfr.kept k1)).mono ?_
      intro vm2 c m2 ⟨k2, h2⟩
      rw [Nat.add_assoc] at h2
      exact ⟨k1.trans k2, h2⟩
    | brk => exact Sims.pure ⟨k1, h1⟩
    | cont => exact Sims.pure ⟨k1, h1⟩
    | ret v => exact Sims.pure ⟨k1, h1⟩

theorem evalRest_step (ih : IH E F b n) {v : Val} {ss : List Stmt} (lc : Option LoopCtx) (fc : Option FrameCtx) (R : Ready b d vm st bp)
    (ha : At m vm (st.push v) bp pc) (hp : Placed bp pc (codeRest ss)) (hw : WfRest F bp pc ss) (hl : InLoop lc st vm)
    (hfr : InFrame b fc st vm) :
    Sims E b (evalRest E F (n + 1) d v ss) vm m (SQ vm st bp (pc + (codeRest ss).length) lc fc) := by
  cases d with
  | zero => rw [evalRest]; exact Sims.undef; simp
  | succ d =>
  cases ss with
  | nil =>
    rw [evalRest]
    exact Sims.pure ⟨.refl R.err, ha⟩
  | cons s ss =>
    rw [evalRest]
    simp only [codeRest, WfRest, List.length_append, List.length_cons] at *
    refine sim_drop R.good R.err ha hp ?_
    intro m0 a0 _
    have hp1 : Placed bp (pc + 1) (codeS s ++ codeRest ss) := hp.tail
    refine Sims.bind (ih.s lc fc ((R.same (.refl R.err) (by omega : d ≤ d + 1)).start a0) hp1.left hw.1 hl hfr) ?_
    intro vm1 c m1 ⟨k1, h1⟩
    cases c with
    | normal v =>
      refine (ih.rest (d := d + 1) lc fc (R.same k1 (by omega)) h1 hp1.right hw.2 (hl.kept k1) (hfr.kept k1)).mono ?_
      intro vm2 c m2 ⟨k2, h2⟩
      rw [show pc + 1 + (codeS s).length + (codeRest ss).length = pc + ((codeS s).length + 1 + (codeRest ss).length) by omega] at h2
      exact ⟨k1.trans k2, h2⟩
    | brk => exact Sims.pure ⟨k1, h1⟩
    | cont => exact Sims.pure ⟨k1, h1⟩
    | ret v => exact Sims.pure ⟨k1, h1⟩

/-- Out of a scope by a jump. -/
theorem SQ.leave {vm1 : Vm} {o : Val} {lc : Option LoopCtx} {fc : Option FrameCtx} {vm' : Vm} {c : Comp} {m' : Mach} {pc' : Nat}
    (h : SQ vm1 st bp pc lc fc vm' c m') (hc : ∀ v, c ≠ .normal v) (hs : vm1.scopes = vm.scopes ++ [o]) (ht : vm1.this = vm.this)
    (hl : InLoop lc st vm) : SQ vm st bp pc' lc fc { vm' with scopes := vm.scopes } c m' := by
  obtain ⟨k, h⟩ := h
  have hk : ∀ l, lc = some l → vm'.scopes.take l.k = vm.scopes.take l.k := by
    intro l e
    rw [k.scopes, hs, List.take_append_of_le_length (hl l e).2.1]
  refine ⟨⟨k.err, rfl, k.this.trans ht⟩, ?_⟩
  cases c with
  | normal v => exact absurd rfl (hc v)
  | brk => intro l e; have := h l e; rw [hk l e] at this; exact this
  | cont => intro l e; have := h l e; rw [hk l e] at this; exact this
  | ret v => exact h

omit [Natives E] in
theorem sim_ret {x : Sem Comp} {v : Val} {c : List UInt8} {lc : Option LoopCtx} {fc : Option FrameCtx} {pc' : Nat} {vm1 : Vm}
    (R : Ready b d vm st bp) (hfr : InFrame b fc st vm) (k1 : Kept vm1 vm)
    (ha : At m vm (st.push v) bp pc) (hp : Placed bp pc (SETRETVAL :: RETURN :: c)) (hx : x = Pure.pure (.ret v)) :
    Sims E b x vm m (SQ vm1 st bp pc' lc fc) := by
  subst hx
  cases fc with
  | none => exact Sims.pure ⟨k1, fun f e => by cases e⟩
  | some f =>
    have fr := hfr f rfl
    obtain ⟨w, rest, hr⟩ := fr.stack
    have hst : st.stack = f.st.stack ++ w :: rest := by rw [← hr]; simp
    refine sim_setRetval fr R ha hp hst ?_
    intro m1 a1
    have fr1 : Frame b f { st with stack := f.st.stack ++ v :: rest } vm :=
      ⟨fr.good, fr.parts, fr.call, fr.scopes, fr.loops, ⟨v, rest, by simp⟩, fr.args⟩
    have f1 : Fits { st with stack := f.st.stack ++ v :: rest } vm d := by
      obtain ⟨g1, g2, g3, g4, g5⟩ := R.fits
      refine ⟨?_, g2, g3, g4, g5⟩
      rw [hst] at g1
      simp only [List.length_append, List.length_cons] at *
      exact g1
    refine sim_return fr1 R.err ⟨R.above.parts, R.above.len⟩ f1 a1 hp.tail rfl ?_
    intro m2 h2
    exact Sims.pure ⟨k1, fun f' e => by cases e; exact h2⟩

omit [Natives E] in
/-- The end of a statement with a scope of its own. -/
theorem sim_closeLoop {vm1 vm2 : Vm} {o : Val} {lc : Option LoopCtx} {fc : Option FrameCtx} {c : Comp} {c' : List UInt8} {st1 : Stacks}
    (hg : Good b bp) (hs : vm1.scopes = vm.scopes ++ [o]) (ht : vm1.this = vm.this) (hp : Placed bp pc (DEL_SCOPE :: c'))
    (hst : ∀ v, { st1.push v with loopAddrs := st.loopAddrs } = st.push v)
    (h : WQ vm1 st1 bp pc st.loopAddrs fc vm2 c m) :
    Sims E b (Sem.setScopes vm.scopes >>= fun _ => Pure.pure c) vm2 m (SQ vm st bp (pc + 1) lc fc) := by
  refine Sims.setScopes ?_
  obtain ⟨k, h⟩ := h
  have kk : Kept vm { vm2 with scopes := vm.scopes } := ⟨k.err, rfl, k.this.trans ht⟩
  cases c with
  | normal v =>
    simp only at h
    rw [hst] at h
    refine sim_delScope hg k.err (k.scopes.trans hs) h hp ?_
    intro m1 a1
    exact Sims.pure ⟨kk, a1⟩
  | brk => exact absurd h (by simp)
  | cont => exact absurd h (by simp)
  | ret v => exact Sims.pure ⟨kk, h⟩

/-- A loop begins. -/
def Stacks.looping (st : Stacks) (l : LoopCtx) : Stacks := { st with loopAddrs := st.loopAddrs ++ [mkInt l.k, mkInt l.brk, mkInt l.cont] }

theorem looping_facts {vm1 : Vm} {o : Val} {fc : Option FrameCtx} {l : LoopCtx} (R : Ready b (d + 1) vm st bp) (hfr : InFrame b fc st vm)
    (hs : vm1.scopes = vm.scopes ++ [o]) (he : vm1.error = .ok) (h0 : l.outer = st.loopAddrs) (h1 : l.k = vm1.scopes.length)
    (h2 : 1 ≤ l.brk ∧ l.brk < 2 ^ 31) (h3 : 1 ≤ l.cont ∧ l.cont < 2 ^ 31) :
    Ready b d vm1 (st.looping l) bp ∧ InLoop (some l) (st.looping l) vm1 ∧
      InFrame b fc { st.looping l with loopAddrs := l.outer } vm1 ∧ Above b (on vm1 { st.looping l with loopAddrs := l.outer }) := by
  have x1 : Ext vm st vm1 st := ⟨rfl, rfl, rfl, rfl, List.prefix_refl _, List.prefix_refl _, by rw [hs]; exact List.prefix_append _ _, he⟩
  have x2 : Ext vm st vm1 (st.looping l) := ⟨rfl, rfl, rfl, rfl, List.prefix_refl _, List.prefix_append _ _, by rw [hs]; exact List.prefix_append _ _, he⟩
  have hsl := congrArg List.length hs
  simp only [List.length_append, List.length_singleton] at hsl
  have R1 : Ready b d vm1 st bp := R.ext x1 (by omega) (by omega) (by omega)
  have hll : (st.looping l).loopAddrs.length = st.loopAddrs.length + 3 := by simp [Stacks.looping]
  have hss : (st.looping l).stack.length = st.stack.length := rfl
  refine ⟨R.ext x2 (by omega) (by omega) (by omega), ?_, ?_, ?_⟩
  · intro l' e
    cases e
    exact ⟨by rw [h0]; rfl, by omega, h2.1, h2.2, h3.1, h3.2⟩
  · rw [h0]; exact hfr.ext x1
  · rw [h0]; exact R1.above

theorem evalS_step (ih : IH E F b n) {s : Stmt} (lc : Option LoopCtx) (fc : Option FrameCtx) (S : Start b d vm st bp pc m)
    (hp : Placed bp pc (codeS s)) (hw : WfS F bp pc s) (hl : InLoop lc st vm) (hfr : InFrame b fc st vm) :
    Sims E b (evalS E F (n + 1) d s) vm m (SQ vm st bp (pc + (codeS s).length) lc fc) := by
  cases d with
  | zero => rw [evalS]; exact Sims.undef; simp
  | succ d =>
  have R := S.ready
  cases s with
  | empty =>
    rw [evalS]
    refine sim_undef S.good S.err S.pos hp ?_
    intro m1 a1 _
    exact Sims.pure ⟨.refl S.err, a1⟩
  | exprs e es =>
    rw [evalS]
    simp only [codeS, WfS, List.length_append] at *
    refine Sims.bind (ih.e (S.less (by omega)) hp.left hw.1) ?_
    intro vm1 v m1 ⟨k1, a1, _⟩
    refine (ih.more (d := d) (R.same k1 (by omega)) a1 hp.right hw.2).mono ?_
    rintro vm2 c m2 ⟨k2, v2, rfl, a2⟩
    exact ⟨k1.trans k2, a2.cast (by omega)⟩
  | lets x i ds =>
    rw [evalS]
    simp only [codeS, WfS, List.length_append] at *
    refine Sims.bind (ih.let_ (S.less (by omega)) hp.left hw.1) ?_
    intro vm1 v m1 ⟨k1, a1⟩
    refine (ih.lets (d := d) (R.same k1 (by omega)) a1 hp.right hw.2).mono ?_
    rintro vm2 c m2 ⟨k2, v2, rfl, a2⟩
    exact ⟨k1.trans k2, a2.cast (by omega)⟩
  | block ss =>
    rw [evalS]
    simp only [codeS, WfS, List.length_append, List.length_cons, List.length_nil] at *
    have hp0 : Placed bp pc (NEW_SCOPE :: (codeSs ss ++ [DEL_SCOPE])) := by simpa using hp
    refine Sims.current ?_
    refine Sims.bind (sim_enter R S.pos hp0) ?_
    intro vm1 _ m1 ⟨e1, ⟨o, s1⟩, t1, a1⟩
    have x1 : Ext vm st vm1 st := ⟨rfl, rfl, rfl, rfl, List.prefix_refl _, List.prefix_refl _, by rw [s1]; exact List.prefix_append _ _, e1⟩
    have R1 : Ready b d vm1 st bp := R.ext x1 (by omega) (by omega) (by rw [s1]; simp only [List.length_append, List.length_singleton]; omega)
    refine Sims.bind (ih.ss lc fc (R1.start a1) hp0.tail.left hw (hl.ext rfl x1.scopes) (hfr.ext x1)) ?_
    intro vm2 c m2 h2
    refine Sims.setScopes ?_
    cases c with
    | normal v =>
      obtain ⟨k2, h2⟩ := h2
      refine sim_delScope S.good k2.err (k2.scopes.trans s1) h2 hp0.tail.right ?_
      intro m3 a3
      exact Sims.pure ⟨⟨k2.err, rfl, k2.this.trans t1⟩, a3.cast (by omega)⟩
    | brk => exact Sims.pure (h2.leave (by simp) s1 t1 hl)
    | cont => exact Sims.pure (h2.leave (by simp) s1 t1 hl)
    | ret v => exact Sims.pure (h2.leave (by simp) s1 t1 hl)
  | ite c s =>
    rw [evalS]
    simp only [codeS, WfS] at *
    have hlt := S.good.lt hp (by simp)
    have hp0 : Placed bp pc (code c ++ (JMP_FALSE :: vint (codeS s).length ++ codeS s)) := by simpa using hp
    simp only [List.length_append, List.length_cons] at *
    refine Sims.bind (ih.e (S.less (by omega)) hp0.left hw.1) ?_
    intro vm1 v m1 ⟨k1, a1, _⟩
    refine sim_jmpFalse k1.err a1 hp0.right (by omega) ?_ ?_
    · intro m2 a2 _
      rw [if_pos rfl]
      refine (ih.s lc fc ((R.same k1 (by omega : d ≤ d + 1)).start a2) hp0.right.tail.right hw.2 (hl.kept k1) (hfr.kept k1)).mono ?_
      intro vm2 c m2 ⟨k2, h2⟩
      refine ⟨k1.trans k2, ?_⟩
      cases c with
      | normal v => exact At.cast h2 (by omega)
      | brk => exact h2
      | cont => exact h2
      | ret v => exact h2
    · intro m2 a2 _
      rw [if_neg (by simp)]
      exact Sims.pure ⟨k1, a2.cast (by omega)⟩
  | itee c s t =>
    rw [evalS]
    simp only [codeS, WfS] at *
    have hlt := S.good.lt hp (by simp)
    generalize hrs : codeS s ++ JMP :: vint (DROP :: codeS t).length = rs at *
    have hp0 : Placed bp pc (code c ++ (JMP_FALSE :: vint rs.length ++ (rs ++ (DROP :: codeS t)))) := by
      simpa using hp
    have hrl := congrArg List.length hrs
    simp only [List.length_append, List.length_cons] at *
    refine Sims.bind (ih.e (S.less (by omega)) hp0.left hw.1) ?_
    intro vm1 v m1 ⟨k1, a1, _⟩
    have hp1 := hp0.right.tail.right
    refine sim_jmpFalse k1.err a1 hp0.right (by omega) ?_ ?_
    · intro m2 a2 _
      rw [if_pos rfl]
      have hp2 : Placed bp (pc + (code c).length + 1 + (vint rs.length).length)
          (codeS s ++ (JMP :: vint ((codeS t).length + 1) ++ (DROP :: codeS t))) := by
        have := hp1
        generalize vint rs.length = vr at *
        rw [← hrs] at this; simpa using this
      refine (ih.s lc fc ((R.same k1 (by omega : d ≤ d + 1)).start a2) hp2.left hw.2.1 (hl.kept k1) (hfr.kept k1)).andThen ?_
      intro vm2 c m2 ⟨k2, h2⟩
      cases c with
      | normal v =>
        refine sim_jmp k2.err h2 hp2.right (by omega) ?_
        intro m3 a3 _
        exact Sims.pure ⟨k1.trans k2, a3.cast (by omega)⟩
      | brk => exact Sims.pure ⟨k1.trans k2, h2⟩
      | cont => exact Sims.pure ⟨k1.trans k2, h2⟩
      | ret v => exact Sims.pure ⟨k1.trans k2, h2⟩
    · intro m2 a2 _
      rw [if_neg (by simp)]
      refine sim_drop S.good k1.err a2 hp1.right ?_
      intro m3 a3 _
      refine (ih.s lc fc ((R.same k1 (by omega : d ≤ d + 1)).start a3) hp1.right.tail hw.2.2 (hl.kept k1) (hfr.kept k1)).mono ?_
      intro vm2 c m2 ⟨k2, h2⟩
      refine ⟨k1.trans k2, ?_⟩
      cases c with
      | normal v => exact At.cast h2 (by omega)
      | brk => exact h2
      | cont => exact h2
      | ret v => exact h2
  | «while» c body =>
    rw [evalS]
    simp only [codeS, WfS] at *
    have hlt := S.good.lt hp (by simp)
    generalize hr : (0 : UInt8) :: code c ++ JMP_FALSE :: vint (codeSs body ++ [DROP, CONTINUE]).length ++
      (codeSs body ++ [DROP, CONTINUE]) ++ [BREAK] = r at *
    have hp0 : Placed bp pc (NEW_SCOPE :: LOOP :: (vint r.length ++ (r ++ [DEL_SCOPE]))) := by simpa using hp
    have hp1 : Placed bp (pc + 1) (LOOP :: (vint r.length ++ (vint 0 ++ ((code c ++ JMP_FALSE ::
        (vint (codeSs body ++ [DROP, CONTINUE]).length ++ (codeSs body ++ [DROP, CONTINUE]) ++ [BREAK])) ++ [DEL_SCOPE])))) := by
      have := hp0.tail
      rw [vint_zero]
      generalize vint r.length = vr at *
      subst hr
      simpa using this
    have hpd : Placed bp (pc + 1 + 1 + (vint r.length).length + r.length) [DEL_SCOPE] := hp0.tail.tail.right.right
    have hrl : 1 ≤ r.length := by rw [← hr]; simp
    simp only [List.length_append, List.length_cons, List.length_nil] at hlt
    refine Sims.current ?_
    refine Sims.bind (sim_enter R S.pos hp0) ?_
    intro vm1 _ m1 ⟨e1, ⟨o, s1⟩, t1, a1⟩
    have hz : (vint 0).length = 1 := by rw [vint_zero]; rfl
    refine sim_loop e1 a1 hp1 (by omega) (by omega) ?_
    intro m2 a2
    obtain ⟨R2, hl2, hf2, hA2⟩ := looping_facts (l := ⟨vm1.scopes.length, pc + 1 + 1 + (vint r.length).length + r.length,
      pc + 1 + 1 + (vint r.length).length + (vint 0).length + 0, st.loopAddrs⟩) R hfr s1 e1 rfl rfl (by simp only; omega)
      (by simp only; omega)
    refine Sims.bind (ih.while_ (c := c) (body := body) _ fc (R2.start a2) hp1.tail.right.right.left ?_ ?_ hl2 ?_ rfl hf2 hA2) ?_
    · rw [hz]; exact hw.1
    · rw [hz]; exact hw.2
    · rfl
    intro vm2 c2 m3 h3
    exact (sim_closeLoop S.good s1 t1 hpd (fun v => rfl) h3).mono fun _ _ _ h => by
      simp only [List.length_append, List.length_cons, List.length_nil]
      rw [show pc + 1 + 1 + (vint r.length).length + r.length + 1 = pc + ((vint r.length).length + 1 + 1 + r.length + (0 + 1)) by omega] at h
      exact h
  | «for» init c inc body =>
    rw [evalS]
    simp only [codeS, WfS] at *
    have hlt := S.good.lt hp (by simp)
    generalize hrj : codeS init ++ DROP :: JMP :: vint (code inc ++ [DROP]).length = rj at *
    generalize hr : vint rj.length ++ rj ++ (code inc ++ [DROP]) ++ code c ++ JMP_FALSE ::
      vint (codeSs body ++ [DROP, CONTINUE]).length ++ (codeSs body ++ [DROP, CONTINUE]) ++ [BREAK] = r at *
    have hp0 : Placed bp pc (NEW_SCOPE :: LOOP :: (vint r.length ++ (r ++ [DEL_SCOPE]))) := by simpa using hp
    have hp1 : Placed bp (pc + 1) (LOOP :: (vint r.length ++ (vint rj.length ++ (rj ++ (((code inc ++ [DROP]) ++ (code c ++ JMP_FALSE ::
        (vint (codeSs body ++ [DROP, CONTINUE]).length ++ (codeSs body ++ [DROP, CONTINUE]) ++ [BREAK]))) ++ [DEL_SCOPE]))))) := by
      have := hp0.tail
      generalize vint r.length = vr at *
      subst hr
      generalize vint rj.length = vj at *
      simpa using this
    have hpd : Placed bp (pc + 1 + 1 + (vint r.length).length + r.length) [DEL_SCOPE] := hp0.tail.tail.right.right
    have hrl : (vint rj.length).length + rj.length + (code inc ++ [DROP]).length + 1 ≤ r.length := by
      rw [← hr]; simp only [List.length_append, List.length_cons, List.length_nil]; omega
    simp only [List.length_append, List.length_cons, List.length_nil] at hlt
    refine Sims.current ?_
    refine Sims.bind (sim_enter R S.pos hp0) ?_
    intro vm1 _ m1 ⟨e1, ⟨o, s1⟩, t1, a1⟩
    refine sim_loop e1 a1 hp1 (by omega) (by omega) ?_
    intro m2 a2
    obtain ⟨R2, hl2, hf2, hA2⟩ := looping_facts (l := ⟨vm1.scopes.length, pc + 1 + 1 + (vint r.length).length + r.length,
      pc + 1 + 1 + (vint r.length).length + (vint rj.length).length + rj.length, st.loopAddrs⟩) R hfr s1 e1 rfl rfl (by simp only; omega)
      (by simp only; omega)
    have hp2 := hp1.tail.right.right
    have hp3 : Placed bp (pc + 1 + 1 + (vint r.length).length + (vint rj.length).length)
        (codeS init ++ (DROP :: (JMP :: vint (code inc ++ [DROP]).length ++ []))) := by
      rw [List.append_nil, show JMP :: vint (code inc ++ [DROP]).length = JMP :: vint (code inc ++ [DROP]).length from rfl, hrj]
      exact hp2.left
    have hp4 := hp2.right.left
    refine Sims.bind (ih.s none none (R2.start a2) hp3.left hw.1 (fun l e => by cases e) (fun f e => by cases e)) ?_
    intro vm2 c2 m3 ⟨k2, h2⟩
    cases c2 with
    | brk => exact Sims.undef
    | cont => exact Sims.undef
    | ret v => exact Sims.undef
    | normal v =>
      have hjl := congrArg List.length hrj
      simp only [List.length_append, List.length_cons, List.length_nil] at hjl hrl
      refine sim_drop S.good k2.err h2 hp3.right ?_
      intro m4 a4 _
      refine sim_jmp k2.err a4 hp3.right.tail (by simp only [List.length_append, List.length_cons, List.length_nil] at *; omega) ?_
      intro m5 a5 _
      have a5' := a5.cast (pc' := pc + 1 + 1 + (vint r.length).length + (vint rj.length).length + rj.length + (code inc ++ [DROP]).length)
        (by simp only [List.length_append, List.length_cons, List.length_nil] at *; omega)
      refine Sims.bind (ih.for_ (c := c) (inc := inc) (body := body) _ fc ((R2.same k2 (Nat.le_refl _)).start a5') hp4 hw.2.1 hw.2.2.1 hw.2.2.2
        (hl2.kept k2) rfl (by rw [k2.scopes]) (hf2.kept k2) (hA2.kept k2)) ?_
      intro vm3 c3 m6 h3
      exact (sim_closeLoop S.good s1 t1 hpd (fun v => rfl) (h3.trans k2)).mono fun _ _ _ h => by
        simp only [List.length_append, List.length_cons, List.length_nil]
        rw [show pc + 1 + 1 + (vint r.length).length + r.length + 1 = pc + ((vint r.length).length + 1 + 1 + r.length + (0 + 1)) by omega] at h
        exact h
  | forIn isLet x e body =>
    rw [evalS]
    simp only [codeS, WfS] at *
    have hlt := S.good.lt hp (by simp)
    generalize hr : (0 : UInt8) :: FOR_IN_NEXT :: DUP :: JMP_FALSE :: vint (codeSs body ++ [DROP, CONTINUE]).length ++
      (codeSs body ++ [DROP, CONTINUE]) ++ [BREAK] = r at *
    generalize hcr : (if isLet = true then create x else []) = cr at *
    have hp0 : Placed bp pc (NEW_SCOPE :: (cr ++ (pushStr x ++ (code e ++ (PUSH_UNDEF :: LOOP :: (vint r.length ++ (r ++
      [DROP, DROP, DROP, DEL_SCOPE]))))))) := by simpa using hp
    have hp4 := hp0.tail.right.right.right.tail
    have hpd := hp4.tail.right.right
    have hp1 : Placed bp (pc + 1 + cr.length + (pushStr x).length + (code e).length + 1) (LOOP :: (vint r.length ++ (vint 0 ++ ((FOR_IN_NEXT :: DUP :: JMP_FALSE ::
        (vint (codeSs body ++ [DROP, CONTINUE]).length ++ (codeSs body ++ [DROP, CONTINUE]) ++ [BREAK])) ++ [DROP, DROP, DROP, DEL_SCOPE])))) := by
      have := hp4
      rw [vint_zero]
      generalize vint r.length = vr at *
      subst hr
      simpa using this
    have hrl : 1 ≤ r.length := by rw [← hr]; simp
    simp only [List.length_append, List.length_cons, List.length_nil] at hlt
    refine Sims.current ?_
    refine Sims.bind (sim_enter R S.pos hp0) ?_
    intro vm1 _ m1 ⟨e1, ⟨o1, s1⟩, t1, a1⟩
    have x1 : Ext vm st vm1 st := ⟨rfl, rfl, rfl, rfl, List.prefix_refl _, List.prefix_refl _, by rw [s1]; exact List.prefix_append _ _, e1⟩
    have hsl := congrArg List.length s1
    simp only [List.length_append, List.length_singleton] at hsl
    have R1 : Ready b d vm1 st bp := R.ext x1 (by omega) (by omega) (by omega)
    have hrest : ∀ vm2 m2, Kept vm1 vm2 → At m2 vm2 st bp (pc + 1 + cr.length) → Sims E b (string x >>= fun k => eval E F n d e >>= fun o =>
        evalForIn E F n d k o mkUndefined body >>= fun r => setScopes vm.scopes >>= fun _ => pure r) vm2 m2
        (SQ vm st bp (pc + (NEW_SCOPE :: cr ++ pushStr x ++ code e ++ PUSH_UNDEF :: LOOP :: vint r.length ++ r ++
            [DROP, DROP, DROP, DEL_SCOPE]).length) lc fc) := by
      intro vm2 m2 k2 a2
      refine Sims.bind (sim_string (R1.same k2 (Nat.le_refl _)) a2 hp0.tail.right.left) ?_
      intro vm3 k m3 ⟨k3, a3, _⟩
      have k13 := k2.trans k3
      have s3 : vm3.scopes = vm.scopes ++ [o1] := k13.scopes.trans s1
      have R3 : Ready b d vm3 (st.push k) bp := R.ext (⟨rfl, rfl, rfl, rfl, List.prefix_append _ _, List.prefix_refl _,
        by rw [s3]; exact List.prefix_append _ _, k3.err⟩) (by simp only [Stacks.push, Stacks.pushes, List.length_append, List.length_singleton]; omega)
        (by simp only [Stacks.push, Stacks.pushes]; omega) (by rw [k13.scopes]; omega)
      refine Sims.bind (ih.e (R3.start a3) hp0.tail.right.right.left hw.1) ?_
      intro vm4 o m4 ⟨k4, a4, _⟩
      refine sim_undef S.good k4.err a4 hp0.tail.right.right.right ?_
      intro m5 a5 _
      have k14 := k13.trans k4
      have s4 : vm4.scopes = vm.scopes ++ [o1] := k14.scopes.trans s1
      have hz : (vint 0).length = 1 := by rw [vint_zero]; rfl
      refine sim_loop k4.err a5 hp1 (by omega) (by omega) ?_
      intro m6 a6
      obtain ⟨R2, hl2, hf2, hA2⟩ := looping_facts (l := ⟨vm4.scopes.length,
        pc + 1 + cr.length + (pushStr x).length + (code e).length + 1 + 1 + (vint r.length).length + r.length,
        pc + 1 + cr.length + (pushStr x).length + (code e).length + 1 + 1 + (vint r.length).length + (vint 0).length + 0, st.loopAddrs⟩)
        R hfr s4 k4.err rfl rfl (by simp only; omega) (by simp only; omega)
      refine Sims.bind (ih.forIn (k := k) (o := o) (body := body) _ fc R2 a6 hp1.tail.right.right.left ?_ hl2 ?_ rfl hf2 hA2) ?_
      · rw [hz]
        have := hw.2
        rw [show pc + 1 + cr.length + (pushStr x).length + (code e).length + 2 + (vint r.length).length + 4 =
          pc + 1 + cr.length + (pushStr x).length + (code e).length + 1 + 1 + (vint r.length).length + 1 + 3 by omega] at this
        exact this
      · rfl
      intro vm5 c5 m7 ⟨k5, h5⟩
      have kk : Kept vm { vm5 with scopes := vm.scopes } := ⟨k5.err, rfl, (k14.trans k5).this.trans t1⟩
      refine Sims.setScopes ?_
      cases c5 with
      | brk => exact absurd h5 (by simp)
      | cont => exact absurd h5 (by simp)
      | ret v => exact Sims.pure ⟨kk, h5⟩
      | normal v =>
        obtain ⟨rfl, it, a7⟩ := h5
        refine sim_drop (st := ((st.push v).push o).push it) S.good k5.err a7 hpd ?_
        intro m8 a8 _
        refine sim_drop S.good k5.err a8 hpd.tail ?_
        intro m9 a9 _
        refine sim_drop S.good k5.err a9 hpd.tail.tail ?_
        intro m10 a10 _
        refine sim_delScope S.good k5.err (k5.scopes.trans s4) a10 hpd.tail.tail.tail ?_
        intro m11 a11
        exact Sims.pure ⟨kk, a11.cast (by simp only [List.length_append, List.length_cons, List.length_nil]; omega)⟩
    cases isLet with
    | true =>
      simp only [if_true] at hcr ⊢
      subst hcr
      refine Sims.bind (sim_declare R1 a1 hp0.tail.left) ?_
      intro vm2 _ m2 ⟨k2, a2, _⟩
      exact hrest _ _ k2 a2
    | false =>
      simp only [Bool.false_eq_true, if_false] at hcr ⊢
      subst hcr
      exact hrest _ _ (.refl e1) a1
  | «break» =>
    rw [evalS]
    simp only [codeS] at *
    cases lc with
    | none => exact Sims.pure ⟨.refl S.err, fun l e => by cases e⟩
    | some l =>
      refine sim_undef S.good S.err S.pos hp ?_
      intro m1 a1 _
      refine sim_break (st := st.push mkUndefined) S.err (by have := S.fits.scopes; omega) (hl.ext rfl (List.prefix_refl _)) a1 hp.tail ?_
      intro m2 a2
      exact Sims.pure ⟨.refl S.err, fun l' e => by cases e; exact a2⟩
  | «continue» =>
    rw [evalS]
    simp only [codeS] at *
    cases lc with
    | none => exact Sims.pure ⟨.refl S.err, fun l e => by cases e⟩
    | some l =>
      refine sim_continue R hl S.pos hp ?_
      intro m2 a2
      exact Sims.pure ⟨.refl S.err, fun l' e => by cases e; exact a2⟩
  | ret e =>
    cases e with
    | none =>
      rw [evalS]
      simp only [codeS] at *
      refine sim_undef S.good S.err S.pos hp ?_
      intro m1 a1 _
      exact sim_ret R hfr (.refl S.err) a1 hp.tail rfl
    | some e =>
      rw [evalS]
      simp only [codeS, WfS] at *
      refine Sims.bind (ih.e (S.less (by omega)) hp.left hw) ?_
      intro vm1 v m1 ⟨k1, a1, _⟩
      exact sim_ret (R.same k1 (Nat.le_refl _)) (hfr.kept k1) k1 a1 hp.right rfl

/-! ## Everything -/

theorem IH.zero : IH E F b 0 := by
  constructor
  · intros; rw [eval]; exact Sims.undef
  · intros; rw [evalL]; exact Sims.undef
  · intros; rw [evalArgs]; exact Sims.undef
  · intros; rw [evalItems]; exact Sims.undef
  · intros; rw [evalProps]; exact Sims.undef
  · intros; rw [callFn]; exact Sims.undef
  · intros; rw [evalS]; exact Sims.undef
  · intros; rw [evalMore]; exact Sims.undef
  · intros; rw [evalLet]; exact Sims.undef
  · intros; rw [evalLets]; exact Sims.undef
  · intros; rw [evalWhile]; exact Sims.undef
  · intros; rw [evalFor]; exact Sims.undef
  · intros; rw [evalForIn]; exact Sims.undef
  · intros; rw [evalSs]; exact Sims.undef
  · intros; rw [evalRest]; exact Sims.undef

/-- The code does what the semantics says, for every number of steps. -/
theorem IH.all (hW : World F b) : ∀ n, IH E F b n
  | 0 => .zero
  | n + 1 => by
    have ih := IH.all hW n
    exact {
      e := fun S hp hw => eval_step ih S hp hw
      l := fun S hp hw => evalL_step ih S hp hw
      args := fun S hp hw => evalArgs_step ih S hp hw
      items := fun R ha hp hw => evalItems_step ih R ha hp hw
      props := fun R ha hp hw => evalProps_step ih R ha hp hw
      call := fun S hp hA => callFn_step ih hW S hp hA
      s := fun lc fc S hp hw hl hf => evalS_step ih lc fc S hp hw hl hf
      more := fun R ha hp hw => evalMore_step ih R ha hp hw
      let_ := fun S hp hw => evalLet_step ih S hp hw
      lets := fun R ha hp hw => evalLets_step ih R ha hp hw
      while_ := fun l fc S hp hc hw hl h1 h2 h3 h4 => evalWhile_step ih l fc S hp hc hw hl h1 h2 h3 h4
      for_ := fun l fc S hp hi hc hw hl h1 h2 h3 h4 => evalFor_step ih l fc S hp hi hc hw hl h1 h2 h3 h4
      forIn := fun l fc R ha hp hw hl h1 h2 h3 h4 => evalForIn_step ih l fc R ha hp hw hl h1 h2 h3 h4
      ss := fun lc fc S hp hw hl hf => evalSs_step ih lc fc S hp hw hl hf
      rest := fun lc fc R ha hp hw hl hf => evalRest_step ih lc fc R ha hp hw hl hf }

end Mjs.Exec
