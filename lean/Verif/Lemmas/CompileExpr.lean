import Verif.Lemmas.CompileDefs

/-! The code of expressions does what they mean: one step of the induction. -/

namespace Mjs.Exec
open Mjs Mjs.Str Mjs.Obj Mjs.Core Mjs.Code Mjs.Sem

variable {E : Env} {F : Nat → Option Fn} {b : Vm} {α β : Type} {d : Nat} {vm : Vm} {st : Stacks} {bp : Part} {pc : Nat}
  {m : Mach}

theorem Good.lt {bp : Part} (h : Good b bp) {pc : Nat} {c : List UInt8} (hp : Placed bp pc c) (hc : c ≠ []) :
    pc + c.length < 2 ^ 31 - 1 := by
  have := hp.le hc; have := h.small; omega

theorem strB_length (s : List UInt8) : (strB s).length = (vint s.length).length + s.length := by
  simp [strB]

theorem pushStr_length (s : List UInt8) : (pushStr s).length = 1 + (vint s.length).length + s.length := by
  simp only [pushStr, List.length_cons, strB_length]; omega

/-- Strings. -/
theorem sim_string {bs : List UInt8} (R : Ready b d vm st bp) (ha : At m vm st bp pc) (hp : Placed bp pc (pushStr bs)) :
    Sims E b (Sem.string bs) vm m fun vm' k m' =>
      Kept vm vm' ∧ At m' vm' (st.push k) bp (pc + (pushStr bs).length) ∧ m'.op = PUSH_STR := by
  have hlt := R.good.lt hp (by simp [pushStr])
  have hlen := pushStr_length bs
  have hop : Placed bp (pc + 1) (vint bs.length ++ bs) := hp.tail
  have hv := operand_vint hop (by omega)
  have hb := bytes_placed hop.right (by have := hop.le (by have := vint_pos bs.length; intro h; rw [List.append_eq_nil_iff] at h; rw [h.1] at this; simp at this); simp only [List.length_append] at this; omega)
  refine Sims.instr (g := fun k => st.push k) (st' := st) (k := pc + (vint bs.length).length + bs.length) ha (mkStr_local bs) hp.head
    (execOp_pushStr _ _ _ _ bs _ hv (by omega) hb) (fun _ _ => rfl) (by omega) (fun vm' a hs => R.above.pushes hs [a]) ?_
  intro vm' k m' he hf h1 h2
  exact ⟨(mkStr_local bs).kept hf he, h1.cast (by omega), h2⟩

/-- The scope of a variable. -/
theorem sim_resolve {x : Name} (R : Ready b d vm st bp) (ha : At m vm st bp pc)
    (hp : Placed bp pc (pushStr x ++ [FIND_SCOPE])) :
    Sims E b (resolve E x) vm m fun vm' p m' =>
      Kept vm vm' ∧ At m' vm' ((st.push p.1).push p.2) bp (pc + (pushStr x ++ [FIND_SCOPE]).length) ∧ m'.op = FIND_SCOPE := by
  have hlt := R.good.lt hp (by simp [pushStr])
  unfold resolve
  refine Sims.bind (sim_string R ha hp.left) ?_
  intro vm1 k m1 ⟨k1, a1, _⟩
  simp only [List.length_append, List.length_singleton] at *
  refine Sims.bind (Q := fun vm' s m' => Kept vm vm' ∧ At m' vm' ((st.push k).push s) bp
    (pc + ((pushStr x).length + 1)) ∧ m'.op = FIND_SCOPE) ?_ ?_
  · refine Sims.instr (g := fun s => (st.push k).push s) (st' := st.push k) (k := pc + (pushStr x).length) a1 (findScope_local E k) hp.right.head
      (by rw [execOp_findScope, vtop_on]) (fun _ _ => rfl) (by omega)
      (fun vm' a hs => (R.above.pushes k1.scopes [k]).pushes hs [a]) ?_
    · intro vm' s m' he hf h1 h2
      exact ⟨k1.trans ((findScope_local E k).kept hf he), h1.cast (by omega), h2⟩
  · intro vm2 s m2 h
    exact Sims.pure h

/-- `let x` in the innermost scope. -/
theorem sim_declare {x : Name} (R : Ready b d vm st bp) (ha : At m vm st bp pc) (hp : Placed bp pc (create x)) :
    Sims E b (declare E x) vm m fun vm' _ m' =>
      Kept vm vm' ∧ At m' vm' st bp (pc + (create x).length) ∧ m'.op = CREATE := by
  have hlt := R.good.lt hp (by simp [create])
  unfold create at *
  unfold declare
  refine Sims.bind (sim_string R ha hp.left) ?_
  intro vm1 k m1 ⟨k1, a1, _⟩
  have hp1 := hp.right
  simp only [List.length_append, List.length_cons, List.length_nil] at *
  by_cases hs : vm1.scopes.length > 0
  · refine Sims.step a1 hp1.head (by rw [execOp_pushScope, if_pos (show (on vm1 (st.push k)).scopes.length > 0 from hs)]; rfl) (vm' := vm1)
      (st' := (st.push k).push (vtop vm1.scopes)) k1.err (by omega) ?_
    intro m2 a2 _
    have hloc : Local fun vm => if vm.scopes.length > 0 then (createIn E vm (vtop vm.scopes) k).map fun vm => (vm, ()) else none := by
      intro v c hc
      simp only [put_scopes, hc]
      split
      · exact (createIn_local E _ k).lift v c hc
      · rfl
    refine Sims.instr (g := fun _ => st) (st' := st) (k := pc + (pushStr x).length + 1) a2 hloc hp1.tail.head (h' := fun r => r.1) ?_ (fun _ _ => rfl) (by omega) (fun vm' a hs => ?_) ?_
    · rw [execOp_create, pop_on]
      simp only [pop_on]
      have hs' : (on vm1 st).scopes.length > 0 := hs
      rw [if_pos hs']
      rw [Option.map_map]
      rfl
    · have := R.above.pushes (vm' := vm') (st := st) (by rw [hs, k1.scopes]) []
      rwa [pushes_nil] at this
    · intro vm' u m' he hf h1 h2
      exact ⟨k1.trans (hloc.kept hf he), h1.cast (by omega), h2⟩
  · intro out e
    unfold prim at e
    simp only [hs, if_false, Option.map_none] at e
    cases e

/-- An operator of `OP_EXPR` that is an operation of the engine with one result. -/
theorem sim_expr {f : Vm → Option (Vm × Val)} {vm0 : Vm} {st0 : Stacks} {op : UInt8} (R : Ready b d vm0 st bp)
    (hk : Kept vm0 vm) (ha : At m vm st0 bp pc) (hp : Placed bp pc [EXPR, op]) (hf : Local f)
    (hx : execExpr E (on vm st0) op.toNat = (f (on vm st)).map fun r => push r.1 r.2) :
    Sims E b (prim f) vm m (VQ vm0 st bp (pc + 2)) := by
  have hlt := R.good.lt hp (by simp)
  simp only [List.length_cons, List.length_nil] at hlt
  refine Sims.instr (g := fun v => st.push v) (st' := st) ha hf hp.head (h' := fun r => push r.1 r.2) ?_ (fun _ _ => rfl) (k := pc + 1) (by omega)
    (fun vm' a hs => R.above.pushes (hs.trans hk.scopes) [a]) ?_
  · rw [execOp_expr _ _ _ op _ hp.tail.head, hx, Option.map_map]
    rfl
  · intro vm' v m' he hf' h1 h2
    exact ⟨hk.trans (hf.kept hf' he), h1, by rw [h2]; decide⟩

/-- An operator of `OP_EXPR` that only computes. -/
theorem sim_expr_pure {v : Val} {vm0 : Vm} {st0 : Stacks} {op : UInt8} (R : Ready b d vm0 st bp)
    (hk : Kept vm0 vm) (ha : At m vm st0 bp pc) (hp : Placed bp pc [EXPR, op])
    (hx : execExpr E (on vm st0) op.toNat = some (push (on vm st) v)) :
    Sims E b (Pure.pure v) vm m (VQ vm0 st bp (pc + 2)) := by
  have hlt := R.good.lt hp (by simp)
  simp only [List.length_cons, List.length_nil] at hlt
  refine Sims.step ha hp.head (by rw [execOp_expr _ _ _ op _ hp.tail.head, hx]; rfl) (vm' := vm) (st' := st.push v)
    (k := pc + 1) hk.err (by omega) ?_
  intro m' h1 h2
  exact Sims.pure ⟨hk, h1, by rw [h2]; decide⟩

/-- Unary operators. -/
theorem sim_unary {op : UnOp} {v : Val} {vm0 : Vm} (R : Ready b d vm0 st bp) (hk : Kept vm0 vm)
    (ha : At m vm (st.push v) bp pc) (hp : Placed bp pc [EXPR, op.tok]) :
    Sims E b (unary op v) vm m (VQ vm0 st bp (pc + 2)) := by
  cases op with
  | not =>
    refine Sims.truthy hk.err fun c hc => ?_
    refine sim_expr_pure R hk ha hp ?_
    show (let (a, vm) := pop (on vm (st.push v)); (isTruthy vm.heap.str a).map fun b => push vm (mkBoolean !b)) = _
    rw [pop_on]
    show (isTruthy vm.heap.str v).map _ = _
    rw [hc]; rfl
  | tilda =>
    refine sim_expr_pure R hk ha hp ?_
    show (let (a, vm) := pop (on vm (st.push v)); some (push vm (mkNumber (ofIntD (-toI64 (getDouble a) - 1))))) = _
    rw [pop_on]
  | typeof =>
    refine sim_expr R hk ha hp ?_ ?_
    · intro v' c hc
      cases h : getType v with
      | none => rfl
      | some t => exact mkStr_local _ v' c hc
    · show (let (a, vm) := pop (on vm (st.push v));
        (getType a).bind fun t => (mkStr vm (typeName t)).map fun (r : Vm × Val) => push r.1 r.2) = _
      rw [pop_on]
      show ((getType v).bind fun t => (mkStr (on vm st) (typeName t)).map fun r => push r.1 r.2) = _
      cases getType v <;> rfl
  | minus =>
    refine sim_expr_pure R hk ha hp ?_
    show (let (a, vm) := pop (on vm (st.push v)); some (push vm (mkNumber (negD (getDouble a))))) = _
    rw [pop_on]
  | plus => exact sim_expr_pure R hk ha hp rfl

/-- Binary operators. -/
theorem sim_binary {op : BinOp} {x y : Val} {vm0 : Vm} (R : Ready b d vm0 st bp) (hk : Kept vm0 vm)
    (ha : At m vm ((st.push x).push y) bp pc) (hp : Placed bp pc [EXPR, op.tok]) :
    Sims E b (binary E op x y) vm m (VQ vm0 st bp (pc + 2)) := by
  have arith : ∀ t : Nat, op.tok.toNat = op.tok.toNat → classify op.tok.toNat = .arith t →
      Sims E b (prim fun vm => doOp E vm x y t) vm m (VQ vm0 st bp (pc + 2)) := by
    intro t _ ht
    refine sim_expr R hk ha hp (doOp_local E x y t) ?_
    unfold execExpr
    rw [ht]
    simp only [pop_on]
  have less : ∀ sw eq : Bool, classify op.tok.toNat = .less sw eq →
      Sims E b (pure (mkBoolean (if eq then leD (getDouble (if sw then y else x)) (getDouble (if sw then x else y))
        else ltD (getDouble (if sw then y else x)) (getDouble (if sw then x else y))))) vm m (VQ vm0 st bp (pc + 2)) := by
    intro sw eq ht
    refine sim_expr_pure R hk ha hp ?_
    unfold execExpr
    rw [ht]
    simp only [pop_on]
    cases sw <;> rfl
  have equal : ∀ ne : Bool, classify op.tok.toNat = .equal ne →
      Sims E b (prim fun vm => (checkEqual vm.heap.str y x).map fun r => (vm, mkBoolean (if ne then !r else r))) vm m
        (VQ vm0 st bp (pc + 2)) := by
    intro ne ht
    refine sim_expr R hk ha hp ?_ ?_
    · intro v c _
      simp only [put_heap, mapPut, Option.map_map]
      rfl
    · unfold execExpr
      rw [ht]
      simp only [pop_on, Option.map_map]
      rfl
  have triple : ∀ ne : Bool, classify op.tok.toNat = .useTriple ne →
      Sims E b (raise .notImplemented (if ne then "Use !==, not !=" else "Use ===, not ==")) vm m
        (VQ vm0 st bp (pc + 2)) := by
    intro ne ht
    refine Sims.raise ha hp.head (k := pc + 1) (st' := (st.push x).push y) ?_ (by decide)
      ((R.above.pushes hk.scopes [x]).pushes rfl [y])
    rw [execOp_expr _ _ _ _ _ hp.tail.head]
    unfold execExpr
    rw [ht]
    cases ne <;> rfl
  cases op with
  | eq => exact triple false rfl
  | ne => exact triple true rfl
  | eqq => exact equal false rfl
  | nee => exact equal true rfl
  | lt => exact less false false rfl
  | le => exact less false true rfl
  | gt => exact less true false rfl
  | ge => exact less true true rfl
  | add => exact arith _ rfl rfl
  | sub => exact arith _ rfl rfl
  | mul => exact arith _ rfl rfl
  | div => exact arith _ rfl rfl
  | rem => exact arith _ rfl rfl
  | shl => exact arith _ rfl rfl
  | shr => exact arith _ rfl rfl
  | ushr => exact arith _ rfl rfl
  | band => exact arith _ rfl rfl
  | bxor => exact arith _ rfl rfl
  | bor => exact arith _ rfl rfl

/-- An operation whose result is missing only together with an error. -/
theorem sim_expr_opt {f : Vm → Option (Vm × Option Val)} {vm0 : Vm} {st0 : Stacks} {op : UInt8} (R : Ready b d vm0 st bp)
    (hk : Kept vm0 vm) (ha : At m vm st0 bp pc) (hp : Placed bp pc [EXPR, op]) (hf : Local f)
    (hn : ∀ r, f vm = some r → r.2 = none → r.1.error ≠ .ok)
    (hx : execExpr E (on vm st0) op.toNat = (f (on vm st)).map pushOpt) :
    Sims E b (prim fun vm => withValue (f vm)) vm m (VQ vm0 st bp (pc + 2)) := by
  have hlt := R.good.lt hp (by simp)
  simp only [List.length_cons, List.length_nil] at hlt
  intro out e
  unfold prim withValue at e
  cases hfv : f vm with
  | none => simp [hfv] at e
  | some r =>
    obtain ⟨vm', o⟩ := r
    simp only [hfv, Option.map_some, Option.some.injEq] at e
    have hx' : execOp E ⟨on vm st0, bp, pc, EXPR⟩ m.op = some (.go ⟨pushOpt (on vm' st, o), bp, pc + 1, EXPR⟩) := by
      rw [execOp_expr _ _ _ op _ hp.tail.head, hx, Option.map_map, hf.on vm st, Option.map_map, hfv]
      rfl
    by_cases he : vm'.error = .ok
    · rw [if_pos he] at e
      subst e
      cases o with
      | none => exact absurd he (hn _ hfv rfl)
      | some v =>
        obtain ⟨m', h1, h2, h3⟩ := step1 (vm' := vm') (st' := st.push v) ha hp.head hx' he (by omega)
        exact ⟨m', h1, hk.trans (hf.kept hfv he), h2, by rw [h3]; decide⟩
    · rw [if_neg he] at e
      subst e
      obtain ⟨mv, mb, mi, mo⟩ := m
      obtain ⟨h1, h2, h3⟩ := ha
      simp only at h1 h2 h3
      subst h1 h2 h3
      refine ⟨_, EXPR, _, .refl _, hp.head, hx', ?_⟩
      cases o with
      | none =>
        refine ⟨he, ⟨rfl, rfl, rfl, rfl⟩, ?_⟩
        have := R.above.pushes (vm' := vm') (by rw [hf.scopes hfv, hk.scopes]) []
        rwa [pushes_nil] at this
      | some v =>
        exact ⟨he, ⟨rfl, rfl, rfl, rfl⟩, R.above.pushes (vm' := vm') (by rw [hf.scopes hfv, hk.scopes]) [v]⟩

/-- Assignments. -/
theorem sim_store {op : AssignOp} {p : Val × Val} {v : Val} {vm0 : Vm} (R : Ready b d vm0 st bp) (hk : Kept vm0 vm)
    (ha : At m vm (((st.push p.1).push p.2).push v) bp pc) (hp : Placed bp pc [EXPR, assignTok op]) :
    Sims E b (Sem.store E op p v) vm m (VQ vm0 st bp (pc + 2)) := by
  cases op with
  | none =>
    refine sim_expr R hk ha hp (assign_local E v p.2 p.1) ?_
    show (let (val, vm) := pop (on vm (((st.push p.1).push p.2).push v)); let (obj, vm) := pop vm
      let (key, vm) := pop vm; (assign E vm val obj key).map fun (r : Vm × Val) => push r.1 r.2) = _
    simp only [pop_on]
  | some op =>
    simp only [Sem.store]
    cases ht : arithTok op with
    | none => exact Sims.undef
    | some t =>
      refine sim_expr_opt R hk ha hp (opAssign_local E t v p.2 p.1) ?_ ?_
      · intro r hr hn
        simp only [opAssign] at hr
        split at hr
        · cases hu : update E vm p.2 p.1 v t with
          | none => rw [hu] at hr; cases hr
          | some u => rw [hu] at hr; cases hr; cases hn
        · cases hr; simp [setErrorf]
      · have hc : classify (assignTok (some op)).toNat = .opAssign t := by
          cases op <;> cases ht <;> rfl
        unfold execExpr
        rw [hc]
        simp only [pop_on]

/-- `++` and `--`. -/
theorem sim_incr {post plus : Bool} {p : Val × Val} {vm0 : Vm} (R : Ready b d vm0 st bp) (hk : Kept vm0 vm)
    (ha : At m vm ((st.push p.1).push p.2) bp pc) (hp : Placed bp pc [EXPR, incrTok post plus]) :
    Sims E b (prim fun vm => withValue (incr E vm post (if plus then Tok.PLUS else Tok.MINUS) p.2 p.1)) vm m
      (VQ vm0 st bp (pc + 2)) := by
  refine sim_expr_opt R hk ha hp (incr_local E post _ p.2 p.1) ?_ ?_
  · intro r hr hn
    simp only [incr] at hr
    split at hr
    · cases hu : update E vm p.2 p.1 (mkInt 1) (if plus then Tok.PLUS else Tok.MINUS) with
      | none => rw [hu] at hr; cases hr
      | some u => rw [hu] at hr; cases hr; cases hn
    · cases hr; simp [setErrorf]
  · have hc : classify (incrTok post plus).toNat = .incr post (if plus then Tok.PLUS else Tok.MINUS) := by
      cases post <;> cases plus <;> rfl
    unfold execExpr
    rw [hc]
    simp only [pop_on]

theorem VQ.eq {vm : Vm} {st : Stacks} {bp : Part} {pc pc' : Nat} {e : Expr} {vm' : Vm} {v : Val} {m' : Mach}
    (h : VQ vm st bp pc vm' v m') (hpc : pc = pc') (hl : ∀ op, op ≠ GET → LastOp e op) : EQ vm st bp pc' e vm' v m' :=
  ⟨h.1, hpc ▸ h.2.1, hl _ h.2.2⟩

end Mjs.Exec
