import Verif.Spec.Apply
import Verif.Lemmas.Script
/-!
# `mjs_apply` on functions of loaded scripts
-/
namespace Mjs.Exec
open Mjs Mjs.Str Mjs.Obj Mjs.Core Mjs.Code Mjs.Sem Mjs.Bcode
variable {E : Env} [Natives E] {F : Nat → Option Fn} {b vm : Vm} {m : Mach} {st : Stacks} {bp : Part} {pc n d : Nat}

/-- The code of a function called from C does what its body means. -/
theorem sim_body (hW : World F b) {fn : Fn} {w : Val} {args : List Val} {f : FrameCtx} (R : Ready b (d + 1) vm st bp)
    (ha : At m vm st bp pc) (hp : Placed bp pc (codeFun fn.params fn.body))
    (hw : WfSs F bp (pc + 1 + (codeParams 0 fn.params).length) fn.body) (hr : f.ret = none)
    (hfs : f.scopes = vm.scopes) (hstk : st.stack = f.st.stack ++ w :: args) (hpa : st.parts = f.st.parts ∧ st.bcodeLen = f.st.bcodeLen)
    (hla : st.loopAddrs = f.st.loopAddrs) (has : st.argStack = f.st.argStack)
    (hcall : st.callStack = f.st.callStack ++ [f.this, mkInt f.addr, mkInt f.scopes.length,
      mkInt f.st.loopAddrs.length, mkInt (f.st.stack.length + 1 : Nat)]) :
    Sims E b (do enterScope; bindParams E args 0 fn.params; evalSs E F n d fn.body) vm m fun vm' c m' => vm'.error = .ok ∧
      match c with
      | .normal _ => Returned f w vm' m'
      | .ret v => Returned f v vm' m'
      | _ => True := by
  have hp1 : Placed bp pc (NEW_SCOPE :: (codeParams 0 fn.params ++ (codeSs fn.body ++ [RETURN]))) := by
    simpa [codeFun] using hp
  refine Sims.bind (sim_enter R ha hp1) ?_
  intro vm2 _ m2 ⟨er2, ⟨o, s2⟩, t2, a2⟩
  have R2 : Ready b d vm2 st bp := by
    obtain ⟨q1, q2, q3, q4, q5, q6, q7⟩ := R.above
    obtain ⟨g1, g2, g3, g4, g5⟩ := R.fits
    refine ⟨R.good, er2, ⟨q1, q2, q3, q4, q5, ?_, q7⟩, ⟨by omega, by omega, by omega, by omega, ?_⟩⟩
    · rw [on_scopes, s2]; exact prefix_app _ q6
    · rw [s2]
      simp only [List.length_append, List.length_singleton]; omega
  have hcs : st.callStack = (f.st.callStack ++ [f.this, mkInt f.addr, mkInt f.scopes.length,
      mkInt f.st.loopAddrs.length]) ++ [mkInt (f.st.stack.length + 1 : Nat)] := by
    rw [hcall]
    generalize mkInt (f.st.stack.length + 1 : Nat) = r
    simp only [List.append_assoc, List.cons_append, List.nil_append]
  refine Sims.bind (sim_params (c := codeSs fn.body ++ [RETURN]) hstk hcs R2 a2 hp1.tail (by omega)) ?_
  intro vm3 _ m3 ⟨k3, a3⟩
  have hp3 := hp1.tail.right
  have s3 : vm3.scopes = vm.scopes ++ [o] := k3.scopes.trans s2
  have hfr : Frame b f st vm3 := by
    refine ⟨fun r h => absurd (hr.symm.trans h) (by simp), hpa, hcall, ?_, ?_, ?_, has⟩
    · rw [s3, hfs]; exact List.prefix_append _ _
    · rw [hla]; exact List.prefix_refl _
    · rw [hstk]; exact ⟨w, args, by simp⟩
  refine ((IH.all (E := E) hW n).ss none (some f) ((R2.same k3 (Nat.le_refl _)).start a3) hp3.left hw
    (fun l h => by cases h) (fun f' h => by cases h; exact hfr)).andThen ?_
  intro vm4 c m4 ⟨k4, h4⟩
  cases c with
  | normal v =>
    have R4 : Ready b 0 vm4 (st.push v) bp := by
      obtain ⟨q1, q2, q3, q4, q5, q6, q7⟩ := R2.above
      obtain ⟨g1, g2, g3, g4, g5⟩ := R.fits
      have ks := (k3.trans k4).scopes
      refine ⟨R.good, k4.err, ⟨q1, q2, prefix_app _ q3, q4, q5, by rw [on_scopes, ks]; exact q6, q7⟩, ⟨?_, ?_, ?_, ?_, ?_⟩⟩
      · show (st.stack ++ [v]).length + _ < _
        simp only [List.length_append, List.length_cons, List.length_nil]; omega
      · show st.callStack.length + _ < _; omega
      · show st.argStack.length + _ < _; omega
      · show st.loopAddrs.length + _ < _; omega
      · rw [ks, s2]; simp only [List.length_append, List.length_singleton]; omega
    have hfr4 : Frame b f (st.push v) vm4 := by
      obtain ⟨w1, w3, w4, w5, w6, w7, w8⟩ := hfr
      exact ⟨w1, w3, w4, by rw [k4.scopes]; exact w5, w6, w7.imp fun _ h => prefix_app _ h, w8⟩
    refine sim_return (v := w) (rest := args ++ [v]) hfr4 k4.err ⟨R4.above.parts, R4.above.len⟩ R4.fits h4 hp3.right (by
      show st.stack ++ [v] = _; rw [hstk]; simp) ?_
    intro m5 h5
    exact Sims.pure ⟨k4.err, h5⟩
  | ret v => exact Sims.pure ⟨k4.err, h4 _ rfl⟩
  | brk => exact Sims.pure ⟨k4.err, trivial⟩
  | cont => exact Sims.pure ⟨k4.err, trivial⟩

omit [Natives E] in
/-- The end of `mjs_execute` when the stack it leaves is not the one it found. -/
theorem execute_clean {vm1 : Vm} {p : Part} {v : Val} {s : List Val} {off : Nat} (hat : partAt vm off = some p)
    (hlo : loop E (save vm) { vm := setErrorf vm .ok none, bp := p, i := wrap ((off : Int) - p.startIdx) } = some vm1)
    (hp : vm1.parts = vm.parts) (hl : vm1.bcodeLen = vm.bcodeLen) (hs : vm1.stack = s ++ [v]) :
    ∃ k, execute E vm off = some ({ vm1 with stack := s, parts := vm.parts.set k { p with execRes := some vm1.error } }, v) ∧
      vm.parts[k]? = some p := by
  obtain ⟨k, hk, hpk⟩ := partIdx_of_partAt hat
  refine ⟨k, ?_, hpk⟩
  unfold execute
  rw [hat]
  simp only [Option.bind_eq_bind, Option.bind_some]
  rw [hlo]
  have hk1 : partIdx vm1 off = some k := by rw [← hk]; unfold partIdx; rw [hp, hl]
  simp only [Option.bind_some, hk1]
  rw [hp, hpk]
  simp only [Option.bind_some, pop, hs]
  simp [popVal]

/-- The engine when `mjs_apply` starts the function. -/
def applied (vm : Vm) (f t : Val) (args : List Val) : Vm :=
  { vm with
    stack := vm.stack ++ f :: args, this := t
    callStack := vm.callStack ++ [vm.this, mkInt offsetExit, mkInt vm.scopes.length, mkInt vm.loopAddrs.length,
      mkInt (vm.stack.length + 1 : Nat)] }

omit [Natives E] in
theorem apply_eq {f t : Val} {args : List Val} (hf : isFunction f = true) (hff : isForeign f = false) (hfs : isFfiSig f = false) :
    apply E vm f t args = (execute E (applied vm f t args) (getFuncAddr f).toNat).bind fun x =>
      (if x.1.error ≠ .ok then (restoreFrame x.1).map fun y => (pop y.1).2 else some x.1).bind fun vm4 =>
        some ({ vm4 with this := vm.this }, some x.2, vm4.error) := by
  unfold apply
  rw [if_neg (by simp [hf])]
  simp only [pushFrame, popVal_append, hff, hfs, Bool.false_eq_true, if_false, Option.bind_eq_bind, Option.bind_some]
  have e : ({ vm with
      stack := vm.stack ++ [f] ++ args, argStack := vm.argStack, this := t
      callStack := vm.callStack ++ [vm.this, mkInt offsetExit, mkInt vm.scopes.length, mkInt vm.loopAddrs.length,
        mkInt (vm.stack.length + 1 : Nat)] } : Vm) = applied vm f t args := by
    unfold applied
    rw [List.append_assoc]; rfl
  rw [e]

theorem isFunction_not {f : Val} (h : isFunction f = true) : isForeign f = false ∧ isFfiSig f = false := by
  unfold isFunction at h
  unfold isForeign isFfiSig
  simp only [beq_iff_eq, beq_eq_false_iff_ne, ne_eq] at h ⊢
  rw [h]
  decide

/-- After a failed call the frame and the slot of the result are removed. -/
theorem restore_applied {x : Vm} {f t : Val} {args : List Val} (hs : SameStacks x (applied vm f t args)) (hr : Room vm 0) :
    (restoreFrame x).map (fun y => (pop y.1).2) = some { x with
      callStack := vm.callStack, this := vm.this, scopes := vm.scopes, loopAddrs := vm.loopAddrs, stack := vm.stack } := by
  obtain ⟨r1, r2, r3, r4, r5⟩ := hr
  rw [restoreFrame_eq x vm.callStack _ _ _ _ _ hs.callStack, wrap_getInt (vm.stack.length + 1) (by omega),
    wrap_getInt vm.scopes.length (by omega), wrap_getInt vm.loopAddrs.length (by omega)]
  have e : setLen x.stack (vm.stack.length + 1) = some (vm.stack ++ [f]) := by
    rw [hs.stack]
    show setLen (vm.stack ++ f :: args) _ = _
    rw [show vm.stack ++ f :: args = (vm.stack ++ [f]) ++ args by simp,
      show vm.stack.length + 1 = (vm.stack ++ [f]).length by simp]
    exact setLen_append _ _
  rw [e, hs.scopes, hs.loopAddrs]
  simp only [Option.map_some, pop, popVal_append, Option.some.injEq]
  show ({ x with
    callStack := vm.callStack, this := vm.this, scopes := vm.scopes.take vm.scopes.length
    loopAddrs := vm.loopAddrs.take vm.loopAddrs.length, stack := vm.stack } : Vm) = _
  rw [List.take_length, List.take_length]

omit [Natives E] in
theorem apply_err {x : Vm} {r f t : Val} {args : List Val} (hf : isFunction f = true)
    (hx : execute E (applied vm f t args) (getFuncAddr f).toNat = some (x, r)) (hne : x.error ≠ .ok)
    (hs : SameStacks x (applied vm f t args)) (hr : Room vm 0) :
    apply E vm f t args = some ({ x with
      callStack := vm.callStack, this := vm.this, scopes := vm.scopes, loopAddrs := vm.loopAddrs, stack := vm.stack }, some r, x.error) := by
  rw [apply_eq hf (isFunction_not hf).1 (isFunction_not hf).2, hx]
  simp only [Option.bind_some]
  rw [if_pos hne, restore_applied hs hr]
  rfl

omit [Natives E] in
theorem apply_ok {x : Vm} {r f t : Val} {args : List Val} (hf : isFunction f = true)
    (hx : execute E (applied vm f t args) (getFuncAddr f).toNat = some (x, r)) (ho : x.error = .ok) :
    apply E vm f t args = some ({ x with this := vm.this }, some r, .ok) := by
  rw [apply_eq hf (isFunction_not hf).1 (isFunction_not hf).2, hx]
  simp only [Option.bind_some]
  rw [if_neg (by rw [ho]; decide), Option.bind_some, ho]

/-- A function of a loaded script, called from C. -/
theorem apply_function {ss : List Script} {f t : Val} {args : List Val} {fn : Fn} (h : Loaded vm ss)
    (hr : Room vm (d + args.length + 2)) (hf : isFunction f = true) (hF : functions ss (getFuncAddr f).toNat = some fn)
    (out : Out Comp) (he : runBody E (functions ss) n d fn t args (setErrorf vm .ok none) = some out) :
    match out with
    | .ok vm' (.ret v) => ∃ vm2, apply E vm f t args = some (vm2, some v, .ok) ∧ vm'.error = .ok ∧ After vm vm' vm2
    | .ok vm' (.normal _) => ∃ vm2, apply E vm f t args = some (vm2, some f, .ok) ∧ vm'.error = .ok ∧ After vm vm' vm2
    | .err vm' => ∃ vm2, apply E vm f t args = some (vm2, some mkUndefined, vm'.error) ∧ vm'.error ≠ .ok ∧ After vm vm' vm2
    | _ => True := by
  obtain ⟨r1, r2, r3, r4, r5⟩ := hr
  have hW : World (Prog ss) (setErrorf (applied vm f t args) .ok none) := World.congr (loaded_world h) rfl rfl
  obtain ⟨bp, pc, hg, ha, h1, hp, hw⟩ := hW _ _ hF
  have hle := hp.le (by simp [codeFun])
  simp only [codeFun, List.length_cons, List.length_append] at hle
  have hpart : partAt (applied vm f t args) (getFuncAddr f).toNat = some bp := by rw [ha]; exact hg.found pc (by omega)
  have hsm := hg.small
  have hi : wrap (((getFuncAddr f).toNat : Int) - bp.startIdx) = pc := by unfold wrap; omega
  let st : Stacks := stacksOf (applied vm f t args)
  have hat : At ({ vm := setErrorf (applied vm f t args) .ok none, bp := bp, i := wrap (((getFuncAddr f).toNat : Int) - bp.startIdx) } : Mach)
      { setErrorf vm .ok none with this := t } st bp pc := ⟨rfl, rfl, hi⟩
  have R : Ready (setErrorf (applied vm f t args) .ok none) (d + 1) { setErrorf vm .ok none with this := t } st bp := by
    refine ⟨hg, rfl, ⟨rfl, rfl, List.prefix_refl _, List.prefix_refl _, List.prefix_refl _, List.prefix_refl _, List.prefix_refl _⟩,
      ⟨?_, ?_, ?_, ?_, ?_⟩⟩
    · show (vm.stack ++ f :: args).length + _ < _
      simp only [List.length_append, List.length_cons]; omega
    · show (vm.callStack ++ [_, _, _, _, _]).length + _ < _
      simp only [List.length_append, List.length_cons, List.length_nil]; omega
    · show vm.argStack.length + _ < _; omega
    · show vm.loopAddrs.length + _ < _; omega
    · show vm.scopes.length + _ < _; omega
  have hsim := sim_body (E := E) (n := n) (w := f) (args := args) (f := ⟨stacksOf vm, none, vm.scopes, vm.this⟩) hW R hat hp hw rfl rfl
    rfl ⟨rfl, rfl⟩ rfl rfl rfl out he
  have R0 : Room vm 0 := ⟨by omega, by omega, by omega, by omega, by omega⟩
  cases out with
  | err vm' =>
    obtain ⟨t', l, hl, hne⟩ := loop_fails hsim
    obtain ⟨k, hx, hk⟩ := execute_end hpart hl rfl rfl rfl
    have ha := apply_err (vm := vm) (f := f) (t := t) (args := args) hf hx hne ⟨rfl, rfl, rfl, rfl, rfl⟩ R0
    exact ⟨_, ha, hne, rfl, rfl, rfl, rfl, rfl, ⟨rfl, rfl, rfl, rfl, rfl⟩,
      sameCode_set (vm := vm) rfl rfl hk⟩
  | ok vm' c =>
    obtain ⟨m', hst, hok, hm⟩ := hsim
    have main : ∀ v, Returned ⟨stacksOf vm, none, vm.scopes, vm.this⟩ v vm' m' →
        ∃ vm2, apply E vm f t args = some (vm2, some v, .ok) ∧ vm'.error = .ok ∧ After vm vm' vm2 := by
      intro v ⟨hop, hrf⟩
      have hl := loop_steps (s := save (applied vm f t args)) hst
      rw [loop.eq_def E _ m', if_pos (List.getElem?_eq_some_iff.1 hop).1, hop] at hl
      simp only [Option.bind_eq_bind, Option.bind_some] at hl
      rw [execOp_returnExit _ _ _ _ _ hrf] at hl
      obtain ⟨k, hx, hk⟩ := execute_clean (s := vm.stack) (v := v) hpart hl rfl rfl rfl
      have ha := apply_ok (vm := vm) (f := f) (t := t) (args := args) hf hx hok
      exact ⟨_, ha, hok, rfl, rfl, rfl, rfl, rfl, ⟨rfl, rfl, rfl, rfl, rfl⟩, sameCode_set (vm := vm) rfl rfl hk⟩
    cases c with
    | normal v => exact main f hm
    | ret v => exact main v hm
    | brk => trivial
    | cont => trivial

/-- A call in a script and the body of the function. -/
theorem callFn_eq {f t : Val} {args : List Val} {fn : Fn} (hf : isFunction f = true) (hF : F (getFuncAddr f).toNat = some fn) :
    callFn E F (n + 1) (d + 1) f t args vm = (runBody E F n d fn t args vm).bind fun o =>
      match o with
      | .err v => some (.err v)
      | .ok v (.normal _) => some (.ok { v with scopes := vm.scopes, this := vm.this } mkUndefined)
      | .ok v (.ret w) => some (.ok { v with scopes := vm.scopes, this := vm.this } w)
      | .ok _ _ => none := by
  rw [callFn, if_pos hf, hF]
  show Sem.bind _ _ _ = _
  simp only [runBody, Bind.bind, Sem.bind, current, setThis]
  cases enterScope { vm with this := t } with
  | none => rfl
  | some o =>
    cases o with
    | err v => rfl
    | ok v1 a =>
      simp only
      cases bindParams E args 0 fn.params v1 with
      | none => rfl
      | some o =>
        cases o with
        | err v => rfl
        | ok v2 a =>
          simp only
          cases evalSs E F n d fn.body v2 with
          | none => rfl
          | some o =>
            cases o with
            | err v => rfl
            | ok v3 c => cases c <;> rfl

/-- What a C function called by `mjs_apply` gets. -/
theorem applied_delivers {f t : Val} {args : List Val} (hr : Room vm (args.length + 2)) : Delivered (applied vm f t args) t args := by
  obtain ⟨r1, r2, r3, r4, r5⟩ := hr
  have hl : (applied vm f t args).stack.length = vm.stack.length + 1 + args.length := by
    show (vm.stack ++ f :: args).length = _
    simp; omega
  have hc : (applied vm f t args).callStack = (vm.callStack ++ [vm.this, mkInt offsetExit, mkInt vm.scopes.length,
      mkInt vm.loopAddrs.length]) ++ [mkInt ((vm.stack.length : Int) + 1)] := by
    show vm.callStack ++ [_, _, _, _, mkInt ((vm.stack.length + 1 : Nat) : Int)] = _
    rw [show ((vm.stack.length + 1 : Nat) : Int) = (vm.stack.length : Int) + 1 by omega]
    generalize mkInt ((vm.stack.length : Int) + 1) = r
    simp only [List.append_assoc, List.cons_append, List.nil_append]
  have hcl : (applied vm f t args).callStack.length < 2 ^ 31 - 1 := by
    rw [hc]; simp only [List.length_append, List.length_cons, List.length_nil]; omega
  have hp := retpos (applied vm f t args) vm.stack args _ f rfl hc (by omega) hcl
  refine ⟨rfl, ?_, ?_⟩
  · unfold nargs
    rw [hp, hl, cInt_small (by omega)]
    simp only [Option.bind_eq_bind, Option.bind_some]
    congr 1
    split <;> omega
  · intro i hi
    unfold arg
    rw [hp, hl, cInt_small (by omega)]
    simp only [Option.bind_eq_bind, Option.bind_some]
    by_cases hia : i < args.length
    · rw [if_pos (by omega), at_nat _ (by omega) _ (vm.stack.length + 1 + i) (by omega)]
      show (vm.stack ++ f :: args)[vm.stack.length + 1 + i]? = _
      rw [List.getElem?_append_right (by omega), show vm.stack.length + 1 + i - vm.stack.length = i + 1 by omega]
      simp [List.getD, hia]
    · rw [if_neg (by omega)]
      simp [List.getD, hia]

omit [Natives E] in
/-- `mjs_apply` of a C function. -/
theorem apply_foreign {f t : Val} {args : List Val} (hf : isCFun f = true) :
    apply E vm f t args = (native E f (applied vm f t args)).bind fun v =>
      (v.stack[vm.stack.length]?).bind fun x =>
      (if v.error ≠ .ok then (restoreFrame v).map fun y => (pop y.1).2 else some v).bind fun vm4 =>
        some ({ vm4 with this := vm.this }, some x, vm4.error) := by
  unfold apply
  rw [if_neg (by unfold isCFun at hf; cases h1 : isForeign f <;> cases h2 : isFfiSig f <;> simp [h1, h2] at hf ⊢)]
  simp only [pushFrame, popVal_append, Option.bind_eq_bind, Option.bind_some]
  have e : ({ vm with
      stack := vm.stack ++ [f] ++ args, argStack := vm.argStack, this := t
      callStack := vm.callStack ++ [vm.this, mkInt offsetExit, mkInt vm.scopes.length, mkInt vm.loopAddrs.length,
        mkInt (vm.stack.length + 1 : Nat)] } : Vm) = applied vm f t args := by
    unfold applied
    rw [List.append_assoc]; rfl
  rw [e]
  unfold native
  cases h1 : isForeign f with
  | true =>
    simp only [if_true]
    cases E.cfun (getPtr f).toNat (applied vm f t args) with
    | none => rfl
    | some v =>
      simp only [Option.bind_some, Bool.false_eq_true, if_false]
      cases v.stack[vm.stack.length]? <;> rfl
  | false =>
    rw [isCFun, h1, Bool.false_or] at hf
    simp only [hf, if_true, Bool.false_eq_true, if_false]
    cases E.ffi (applied vm f t args) with
    | none => rfl
    | some v =>
      simp only [Option.bind_some, Bool.false_eq_true, if_false]
      cases v.stack[vm.stack.length]? <;> rfl

omit [Natives E] in
theorem apply_foreign_ok {f t x : Val} {args : List Val} {v : Vm} (hf : isCFun f = true)
    (hc : native E f (applied vm f t args) = some v) (hx : v.stack[vm.stack.length]? = some x) (he : v.error = .ok) :
    apply E vm f t args = some ({ v with this := vm.this }, some x, .ok) := by
  rw [apply_foreign hf, hc]
  simp only [Option.bind_some, hx]
  rw [if_neg (by rw [he]; decide), Option.bind_some, he]

omit [Natives E] in
theorem apply_foreign_err {f t x : Val} {args : List Val} {v : Vm} (hf : isCFun f = true)
    (hc : native E f (applied vm f t args) = some v) (hs : SameStacks v (applied vm x t [])) (he : v.error ≠ .ok)
    (hr : Room vm 0) : apply E vm f t args = some ({ v with
      callStack := vm.callStack, this := vm.this, scopes := vm.scopes, loopAddrs := vm.loopAddrs, stack := vm.stack }, some x, v.error) := by
  have hx : v.stack[vm.stack.length]? = some x := by rw [hs.stack]; exact List.getElem?_concat_length
  rw [apply_foreign hf, hc]
  simp only [Option.bind_some, hx]
  rw [if_pos he, restore_applied hs hr]
  rfl

/-- `mjs_return` in a C function called by `mjs_apply`. -/
theorem ret_applied {f t x : Val} {args : List Val} {u : Vm} (hr : Room vm (args.length + 2)) (h1 : u.stack = vm.stack ++ f :: args)
    (h2 : u.callStack = (applied vm f t args).callStack) : ret u x = some { u with stack := vm.stack ++ [x] } := by
  obtain ⟨r1, r2, r3, r4, r5⟩ := hr
  have hp : getretvalpos u = some (vm.stack.length : Int) := by
    refine retpos u vm.stack args (vm.callStack ++ [vm.this, mkInt offsetExit, mkInt vm.scopes.length, mkInt vm.loopAddrs.length]) f h1 ?_ ?_ ?_
    · rw [h2]
      show vm.callStack ++ [_, _, _, _, mkInt ((vm.stack.length + 1 : Nat) : Int)] = _
      rw [show ((vm.stack.length + 1 : Nat) : Int) = (vm.stack.length : Int) + 1 by omega]
      generalize mkInt ((vm.stack.length : Int) + 1) = r
      simp only [List.append_assoc, List.cons_append, List.nil_append]
    · rw [h1]; simp only [List.length_append, List.length_cons]; omega
    · rw [h2]
      show (vm.callStack ++ [_, _, _, _, _]).length < _
      simp only [List.length_append, List.length_cons, List.length_nil]; omega
  unfold ret
  rw [hp]
  simp only [Option.bind_eq_bind, Option.bind_some]
  rw [if_neg (by omega)]
  unfold push
  rw [h1]
  simp

end Mjs.Exec
