import Verif.Props.Apply
import Verif.Lemmas.Value

/-!
# C78: function values

`funsSs (layoutSs a body)` (Spec/Layout.lean) are the function literals of a script whose code is at `a`, each with its address; a
literal with the address `l` is the expression `.func l name params body`.  `functions ss` says which function of the loaded scripts
a call of a function value runs (`callFn`, Spec/Sem.lean; C54 for calls from C).
-/

namespace Mjs.Props
open Mjs Mjs.Str Mjs.Obj Mjs.Core Mjs.Code Mjs.Sem Mjs.Exec

/-- Where script number `k` begins. -/
def startOf (ss : List Script) (k : Nat) : Nat := ((ss.take k).map fun s => s.bytes.length).sum

theorem mem_funsFrom : ∀ (ss more : List Script) (a k : Nat) (s : Script), ss[k]? = some s →
    ∀ q ∈ funsSs (layoutSs (a + startOf ss k + s.start) s.body), q ∈ funsFrom a (ss ++ more)
  | [], _, _, _, _, h, _, _ => by simp at h
  | s' :: ss, more, a, 0, s, h, q, hq => by
    simp only [List.getElem?_cons_zero, Option.some.injEq] at h
    subst h
    simp only [startOf, List.take_zero, List.map_nil, List.sum_nil, Nat.add_zero] at hq
    exact List.mem_append.2 (.inl hq)
  | s' :: ss, more, a, k + 1, s, h, q, hq => by
    simp only [List.getElem?_cons_succ] at h
    refine List.mem_append.2 (.inr (mem_funsFrom ss more _ k s h q ?_))
    have : startOf (s' :: ss) (k + 1) = s'.bytes.length + startOf ss k := by simp [startOf]
    rw [this, ← Nat.add_assoc] at hq
    exact hq

theorem mkFunction_addr {a : Nat} (h : a < 2 ^ 48) : isFunction (mkFunction (BitVec.ofNat 64 a)) = true ∧ (getFuncAddr (mkFunction (BitVec.ofNat 64 a))).toNat = a := by
  have e : (BitVec.ofNat 64 a).toNat = a := by rw [BitVec.toNat_ofNat]; omega
  refine ⟨(C04_constructors.2.2.2.2.2.1 _ (by omega) .function).2 rfl, ?_⟩
  unfold getFuncAddr mkFunction
  rw [payload_mk _ _ (by decide) (small_and_mask _ (by omega)), e]

theorem funsFrom_lt (ss : List Script) (hs : (ss.map fun s => s.bytes.length).sum < 2 ^ 31) {q : Nat × Fn} (hq : q ∈ funsFrom 0 ss) : q.1 < 2 ^ 48 := by
  have := ((range_From ss 0).1 q hq).2
  omega

theorem funs_value {ss more : List Script} (hs : ((ss ++ more).map fun s => s.bytes.length).sum < 2 ^ 31) {k : Nat} {s : Script} (hk : ss[k]? = some s)
    {q : Nat × Fn} (hq : q ∈ funsSs (layoutSs (startOf ss k + s.start) s.body)) :
    functions (ss ++ more) (getFuncAddr (mkFunction (BitVec.ofNat 64 q.1))).toNat = some q.2 := by
  have hm := mem_funsFrom ss more 0 k s hk q (by rwa [Nat.zero_add])
  rw [(mkFunction_addr (funsFrom_lt _ hs hm)).2]
  exact fnAt_mem (range_From _ 0).2 hm

/-- **C78, what a function literal gives.** The value of a function literal of a loaded script is a function; it is the function that this
literal describes, with its parameters and its body, however many scripts are loaded later. -/
theorem C78_literal {ss : List Script} (hs : (ss.map fun s => s.bytes.length).sum < 2 ^ 31) {k : Nat} {s : Script} (hk : ss[k]? = some s)
    {q : Nat × Fn} (hq : q ∈ funsSs (layoutSs (startOf ss k + s.start) s.body)) :
    ∃ v, isFunction v = true ∧
      (∀ (E : Env) [Natives E] F n d vm, eval E F (n + 1) (d + 1) (.func q.1 none q.2.params q.2.body) vm = some (.ok vm v)) ∧
      (∀ (E : Env) [Natives E] F n d vm x, eval E F (n + 1) (d + 1) (.func q.1 (some x) q.2.params q.2.body) vm =
        (do declare E x
            let p ← resolve E x
            store E none p v : Sem Val) vm) ∧
      ∀ more, ((ss ++ more).map fun s => s.bytes.length).sum < 2 ^ 31 → functions (ss ++ more) (getFuncAddr v).toNat = some q.2 := by
  have hm := mem_funsFrom ss [] 0 k s hk q (by rwa [Nat.zero_add])
  rw [List.append_nil] at hm
  refine ⟨_, (mkFunction_addr (funsFrom_lt _ hs hm)).1, fun E _ F n d vm => ?_, fun E _ F n d vm x => ?_, fun more hm => funs_value hm hk hq⟩
  · rw [eval]; rfl
  · rw [eval]

/-- **C78, no confusion.** Two function literals of the loaded scripts never have the same value. -/
theorem C78_distinct {ss : List Script} (hs : (ss.map fun s => s.bytes.length).sum < 2 ^ 31) :
    ((funsFrom 0 ss).map fun q => mkFunction (BitVec.ofNat 64 q.1)).Nodup := by
  have hn := (range_From ss 0).2
  have hr := fun q hq => funsFrom_lt ss hs (q := q) hq
  revert hn hr
  generalize funsFrom 0 ss = l
  induction l with
  | nil => intros; exact List.nodup_nil
  | cons q l ih =>
    intro hn hr
    rw [List.map_cons, List.nodup_cons] at hn ⊢
    refine ⟨fun hmem => ?_, ih hn.2 fun q hq => hr q (List.mem_cons_of_mem _ hq)⟩
    obtain ⟨r, hr1, hr2⟩ := List.mem_map.1 hmem
    have := congrArg (fun v => (getFuncAddr v).toNat) hr2
    simp only [(mkFunction_addr (hr r (List.mem_cons_of_mem _ hr1))).2, (mkFunction_addr (hr q (List.mem_cons_self))).2] at this
    exact hn.1 (List.mem_map.2 ⟨r, hr1, this⟩)

/-- **C78, calls.** A call of this value, in any state of an engine that has loaded the scripts and perhaps more, runs the body of the literal with
`this` and the arguments, and gives the value it returns, or `undefined` if it ends without `return`; scopes and `this` are then as before. -/
theorem C78_call (E : Env) [Natives E] {ss more : List Script} (hs : ((ss ++ more).map fun s => s.bytes.length).sum < 2 ^ 31) {k : Nat} {s : Script} (hk : ss[k]? = some s)
    {q : Nat × Fn} (hq : q ∈ funsSs (layoutSs (startOf ss k + s.start) s.body)) (n d : Nat) (t : Val) (args : List Val) (vm : Vm) :
    callFn E (functions (ss ++ more)) (n + 1) (d + 1) (mkFunction (BitVec.ofNat 64 q.1)) t args vm =
      (runBody E (functions (ss ++ more)) n d q.2 t args vm).bind fun o =>
        match o with
        | .err w => some (.err w)
        | .ok w (.normal _) => some (.ok { w with scopes := vm.scopes, this := vm.this } mkUndefined)
        | .ok w (.ret r) => some (.ok { w with scopes := vm.scopes, this := vm.this } r)
        | .ok _ _ => none := by
  have hm := mem_funsFrom ss more 0 k s hk q (by rwa [Nat.zero_add])
  exact callFn_eq (mkFunction_addr (funsFrom_lt _ hs hm)).1 (funs_value hs hk hq)

/-- **C78, calls from C.** A host that keeps the value may call it after any number of further scripts: `mjs_apply` runs the body of the literal. -/
theorem C78_apply {E : Env} [Natives E] {vm vm' : Vm} {ss more : List Script} (h : Loaded vm (ss ++ more)) {k : Nat} {s : Script} (hk : ss[k]? = some s)
    {q : Nat × Fn} (hq : q ∈ funsSs (layoutSs (startOf ss k + s.start) s.body)) {n d : Nat} {t v : Val} {args : List Val} (hr : Room vm (d + args.length + 2))
    (he : runBody E (functions (ss ++ more)) n d q.2 t args (setErrorf vm .ok none) = some (.ok vm' (.ret v))) :
    ∃ vm2, Exec.apply E vm (mkFunction (BitVec.ofNat 64 q.1)) t args = some (vm2, some v, .ok) ∧ vm'.error = .ok ∧ After vm vm' vm2 := by
  have hs : ((ss ++ more).map fun s => s.bytes.length).sum < 2 ^ 31 := by have := h.small; rw [h.len] at this; omega
  have hm := mem_funsFrom ss more 0 k s hk q (by rwa [Nat.zero_add])
  exact C54_returned h hr (mkFunction_addr (funsFrom_lt _ hs hm)).1 (funs_value hs hk hq) he

/-- Non-vacuity: the script `let f = function(x) { return x; };`, as the first of an engine, has one function literal. -/
example : ∃ s : Script, (25, (⟨[[120]], [.ret (some (.get (.var [120])))]⟩ : Fn)) ∈ funsSs (layoutSs (startOf [s] 0 + s.start) s.body) ∧
    s.body = [.lets [102] (some (.func 0 none [[120]] [.ret (some (.get (.var [120])))])) []] ∧ ([s].map fun s => s.bytes.length).sum < 2 ^ 31 := by
  refine ⟨⟨[], [.lets [102] (some (.func 0 none [[120]] [.ret (some (.get (.var [120])))])) []], []⟩, ?_, rfl, by decide +kernel⟩
  simp only [layoutSs, layoutS, layoutE, layoutLet, layoutL, layoutLets, layoutRest, funsSs, funsS, funsO, funsE, funsLets, List.append_nil, List.mem_cons]
  exact .inl (Prod.ext (show (25 : Nat) = _ by decide +kernel) rfl)

end Mjs.Props
