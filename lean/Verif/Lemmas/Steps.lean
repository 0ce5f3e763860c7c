import Verif.Lemmas.Local
import Verif.Lemmas.Core
import Verif.Lemmas.VarintDec
import Verif.Spec.Sem

/-! Steps of the machine, and what it means that the machine does what the semantics says. -/

namespace Mjs.Exec
open Mjs Mjs.Str Mjs.Obj Mjs.Core Mjs.Code Mjs.Sem

/-- Rounds of the loop of `mjs_execute` without an error. -/
inductive Steps (E : Env) : Mach → Mach → Prop
  | refl (m : Mach) : Steps E m m
  | step {m m' m'' : Mach} {op : UInt8} (hi : m.bp.data[m.i]? = some op)
      (hx : execOp E { m with op := op } m.op = some (.go m')) (he : m'.vm.error = .ok)
      (h : Steps E { m' with i := wrap ((m'.i : Int) + 1) } m'') : Steps E m m''

theorem Steps.trans {E : Env} {a b c : Mach} (h1 : Steps E a b) (h2 : Steps E b c) : Steps E a c := by
  induction h1 with
  | refl => exact h2
  | step hi hx he _ ih => exact .step hi hx he (ih h2)

theorem loop_steps {E : Env} {s : Saved} {a b : Mach} (h : Steps E a b) : loop E s a = loop E s b := by
  induction h with
  | refl => rfl
  | @step m m' m'' op hi hx he _ ih =>
    rw [loop]
    have hlt : m.i < m.bp.data.length := (List.getElem?_eq_some_iff.1 hi).1
    rw [if_pos hlt, hi]
    simp only [Option.bind_eq_bind, Option.bind_some, hx, he, ne_eq, not_true_eq_false, if_false]
    exact ih

/-- `b` is what `vm` was when the execution began: its stacks are at the bottom of those of `vm`. -/
structure Above (b vm : Vm) : Prop where
  parts : vm.parts = b.parts
  len : vm.bcodeLen = b.bcodeLen
  stack : b.stack <+: vm.stack
  callStack : b.callStack <+: vm.callStack
  argStack : b.argStack <+: vm.argStack
  scopes : b.scopes <+: vm.scopes
  loopAddrs : b.loopAddrs <+: vm.loopAddrs

/-- The same objects, strings, allocator and error. -/
def SameCore (a c : Vm) : Prop := a.heap = c.heap ∧ a.al = c.al ∧ a.error = c.error ∧ a.msg = c.msg

/-- The machine gets to an instruction that sets an error; then it is as `vm` says. -/
def Fails (E : Env) (b : Vm) (m : Mach) (vm : Vm) : Prop :=
  ∃ m1 op m2, Steps E m m1 ∧ m1.bp.data[m1.i]? = some op ∧ execOp E { m1 with op := op } m1.op = some (.go m2) ∧
    m2.vm.error ≠ .ok ∧ SameCore m2.vm vm ∧ Above b m2.vm

theorem take_prefix {α : Type} {a c : List α} (h : a <+: c) : c.take a.length = a := by
  obtain ⟨t, rfl⟩ := h; simp

/-- After an error the stacks are as they were at the start. -/
theorem loop_fails {E : Env} {b : Vm} {m : Mach} {vm : Vm} (h : Fails E b m vm) :
    ∃ t l, loop E (save b) m = some { b with
      heap := vm.heap, al := vm.al, error := vm.error, msg := vm.msg
      stack := b.stack ++ [mkUndefined]
      this := t, lastGetprop := l } ∧ vm.error ≠ .ok := by
  obtain ⟨m1, op, m2, hs, hi, hx, he, hc, ha⟩ := h
  rw [loop_steps hs, loop]
  have hlt : m1.i < m1.bp.data.length := (List.getElem?_eq_some_iff.1 hi).1
  rw [if_pos hlt, hi]
  simp only [Option.bind_eq_bind, Option.bind_some, hx]
  simp only [ne_eq, he, not_false_eq_true, if_true]
  obtain ⟨h1, h2, h3, h4⟩ := hc
  refine ⟨m2.vm.this, m2.vm.lastGetprop, ?_, by rw [← h3]; exact he⟩
  unfold unwind save setLen
  simp only [ha.stack.length_le, ha.callStack.length_le, ha.argStack.length_le, ha.scopes.length_le, ha.loopAddrs.length_le,
    if_true, take_prefix ha.stack, take_prefix ha.callStack, take_prefix ha.argStack, take_prefix ha.scopes,
    take_prefix ha.loopAddrs, Option.bind_eq_bind, Option.bind_some, push, Option.some.injEq]
  rw [← h1, ← h2, ← h3, ← h4, ← ha.parts, ← ha.len]

/-! ## Stacks -/

/-- The parts of the engine state that the semantics does not know. -/
structure Stacks where
  parts : List Part
  bcodeLen : Nat
  stack : List Val
  callStack : List Val
  argStack : List Val
  loopAddrs : List Val

/-- The engine with these stacks. -/
def on (vm : Vm) (st : Stacks) : Vm :=
  { vm with parts := st.parts, bcodeLen := st.bcodeLen, stack := st.stack, callStack := st.callStack,
            argStack := st.argStack, loopAddrs := st.loopAddrs }

/-- The stacks of an engine. -/
def stacksOf (vm : Vm) : Stacks := ⟨vm.parts, vm.bcodeLen, vm.stack, vm.callStack, vm.argStack, vm.loopAddrs⟩

theorem on_self (vm : Vm) : on vm (stacksOf vm) = vm := rfl

def Stacks.pushes (st : Stacks) (l : List Val) : Stacks := { st with stack := st.stack ++ l }
def Stacks.push (st : Stacks) (v : Val) : Stacks := st.pushes [v]

@[simp] theorem on_on (vm : Vm) (st st' : Stacks) : on (on vm st) st' = on vm st' := rfl
@[simp] theorem push_on (vm : Vm) (st : Stacks) (v : Val) : push (on vm st) v = on vm (st.push v) := rfl
@[simp] theorem pop_on (vm : Vm) (st : Stacks) (v : Val) : pop (on vm (st.push v)) = (v, on vm st) := by
  simp [pop, on, Stacks.push, Stacks.pushes, popVal]
@[simp] theorem vtop_on (vm : Vm) (st : Stacks) (v : Val) : vtop (on vm (st.push v)).stack = v := by
  simp [on, Stacks.push, Stacks.pushes, vtop]
@[simp] theorem on_heap (vm : Vm) (st : Stacks) : (on vm st).heap = vm.heap := rfl
@[simp] theorem on_error (vm : Vm) (st : Stacks) : (on vm st).error = vm.error := rfl
@[simp] theorem on_scopes (vm : Vm) (st : Stacks) : (on vm st).scopes = vm.scopes := rfl
@[simp] theorem on_this (vm : Vm) (st : Stacks) : (on vm st).this = vm.this := rfl
@[simp] theorem on_last (vm : Vm) (st : Stacks) : (on vm st).lastGetprop = vm.lastGetprop := rfl
theorem pushes_push (st : Stacks) (v : Val) (l : List Val) : (st.push v).pushes l = st.pushes (v :: l) := by
  simp [Stacks.push, Stacks.pushes]
theorem pushes_nil (st : Stacks) : st.pushes [] = st := by simp [Stacks.pushes]

/-- A local operation does the same whatever the stacks are. -/
theorem Local.on {α : Type} {f : Vm → Option (Vm × α)} (h : Local f) (vm : Vm) (st : Stacks) :
    f (on vm st) = (f vm).map fun r => (on r.1 st, r.2) := by
  have e : Exec.on vm st = put vm (Exec.on vm st) := rfl
  rw [e, h vm (Exec.on vm st) rfl]
  cases hf : f vm with
  | none => rfl
  | some r =>
    obtain ⟨vm1, a⟩ := r
    have := h.same hf
    simp only [mapPut, Option.map_some]
    conv => rhs; rw [this]
    rfl

theorem Local0.on {f : Vm → Option Vm} (h : Local0 f) (vm : Vm) (st : Stacks) :
    f (on vm st) = (f vm).map fun r => on r st := by
  have := h.lift.on vm st
  simp only [Option.map_map] at this
  cases h1 : f (Exec.on vm st) <;> cases h2 : f vm <;> simp_all

/-! ## Doing what the semantics says -/

/-- From `m` the machine does `out`: it gets to a state related to the value, or to the error. -/
def Reaches {α : Type} (E : Env) (b : Vm) (m : Mach) (Q : Vm → α → Mach → Prop) : Out α → Prop
  | .ok vm a => ∃ m', Steps E m m' ∧ Q vm a m'
  | .err vm => Fails E b m vm

/-- From `m` the machine does what `x` does in `vm`, if that has an answer. -/
def Sims {α : Type} (E : Env) (b : Vm) (x : Sem α) (vm : Vm) (m : Mach) (Q : Vm → α → Mach → Prop) : Prop :=
  ∀ out, x vm = some out → Reaches E b m Q out

variable {E : Env} {b : Vm} {α β : Type}

theorem Sims.steps {x : Sem α} {vm : Vm} {m m' : Mach} {Q : Vm → α → Mach → Prop} (h : Steps E m m')
    (hs : Sims E b x vm m' Q) : Sims E b x vm m Q := by
  intro out e
  have := hs out e
  cases out with
  | ok vm' a =>
    obtain ⟨m'', h1, h2⟩ := this
    exact ⟨m'', h.trans h1, h2⟩
  | err vm' =>
    obtain ⟨m1, op, m2, h1, r⟩ := this
    exact ⟨m1, op, m2, h.trans h1, r⟩

theorem Sims.mono {x : Sem α} {vm : Vm} {m : Mach} {Q Q' : Vm → α → Mach → Prop} (hs : Sims E b x vm m Q)
    (h : ∀ vm' a m', Q vm' a m' → Q' vm' a m') : Sims E b x vm m Q' := by
  intro out e
  have := hs out e
  cases out with
  | ok vm' a =>
    obtain ⟨m'', h1, h2⟩ := this
    exact ⟨m'', h1, h _ _ _ h2⟩
  | err vm' => exact this

theorem Sims.bind {x : Sem α} {f : α → Sem β} {vm : Vm} {m : Mach} {Q : Vm → α → Mach → Prop}
    {Q' : Vm → β → Mach → Prop} (hx : Sims E b x vm m Q)
    (hf : ∀ vm' a m', Q vm' a m' → Sims E b (f a) vm' m' Q') : Sims E b (x >>= f) vm m Q' := by
  intro out e
  change Sem.bind x f vm = some out at e
  unfold Sem.bind at e
  cases hxv : x vm with
  | none => rw [hxv] at e; cases e
  | some o =>
    rw [hxv] at e
    have h1 := hx o hxv
    cases o with
    | err vm' => cases e; exact h1
    | ok vm' a =>
      obtain ⟨m', hs, hq⟩ := h1
      exact Sims.steps hs (hf _ _ _ hq) out e

theorem Sims.pure {a : α} {vm : Vm} {m : Mach} {Q : Vm → α → Mach → Prop} (h : Q vm a m) :
    Sims E b (Pure.pure a : Sem α) vm m Q := by
  intro out e
  cases e
  exact ⟨m, .refl m, h⟩

theorem Sims.andThen {x : Sem α} {vm : Vm} {m : Mach} {Q Q' : Vm → α → Mach → Prop} (hx : Sims E b x vm m Q)
    (hf : ∀ vm' a m', Q vm' a m' → Sims E b (Pure.pure a : Sem α) vm' m' Q') : Sims E b x vm m Q' := by
  intro out e
  have h1 := hx out e
  cases out with
  | err vm' => exact h1
  | ok vm' a =>
    obtain ⟨m', hs, hq⟩ := h1
    obtain ⟨m'', hs', hq'⟩ := hf _ _ _ hq _ rfl
    exact ⟨m'', hs.trans hs', hq'⟩

theorem Sims.undef {vm : Vm} {m : Mach} {Q : Vm → α → Mach → Prop} : Sims E b undefinedBehaviour vm m Q := by
  intro out e; cases e

theorem Sims.current {f : Vm → Sem β} {vm : Vm} {m : Mach} {Q : Vm → β → Mach → Prop} (h : Sims E b (f vm) vm m Q) :
    Sims E b (Sem.current >>= f) vm m Q := h

theorem Sims.setScopes {s : List Val} {f : Unit → Sem β} {vm : Vm} {m : Mach} {Q : Vm → β → Mach → Prop}
    (h : Sims E b (f ()) { vm with scopes := s } m Q) : Sims E b (Sem.setScopes s >>= f) vm m Q := h

theorem Sims.setThis {s : Val} {f : Unit → Sem β} {vm : Vm} {m : Mach} {Q : Vm → β → Mach → Prop}
    (h : Sims E b (f ()) { vm with this := s } m Q) : Sims E b (Sem.setThis s >>= f) vm m Q := h

theorem Sims.setLast {s : Val} {f : Unit → Sem β} {vm : Vm} {m : Mach} {Q : Vm → β → Mach → Prop}
    (h : Sims E b (f ()) { vm with lastGetprop := s } m Q) : Sims E b (Sem.setLast s >>= f) vm m Q := h

theorem Sims.truthy {v : Val} {f : Bool → Sem β} {vm : Vm} {m : Mach} {Q : Vm → β → Mach → Prop} (he : vm.error = .ok)
    (h : ∀ c, isTruthy vm.heap.str v = some c → Sims E b (f c) vm m Q) : Sims E b (Sem.truthy v >>= f) vm m Q := by
  intro out e
  change Sem.bind (Sem.truthy v) f vm = some out at e
  unfold Sem.bind Sem.truthy prim at e
  cases ht : isTruthy vm.heap.str v with
  | none => simp [ht] at e
  | some c =>
    simp only [ht, Option.map_some, he, if_true] at e
    exact h c ht out e

/-! ## Code -/

/-- The code `c` is at `pc`. -/
def Placed (bp : Part) (pc : Nat) (c : List UInt8) : Prop := ∃ rest, bp.data.drop pc = c ++ rest

theorem Placed.left {bp : Part} {pc : Nat} {c d : List UInt8} (h : Placed bp pc (c ++ d)) : Placed bp pc c := by
  obtain ⟨r, h⟩ := h
  exact ⟨d ++ r, by rw [h, List.append_assoc]⟩

theorem Placed.right {bp : Part} {pc : Nat} {c d : List UInt8} (h : Placed bp pc (c ++ d)) : Placed bp (pc + c.length) d := by
  obtain ⟨r, h⟩ := h
  refine ⟨r, ?_⟩
  rw [← List.drop_drop, h, List.append_assoc, List.drop_left]

theorem Placed.tail {bp : Part} {pc : Nat} {o : UInt8} {d : List UInt8} (h : Placed bp pc (o :: d)) : Placed bp (pc + 1) d :=
  Placed.right (c := [o]) h

theorem Placed.cast {bp : Part} {pc pc' : Nat} {c : List UInt8} (h : Placed bp pc c) (e : pc = pc') : Placed bp pc' c := e ▸ h

theorem Placed.head {bp : Part} {pc : Nat} {o : UInt8} {d : List UInt8} (h : Placed bp pc (o :: d)) :
    bp.data[pc]? = some o := by
  obtain ⟨r, h⟩ := h
  have : (bp.data.drop pc)[0]? = some o := by rw [h]; rfl
  simpa using this

theorem Placed.le {bp : Part} {pc : Nat} {c : List UInt8} (h : Placed bp pc c) (hc : c ≠ []) :
    pc + c.length ≤ bp.data.length := by
  obtain ⟨r, h⟩ := h
  have := congrArg List.length h
  simp only [List.length_drop, List.length_append] at this
  have : 0 < c.length := List.length_pos_iff.2 hc
  omega

theorem vint_pos (n : Nat) : 1 ≤ (vint n).length := by
  rw [vint, Varint.length_encodeBytes]; exact Varint.llen_pos n

theorem vint_le (n : Nat) (h : n < 2 ^ 64) : (vint n).length ≤ 10 := by
  rw [vint, Varint.length_encodeBytes]; exact Varint.llen_le_ten n h

theorem operand_vint {bp : Part} {pc n : Nat} {c : List UInt8} (h : Placed bp pc (vint n ++ c)) (hn : n < 2 ^ 64) :
    operand bp.data pc = some (n, (vint n).length) := by
  obtain ⟨r, h⟩ := h
  unfold operand Varint.decodeUnsafe
  have hl := vint_le n hn
  rw [vint, Varint.length_encodeBytes] at hl
  rw [h, List.append_assoc, vint, Varint.decode_encode n hn (c ++ r) (2 ^ 64 - 1) (by omega), Varint.length_encodeBytes]

theorem bytes_placed {bp : Part} {pc : Nat} {c : List UInt8} (h : Placed bp pc c) (hb : pc ≤ bp.data.length) :
    bytesAt bp.data pc c.length = some c := by
  obtain ⟨r, h⟩ := h
  have hl := congrArg List.length h
  simp only [List.length_drop, List.length_append] at hl
  unfold bytesAt
  rw [if_pos (by omega), h]
  simp

theorem wrap_nat (n : Nat) (h : n < 2 ^ 64) : wrap (n : Int) = n := by
  unfold wrap; omega

/-- Where the machine is. -/
structure At (m : Mach) (vm : Vm) (st : Stacks) (bp : Part) (pc : Nat) : Prop where
  vm : m.vm = on vm st
  bp : m.bp = bp
  i : m.i = pc

/-- One instruction without an error. -/
theorem step1 {m : Mach} {vm vm' : Vm} {st st' : Stacks} {bp bp' : Part} {pc k : Nat} {op : UInt8} (h : At m vm st bp pc)
    (hop : bp.data[pc]? = some op)
    (hx : execOp E ⟨on vm st, bp, pc, op⟩ m.op = some (.go ⟨on vm' st', bp', k, op⟩))
    (he : vm'.error = .ok) (hk : k + 1 < 2 ^ 64) :
    ∃ m', Steps E m m' ∧ At m' vm' st' bp' (k + 1) ∧ m'.op = op := by
  obtain ⟨mv, mb, mi, mo⟩ := m
  obtain ⟨h1, h2, h3⟩ := h
  simp only at h1 h2 h3
  subst h1 h2 h3
  refine ⟨⟨on vm' st', bp', k + 1, op⟩, ?_, ⟨rfl, rfl, rfl⟩, rfl⟩
  have e : wrap ((k : Int) + 1) = k + 1 := by have := wrap_nat (k + 1) hk; simpa using this
  refine .step hop hx he ?_
  simp only [e]
  exact .refl _

/-- One instruction that is an operation of the engine, and then changes other parts of the state (`w`). -/
theorem Sims.instrW {f : Vm → Option (Vm × α)} {vm : Vm} {m : Mach} {st st' : Stacks} {g : α → Stacks} {w : α → Vm → Vm}
    {bp : Part} {pc k : Nat} {op : UInt8} {Q : Vm → α → Mach → Prop} (h : At m vm st bp pc) (hf : Local f)
    (hop : bp.data[pc]? = some op)
    {h' : Vm × α → Vm} (hx : execOp E ⟨on vm st, bp, pc, op⟩ m.op = (f (on vm st')).map fun r => .go ⟨h' r, bp, k, op⟩)
    (hw : ∀ a v, SameCore (w a v) v) (hws : ∀ a v, h' (on v st', a) = on (w a v) (g a))
    (hk : k + 1 < 2 ^ 64) (ha : ∀ vm' a, vm'.scopes = vm.scopes → Above b (on (w a vm') (g a)))
    (hq : ∀ vm' a m', vm'.error = .ok → f vm = some (vm', a) → At m' (w a vm') (g a) bp (k + 1) → m'.op = op →
      Q vm' a m') :
    Sims E b (prim f) vm m Q := by
  intro out e
  unfold prim at e
  cases hfv : f vm with
  | none => rw [hfv] at e; cases e
  | some r =>
    obtain ⟨vm', a⟩ := r
    rw [hfv] at e
    simp only [Option.map_some, Option.some.injEq] at e
    have hx' : execOp E ⟨on vm st, bp, pc, op⟩ m.op = some (.go ⟨on (w a vm') (g a), bp, k, op⟩) := by
      rw [hx, hf.on, hfv]
      simp only [Option.map_some, hws]
    by_cases he : vm'.error = .ok
    · rw [if_pos he] at e
      subst e
      obtain ⟨m', h1, h2, h3⟩ := step1 h hop hx' (by rw [(hw a vm').2.2.1]; exact he) hk
      exact ⟨m', h1, hq _ _ _ he hfv h2 h3⟩
    · rw [if_neg he] at e
      subst e
      obtain ⟨mv, mb, mi, mo⟩ := m
      obtain ⟨h1, h2, h3⟩ := h
      simp only at h1 h2 h3
      subst h1 h2 h3
      refine ⟨_, op, _, .refl _, hop, hx', ?_, hw a vm', ha vm' a (hf.scopes hfv)⟩
      show (w a vm').error ≠ .ok
      rw [(hw a vm').2.2.1]; exact he

/-- One instruction that is an operation of the engine. -/
theorem Sims.instr {f : Vm → Option (Vm × α)} {vm : Vm} {m : Mach} {st st' : Stacks} {g : α → Stacks} {bp : Part}
    {pc k : Nat} {op : UInt8} {Q : Vm → α → Mach → Prop} (h : At m vm st bp pc) (hf : Local f)
    (hop : bp.data[pc]? = some op)
    {h' : Vm × α → Vm} (hx : execOp E ⟨on vm st, bp, pc, op⟩ m.op = (f (on vm st')).map fun r => .go ⟨h' r, bp, k, op⟩)
    (hws : ∀ a v, h' (on v st', a) = on v (g a)) (hk : k + 1 < 2 ^ 64) (ha : ∀ vm' a, vm'.scopes = vm.scopes → Above b (on vm' (g a)))
    (hq : ∀ vm' a m', vm'.error = .ok → f vm = some (vm', a) → At m' vm' (g a) bp (k + 1) → m'.op = op → Q vm' a m') :
    Sims E b (prim f) vm m Q :=
  Sims.instrW (w := fun _ v => v) h hf hop hx (fun _ _ => ⟨rfl, rfl, rfl, rfl⟩) hws hk ha hq

/-- One instruction without an error, then the rest. -/
theorem Sims.step {x : Sem α} {vm vm' vm'' : Vm} {m : Mach} {st st' : Stacks} {bp bp' : Part} {pc k : Nat} {op : UInt8}
    {Q : Vm → α → Mach → Prop} (h : At m vm st bp pc) (hop : bp.data[pc]? = some op)
    (hx : execOp E ⟨on vm st, bp, pc, op⟩ m.op = some (.go ⟨on vm' st', bp', k, op⟩))
    (he : vm'.error = .ok) (hk : k + 1 < 2 ^ 64)
    (hs : ∀ m', At m' vm' st' bp' (k + 1) → m'.op = op → Sims E b x vm'' m' Q) : Sims E b x vm'' m Q := by
  obtain ⟨m', h1, h2, h3⟩ := step1 h hop hx he hk
  exact Sims.steps h1 (hs m' h2 h3)

/-- An instruction that sets an error. -/
theorem Sims.raise {err : Err} {text : String} {vm : Vm} {m : Mach} {st st' : Stacks} {bp : Part} {pc k : Nat} {op : UInt8}
    {Q : Vm → α → Mach → Prop} (h : At m vm st bp pc) (hop : bp.data[pc]? = some op)
    (hx : execOp E ⟨on vm st, bp, pc, op⟩ m.op =
      some (.go ⟨on (setErrorf vm err (some (txt text))) st', bp, k, op⟩))
    (he : err ≠ .ok) (ha : Above b (on vm st')) : Sims E b (Sem.raise err text) vm m Q := by
  intro out e
  unfold Sem.raise at e
  cases e
  obtain ⟨mv, mb, mi, mo⟩ := m
  obtain ⟨h1, h2, h3⟩ := h
  simp only at h1 h2 h3
  subst h1 h2 h3
  exact ⟨_, op, _, .refl _, hop, hx, he, ⟨rfl, rfl, rfl, rfl⟩,
    ⟨ha.parts, ha.len, ha.stack, ha.callStack, ha.argStack, ha.scopes, ha.loopAddrs⟩⟩

end Mjs.Exec
