import Verif.Lemmas.SimGc

/-!
# Runs in two engines that differ only in where things are in memory
-/

namespace Mjs.Spec.Invisible
open Mjs Mjs.Mbuf Mjs.Varint Mjs.Str Mjs.Arena Mjs.Obj Mjs.Spec Mjs.Spec.Gc Mjs.Gc Mjs.Core Mjs.Exec
open Mjs.Client (Pairs)

variable {n : Nat} {a b : Vm} {E : Env} {s : Saved} {f : Bool}

theorem Alike.symm (h : Alike a b) : Alike b a := by
  obtain ⟨st, L, g, L', g', h1, h2⟩ := h
  exact ⟨st, L', g', L, g, h2, h1⟩

theorem Alike.collect (h : Alike a b) {b'} (hc : Collection b b') : Alike a b' := by
  obtain ⟨st, L, g, L', g', h1, h2⟩ := h
  obtain ⟨L2, g2, h3⟩ := h2.collect hc
  exact ⟨st, L, g, L2, g2, h1, h3⟩

theorem Shows.answers {st L g} (h : Shows a st L g) (al) : Shows { a with al := al } st L g :=
  ⟨h.heap, h.stack, h.callStack, h.argStack, h.scopes, h.this, h.lastGetprop, h.loopAddrs, h.parts, h.bcodeLen, h.error, h.msg, h.cmem⟩

theorem Alike.answers (h : Alike a b) (al) : Alike a { b with al := al } := by
  obtain ⟨st, L, g, L', g', h1, h2⟩ := h
  exact ⟨st, L, g, L', g', h1, h2.answers al⟩

/-- What a run does once collections and answers are dropped from its beginning. -/
inductive Head (f : Bool) (E : Env) (n : Nat) (s : Saved) (m : Mach) (r : Vm) : Prop
  | stop : ¬ m.i < m.bp.data.length → r = m.vm → Head f E n s m r
  | op {op x} : m.i < m.bp.data.length → m.bp.data[m.i]? = some op → Ready n m.vm → op ≠ FOR_IN_NEXT →
      execOp E { m with op := op } m.op = some x →
      (x = .clean r ∨ ∃ m', x = .go m' ∧ ((m'.vm.error ≠ .ok ∧ unwind s m'.vm = some r) ∨
        (m'.vm.error = .ok ∧ Run f E n s { m' with i := wrap ((m'.i : Int) + 1) } r))) → Head f E n s m r

theorem Run.head {m r} (h : Run f E n s m r) : ∀ {a : Vm}, Alike a m.vm → ∃ m' : Mach, Alike a m'.vm ∧ m'.bp = m.bp ∧ m'.i = m.i ∧ m'.op = m.op ∧ Head f E n s m' r := by
  induction h with
  | @stop m h0 => intro a ha; exact ⟨m, ha, rfl, rfl, rfl, .stop h0 rfl⟩
  | @clean m op vm h0 h1 h2 h3 h4 => intro a ha; exact ⟨m, ha, rfl, rfl, rfl, .op h0 h1 h2 h3 h4 (.inl rfl)⟩
  | @error m op m' vm h0 h1 h2 h3 h4 h5 h6 => intro a ha; exact ⟨m, ha, rfl, rfl, rfl, .op h0 h1 h2 h3 h4 (.inr ⟨m', rfl, .inl ⟨h5, h6⟩⟩)⟩
  | @step m op m' vm h0 h1 h2 h3 h4 h5 h6 _ => intro a ha; exact ⟨m, ha, rfl, rfl, rfl, .op h0 h1 h2 h3 h4 (.inr ⟨m', rfl, .inr ⟨h5, h6⟩⟩)⟩
  | answers _ _ ih =>
    intro a ha
    exact ih (ha.answers _)
  | collect _ hc _ ih =>
    intro a ha
    exact ih (ha.collect hc)

/-- The next instruction. -/
theorem op_alike (ht : TextShort E.numText) (hf : Respects (n + 2) E.ffi) (hc : ∀ p, Respects (n + 2) (E.cfun p)) {m1 m2 : Mach}
    (ha : Alike m1.vm m2.vm) (hb : m2.bp = m1.bp) (hi : m2.i = m1.i) (ho : m2.op = m1.op) {op x} (hr1 : Ready (n + 2) m1.vm) (hr2 : Ready (n + 2) m2.vm)
    (hop : op ≠ FOR_IN_NEXT) (hx : execOp E { m1 with op := op } m1.op = some x) :
    ∃ y k, execOp E { m2 with op := op } m2.op = some y ∧ NRel k x y := by
  obtain ⟨k, hk⟩ := ha.rel
  obtain ⟨y, k', hy, hn⟩ := execOp_rel (n := n + 2 * m1.vm.stack.length) ht hf hc (by omega) m1.bp m1.i op m1.op hop
    (hk _ (by rw [Nat.add_right_comm]; exact hr1.supply) (by rw [Nat.add_right_comm, (hk 0 trivial trivial).stack.len]; exact hr2.supply)) hr1.small hr2.small x hx
  refine ⟨y, k', ?_, hn⟩
  rw [← hy, ← hb, ← hi, ← ho]

theorem head_alike (ht : TextShort E.numText) (hf : Respects (n + 2) E.ffi) (hc : ∀ p, Respects (n + 2) (E.cfun p)) {f2 : Bool} {m1 m2 : Mach} {r2 : Vm}
    (h2 : Run f2 E (n + 2) s m2 r2) (ha : Alike m1.vm m2.vm) (hb : m2.bp = m1.bp) (hi : m2.i = m1.i) (ho : m2.op = m1.op) {op x}
    (hr1 : Ready (n + 2) m1.vm) (hop : op ≠ FOR_IN_NEXT) (hlt : m1.i < m1.bp.data.length) (hd : m1.bp.data[m1.i]? = some op)
    (hx : execOp E { m1 with op := op } m1.op = some x) :
    ∃ y k, NRel k x y ∧ (y = .clean r2 ∨ ∃ m', y = .go m' ∧ ((m'.vm.error ≠ .ok ∧ unwind s m'.vm = some r2) ∨
        (m'.vm.error = .ok ∧ Run f2 E (n + 2) s { m' with i := wrap ((m'.i : Int) + 1) } r2))) := by
  obtain ⟨m3, ha3, hb3, hi3, ho3, hh⟩ := h2.head ha
  cases hh with
  | stop h0 _ => rw [hb3, hi3, hb, hi] at h0; exact absurd hlt h0
  | @op op' y h0 h1 hr3 h3 h4 h5 =>
    rw [hb3, hi3, hb, hi, hd] at h1
    cases h1
    obtain ⟨y', k, e, hn⟩ := op_alike ht hf hc ha3 (hb3.trans hb) (hi3.trans hi) (ho3.trans ho) hr1 hr3 hop hx
    rw [h4] at e
    cases e
    exact ⟨y, k, hn, h5⟩

/-- Two runs from engines that are alike end with engines that are alike. -/
theorem run_alike (ht : TextShort E.numText) (hf : Respects (n + 2) E.ffi) (hc : ∀ p, Respects (n + 2) (E.cfun p)) {f1 f2 : Bool} {m1 r1}
    (h1 : Run f1 E (n + 2) s m1 r1) : ∀ {m2 r2}, Run f2 E (n + 2) s m2 r2 → Alike m1.vm m2.vm → m2.bp = m1.bp → m2.i = m1.i → m2.op = m1.op → Alike r1 r2 := by
  induction h1 with
  | @stop m h0 =>
    intro m2 r2 h2 ha hb hi ho
    obtain ⟨m3, ha3, hb3, hi3, ho3, hh⟩ := h2.head ha
    cases hh with
    | stop _ e => rw [e]; exact ha3
    | op h1 => rw [hb3, hi3, hb, hi] at h1; exact absurd h1 h0
  | @clean m op vm h0 hd hr hop hx =>
    intro m2 r2 h2 ha hb hi ho
    obtain ⟨y, k, hn, hy⟩ := head_alike ht hf hc h2 ha hb hi ho hr hop h0 hd hx
    cases hn with
    | clean hrel =>
      rcases hy with e | ⟨m', e, _⟩
      · cases e; exact hrel.alike
      · cases e
  | @error m op m' vm h0 hd hr hop hx herr hu =>
    intro m2 r2 h2 ha hb hi ho
    obtain ⟨y, k, hn, hy⟩ := head_alike ht hf hc h2 ha hb hi ho hr hop h0 hd hx
    cases hn with
    | go hrel =>
      rcases hy with e | ⟨m'', e, hy⟩
      · cases e
      · cases e
        rcases hy with ⟨_, hu2⟩ | ⟨hok, _⟩
        · obtain ⟨y, hy, hrr⟩ := unwind_rel s hrel.vm _ hu
          rw [hu2] at hy
          cases hy
          exact hrr.alike
        · rw [← hrel.vm.error] at hok
          exact absurd hok herr
  | @step m op m' vm h0 hd hr hop hx herr _ ih =>
    intro m2 r2 h2 ha hb hi ho
    obtain ⟨y, k, hn, hy⟩ := head_alike ht hf hc h2 ha hb hi ho hr hop h0 hd hx
    cases hn with
    | go hrel =>
      rcases hy with e | ⟨m'', e, hy⟩
      · cases e
      · cases e
        rcases hy with ⟨hne, _⟩ | ⟨_, hrun⟩
        · rw [← hrel.vm.error] at hne
          exact absurd herr hne
        · exact ih hrun hrel.vm.alike hrel.bp.symm (by simp only [hrel.i]) hrel.op.symm
  | answers _ _ ih =>
    intro m2 r2 h2 ha hb hi ho
    exact ih h2 (ha.symm.answers _).symm hb hi ho
  | collect _ hcl _ ih =>
    intro m2 r2 h2 ha hb hi ho
    exact ih h2 (ha.symm.collect hcl).symm hb hi ho

/-- If one run ends, so does the other, unless it runs out of memory. -/
theorem run_ends (ht : TextShort E.numText) (hf : Respects (n + 2) E.ffi) (hc : ∀ p, Respects (n + 2) (E.cfun p)) {f1 : Bool} {m1 r1}
    (h1 : Run f1 E (n + 2) s m1 r1) : ∀ {m2 : Mach}, Alike m1.vm m2.vm → m2.bp = m1.bp → m2.i = m1.i → m2.op = m1.op →
      (∃ r2, Run false E (n + 2) s m2 r2) ∨ Starves E (n + 2) m2 := by
  induction h1 with
  | @stop m h0 =>
    intro m2 ha hb hi ho
    exact .inl ⟨_, .stop (by rw [hb, hi]; exact h0)⟩
  | @clean m op vm h0 hd hr hop hx =>
    intro m2 ha hb hi ho
    have h0' : m2.i < m2.bp.data.length := by rw [hb, hi]; exact h0
    have hd' : m2.bp.data[m2.i]? = some op := by rw [hb, hi]; exact hd
    by_cases hr2 : Ready (n + 2) m2.vm
    · obtain ⟨y, k, e, hn⟩ := op_alike ht hf hc ha hb hi ho hr hr2 hop hx
      cases hn with
      | clean hrel => exact .inl ⟨_, .clean h0' hd' hr2 hop e⟩
    · exact .inr (.here h0' hr2)
  | @error m op m' vm h0 hd hr hop hx herr hu =>
    intro m2 ha hb hi ho
    have h0' : m2.i < m2.bp.data.length := by rw [hb, hi]; exact h0
    have hd' : m2.bp.data[m2.i]? = some op := by rw [hb, hi]; exact hd
    by_cases hr2 : Ready (n + 2) m2.vm
    · obtain ⟨y, k, e, hn⟩ := op_alike ht hf hc ha hb hi ho hr hr2 hop hx
      cases hn with
      | go hrel =>
        obtain ⟨y, hy, hrr⟩ := unwind_rel s hrel.vm _ hu
        exact .inl ⟨_, .error h0' hd' hr2 hop e (by rw [← hrel.vm.error]; exact herr) hy⟩
    · exact .inr (.here h0' hr2)
  | @step m op m' vm h0 hd hr hop hx herr _ ih =>
    intro m2 ha hb hi ho
    have h0' : m2.i < m2.bp.data.length := by rw [hb, hi]; exact h0
    have hd' : m2.bp.data[m2.i]? = some op := by rw [hb, hi]; exact hd
    by_cases hr2 : Ready (n + 2) m2.vm
    · obtain ⟨y, k, e, hn⟩ := op_alike ht hf hc ha hb hi ho hr hr2 hop hx
      cases hn with
      | @go _ m'' hrel =>
        have herr2 := hrel.vm.error.symm.trans herr
        rcases ih (m2 := { m'' with i := wrap ((m''.i : Int) + 1) }) hrel.vm.alike hrel.bp.symm (by simp only [hrel.i]) hrel.op.symm with ⟨r2, h⟩ | h
        · exact .inl ⟨r2, .step h0' hd' hr2 hop e herr2 h⟩
        · exact .inr (.step h0' hd' hr2 hop e herr2 h)
    · exact .inr (.here h0' hr2)
  | answers _ _ ih =>
    intro m2 ha hb hi ho
    exact ih (ha.symm.answers _).symm hb hi ho
  | collect _ hcl _ ih =>
    intro m2 ha hb hi ho
    exact ih (ha.symm.collect hcl).symm hb hi ho

/-- Without collections, this is the loop of the interpreter. -/
theorem Run.loop {m r} (h : Run false E n s m r) : Exec.loop E s m = some r := by
  induction h with
  | stop h0 => rw [Exec.loop, if_neg h0]
  | clean h0 hd _ _ hx => rw [Exec.loop, if_pos h0]; simp [hd, hx]
  | error h0 hd _ _ hx he hu => rw [Exec.loop, if_pos h0]; simp [hd, hx, he, hu]
  | step h0 hd _ _ hx he _ ih => rw [Exec.loop, if_pos h0]; simp [hd, hx, he, ih]
  | answers h => cases h
  | collect h => cases h

theorem Alike.save (h : Alike a b) : Exec.save a = Exec.save b := by
  obtain ⟨k, hk⟩ := h.rel
  have r := hk 0 trivial trivial
  unfold Exec.save
  rw [r.stack.len, r.callStack.len, r.argStack.len, r.scopes.len, r.loopAddrs]

theorem Alike.err (h : Alike a b) (e : Err) (t : Option (List UInt8)) : Alike (setErrorf a e t) (setErrorf b e t) := by
  obtain ⟨k, hk⟩ := h.rel
  exact ((hk 0 trivial trivial).err e t).alike

/-- The end of `mjs_execute`. -/
theorem Alike.res (h : Alike a b) (i : Nat) {p q : Part} (e : p = q) : Alike { a with parts := a.parts.set i p } { b with parts := b.parts.set i q } := by
  cases e
  obtain ⟨st, L, g, L', g', h1, h2⟩ := h
  exact ⟨{ st with parts := st.parts.set i p }, L, g, L', g',
    ⟨h1.heap, h1.stack, h1.callStack, h1.argStack, h1.scopes, h1.this, h1.lastGetprop, h1.loopAddrs, by show a.parts.set i p = st.parts.set i p; rw [h1.parts], h1.bcodeLen, h1.error, h1.msg, h1.cmem⟩,
    ⟨h2.heap, h2.stack, h2.callStack, h2.argStack, h2.scopes, h2.this, h2.lastGetprop, h2.loopAddrs, by show b.parts.set i p = st.parts.set i p; rw [h2.parts], h2.bcodeLen, h2.error, h2.msg, h2.cmem⟩⟩

theorem Alike.part (h : Alike a b) (off : Nat) : partAt a off = partAt b off ∧ partIdx a off = partIdx b off ∧ a.parts = b.parts ∧ a.error = b.error := by
  obtain ⟨k, hk⟩ := h.rel
  have r := hk 0 trivial trivial
  exact ⟨partAt_eq r off, by unfold partIdx; rw [r.parts, r.bcodeLen], r.parts, r.error⟩

/-! ### Values -/

theorem pairs_zip {α β γ : Type} {R : α → γ → Prop} {S : β → γ → Prop} {T : α → β → Prop} {xs : List γ} : ∀ {l1 l2}, Pairs R l1 xs → Pairs S l2 xs →
    (∀ x ∈ l1, ∀ y ∈ l2, ∀ z, R x z → S y z → T x y) → Pairs T l1 l2 := by
  induction xs with
  | nil => intro l1 l2 h1 h2 _; cases h1; cases h2; exact .nil
  | cons x xs ih =>
    intro l1 l2 h1 h2 hf
    cases h1 with
    | cons r1 h1 =>
      cases h2 with
      | cons r2 h2 =>
        exact .cons (hf _ List.mem_cons_self _ List.mem_cons_self _ r1 r2)
          (ih h1 h2 fun x hx y hy => hf x (List.mem_cons_of_mem _ hx) y (List.mem_cons_of_mem _ hy))

theorem same_rep {h1 h2 : Heap} {w L1 L2 g1 g2} (s1 : Held h1 w L1 g1) (s2 : Held h2 w L2 g2) : ∀ (d : Nat) {v1 v2 x},
    Rep L1 g1 v1 x → Rep L2 g2 v2 x → Same d h1 v1 h2 v2 := by
  intro d
  induction d with
  | zero => intro v1 v2 x _ _; trivial
  | succ d ih =>
    intro v1 v2 x r1 r2
    cases x with
    | imm u =>
      obtain ⟨rfl, hp⟩ := r1
      obtain ⟨rfl, _⟩ := r2
      exact .inl ⟨rfl, hp⟩
    | str bs => exact .inr (.inl ⟨bs, (s1.readsZ r1).reads, (s2.readsZ r2).reads⟩)
    | obj t i =>
      obtain ⟨A1, fo1, fp1, d1⟩ := s1
      obtain ⟨A2, fo2, fp2, d2⟩ := s2
      refine .inr (.inr ⟨r1.1, r2.1, by unfold isArray; rw [r1.2.1, r2.2.1], ?_⟩)
      cases e1 : A1 (getPtrRaw v1).toNat with
      | none => exact absurd ((d1.dom _).1 e1) (by rw [r1.2.2]; simp)
      | some l1 =>
        cases e2 : A2 (getPtrRaw v2).toNat with
        | none => exact absurd ((d2.dom _).1 e2) (by rw [r2.2.2]; simp)
        | some l2 =>
          obtain ⟨_, c1, hc1, hch1⟩ := d1.inv.obj _ _ e1
          obtain ⟨_, c2, hc2, hch2⟩ := d2.inv.obj _ _ e2
          refine ⟨c1, c2, l1, l2, hc1, hc2, hch1, hch2, pairs_zip (d1.lists _ _ _ e1 r1.2.2) (d2.lists _ _ _ e2 r2.2.2) ?_⟩
          rintro e he e' he' q ⟨k1, v1⟩ ⟨k2, v2⟩
          exact ⟨k1.trans k2.symm, (d1.readsZ (d1.names _ _ e1 e he)).reads, (d2.readsZ (d2.names _ _ e2 e' he')).reads, ih v1 v2⟩

theorem Alike.popped (h : Alike a b) : (∀ d, Same d (pop a).2.heap (pop a).1 (pop b).2.heap (pop b).1) ∧ Alike (pop a).2 (pop b).2 := by
  obtain ⟨k, hk⟩ := h.rel
  obtain ⟨⟨x, r1, r2⟩, hr⟩ := (hk 0 trivial trivial).pop
  obtain ⟨w, s1, s2⟩ := hr.heap
  exact ⟨fun d => same_rep s1 s2 d r1 r2, hr.alike⟩

end Mjs.Spec.Invisible
