import Verif.Lemmas.SimOps

/-!
# Instructions in two engines that differ only in where things are in memory
-/

namespace Mjs.Spec.Invisible
open Mjs Mjs.Mbuf Mjs.Varint Mjs.Str Mjs.Arena Mjs.Obj Mjs.Spec Mjs.Spec.Gc Mjs.Gc Mjs.Core Mjs.Exec
open Mjs.Client (Pairs)

/-! ### Alike -/

theorem pairs_split {k : Link} {l1 l2 : List Val} (h : Pairs (VRel k) l1 l2) : ∃ xs, Pairs (Rep k.L1 k.g1) l1 xs ∧ Pairs (Rep k.L2 k.g2) l2 xs := by
  induction h with
  | nil => exact ⟨[], .nil, .nil⟩
  | cons r _ ih =>
    obtain ⟨x, x1, x2⟩ := r
    obtain ⟨xs, h1, h2⟩ := ih
    exact ⟨x :: xs, .cons x1 h1, .cons x2 h2⟩

theorem pairs_join {k : Link} {xs : List AVal} : ∀ {l1 l2 : List Val}, Pairs (Rep k.L1 k.g1) l1 xs → Pairs (Rep k.L2 k.g2) l2 xs → Pairs (VRel k) l1 l2 := by
  induction xs with
  | nil => intro l1 l2 h1 h2; cases h1; cases h2; exact .nil
  | cons x xs ih =>
    intro l1 l2 h1 h2
    cases h1 with
    | cons r1 h1 =>
      cases h2 with
      | cons r2 h2 => exact .cons ⟨x, r1, r2⟩ (ih h1 h2)

theorem Rel.alike {n k a b} (r : Rel n k a b) : Alike a b := by
  obtain ⟨w, s1, s2⟩ := r.heap
  obtain ⟨c1, d1, e1⟩ := pairs_split r.stack
  obtain ⟨c2, d2, e2⟩ := pairs_split r.callStack
  obtain ⟨c3, d3, e3⟩ := pairs_split r.argStack
  obtain ⟨c4, d4, e4⟩ := pairs_split r.scopes
  obtain ⟨c5, d5, e5⟩ := r.this
  obtain ⟨c6, d6, e6⟩ := r.last
  exact ⟨⟨w, c1, c2, c3, c4, c5, c6, a.loopAddrs, a.parts, a.bcodeLen, a.error, a.msg, a.heap.str.cmem⟩, k.L1, k.g1, k.L2, k.g2,
    ⟨s1, d1, d2, d3, d4, d5, d6, rfl, rfl, rfl, rfl, rfl, rfl⟩,
    ⟨s2, e1, e2, e3, e4, e5, e6, r.loopAddrs.symm, r.parts.symm, r.bcodeLen.symm, r.error.symm, r.msg.symm, r.cmem.symm⟩⟩

theorem Alike.rel {a b} (h : Alike a b) : ∃ k, ∀ n, Supplied n a.heap a.al → Supplied n b.heap b.al → Rel n k a b := by
  obtain ⟨s, L, g, L', g', h1, h2⟩ := h
  refine ⟨⟨L, L', g, g'⟩, fun n p q => ?_⟩
  exact {
    heap := ⟨s.world, h1.heap, h2.heap⟩
    cmem := h1.cmem.trans h2.cmem.symm
    stack := pairs_join h1.stack h2.stack
    callStack := pairs_join h1.callStack h2.callStack
    argStack := pairs_join h1.argStack h2.argStack
    scopes := pairs_join h1.scopes h2.scopes
    this := ⟨_, h1.this, h2.this⟩
    last := ⟨_, h1.lastGetprop, h2.lastGetprop⟩
    loopAddrs := h1.loopAddrs.trans h2.loopAddrs.symm
    parts := h1.parts.trans h2.parts.symm
    bcodeLen := h1.bcodeLen.trans h2.bcodeLen.symm
    error := h1.error.trans h2.error.symm
    msg := h1.msg.trans h2.msg.symm
    sup1 := p
    sup2 := q }

theorem Rel.small {n k a b} (r : Rel n k a b) (h : a.heap.str.owned.len < 2 ^ 29) : Small k := by
  obtain ⟨w, ⟨A, fo, fp, s⟩, _⟩ := r.heap
  intro bs hb
  obtain ⟨pre, post, e⟩ := List.append_of_mem hb
  obtain ⟨rest, hr⟩ := stringBytes_split pre bs post
  have hcl := content_length s.inv.str.1.1
  rw [s.content, e, hr] at hcl
  simp only [List.length_append] at hcl
  omega

/-! ### Frames -/

variable {n : Nat} {k : Link} {a b : Vm} {E : Env}

theorem pushFrame_rel (r : Rel n k a b) (off : Nat) {v1 v2} (hv : VRel k v1 v2) :
    Did (fun a' b' => Rel n k a' b' ∧ (a'.heap = a.heap ∧ a'.al = a.al ∧ a'.stack = a.stack) ∧ (b'.heap = b.heap ∧ b'.al = b.al)) (pushFrame a off v1) (pushFrame b off v2) := by
  unfold pushFrame
  refine (popVal_did r.argStack).bind ?_
  rintro ⟨t1, l1⟩ ⟨t2, l2⟩ ⟨ht, hl⟩
  refine .some rfl rfl ⟨{ r with argStack := hl, this := ht, callStack := ?_ }, ⟨rfl, rfl, rfl⟩, ⟨rfl, rfl⟩⟩
  refine r.callStack.append (.cons r.this (.cons (.imm (imm_int _)) (.cons ?_ (.cons ?_ (.cons hv .nil)))))
  · show VRel k (mkInt a.scopes.length) (mkInt b.scopes.length)
    rw [r.scopes.len]
    exact .imm (imm_int _)
  · show VRel k (mkInt a.loopAddrs.length) (mkInt b.loopAddrs.length)
    rw [r.loopAddrs]
    exact .imm (imm_int _)

theorem restoreFrame_rel (r : Rel n k a b) : Did (fun x y => Rel n k x.1 y.1 ∧ x.2 = y.2) (restoreFrame a) (restoreFrame b) := by
  unfold restoreFrame
  refine (popVal_did r.callStack).bind ?_
  rintro ⟨u1, l1⟩ ⟨u2, l2⟩ ⟨hu, hl⟩
  refine (popVal_did hl).bind ?_
  rintro ⟨v1, l1⟩ ⟨v2, l2⟩ ⟨hv, hl⟩
  refine (popVal_did hl).bind ?_
  rintro ⟨w1, l1⟩ ⟨w2, l2⟩ ⟨hw, hl⟩
  refine (popVal_did hl).bind ?_
  rintro ⟨x1, l1⟩ ⟨x2, l2⟩ ⟨hx, hl⟩
  refine (popVal_did hl).bind ?_
  rintro ⟨t1, l1⟩ ⟨t2, l2⟩ ⟨ht, hl⟩
  simp only [hu.agree.getInt]
  refine (setLen_did r.stack _).bind ?_
  intro st1 st2 hst
  refine .some rfl rfl ⟨{ r with callStack := hl, this := ht, scopes := ?_, loopAddrs := ?_, stack := hst }, ?_⟩
  · show Pairs (VRel k) (a.scopes.take (wrap (getInt w1))) (b.scopes.take (wrap (getInt w2)))
    rw [hw.agree.getInt]
    exact r.scopes.take _
  · show a.loopAddrs.take (wrap (getInt v1)) = b.loopAddrs.take (wrap (getInt v2))
    rw [hv.agree.getInt, r.loopAddrs]
  · show wrap (getInt x1) = wrap (getInt x2)
    rw [hx.agree.getInt]

theorem partAt_eq (r : Rel n k a b) (off : Nat) : partAt a off = partAt b off := by
  unfold partAt partIdx
  rw [r.parts, r.bcodeLen]

/-! ### Calls -/

/-- Equal results, wherever things are. -/
def Ends {α : Type} (P : Link → α → α → Prop) (r1 r2 : Option α) : Prop := ∀ x, r1 = some x → ∃ y k, r2 = some y ∧ P k x y

section
variable {α β : Type}

theorem Does.ends {P : Link → α → α → Prop} {r1 r2} (h : Does k P r1 r2) : Ends P r1 r2 := by
  intro x hx
  obtain ⟨y, k', e, _, hp⟩ := h x hx
  exact ⟨y, k', e, hp⟩

theorem Ends.bind {P : Link → α → α → Prop} {Q : Link → β → β → Prop} {r1 r2 : Option α} {f f' : α → Option β} (h : Ends P r1 r2)
    (hf : ∀ k x y, P k x y → Ends Q (f x) (f' y)) : Ends Q (r1.bind f) (r2.bind f') := by
  intro c hc
  obtain ⟨x, hx, hc⟩ := Option.bind_eq_some_iff.1 hc
  obtain ⟨y, k', hy, hp⟩ := h x hx
  obtain ⟨d, k'', hd, hq⟩ := hf k' x y hp c hc
  exact ⟨d, k'', by rw [hy]; exact hd, hq⟩

theorem Ends.map {P : Link → α → α → Prop} {Q : Link → β → β → Prop} {r1 r2 : Option α} {f f' : α → β} (h : Ends P r1 r2)
    (hf : ∀ k x y, P k x y → Q k (f x) (f' y)) : Ends Q (r1.map f) (r2.map f') := by
  intro c hc
  obtain ⟨x, hx, rfl⟩ := Option.map_eq_some_iff.1 hc
  obtain ⟨y, k', hy, hp⟩ := h x hx
  exact ⟨f' y, k', by rw [hy]; rfl, hf _ _ _ hp⟩

theorem Did.ebind {P : α → α → Prop} {Q : Link → β → β → Prop} {r1 r2 : Option α} {f f' : α → Option β} (h : Did P r1 r2)
    (hf : ∀ x y, P x y → Ends Q (f x) (f' y)) : Ends Q (r1.bind f) (r2.bind f') := by
  intro c hc
  obtain ⟨x, hx, hc⟩ := Option.bind_eq_some_iff.1 hc
  obtain ⟨y, hy, hp⟩ := h x hx
  obtain ⟨d, k'', hd, hq⟩ := hf x y hp c hc
  exact ⟨d, k'', by rw [hy]; exact hd, hq⟩

theorem Ends.pure {P : Link → α → α → Prop} {x y} (h : P k x y) : Ends P (some x) (some y) := (Does.pure h).ends

end

/-- Two machines. -/
structure MRel (k : Link) (m1 m2 : Mach) : Prop where
  vm : Rel 0 k m1.vm m2.vm
  bp : m1.bp = m2.bp
  i : m1.i = m2.i
  op : m1.op = m2.op

theorem native_rel {f : Vm → Option Vm} {m : Nat} (hf : Respects m f) (r : Rel n k a b) (hN : m + 2 * a.stack.length = n) (s1 : a.heap.str.owned.len < 2 ^ 29) (s2 : b.heap.str.owned.len < 2 ^ 29) :
    Ends (Rel 0) (f a) (f b) := by
  intro x hx
  obtain ⟨y, hy, hal⟩ := hf a b x r.alike ⟨by rw [hN]; exact r.sup1, s1⟩ ⟨by rw [← r.stack.len, hN]; exact r.sup2, s2⟩ hx
  obtain ⟨k', h⟩ := hal.rel
  exact ⟨y, k', hy, h 0 trivial trivial⟩

theorem call_rel {m : Nat} (hf : Respects m E.ffi) (hc : ∀ p, Respects m (E.cfun p)) (bp : Part) (i : Nat) (op : UInt8) (r : Rel n k a b)
    (hN : m + 2 * a.stack.length = n) (s1 : a.heap.str.owned.len < 2 ^ 29) (s2 : b.heap.str.owned.len < 2 ^ 29) : Ends MRel (call E ⟨a, bp, i, op⟩) (call E ⟨b, bp, i, op⟩) := by
  unfold call
  have hret := vtop_rel r.argStack
  simp only [hret.agree.getInt, vptr_eq r.stack]
  refine (Did.refl _).ebind ?_
  rintro pos _ rfl
  refine (get_did r.stack pos).ebind ?_
  intro f1 f2 hfn
  refine (popVal_did r.argStack).ebind ?_
  rintro ⟨_, l1⟩ ⟨_, l2⟩ ⟨_, hl⟩
  have r' : Rel n k { a with argStack := l1 } { b with argStack := l2 } := { r with argStack := hl }
  have native : ∀ g : Vm → Option Vm, Respects m g → Ends MRel
      ((pushFrame { a with argStack := l1 } (bp.startIdx + i) (vtop a.argStack)).bind fun vm => (g vm).bind fun vm => (restoreFrame vm).bind fun x =>
        some { vm := x.1, bp := bp, i := i, op := op })
      ((pushFrame { b with argStack := l2 } (bp.startIdx + i) (vtop b.argStack)).bind fun vm => (g vm).bind fun vm => (restoreFrame vm).bind fun x =>
        some { vm := x.1, bp := bp, i := i, op := op }) := by
    intro g hg
    refine (pushFrame_rel r' _ hret).ebind ?_
    rintro a1 b1 ⟨r1, ⟨e1, _, e3⟩, e2, _⟩
    refine (native_rel hg r1 (by rw [e3]; exact hN) (by rw [e1]; exact s1) (by rw [e2]; exact s2)).bind ?_
    intro k' a2 b2 r2
    refine (restoreFrame_rel r2).ebind ?_
    rintro ⟨a3, _⟩ ⟨b3, _⟩ ⟨r3, _⟩
    exact .pure ⟨r3, rfl, rfl, rfl⟩
  have fa := hfn.agree
  simp only [fa.function, fa.string, fa.ffiSig, fa.foreign]
  split
  · refine (pushFrame_rel r' _ hret).ebind ?_
    rintro a1 b1 ⟨r1, _⟩
    have hff : isFunction f2 = true := by assumption
    have heq : f1 = f2 := fa.eq fun hb => by
      have := hb.function
      rw [fa.function, hff] at this
      cases this
    subst heq
    rw [partAt_eq r1]
    refine (Did.refl _).ebind ?_
    rintro p _ rfl
    exact .pure ⟨{ r1.zero with stack := r1.stack.set (.undef k) pos }, rfl, rfl, rfl⟩
  · split
    · exact native _ hf
    · split
      · rw [fa.getPtr]
        exact native _ (hc _)
      · exact .pure ⟨r'.zero.err _ _, rfl, rfl, rfl⟩

/-! ### Instructions -/

theorem setRetval_rel (r : Rel n k a b) : Did (Rel n k) (setRetval a) (setRetval b) := by
  unfold setRetval
  rw [r.callStack.len]
  split
  · exact .some rfl rfl (r.err _ _)
  · refine (at_did r.callStack _).bind ?_
    intro p1 p2 hp
    obtain ⟨hv, r'⟩ := r.pop
    simp only [hp.agree.getInt, vptr_eq r'.stack]
    refine (Did.refl _).bind ?_
    rintro pos _ rfl
    exact .some rfl rfl { r' with stack := r'.stack.set hv pos }

theorem getretvalpos_eq (r : Rel n k a b) : getretvalpos a = getretvalpos b := by
  unfold getretvalpos
  rcases hp : at? a.callStack (-1) with _ | p1
  · have : at? b.callStack (-1) = none := by
      unfold at? at hp ⊢
      rw [← vptr_eq r.callStack]
      cases hv : vptr a.callStack (-1) with
      | none => rfl
      | some i =>
        rw [hv] at hp
        simp only [Option.bind_some] at hp ⊢
        rcases r.callStack.at i with ⟨_, e⟩ | ⟨x, y, e, _⟩
        · exact e
        · rw [e] at hp; cases hp
    rw [this]
    simp only [Option.bind_eq_bind, Option.bind_none]
  · obtain ⟨p2, e, hv⟩ := at_did r.callStack (-1) p1 hp
    rw [e]
    simp only [Option.bind_eq_bind, Option.bind_some, hv.agree.number, hv.agree.getInt, r.stack.len]

theorem arg_did (r : Rel n k a b) (i : Int) : Did (VRel k) (arg a i) (arg b i) := by
  unfold arg
  rw [getretvalpos_eq r, r.stack.len]
  refine (Did.refl _).bind ?_
  rintro pos _ rfl
  simp only
  split
  · exact at_did r.stack _
  · exact .some rfl rfl (.undef k)

theorem sizeOfInt_le {m j : Nat} (h : sizeOfInt m = some j) : j ≤ 2 ^ 31 := by
  unfold sizeOfInt at h
  split at h
  · cases h
    unfold cInt
    have := (BitVec.ofNat 32 m).toInt_lt
    omega
  · cases h

theorem bytesAt_len {code : List UInt8} {i m bs} (h : bytesAt code i m = some bs) : bs.length = m := by
  unfold bytesAt at h
  split at h
  · cases h
    rw [List.length_take, List.length_drop]
    omega
  · cases h

theorem setArg_rel (ht : TextShort E.numText) (bp : Part) (i : Nat) (op : UInt8) (r : Rel (n + 2) k a b) :
    Does k MRel (setArg E ⟨a, bp, i, op⟩) (setArg E ⟨b, bp, i, op⟩) := by
  unfold setArg
  refine (Did.refl _).dbind ?_
  rintro ⟨argNo, l1⟩ _ rfl
  refine (Did.refl _).dbind ?_
  rintro ⟨m, l2⟩ _ rfl
  refine Did.dbind (P := fun x y => x = y ∧ x ≤ 2 ^ 31) (fun x hx => ⟨x, hx, rfl, sizeOfInt_le hx⟩) ?_
  rintro sz _ ⟨rfl, hsz⟩
  refine Did.dbind (P := fun x y => x = y ∧ x.length ≤ 2 ^ 31) (fun x hx => ⟨x, hx, rfl, by rw [bytesAt_len hx]; exact hsz⟩) ?_
  rintro bs _ ⟨rfl, hbs⟩
  refine (mkStr_rel r hbs).bind ?_
  rintro k' ⟨a1, v1⟩ ⟨b1, v2⟩ hl ⟨r1, q1, q2⟩
  refine (arg_did r1 _).dbind ?_
  intro x1 x2 hx
  refine (setVm_rel ht r1 (vtop_rel r1.scopes) ⟨.str bs, q1, q2, fun _ e => by cases e; exact hbs⟩ hx).bind ?_
  intro k'' a2 b2 hl2 r2
  exact .pure ⟨r2.zero, rfl, rfl, rfl⟩

/-- What an instruction leads to, in two engines. -/
inductive NRel (k : Link) : Next → Next → Prop
  | go {m1 m2} : MRel k m1 m2 → NRel k (.go m1) (.go m2)
  | clean {x y : Vm} : Rel 0 k x y → NRel k (.clean x) (.clean y)

theorem execOp_rel {m : Nat} (ht : TextShort E.numText) (hf : Respects m E.ffi) (hc : ∀ p, Respects m (E.cfun p)) (hN : m + 2 * a.stack.length = n + 2) (bp : Part) (i : Nat) (op prev : UInt8)
    (hop : op ≠ FOR_IN_NEXT) (r : Rel (n + 2) k a b) (s1 : a.heap.str.owned.len < 2 ^ 29) (s2 : b.heap.str.owned.len < 2 ^ 29) :
    Ends NRel (execOp E ⟨a, bp, i, op⟩ prev) (execOp E ⟨b, bp, i, op⟩ prev) := by
  have hs := r.small s1
  have hn : op.toNat ≠ 38 := fun e => hop (UInt8.toNat.inj e)
  have go : ∀ {n k x y} {bp' : Part} {i' : Nat}, Rel n k x y → Ends NRel (some (.go ⟨x, bp', i', op⟩)) (some (.go ⟨y, bp', i', op⟩)) := by
    intro n k x y bp' i' r
    exact .pure (k := k) (.go ⟨r.zero, rfl, rfl, rfl⟩)
  unfold execOp
  simp only
  generalize op.toNat = o at hn
  split
  all_goals try simp only
  -- OP_BCODE_HEADER
  · refine (Did.refl _).ebind ?_
    rintro bs _ rfl
    exact go r
  · exact go (r.push (.imm imm_null))
  · exact go (r.push (.undef k))
  · exact go (r.push (.imm (imm_boolean _)))
  · exact go (r.push (.imm (imm_boolean _)))
  -- OP_PUSH_OBJ, OP_PUSH_ARRAY
  · exact (mkObj_rel r).ends.bind fun _ _ _ q => go (q.1.push q.2)
  · exact (mkArr_rel r).ends.bind fun _ _ _ q => go (q.1.push q.2)
  -- OP_PUSH_FUNC
  · refine (Did.refl _).ebind ?_
    rintro x _ rfl
    exact go (r.push (.imm (imm_function _)))
  · exact go (r.push r.this)
  -- OP_JMP
  · refine (Did.refl _).ebind ?_
    rintro x _ rfl
    exact go r
  -- OP_JMP_FALSE
  · refine (Did.refl _).ebind ?_
    rintro x _ rfl
    obtain ⟨hv, r'⟩ := r.pop
    simp only [truthy_did r' hv]
    refine (Did.refl _).ebind ?_
    rintro t _ rfl
    split
    · exact go (r'.push (.undef k))
    · exact go r'
  -- OP_JMP_NEUTRAL_TRUE
  · refine (Did.refl _).ebind ?_
    rintro x _ rfl
    simp only [truthy_did r (vtop_rel r.stack)]
    refine (Did.refl _).ebind ?_
    rintro t _ rfl
    split
    · exact go r
    · exact go r
  -- OP_JMP_NEUTRAL_FALSE
  · refine (Did.refl _).ebind ?_
    rintro x _ rfl
    simp only [truthy_did r (vtop_rel r.stack)]
    refine (Did.refl _).ebind ?_
    rintro t _ rfl
    split
    · exact go r
    · exact go r
  -- OP_FIND_SCOPE
  · exact (findScope_rel ht r ((vtop_rel r.stack).short hs)).ebind fun _ _ q => go (q.1.push q.2)
  -- OP_CREATE
  · obtain ⟨v1, r1⟩ := r.pop
    obtain ⟨v2, r2⟩ := r1.pop
    exact (createIn_rel ht r2 v1 (v2.short hs)).ends.bind fun _ _ _ q => go q
  -- OP_APPEND
  · obtain ⟨v1, r1⟩ := r.pop
    obtain ⟨v2, r2⟩ := r1.pop
    exact (append_rel r2 v2 v1).ends.bind fun _ _ _ q => go q
  -- OP_GET
  · obtain ⟨v1, r1⟩ := r.pop
    obtain ⟨v2, r2⟩ := r1.pop
    refine Ends.bind (Does.ends (k := k) (P := fun k x y => PV (n + 1) k x y ∧ VRel k (pop a).1 (pop b).1) ?_) ?_
    · intro x hx
      obtain ⟨y, k', e, hl, q⟩ := getProp_rel ht r2 v1 (v2.short hs) x hx
      exact ⟨y, k', e, hl, q, v1.mono hl⟩
    · rintro k' x y ⟨q, hv⟩
      refine go (n := n + 1) { q.1.push q.2 with last := ?_ }
      show VRel k' (if prev ≠ FIND_SCOPE then (pop a).1 else mkUndefined) (if prev ≠ FIND_SCOPE then (pop b).1 else mkUndefined)
      split
      · exact hv
      · exact .undef k'
  -- OP_DEL_SCOPE
  · rw [r.scopes.len]
    split
    · exact go (r.err _ _)
    · exact go (n := n + 2) { r with scopes := r.scopes.dropLast }
  -- OP_NEW_SCOPE
  · exact (mkObj_rel r).ends.bind fun _ _ _ q => go (n := n + 1) { q.1 with scopes := q.1.scopes.append (.cons q.2 .nil) }
  -- OP_PUSH_SCOPE
  · rw [r.scopes.len]
    split
    · exact go (r.push (vtop_rel r.scopes))
    · exact fun _ hx => by cases hx
  -- OP_PUSH_STR
  · refine (Did.refl _).ebind ?_
    rintro x _ rfl
    refine Did.ebind (P := fun x y => x = y ∧ x ≤ 2 ^ 31) (fun x hx => ⟨x, hx, rfl, sizeOfInt_le hx⟩) ?_
    rintro sz _ ⟨rfl, hsz⟩
    refine Did.ebind (P := fun x y => x = y ∧ x.length ≤ 2 ^ 31) (fun x hx => ⟨x, hx, rfl, by rw [bytesAt_len hx]; exact hsz⟩) ?_
    rintro bs _ ⟨rfl, hbs⟩
    exact (mkStr_rel r hbs).ends.bind fun _ _ _ q => go (q.1.push q.v)
  -- OP_PUSH_INT
  · refine (Did.refl _).ebind ?_
    rintro x _ rfl
    exact go (r.push (.imm (imm_int _)))
  -- OP_PUSH_DBL
  · refine (Did.refl _).ebind ?_
    rintro x _ rfl
    exact go (r.push (.imm (imm_number _)))
  -- OP_FOR_IN_NEXT
  · exact absurd rfl hn
  -- OP_RETURN
  · refine (restoreFrame_rel r).ebind ?_
    rintro ⟨a1, off⟩ ⟨b1, _⟩ ⟨r1, e⟩
    simp only at e
    subst e
    simp only [partAt_eq r1]
    split
    · refine (Did.refl _).ebind ?_
      rintro p _ rfl
      exact go r1
    · exact .pure (k := k) (.clean r1.zero)
  -- OP_ARGS
  · have hl : VRel k (if prev ≠ GET then { a with lastGetprop := mkUndefined } else a).lastGetprop
        (if prev ≠ GET then { b with lastGetprop := mkUndefined } else b).lastGetprop := by
      split
      · exact .undef k
      · exact r.last
    have hr : Rel (n + 2) k (if prev ≠ GET then { a with lastGetprop := mkUndefined } else a)
        (if prev ≠ GET then { b with lastGetprop := mkUndefined } else b) := by
      split
      · exact { r with last := .undef k }
      · exact r
    refine go (n := n + 2) { hr with argStack := ?_ }
    refine hr.argStack.append (.cons hl (.cons ?_ .nil))
    rw [hr.stack.len]
    exact .imm (imm_int _)
  -- OP_CALL
  · exact (call_rel hf hc bp i op r hN s1 s2).map fun _ _ _ q => .go q
  -- OP_SET_ARG
  · exact (setArg_rel ht bp i op r).ends.map fun _ _ _ q => .go q
  -- OP_SETRETVAL
  · exact (setRetval_rel r).ebind fun _ _ q => go q
  -- OP_EXPR
  · refine (Did.refl _).ebind ?_
    rintro x _ rfl
    exact (execExpr_rel ht hs r _).ends.bind fun _ _ _ q => go q
  -- OP_DROP, OP_DUP, OP_SWAP
  · exact go r.pop.2
  · exact go (r.push (vtop_rel r.stack))
  · obtain ⟨v1, r1⟩ := r.pop
    obtain ⟨v2, r2⟩ := r1.pop
    exact go ((r2.push v1).push v2)
  -- OP_LOOP
  · refine (Did.refl _).ebind ?_
    rintro x _ rfl
    refine (Did.refl _).ebind ?_
    rintro y _ rfl
    refine go (n := n + 2) { r with loopAddrs := ?_ }
    rw [r.loopAddrs, r.scopes.len]
  -- OP_CONTINUE
  · rw [r.loopAddrs]
    split
    · refine (Did.refl _).ebind ?_
      rintro x _ rfl
      refine (setLen_did r.scopes _).ebind ?_
      intro s1 s2 hsc
      exact go (n := n + 2) { r with scopes := hsc, loopAddrs := rfl }
    · exact go (r.err _ _)
  -- OP_BREAK
  · rw [r.loopAddrs]
    split
    · refine (Did.refl _).ebind ?_
      rintro x _ rfl
      refine (Did.refl _).ebind ?_
      rintro y _ rfl
      refine (Did.refl _).ebind ?_
      rintro z _ rfl
      refine (setLen_did r.scopes _).ebind ?_
      intro s1 s2 hsc
      exact go (n := n + 2) { r with scopes := hsc, loopAddrs := rfl }
    · exact go (r.err _ _)
  · exact go r
  · exact go r
  · exact go (r.err _ _)

theorem unwind_rel (s : Saved) (r : Rel n k a b) : Did (Rel 0 k) (unwind s a) (unwind s b) := by
  unfold unwind
  refine (setLen_did r.stack _).bind ?_
  intro x1 y1 h1
  refine (setLen_did r.callStack _).bind ?_
  intro x2 y2 h2
  refine (setLen_did r.argStack _).bind ?_
  intro x3 y3 h3
  refine (setLen_did r.scopes _).bind ?_
  intro x4 y4 h4
  rw [r.loopAddrs]
  refine (Did.refl _).bind ?_
  rintro x5 _ rfl
  refine .some rfl rfl ?_
  have r' : Rel 0 k { a with stack := x1, callStack := x2, argStack := x3, scopes := x4, loopAddrs := x5 }
      { b with stack := y1, callStack := y2, argStack := y3, scopes := y4, loopAddrs := x5 } :=
    { r.zero with stack := h1, callStack := h2, argStack := h3, scopes := h4, loopAddrs := rfl }
  exact r'.push (.undef k)

end Mjs.Spec.Invisible
