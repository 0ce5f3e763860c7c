import Verif.Lemmas.SimVal

/-!
# Operations of the interpreter in two engines that differ only in where things are in memory
-/

namespace Mjs.Client

section
variable {α β : Type} {R : α → β → Prop}

theorem Pairs.len {l k} (h : Pairs R l k) : l.length = k.length := by
  induction h with
  | nil => rfl
  | cons _ _ ih => simp [ih]

theorem Pairs.append {l k l' k'} (h : Pairs R l k) (h' : Pairs R l' k') : Pairs R (l ++ l') (k ++ k') := by
  induction h with
  | nil => exact h'
  | cons r _ ih => exact .cons r ih

theorem Pairs.take {l k} (h : Pairs R l k) : ∀ n, Pairs R (l.take n) (k.take n) := by
  induction h with
  | nil => intro n; simp; exact .nil
  | cons r _ ih =>
    intro n
    cases n with
    | zero => exact .nil
    | succ n => exact .cons r (ih n)

theorem Pairs.at {l k} (h : Pairs R l k) : ∀ i : Nat, (l[i]? = none ∧ k[i]? = none) ∨ ∃ a b, l[i]? = some a ∧ k[i]? = some b ∧ R a b := by
  induction h with
  | nil => intro i; simp
  | @cons a b _ _ r _ ih =>
    intro i
    cases i with
    | zero => exact .inr ⟨a, b, rfl, rfl, r⟩
    | succ i => exact ih i

theorem Pairs.last {l k} (h : Pairs R l k) : (l.getLast? = none ∧ k.getLast? = none) ∨ ∃ a b, l.getLast? = some a ∧ k.getLast? = some b ∧ R a b := by
  rw [List.getLast?_eq_getElem?, List.getLast?_eq_getElem?, ← h.len]
  exact h.at _

theorem Pairs.dropLast {l k} (h : Pairs R l k) : Pairs R l.dropLast k.dropLast := by
  rw [List.dropLast_eq_take, List.dropLast_eq_take, ← h.len]
  exact h.take _

theorem Pairs.set {l k} (h : Pairs R l k) {a b} (r : R a b) : ∀ i : Nat, Pairs R (l.set i a) (k.set i b) := by
  induction h with
  | nil => intro i; exact .nil
  | cons r' h ih =>
    intro i
    cases i with
    | zero => exact .cons r h
    | succ i => exact .cons r' (ih i)

theorem Pairs.reverse {l k} (h : Pairs R l k) : Pairs R l.reverse k.reverse := by
  induction h with
  | nil => exact .nil
  | cons r _ ih =>
    rw [List.reverse_cons, List.reverse_cons]
    exact ih.append (.cons r .nil)

theorem Pairs.swap {R' : β → α → Prop} (hr : ∀ a b, R a b → R' b a) {l k} (h : Pairs R l k) : Pairs R' k l := by
  induction h with
  | nil => exact .nil
  | cons r _ ih => exact .cons (hr _ _ r) ih

end

end Mjs.Client

namespace Mjs.Spec.Invisible
open Mjs Mjs.Mbuf Mjs.Varint Mjs.Str Mjs.Arena Mjs.Obj Mjs.Spec Mjs.Spec.Gc Mjs.Gc Mjs.Spec.Invisible Mjs.Core Mjs.Exec
open Mjs.Client (Pairs)

/-! ### Two engines -/

/-- Where the two engines have their strings and objects. -/
structure Link where
  L1 : List (List UInt8)
  L2 : List (List UInt8)
  g1 : Nat → Option Nat
  g2 : Nat → Option Nat

structure Link.Le (k k' : Link) : Prop where
  one : Grows k.L1 k.g1 k'.L1 k'.g1
  two : Grows k.L2 k.g2 k'.L2 k'.g2

theorem Link.Le.refl (k : Link) : k.Le k := ⟨.refl _ _, .refl _ _⟩
theorem Link.Le.trans {k k' k'' : Link} (h : k.Le k') (h' : k'.Le k'') : k.Le k'' := ⟨h.one.trans h'.one, h.two.trans h'.two⟩

/-- The two values stand for the same value. -/
def VRel (k : Link) (v1 v2 : Val) : Prop := ∃ x, Rep k.L1 k.g1 v1 x ∧ Rep k.L2 k.g2 v2 x

/-- They stand for the same value, which is not a very long string. -/
def SRel (k : Link) (v1 v2 : Val) : Prop := ∃ x, Rep k.L1 k.g1 v1 x ∧ Rep k.L2 k.g2 v2 x ∧ AShort x

/-- They stand for the same value, which is not a string of more than 2 GB. -/
def KRel (k : Link) (v1 v2 : Val) : Prop := ∃ x, Rep k.L1 k.g1 v1 x ∧ Rep k.L2 k.g2 v2 x ∧ KShort x

theorem SRel.key {k v1 v2} (h : SRel k v1 v2) : KRel k v1 v2 := by
  obtain ⟨x, h1, h2, h3⟩ := h
  exact ⟨x, h1, h2, h3.k⟩

theorem KRel.v {k v1 v2} (h : KRel k v1 v2) : VRel k v1 v2 := by
  obtain ⟨x, h1, h2, _⟩ := h
  exact ⟨x, h1, h2⟩

theorem VRel.mono {k k' v1 v2} (h : VRel k v1 v2) (hl : k.Le k') : VRel k' v1 v2 := by
  obtain ⟨x, h1, h2⟩ := h
  exact ⟨x, h1.mono hl.one, h2.mono hl.two⟩

theorem SRel.mono {k k' v1 v2} (h : SRel k v1 v2) (hl : k.Le k') : SRel k' v1 v2 := by
  obtain ⟨x, h1, h2, h3⟩ := h
  exact ⟨x, h1.mono hl.one, h2.mono hl.two, h3⟩

theorem SRel.v {k v1 v2} (h : SRel k v1 v2) : VRel k v1 v2 := by
  obtain ⟨x, h1, h2, _⟩ := h
  exact ⟨x, h1, h2⟩

theorem VRel.agree {k v1 v2} (h : VRel k v1 v2) : Agree v1 v2 := by
  obtain ⟨x, h1, h2⟩ := h
  exact h1.agree h2

theorem VRel.imm {k v} (h : IsImm v) : VRel k v v := ⟨.imm v, Rep.imm h, Rep.imm h⟩

theorem SRel.imm {k v} (h : IsImm v) : SRel k v v := ⟨.imm v, Rep.imm h, Rep.imm h, fun _ e => by cases e⟩

theorem VRel.undef (k) : VRel k mkUndefined mkUndefined := .imm imm_undefined

/-- All strings are short. -/
def Small (k : Link) : Prop := ∀ bs ∈ k.L1, bs.length ≤ 2 ^ 30

theorem VRel.short {k v1 v2} (h : VRel k v1 v2) (hs : Small k) : SRel k v1 v2 := by
  obtain ⟨x, h1, h2⟩ := h
  refine ⟨x, h1, h2, ?_⟩
  rintro bs rfl
  rcases h1 with ⟨h5, _⟩ | ⟨pre, ⟨post, e⟩, _⟩
  · omega
  · exact hs bs (by rw [e]; simp)

/-- Two engines that differ only in where things are, with memory for `n` more operations. -/
structure Rel (n : Nat) (k : Link) (a b : Vm) : Prop where
  heap : ∃ w, Held a.heap w k.L1 k.g1 ∧ Held b.heap w k.L2 k.g2
  cmem : a.heap.str.cmem = b.heap.str.cmem
  stack : Pairs (VRel k) a.stack b.stack
  callStack : Pairs (VRel k) a.callStack b.callStack
  argStack : Pairs (VRel k) a.argStack b.argStack
  scopes : Pairs (VRel k) a.scopes b.scopes
  this : VRel k a.this b.this
  last : VRel k a.lastGetprop b.lastGetprop
  loopAddrs : a.loopAddrs = b.loopAddrs
  parts : a.parts = b.parts
  bcodeLen : a.bcodeLen = b.bcodeLen
  error : a.error = b.error
  msg : a.msg = b.msg
  sup1 : Supplied n a.heap a.al
  sup2 : Supplied n b.heap b.al

/-- Equal results, with no change of the memory. -/
def Did {α : Type} (P : α → α → Prop) (r1 r2 : Option α) : Prop := ∀ a, r1 = some a → ∃ b, r2 = some b ∧ P a b

/-- Equal results; the memory grows. -/
def Does {α : Type} (k : Link) (P : Link → α → α → Prop) (r1 r2 : Option α) : Prop :=
  ∀ a, r1 = some a → ∃ b k', r2 = some b ∧ k.Le k' ∧ P k' a b

section
variable {α β : Type} {k : Link}

theorem Did.some {P : α → α → Prop} {r1 r2 : Option α} {a b} (e1 : r1 = Option.some a) (e2 : r2 = Option.some b) (h : P a b) : Did P r1 r2 := by
  intro a' ha
  rw [e1] at ha
  cases ha
  exact ⟨b, e2, h⟩

theorem Did.refl (r : Option α) : Did Eq r r := fun a ha => ⟨a, ha, rfl⟩

theorem Did.of_eq {r1 r2 : Option α} (h : r1 = r2) : Did Eq r1 r2 := h ▸ .refl _

theorem Did.none {P : α → α → Prop} {r2 : Option α} : Did P Option.none r2 := fun _ ha => by cases ha

theorem Did.imp {P Q : α → α → Prop} {r1 r2} (h : Did P r1 r2) (hi : ∀ a b, P a b → Q a b) : Did Q r1 r2 := by
  intro a ha
  obtain ⟨b, e, hp⟩ := h a ha
  exact ⟨b, e, hi _ _ hp⟩

theorem Did.bind {P : α → α → Prop} {Q : β → β → Prop} {r1 r2 : Option α} {f f' : α → Option β} (h : Did P r1 r2)
    (hf : ∀ a b, P a b → Did Q (f a) (f' b)) : Did Q (r1.bind f) (r2.bind f') := by
  intro c hc
  obtain ⟨a, ha, hc⟩ := Option.bind_eq_some_iff.1 hc
  obtain ⟨b, hb, hp⟩ := h a ha
  obtain ⟨d, hd, hq⟩ := hf a b hp c hc
  exact ⟨d, by rw [hb]; exact hd, hq⟩

theorem Did.map {P : α → α → Prop} {Q : β → β → Prop} {r1 r2 : Option α} {f f' : α → β} (h : Did P r1 r2)
    (hf : ∀ a b, P a b → Q (f a) (f' b)) : Did Q (r1.map f) (r2.map f') := by
  intro c hc
  obtain ⟨a, ha, rfl⟩ := Option.map_eq_some_iff.1 hc
  obtain ⟨b, hb, hp⟩ := h a ha
  exact ⟨f' b, by rw [hb]; rfl, hf a b hp⟩

theorem Does.some {P : Link → α → α → Prop} {r1 r2 : Option α} {a b k'} (e1 : r1 = Option.some a) (e2 : r2 = Option.some b) (hl : k.Le k')
    (h : P k' a b) : Does k P r1 r2 := by
  intro a' ha
  rw [e1] at ha
  cases ha
  exact ⟨b, k', e2, hl, h⟩

theorem Does.pure {P : Link → α → α → Prop} {a b} (h : P k a b) : Does k P (Option.some a) (Option.some b) := .some rfl rfl (.refl _) h

theorem Does.none {P : Link → α → α → Prop} {r2 : Option α} : Does k P Option.none r2 := fun _ ha => by cases ha

theorem Did.does {P : Link → α → α → Prop} {r1 r2 : Option α} (h : Did (P k) r1 r2) : Does k P r1 r2 := by
  intro a ha
  obtain ⟨b, e, hp⟩ := h a ha
  exact ⟨b, k, e, .refl _, hp⟩

theorem Does.bind {P : Link → α → α → Prop} {Q : Link → β → β → Prop} {r1 r2 : Option α} {f f' : α → Option β} (h : Does k P r1 r2)
    (hf : ∀ k' a b, k.Le k' → P k' a b → Does k' Q (f a) (f' b)) : Does k Q (r1.bind f) (r2.bind f') := by
  intro c hc
  obtain ⟨a, ha, hc⟩ := Option.bind_eq_some_iff.1 hc
  obtain ⟨b, k', hb, hl, hp⟩ := h a ha
  obtain ⟨d, k'', hd, hl', hq⟩ := hf k' a b hl hp c hc
  exact ⟨d, k'', by rw [hb]; exact hd, hl.trans hl', hq⟩

theorem Did.dbind {P : α → α → Prop} {Q : Link → β → β → Prop} {r1 r2 : Option α} {f f' : α → Option β} (h : Did P r1 r2)
    (hf : ∀ a b, P a b → Does k Q (f a) (f' b)) : Does k Q (r1.bind f) (r2.bind f') := by
  intro c hc
  obtain ⟨a, ha, hc⟩ := Option.bind_eq_some_iff.1 hc
  obtain ⟨b, hb, hp⟩ := h a ha
  obtain ⟨d, k'', hd, hl', hq⟩ := hf a b hp c hc
  exact ⟨d, k'', by rw [hb]; exact hd, hl', hq⟩

theorem Does.map {P : Link → α → α → Prop} {Q : Link → β → β → Prop} {r1 r2 : Option α} {f f' : α → β} (h : Does k P r1 r2)
    (hf : ∀ k' a b, k.Le k' → P k' a b → Q k' (f a) (f' b)) : Does k Q (r1.map f) (r2.map f') := by
  intro c hc
  obtain ⟨a, ha, rfl⟩ := Option.map_eq_some_iff.1 hc
  obtain ⟨b, k', hb, hl, hp⟩ := h a ha
  exact ⟨f' b, k', by rw [hb]; rfl, hl, hf k' a b hl hp⟩

theorem Does.imp {P Q : Link → α → α → Prop} {r1 r2} (h : Does k P r1 r2) (hi : ∀ k' a b, P k' a b → Q k' a b) : Does k Q r1 r2 := by
  intro a ha
  obtain ⟨b, k', e, hl, hp⟩ := h a ha
  exact ⟨b, k', e, hl, hi _ _ _ hp⟩

end

variable {n : Nat} {k : Link} {a b : Vm} {E : Env}

/-! ### Stacks and errors -/

theorem Rel.err (r : Rel n k a b) (e : Err) (m : Option (List UInt8)) : Rel n k (setErrorf a e m) (setErrorf b e m) :=
  { r with error := rfl, msg := rfl }

theorem Rel.pre (r : Rel n k a b) (e : Err) (t : List UInt8) : Rel n k (prepend a e t) (prepend b e t) :=
  { r with error := by simp only [prepend, r.error], msg := by simp only [prepend, r.msg] }

theorem Rel.zero (r : Rel n k a b) : Rel 0 k a b := { r with sup1 := trivial, sup2 := trivial }

theorem Rel.push (r : Rel n k a b) {v1 v2} (h : VRel k v1 v2) : Rel n k (push a v1) (push b v2) :=
  { r with stack := r.stack.append (.cons h .nil) }

theorem popVal_rel {l1 l2 : List Val} (h : Pairs (VRel k) l1 l2) : (popVal l1 = none ∧ popVal l2 = none) ∨
    ∃ v1 v2 r1 r2, popVal l1 = some (v1, r1) ∧ popVal l2 = some (v2, r2) ∧ VRel k v1 v2 ∧ Pairs (VRel k) r1 r2 := by
  unfold popVal
  rcases h.last with ⟨e1, e2⟩ | ⟨v1, v2, e1, e2, r⟩
  · rw [e1, e2]; exact .inl ⟨rfl, rfl⟩
  · rw [e1, e2]; exact .inr ⟨v1, v2, _, _, rfl, rfl, r, h.dropLast⟩

theorem popVal_did {l1 l2 : List Val} (h : Pairs (VRel k) l1 l2) :
    Did (fun x y => VRel k x.1 y.1 ∧ Pairs (VRel k) x.2 y.2) (popVal l1) (popVal l2) := by
  rcases popVal_rel h with ⟨e1, _⟩ | ⟨v1, v2, r1, r2, e1, e2, h1, h2⟩
  · rw [e1]; exact .none
  · exact .some e1 e2 ⟨h1, h2⟩

theorem Rel.pop (r : Rel n k a b) : VRel k (pop a).1 (pop b).1 ∧ Rel n k (pop a).2 (pop b).2 := by
  unfold Core.pop
  rcases popVal_rel r.stack with ⟨e1, e2⟩ | ⟨v1, v2, r1, r2, e1, e2, h1, h2⟩
  · rw [e1, e2]
    exact ⟨.undef k, r.err _ _⟩
  · rw [e1, e2]
    exact ⟨h1, { r with stack := h2 }⟩

theorem vtop_rel {l1 l2 : List Val} (h : Pairs (VRel k) l1 l2) : VRel k (vtop l1) (vtop l2) := by
  unfold vtop
  rcases h.last with ⟨e1, e2⟩ | ⟨v1, v2, e1, e2, r⟩
  · rw [e1, e2]; exact .undef k
  · rw [e1, e2]; exact r

theorem vptr_eq {l1 l2 : List Val} (h : Pairs (VRel k) l1 l2) (i : Int) : vptr l1 i = vptr l2 i := by
  unfold vptr; rw [h.len]

theorem get_did {l1 l2 : List Val} (h : Pairs (VRel k) l1 l2) (i : Nat) : Did (VRel k) l1[i]? l2[i]? := by
  rcases h.at i with ⟨e1, _⟩ | ⟨v1, v2, e1, e2, r⟩
  · rw [e1]; exact .none
  · exact .some e1 e2 r

theorem at_did {l1 l2 : List Val} (h : Pairs (VRel k) l1 l2) (i : Int) : Did (VRel k) (at? l1 i) (at? l2 i) := by
  unfold at?
  exact (Did.of_eq (vptr_eq h i)).bind (by rintro j _ rfl; exact get_did h j)

theorem setLen_did {l1 l2 : List Val} (h : Pairs (VRel k) l1 l2) (i : Nat) : Did (Pairs (VRel k)) (setLen l1 i) (setLen l2 i) := by
  unfold setLen
  rw [← h.len]
  split
  · exact .some rfl rfl (h.take i)
  · exact .none

/-! ### Growing -/

theorem pairs_mono {k' : Link} (hl : k.Le k') {l1 l2 : List Val} (h : Pairs (VRel k) l1 l2) : Pairs (VRel k') l1 l2 :=
  h.imp fun _ _ r => r.mono hl

/-- After an operation that allocates. -/
theorem Rel.step (r : Rel (n + 1) k a b) {k' : Link} (hl : k.Le k') {h1 h2 : Heap} {w : World} (s1 : Held h1 w k'.L1 k'.g1)
    (s2 : Held h2 w k'.L2 k'.g2) (c1 : h1.str.cmem = a.heap.str.cmem) (c2 : h2.str.cmem = b.heap.str.cmem)
    (q1 : Request a.heap (a.al 0) h1) (q2 : Request b.heap (b.al 0) h2) :
    Rel n k' { used a with heap := h1 } { used b with heap := h2 } where
  heap := ⟨w, s1, s2⟩
  cmem := by show h1.str.cmem = h2.str.cmem; rw [c1, c2, r.cmem]
  stack := pairs_mono hl r.stack
  callStack := pairs_mono hl r.callStack
  argStack := pairs_mono hl r.argStack
  scopes := pairs_mono hl r.scopes
  this := r.this.mono hl
  last := r.last.mono hl
  loopAddrs := r.loopAddrs
  parts := r.parts
  bcodeLen := r.bcodeLen
  error := r.error
  msg := r.msg
  sup1 := r.sup1.2 h1 q1
  sup2 := r.sup2.2 h2 q2

/-- The result of an operation that yields a value. -/
def PV (n : Nat) (k : Link) (x y : Vm × Val) : Prop := Rel n k x.1 y.1 ∧ VRel k x.2 y.2

theorem mkObj_rel (r : Rel (n + 1) k a b) : Does k (PV n) (mkObj a) (mkObj b) := by
  obtain ⟨w, s1, s2⟩ := r.heap
  obtain ⟨h1, v1, g1, e1, t1, l1, p1, _, c1⟩ := s1.new r.sup1.1.obj
  obtain ⟨h2, v2, g2, e2, t2, l2, p2, _, c2⟩ := s2.new r.sup2.1.obj
  unfold mkObj
  rw [e1, e2]
  exact .some (k' := ⟨k.L1, k.L2, g1, g2⟩) rfl rfl ⟨l1, l2⟩
    ⟨r.step ⟨l1, l2⟩ t1 t2 (by rw [c1]) (by rw [c2]) (.obj e1) (.obj e2), ⟨_, p1, p2⟩⟩

theorem mkArr_rel (r : Rel (n + 1) k a b) : Does k (PV n) (mkArr a) (mkArr b) := by
  obtain ⟨w, s1, s2⟩ := r.heap
  obtain ⟨h1, v1, g1, e1, t1, l1, p1, c1, q1⟩ := s1.newArray r.sup1.1.obj
  obtain ⟨h2, v2, g2, e2, t2, l2, p2, c2, q2⟩ := s2.newArray r.sup2.1.obj
  unfold mkArr
  rw [e1, e2]
  exact .some (k' := ⟨k.L1, k.L2, g1, g2⟩) rfl rfl ⟨l1, l2⟩
    ⟨r.step ⟨l1, l2⟩ t1 t2 (by rw [c1]) (by rw [c2]) q1 q2, ⟨_, p1, p2⟩⟩

/-- The result of an operation that makes a string. -/
def PS (n : Nat) (bs : List UInt8) (k : Link) (x y : Vm × Val) : Prop :=
  Rel n k x.1 y.1 ∧ Rep k.L1 k.g1 x.2 (.str bs) ∧ Rep k.L2 k.g2 y.2 (.str bs)

theorem PS.v {n bs k x y} (h : PS n bs k x y) : VRel k x.2 y.2 := ⟨_, h.2⟩

theorem mkStrP_rel (r : Rel (n + 1) k a b) {p1 p2 : Ptr} {bs : List UInt8} (hn1 : p1.isNull = false) (hn2 : p2.isNull = false)
    (hb1 : load a.heap.str.cmem a.heap.str.owned p1 bs.length = some bs) (hb2 : load b.heap.str.cmem b.heap.str.owned p2 bs.length = some bs)
    (hl : bs.length ≤ 2 ^ 31) : Does k (PS n bs) (mkStrP a p1 bs.length) (mkStrP b p2 bs.length) := by
  obtain ⟨w, s1, s2⟩ := r.heap
  obtain ⟨h1, v1, L1, e1, t1, l1, q1, c1⟩ := s1.copy hn1 hb1 hl r.sup1.1
  obtain ⟨h2, v2, L2, e2, t2, l2, q2, c2⟩ := s2.copy hn2 hb2 hl r.sup2.1
  unfold mkStrP
  rw [e1, e2]
  exact .some (k' := ⟨L1, L2, k.g1, k.g2⟩) rfl rfl ⟨l1, l2⟩
    ⟨r.step ⟨l1, l2⟩ t1 t2 c1 c2 (.str hl e1) (.str hl e2), q1, q2⟩

theorem mkStr_rel (r : Rel (n + 1) k a b) {bs : List UInt8} (hl : bs.length ≤ 2 ^ 31) : Does k (PS n bs) (mkStr a bs) (mkStr b bs) :=
  mkStrP_rel r rfl rfl (load_loc _ _) (load_loc _ _) hl

theorem concat_rel (r : Rel (n + 1) k a b) {u1 u2 v1 v2} (hu : SRel k u1 u2) (hv : SRel k v1 v2) (hs : isString u1 = true) (hs' : isString v1 = true) :
    Does k (PV n) (concat a u1 v1) (concat b u2 v2) := by
  obtain ⟨w, s1, s2⟩ := r.heap
  obtain ⟨x, x1, x2, xs⟩ := hu
  obtain ⟨y, y1, y2, ys⟩ := hv
  have isStr : ∀ {L g v x}, Rep L g v x → isString v = true → ∃ bs, x = .str bs := by
    intro L g v x hr hs
    cases x with
    | str bs => exact ⟨bs, rfl⟩
    | imm w => rw [hr.1, hr.2.2.1] at hs; cases hs
    | obj t i => rw [(Client.object_not hr.1).1] at hs; cases hs
  obtain ⟨x, rfl⟩ := isStr x1 hs
  obtain ⟨y, rfl⟩ := isStr y1 hs'
  have hx := xs _ rfl
  have hy := ys _ rfl
  obtain ⟨h1, z1, L1, e1, t1, l1, q1, c1⟩ := s1.concat x1 y1 (by omega) r.sup1.1
  obtain ⟨h2, z2, L2, e2, t2, l2, q2, c2⟩ := s2.concat x2 y2 (by omega) r.sup2.1
  obtain ⟨pa1, na1, ga1, _, rfl, _⟩ := s1.readsZ x1
  obtain ⟨pb1, nb1, gb1, _, rfl, _⟩ := s1.readsZ y1
  obtain ⟨pa2, na2, ga2, _, ea2, _⟩ := s2.readsZ x2
  obtain ⟨pb2, nb2, gb2, _, eb2, _⟩ := s2.readsZ y2
  unfold concat
  rw [e1, e2]
  exact .some (k' := ⟨L1, L2, k.g1, k.g2⟩) rfl rfl ⟨l1, l2⟩
    ⟨r.step ⟨l1, l2⟩ t1 t2 c1 c2 (.concat ga1 gb1 (by omega) e1) (.concat ga2 gb2 (by omega) e2), ⟨.str (x ++ y), q1, q2⟩⟩

/-! ### Keys -/

theorem keyErr_rel (r : Rel n k a b) {k1 k2} (hk : VRel k k1 k2) :
    Did (fun a' b' => Rel n k a' b' ∧ a'.heap = a.heap ∧ b'.heap = b.heap ∧ a'.al = a.al ∧ b'.al = b.al) (keyErr E a k1) (keyErr E b k2) := by
  obtain ⟨w, s1, s2⟩ := r.heap
  have ag := hk.agree
  obtain ⟨x, x1, x2⟩ := hk
  unfold keyErr
  rcases s1.toStr E.numText x1 with ⟨e1, e2⟩ | ⟨bs, p, e1, e2, _⟩ <;> rcases s2.toStr E.numText x2 with ⟨f1, f2⟩ | ⟨bs', p', f1, f2, _⟩
  · rw [e2, f2, ag.object]
    exact .some rfl rfl ⟨r.err _ _, rfl, rfl, rfl, rfl⟩
  · rw [e1] at f1; cases f1
  · rw [e1] at f1; cases f1
  · rw [e2, f2]
    exact .some rfl rfl ⟨r, rfl, rfl, rfl, rfl⟩

theorem own_rel (ht : TextShort E.numText) (r : Rel n k a b) {o1 o2 k1 k2} (ho : VRel k o1 o2) (hk : SRel k k1 k2) :
    ∃ p1 p2 z1 z2, getOwnPropertyV E.numText a.heap o1 k1 = some p1 ∧ getOwnPropertyV E.numText b.heap o2 k2 = some p2 ∧ (p1 = 0 ↔ p2 = 0) ∧
      valueAt a.heap p1 = some z1 ∧ valueAt b.heap p2 = some z2 ∧ VRel k z1 z2 := by
  obtain ⟨w, s1, s2⟩ := r.heap
  obtain ⟨x, x1, x2⟩ := ho
  obtain ⟨y, y1, y2, ys⟩ := hk
  obtain ⟨p1, z1, e1, e2, e3, e4⟩ := s1.ownV ht x1 y1 ys
  obtain ⟨p2, z2, f1, f2, f3, f4⟩ := s2.ownV ht x2 y2 ys
  exact ⟨p1, p2, z1, z2, e1, f1, by rw [e2, f2], e3, f3, _, e4, f4⟩

theorem getVm_rel (ht : TextShort E.numText) (r : Rel n k a b) {o1 o2 k1 k2} (ho : VRel k o1 o2) (hk : SRel k k1 k2) :
    Did (PV n k) (getVm E a o1 k1) (getVm E b o2 k2) := by
  unfold getVm
  refine (keyErr_rel r hk.v).bind ?_
  rintro a' b' ⟨r', ha, hb, _, _⟩
  obtain ⟨p1, p2, z1, z2, e1, f1, _, e3, f3, e4⟩ := own_rel ht r' ho hk
  refine .some (a := (a', z1)) (b := (b', z2)) ?_ ?_ ⟨r', e4⟩
  · rw [getV_eq, e1]; show (valueAt _ _).bind _ = _; rw [e3]; rfl
  · rw [getV_eq, f1]; show (valueAt _ _).bind _ = _; rw [f3]; rfl

theorem setVm_rel (ht : TextShort E.numText) (r : Rel (n + 1) k a b) {o1 o2 k1 k2 v1 v2} (ho : VRel k o1 o2) (hk : KRel k k1 k2) (hv : VRel k v1 v2) :
    Does k (Rel n) (setVm E a o1 k1 v1) (setVm E b o2 k2 v2) := by
  unfold setVm
  refine (keyErr_rel r hk.v).dbind ?_
  rintro a' b' ⟨r', ha, hb, _, _⟩
  obtain ⟨w, s1, s2⟩ := r'.heap
  obtain ⟨x, x1, x2⟩ := ho
  obtain ⟨y, y1, y2, ys⟩ := hk
  obtain ⟨z, z1, z2⟩ := hv
  obtain ⟨h1, d1, L1, e1, t1, l1, c1, q1⟩ := s1.setV ht x1 y1 ys z1 r'.sup1.1
  obtain ⟨h2, d2, L2, e2, t2, l2, c2, q2⟩ := s2.setV ht x2 y2 ys z2 r'.sup2.1
  rw [e1, e2]
  exact .some (k' := ⟨L1, L2, k.g1, k.g2⟩) rfl rfl ⟨l1, l2⟩ (r'.step ⟨l1, l2⟩ t1 t2 c1 c2 q1 q2)

theorem createIn_rel (ht : TextShort E.numText) (r : Rel (n + 1) k a b) {o1 o2 k1 k2} (ho : VRel k o1 o2) (hk : SRel k k1 k2) :
    Does k (Rel 0) (createIn E a o1 k1) (createIn E b o2 k2) := by
  unfold createIn
  refine (keyErr_rel r hk.v).dbind ?_
  rintro a' b' ⟨r', ha, hb, _, _⟩
  obtain ⟨p1, p2, z1, z2, e1, f1, h0, _⟩ := own_rel ht r' ho hk
  rw [e1, f1]
  simp only [Option.bind_eq_bind, Option.bind_some]
  by_cases hp : p1 = 0
  · rw [if_pos hp, if_pos (h0.1 hp)]
    exact (setVm_rel ht r' ho hk.key (.undef k)).imp fun _ _ _ q => q.zero
  · rw [if_neg hp, if_neg (fun h => hp (h0.2 h))]
    exact .pure r'.zero

theorem append_rel (r : Rel (n + 1) k a b) {u1 u2 v1 v2} (hu : VRel k u1 u2) (hv : VRel k v1 v2) :
    Does k (Rel n) (Exec.append a u1 v1) (Exec.append b u2 v2) := by
  obtain ⟨w, s1, s2⟩ := r.heap
  obtain ⟨x, x1, x2⟩ := hu
  obtain ⟨z, z1, z2⟩ := hv
  obtain ⟨h1, d1, L1, e1, t1, l1, c1, q1, o1⟩ := s1.push x1 z1 r.sup1.1
  obtain ⟨h2, d2, L2, e2, t2, l2, c2, q2, o2⟩ := s2.push x2 z2 r.sup2.1
  unfold Exec.append
  rw [e1, e2]
  have r' := r.step (k' := ⟨L1, L2, k.g1, k.g2⟩) ⟨l1, l2⟩ t1 t2 c1 c2 q1 q2
  refine .some (k' := ⟨L1, L2, k.g1, k.g2⟩) rfl rfl ⟨l1, l2⟩ ?_
  simp only
  by_cases hd : d1 = .ok
  · rw [if_neg (by simp [hd]), if_neg (by simp [o2.2 (o1.1 hd)])]
    exact r'
  · rw [if_pos hd, if_pos (fun h => hd (o1.2 (o2.1 h)))]
    exact r'.err _ _

theorem findIn_rel (ht : TextShort E.numText) (r : Rel n k a b) {k1 k2} (hk : SRel k k1 k2) {l1 l2} (hl : Pairs (VRel k) l1 l2) :
    (findIn E a.heap k1 l1 = some none ∧ findIn E b.heap k2 l2 = some none) ∨
    ∃ s1 s2, findIn E a.heap k1 l1 = some (some s1) ∧ findIn E b.heap k2 l2 = some (some s2) ∧ VRel k s1 s2 := by
  induction hl with
  | nil => exact .inl ⟨rfl, rfl⟩
  | @cons s1 s2 l1 l2 hs _ ih =>
    obtain ⟨p1, p2, _, _, e1, f1, h0, _⟩ := own_rel ht r hs hk
    rw [findIn, findIn, e1, f1]
    simp only [Option.bind_some]
    by_cases hp : p1 = 0
    · rw [if_neg (by simp [hp]), if_neg (by simp [h0.1 hp])]
      exact ih
    · rw [if_pos hp, if_pos (fun h => hp (h0.2 h))]
      exact .inr ⟨s1, s2, rfl, rfl, hs⟩

/-- The bytes of a value as a string. -/
def abytes : AVal → List UInt8
  | .str bs => bs
  | _ => []

theorem strBytes_no {st : Store} {v : Val} (h : isString v = false) : strBytes st v = some [] := by
  unfold strBytes
  rw [getString, if_pos (by simp [h])]
  simp [load]

theorem Held.strBytes {h : Heap} {w : World} {L : List (List UInt8)} {g : Nat → Option Nat} (s : Held h w L g) {v x} (hr : Rep L g v x) :
    strBytes h.str v = some (abytes x) := by
  cases x with
  | str bs =>
    obtain ⟨p, m, h1, h2, rfl, h4, _⟩ := s.readsZ hr
    unfold Str.strBytes
    rw [h1]
    exact h4
  | imm w => exact strBytes_no (by rw [hr.1, hr.2.2.1])
  | obj t i => exact strBytes_no (Client.object_not hr.1).1

theorem findScope_rel (ht : TextShort E.numText) (r : Rel n k a b) {k1 k2} (hk : SRel k k1 k2) :
    Did (PV n k) (findScope E a k1) (findScope E b k2) := by
  unfold findScope
  refine (keyErr_rel r hk.v).bind ?_
  rintro a' b' ⟨r', ha, hb, _, _⟩
  rcases findIn_rel ht r' hk r'.scopes.reverse with ⟨e1, e2⟩ | ⟨s1, s2, e1, e2, hs⟩
  · rw [e1, e2]
    obtain ⟨w, s1, s2⟩ := r'.heap
    obtain ⟨y, y1, y2, _⟩ := hk
    simp only [Option.bind_eq_bind, Option.bind_some, s1.strBytes y1, s2.strBytes y2]
    exact .some rfl rfl ⟨r'.err _ _, .undef k⟩
  · rw [e1, e2]
    exact .some rfl rfl ⟨r', hs⟩

end Mjs.Spec.Invisible
