import Verif.Lemmas.GcStr

namespace Mjs.Gc
open Mjs Mjs.Mbuf Mjs.Varint Mjs.Str Mjs.Arena Mjs.Obj Mjs.Spec.Gc

variable {σ : Type}

/-- The cell carries a mark. -/
def HasMark {α : Type} (mem : Nat → Option (Cell α)) (x : Nat) : Prop := ∃ c, mem x = some c ∧ c.head % 2 = 1

theorem Sound.lay {m : Mem σ} {roots L fo fp fs} (h : Sound m roots L fo fp fs) : Lay m :=
  ⟨fun p hp => by have := h.props.cellAddr hp; omega, fun p q hp hq hne => by
    have := cells_apart h.props hp hq hne; rw [h.propSize] at this; exact this, h.vars⟩

theorem checkPtr_cell {α : Type} {a : Arena α} {fl x} (h : Ok a fl) (hx : a.mem x ≠ none) : checkPtr a x = true := by
  obtain ⟨b, hb, hxb⟩ := (h.defd x).1 hx
  have := cells_range hxb
  have := h.cs
  simp only [checkPtr, List.any_eq_true, Bool.and_eq_true, decide_eq_true_eq]
  exact ⟨b, hb, by omega, by omega⟩

theorem checkPtr_shape {α : Type} {a a' : Arena α} (h1 : a'.cellSize = a.cellSize) (h2 : a'.blocks = a.blocks) (x : Nat) :
    checkPtr a' x = checkPtr a x := by rw [checkPtr, checkPtr, h1, h2]

theorem readSlot_congr {m m' : Mem σ} (hv : m'.vars = m.vars)
    (hb : ∀ x, (m'.heap.props.mem x).map Cell.body = (m.heap.props.mem x).map Cell.body) (a : Nat) :
    readSlot m' a = readSlot m a := by
  have h8 := hb (a - 8)
  have h16 := hb (a - 16)
  unfold readSlot
  rw [hv]
  cases m.vars a with
  | some _ => rfl
  | none =>
    simp only
    cases e1 : m'.heap.props.mem (a - 8) <;> cases e2 : m.heap.props.mem (a - 8) <;> rw [e1, e2] at h8 <;>
      cases e3 : m'.heap.props.mem (a - 16) <;> cases e4 : m.heap.props.mem (a - 16) <;> rw [e3, e4] at h16 <;>
      simp at h8 h16 ⊢ <;> simp [h8, h16]

theorem Items.congr {m0 m m' : Mem σ} {R L items} (h : Items m0 R L m items) (hs : m'.heap.str = m.heap.str)
    (hr : ∀ a, readSlot m' a = readSlot m a) : Items m0 R L m' items := by
  refine ⟨h.names, by rw [hs]; exact h.str, fun a ha => (hr a).trans (h.slots a ha), fun it hi => ?_, h.owner, h.nodup⟩
  exact (h.thread it hi).congr fun a _ => hr a

/-- The state during marking. -/
structure St (m0 : Mem σ) (roots : List Nat) (L : List (List UInt8)) (m : Mem σ) (items : List Item) : Prop where
  items : Items m0 (fun a => Reach m0 roots (.slot a)) L m items
  objShape : m.heap.objs = { m0.heap.objs with mem := m.heap.objs.mem }
  obj : ∀ x, m.heap.objs.mem x = m0.heap.objs.mem x ∨
    ∃ c, m0.heap.objs.mem x = some c ∧ m.heap.objs.mem x = some ⟨c.head + 1, c.body⟩ ∧ Reach m0 roots (.obj x)
  propCs : m.heap.props.cellSize = m0.heap.props.cellSize
  propInc : m.heap.props.inc = m0.heap.props.inc
  propBlocks : m.heap.props.blocks = m0.heap.props.blocks
  propFree : m.heap.props.free = m0.heap.props.free
  prop : ∀ x, (m.heap.props.mem x).map Cell.head = (m0.heap.props.mem x).map Cell.head ∨
    ∃ c c', m0.heap.props.mem x = some c ∧ m.heap.props.mem x = some c' ∧ c'.head = c.head + 1 ∧ Reach m0 roots (.prop x)
  sigShape : m.sigs = { m0.sigs with mem := m.sigs.mem }
  sig : ∀ x, m.sigs.mem x = m0.sigs.mem x ∨
    ∃ c, m0.sigs.mem x = some c ∧ m.sigs.mem x = some ⟨c.head + 1, c.body⟩ ∧ Reach m0 roots (.sig x)
  vars : ∀ x, m.vars x = none ↔ m0.vars x = none
  mine : ∀ p, HasMark m.heap.props.mem p → ∃ x c l, HasMark m.heap.objs.mem x ∧ Reach m0 roots (.obj x) ∧
    m0.heap.objs.mem x = some c ∧ FreeList m0.heap.props.mem c.head l ∧ p ∈ l

theorem St.propNone {m0 m : Mem σ} {roots L items} (h : St m0 roots L m items) (x : Nat) :
    m.heap.props.mem x = none ↔ m0.heap.props.mem x = none := by
  rcases h.prop x with h1 | ⟨c, c', h1, h2, _⟩
  · cases e1 : m.heap.props.mem x <;> cases e2 : m0.heap.props.mem x <;> simp [e1, e2] at h1 ⊢
  · rw [h1, h2]; simp

theorem St.lay {m0 m : Mem σ} {roots L items} (h : St m0 roots L m items) (hl : Lay m0) : Lay m :=
  hl.congr h.propNone h.vars

theorem St.slotSome {m0 m : Mem σ} {roots L items} (h : St m0 roots L m items) (hl : Lay m0) {a v}
    (hr : readSlot m0 a = some v) : ∃ w, readSlot m a = some w := by
  have hl' := h.lay hl
  rcases slot_cases hl hr with h1 | ⟨_, p, c, rfl, hc, _⟩ | ⟨_, p, c, rfl, hc, _⟩
  · cases hv : m.vars a with
    | none => rw [(h.vars a).1 hv] at h1; cases h1
    | some w => exact ⟨w, read_var hv⟩
  · cases hp : m.heap.props.mem p with
    | none => rw [(h.propNone p).1 hp] at hc; cases hc
    | some c' => exact ⟨_, read_name hl' hp⟩
  · cases hp : m.heap.props.mem p with
    | none => rw [(h.propNone p).1 hp] at hc; cases hc
    | some c' => exact ⟨_, read_value hl' hp⟩

/-- The variable is in one of the lists. -/
def Linked (items : List Item) (a : Nat) : Prop := ∃ it ∈ items, a ∈ it.2

/-- The variable was visited. -/
def Done (m0 m : Mem σ) (items : List Item) (a : Nat) : Prop := ∀ v, readSlot m0 a = some v →
  (isObject v = true → HasMark m.heap.objs.mem (getPtrRaw v).toNat) ∧
  (isFfiSig v = true → HasMark m.sigs.mem (getPtrRaw v).toNat) ∧
  (v &&& tagMask = tagStringO → Linked items a)

/-- The object's properties were visited. -/
def Closed (m0 m : Mem σ) (items : List Item) (o : Nat) : Prop := ∀ c l, m0.heap.objs.mem o = some c →
  FreeList m0.heap.props.mem c.head l → ∀ p ∈ l, HasMark m.heap.props.mem p ∧ Done m0 m items (p + 8) ∧ Done m0 m items (p + 16)

/-- Marks and lists only grow. -/
structure Grows (m : Mem σ) (items : List Item) (m' : Mem σ) (items' : List Item) : Prop where
  obj : ∀ x, HasMark m.heap.objs.mem x → HasMark m'.heap.objs.mem x
  prop : ∀ x, HasMark m.heap.props.mem x → HasMark m'.heap.props.mem x
  sig : ∀ x, HasMark m.sigs.mem x → HasMark m'.sigs.mem x
  link : ∀ a, Linked items a → Linked items' a

theorem Grows.refl (m : Mem σ) (items) : Grows m items m items := ⟨fun _ h => h, fun _ h => h, fun _ h => h, fun _ h => h⟩

theorem Grows.trans {m m' m'' : Mem σ} {i i' i''} (h : Grows m i m' i') (g : Grows m' i' m'' i'') : Grows m i m'' i'' :=
  ⟨fun x hx => g.obj x (h.obj x hx), fun x hx => g.prop x (h.prop x hx), fun x hx => g.sig x (h.sig x hx),
    fun x hx => g.link x (h.link x hx)⟩

theorem Done.mono {m0 m m' : Mem σ} {i i' a} (h : Done m0 m i a) (g : Grows m i m' i') : Done m0 m' i' a :=
  fun v hv => ⟨fun h1 => g.obj _ ((h v hv).1 h1), fun h1 => g.sig _ ((h v hv).2.1 h1), fun h1 => g.link _ ((h v hv).2.2 h1)⟩

theorem Closed.mono {m0 m m' : Mem σ} {i i' o} (h : Closed m0 m i o) (g : Grows m i m' i') : Closed m0 m' i' o :=
  fun c l hc hf p hp => ⟨g.prop _ (h c l hc hf p hp).1, (h c l hc hf p hp).2.1.mono g, (h c l hc hf p hp).2.2.mono g⟩

/-- One step of marking, complete up to the properties in `P`. -/
structure Ext (m0 : Mem σ) (P : Nat → Prop) (m : Mem σ) (items : List Item) (m' : Mem σ) (items' : List Item) : Prop where
  grows : Grows m items m' items'
  newObj : ∀ x, HasMark m'.heap.objs.mem x → ¬ HasMark m.heap.objs.mem x → Closed m0 m' items' x
  newProp : ∀ p, HasMark m'.heap.props.mem p → ¬ HasMark m.heap.props.mem p → P p ∨
    ∃ x c l, HasMark m'.heap.objs.mem x ∧ ¬ HasMark m.heap.objs.mem x ∧ m0.heap.objs.mem x = some c ∧
      FreeList m0.heap.props.mem c.head l ∧ p ∈ l

theorem Ext.refl (m0 : Mem σ) (P) (m : Mem σ) (items) : Ext m0 P m items m items :=
  ⟨.refl _ _, fun _ h h' => absurd h h', fun _ h h' => absurd h h'⟩

theorem Ext.trans {m0 m m' m'' : Mem σ} {P Q S : Nat → Prop} {i i' i''} (h : Ext m0 P m i m' i') (g : Ext m0 Q m' i' m'' i'')
    (hP : ∀ x, P x → S x) (hQ : ∀ x, Q x → S x) : Ext m0 S m i m'' i'' := by
  refine ⟨h.grows.trans g.grows, fun x hx hn => ?_, fun p hp hn => ?_⟩
  · by_cases hx' : HasMark m'.heap.objs.mem x
    · exact (h.newObj x hx' hn).mono g.grows
    · exact g.newObj x hx hx'
  · by_cases hp' : HasMark m'.heap.props.mem p
    · rcases h.newProp p hp' hn with h1 | ⟨x, c, l, h1, h2, h3⟩
      · exact .inl (hP p h1)
      · exact .inr ⟨x, c, l, g.grows.obj x h1, h2, h3⟩
    · rcases g.newProp p hp hp' with h1 | ⟨x, c, l, h1, h2, h3⟩
      · exact .inl (hQ p h1)
      · exact .inr ⟨x, c, l, h1, fun h4 => h2 (h.grows.obj x h4), h3⟩

theorem Ext.weaken {m0 m m' : Mem σ} {P Q : Nat → Prop} {i i'} (h : Ext m0 P m i m' i') (hP : ∀ x, P x → Q x) :
    Ext m0 Q m i m' i' :=
  ⟨h.grows, h.newObj, fun p hp hn => (h.newProp p hp hn).imp_left (hP p)⟩

/-! ### Counting -/

/-- All cells of an arena. -/
def allCells {α : Type} (a : Arena α) : List Nat := a.blocks.flatMap fun b => cells a.cellSize b.1 b.2

theorem mem_allCells {α : Type} {a : Arena α} {fl} (h : Ok a fl) {x} (hx : a.mem x ≠ none) : x ∈ allCells a := by
  obtain ⟨b, hb, hxb⟩ := (h.defd x).1 hx
  exact List.mem_flatMap.2 ⟨b, hb, hxb⟩

def unmarkedB {α : Type} (mem : Nat → Option (Cell α)) (x : Nat) : Bool :=
  match mem x with
  | some c => c.head % 2 == 0
  | none => false

/-- The number of objects still without mark. -/
def todo (m0 m : Mem σ) : Nat := (allCells m0.heap.objs).countP (unmarkedB m.heap.objs.mem)

theorem countP_lt {l : List Nat} {p q : Nat → Bool} (h : ∀ x ∈ l, q x = true → p x = true) {y} (hy : y ∈ l)
    (h1 : p y = true) (h2 : q y = false) : l.countP q < l.countP p := by
  induction l with
  | nil => simp at hy
  | cons x l ih =>
    have hle : l.countP q ≤ l.countP p := List.countP_mono_left fun x hx => h x (by simp [hx])
    rcases List.mem_cons.1 hy with rfl | hy
    · rw [List.countP_cons_of_pos h1, List.countP_cons_of_neg (by simp [h2])]; omega
    · have := ih (fun x hx => h x (by simp [hx])) hy
      by_cases hq : q x = true
      · rw [List.countP_cons_of_pos hq, List.countP_cons_of_pos (h x (by simp) hq)]; omega
      · rw [List.countP_cons_of_neg hq]
        by_cases hp : p x = true
        · rw [List.countP_cons_of_pos hp]; omega
        · rw [List.countP_cons_of_neg hp]; omega

theorem unmarked_of {α : Type} {mem mem' : Nat → Option (Cell α)} {x} (hm : HasMark mem x → HasMark mem' x)
    (hd : mem' x = none ↔ mem x = none) (h : unmarkedB mem' x = true) : unmarkedB mem x = true := by
  unfold unmarkedB at h ⊢
  cases e : mem x with
  | none => rw [hd.2 e] at h; exact absurd h (by simp)
  | some c =>
    simp only [beq_iff_eq]
    refine Decidable.by_contra fun hne => ?_
    obtain ⟨c', e', ho⟩ := hm ⟨c, e, by omega⟩
    rw [e'] at h
    simp only [beq_iff_eq] at h
    omega

theorem St.objNone {m0 m : Mem σ} {roots L items} (h : St m0 roots L m items) (x : Nat) :
    m.heap.objs.mem x = none ↔ m0.heap.objs.mem x = none := by
  rcases h.obj x with h1 | ⟨c, h1, h2, _⟩
  · rw [h1]
  · rw [h1, h2]; simp

theorem todo_le {m0 m m' : Mem σ} {roots L i i'} (h : St m0 roots L m i) (h' : St m0 roots L m' i')
    (g : Grows m i m' i') : todo m0 m' ≤ todo m0 m := by
  refine List.countP_mono_left fun x _ => ?_
  exact unmarked_of (g.obj x) ((h'.objNone x).trans (h.objNone x).symm)

end Mjs.Gc
