import Verif.Spec.Gc

namespace Mjs.Gc
open Mjs Mjs.Mbuf Mjs.Varint Mjs.Str Mjs.Arena Mjs.Obj

variable {σ : Type}

/-- The cells of a well-formed arena do not overlap. -/
theorem cells_apart {α : Type} {a : Arena α} {fl} (h : Ok a fl) {x y : Nat} (hx : a.mem x ≠ none) (hy : a.mem y ≠ none)
    (hne : x ≠ y) : x + a.cellSize ≤ y ∨ y + a.cellSize ≤ x := by
  obtain ⟨b, hb, hxb⟩ := (h.defd x).1 hx
  obtain ⟨b', hb', hyb⟩ := (h.defd y).1 hy
  by_cases e : b = b'
  · subst e
    obtain ⟨i, hi, ex⟩ := (mem_cells _ _ _ _).1 hxb
    obtain ⟨j, hj, ey⟩ := (mem_cells _ _ _ _).1 hyb
    rcases Nat.lt_trichotomy i j with hij | hij | hij
    · have := Nat.mul_le_mul_right a.cellSize (show i + 1 ≤ j from hij)
      rw [Nat.add_mul] at this
      omega
    · subst hij; exact absurd (ex.trans ey.symm) hne
    · have := Nat.mul_le_mul_right a.cellSize (show j + 1 ≤ i from hij)
      rw [Nat.add_mul] at this
      omega
  · have r1 := cells_range hxb
    have r2 := cells_range hyb
    have : ∀ (l : List (Nat × Nat)), l.Pairwise (fun x y => x.1 + x.2 * a.cellSize ≤ y.1 ∨ y.1 + y.2 * a.cellSize ≤ x.1) →
        b ∈ l → b' ∈ l → b.1 + b.2 * a.cellSize ≤ b'.1 ∨ b'.1 + b'.2 * a.cellSize ≤ b.1 := by
      intro l hl
      induction hl with
      | nil => simp
      | cons h1 _ ih =>
        intro m1 m2
        rcases List.mem_cons.1 m1 with e1 | m1
        · rcases List.mem_cons.1 m2 with e2 | m2
          · exact absurd (e1.trans e2.symm) e
          · rw [e1]; exact h1 _ m2
        · rcases List.mem_cons.1 m2 with e2 | m2
          · rw [e2]; exact (h1 _ m1).symm
          · exact ih m1 m2
    rcases this _ h.disj hb hb' <;> omega

/-- The layout of the variables in memory. -/
structure Lay (m : Mem σ) : Prop where
  cell : ∀ p, m.heap.props.mem p ≠ none → 0 < p ∧ p < 2 ^ 47
  gap : ∀ p q, m.heap.props.mem p ≠ none → m.heap.props.mem q ≠ none → p ≠ q → p + 24 ≤ q ∨ q + 24 ≤ p
  vars : ∀ a, m.vars a ≠ none → 0 < a ∧ a < 2 ^ 48 ∧ m.heap.props.mem (a - 8) = none ∧ m.heap.props.mem (a - 16) = none

theorem Lay.congr {m m' : Mem σ} (h : Lay m) (hp : ∀ x, m'.heap.props.mem x = none ↔ m.heap.props.mem x = none)
    (hv : ∀ x, m'.vars x = none ↔ m.vars x = none) : Lay m' := by
  have hp' : ∀ x, m'.heap.props.mem x ≠ none ↔ m.heap.props.mem x ≠ none := fun x => not_congr (hp x)
  have hv' : ∀ x, m'.vars x ≠ none ↔ m.vars x ≠ none := fun x => not_congr (hv x)
  refine ⟨fun p h1 => h.cell p ((hp' p).1 h1), fun p q h1 h2 => h.gap p q ((hp' p).1 h1) ((hp' q).1 h2), fun a h1 => ?_⟩
  rw [hp, hp]
  exact h.vars a ((hv' a).1 h1)

theorem Lay.novar {m : Mem σ} (h : Lay m) {p} (hp : m.heap.props.mem p ≠ none) : m.vars (p + 8) = none ∧ m.vars (p + 16) = none := by
  constructor
  · refine Decidable.by_contra fun hv => ?_
    exact hp (by have := (h.vars _ hv).2.2.1; rwa [Nat.add_sub_cancel] at this)
  · refine Decidable.by_contra fun hv => ?_
    exact hp (by have := (h.vars _ hv).2.2.2; rwa [Nat.add_sub_cancel] at this)

theorem Lay.nocell {m : Mem σ} (h : Lay m) {p k} (hp : m.heap.props.mem p ≠ none) (h0 : 0 < k) (hk : k < 24) :
    m.heap.props.mem (p + k) = none := by
  refine Decidable.by_contra fun hv => ?_
  rcases h.gap p (p + k) hp hv (by omega) with h | h <;> omega

theorem read_var {m : Mem σ} {a v} (h : m.vars a = some v) : readSlot m a = some v := by
  rw [readSlot, h]

theorem read_name {m : Mem σ} (h : Lay m) {p c} (hp : m.heap.props.mem p = some c) : readSlot m (p + 8) = some c.body.1 := by
  rw [readSlot, (h.novar (by rw [hp]; simp)).1]
  simp [hp]

theorem read_value {m : Mem σ} (h : Lay m) {p c} (hp : m.heap.props.mem p = some c) : readSlot m (p + 16) = some c.body.2 := by
  rw [readSlot, (h.novar (by rw [hp]; simp)).2]
  have : m.heap.props.mem (p + 16 - 8) = none := by
    rw [show p + 16 - 8 = p + 8 by omega]; exact h.nocell (by rw [hp]; simp) (by omega) (by omega)
  simp only [this]
  simp [hp]

/-- Where a variable lies. -/
theorem slot_cases {m : Mem σ} (h : Lay m) {a v} (hr : readSlot m a = some v) :
    m.vars a = some v ∨ (m.vars a = none ∧ ∃ p c, a = p + 8 ∧ m.heap.props.mem p = some c ∧ v = c.body.1) ∨
      (m.vars a = none ∧ ∃ p c, a = p + 16 ∧ m.heap.props.mem p = some c ∧ v = c.body.2) := by
  unfold readSlot at hr
  split at hr
  · rename_i v' hv
    exact .inl (by rw [hv]; exact hr)
  rename_i hv
  split at hr
  · rename_i c hc
    have := h.cell _ (by rw [hc]; simp)
    exact .inr (.inl ⟨hv, _, c, by omega, hc, (Option.some.inj hr).symm⟩)
  · rw [Option.map_eq_some_iff] at hr
    obtain ⟨c, hc, e⟩ := hr
    have := h.cell _ (by rw [hc]; simp)
    exact .inr (.inr ⟨hv, _, c, by omega, hc, e.symm⟩)

theorem slot_addr {m : Mem σ} (h : Lay m) {a v} (hr : readSlot m a = some v) : 0 < a ∧ a < 2 ^ 48 := by
  rcases slot_cases h hr with h1 | ⟨_, p, c, e, hc, _⟩ | ⟨_, p, c, e, hc, _⟩
  · have := h.vars a (by rw [h1]; simp); exact ⟨this.1, this.2.1⟩
  · have := h.cell p (by rw [hc]; simp); omega
  · have := h.cell p (by rw [hc]; simp); omega

/-- The memory differs in the contents of variables and strings only. -/
structure Same (m m' : Mem σ) : Prop where
  objs : m'.heap.objs = m.heap.objs
  sigs : m'.sigs = m.sigs
  cs : m'.heap.props.cellSize = m.heap.props.cellSize
  inc : m'.heap.props.inc = m.heap.props.inc
  blocks : m'.heap.props.blocks = m.heap.props.blocks
  free : m'.heap.props.free = m.heap.props.free
  heads : ∀ x, (m'.heap.props.mem x).map Cell.head = (m.heap.props.mem x).map Cell.head
  vars : ∀ x, m'.vars x = none ↔ m.vars x = none

theorem Same.refl (m : Mem σ) : Same m m := ⟨rfl, rfl, rfl, rfl, rfl, rfl, fun _ => rfl, fun _ => .rfl⟩

theorem Same.trans {a b c : Mem σ} (h : Same a b) (g : Same b c) : Same a c :=
  ⟨g.objs.trans h.objs, g.sigs.trans h.sigs, g.cs.trans h.cs, g.inc.trans h.inc, g.blocks.trans h.blocks,
    g.free.trans h.free, fun x => (g.heads x).trans (h.heads x), fun x => (g.vars x).trans (h.vars x)⟩

theorem Same.propNone {m m' : Mem σ} (h : Same m m') (x : Nat) :
    m'.heap.props.mem x = none ↔ m.heap.props.mem x = none := by
  have := h.heads x
  cases h1 : m'.heap.props.mem x <;> cases h2 : m.heap.props.mem x <;> simp [h1, h2] at this ⊢

theorem Same.lay {m m' : Mem σ} (h : Same m m') (hl : Lay m) : Lay m' := hl.congr h.propNone h.vars

/-- Writing a variable that exists. -/
theorem write_slot {m : Mem σ} (h : Lay m) {a v0} (hr : readSlot m a = some v0) (v : Val) :
    ∃ m', writeSlot m a v = some m' ∧ Same m m' ∧ m'.heap.str = m.heap.str ∧ readSlot m' a = some v ∧
      ∀ b, b ≠ a → readSlot m' b = readSlot m b := by
  rcases slot_cases h hr with h1 | ⟨hv, p, c, e, hc, _⟩ | ⟨hv, p, c, e, hc, _⟩
  · refine ⟨{ m with vars := upd m.vars a (some v) }, by rw [writeSlot, h1], ?_, rfl, ?_, ?_⟩
    · refine ⟨rfl, rfl, rfl, rfl, rfl, rfl, fun _ => rfl, fun x => ?_⟩
      by_cases hx : x = a
      · subst hx; simp [upd_same, h1]
      · simp [upd_other _ _ _ _ hx]
    · rw [readSlot]; simp [upd_same]
    · intro b hb
      simp only [readSlot, upd_other _ _ _ _ hb]
  · subst e
    have hne : m.heap.props.mem p ≠ none := by rw [hc]; simp
    have e1 : p + 8 - 8 = p := by omega
    refine ⟨{ m with heap := { m.heap with props :=
        { m.heap.props with mem := upd m.heap.props.mem p (some ⟨c.head, (v, c.body.2)⟩) } } }, ?_, ?_, rfl, ?_, ?_⟩
    · rw [writeSlot, hv]; simp only [e1, hc]
    · refine ⟨rfl, rfl, rfl, rfl, rfl, rfl, fun x => ?_, fun _ => .rfl⟩
      by_cases hx : x = p
      · subst hx; simp [upd_same, hc]
      · simp [upd_other _ _ _ _ hx]
    · rw [readSlot]; simp only [hv, e1, upd_same]
    · intro b hb
      simp only [readSlot]
      cases m.vars b with
      | some _ => rfl
      | none =>
        have hb8 : b - 8 ≠ p := by have := h.cell p hne; omega
        simp only [upd_other _ _ _ _ hb8]
        cases hc8 : m.heap.props.mem (b - 8) with
        | some _ => rfl
        | none =>
          by_cases hb16 : b - 16 = p
          · rw [hb16, upd_same, hc]; rfl
          · rw [upd_other _ _ _ _ hb16]
  · subst e
    have hne : m.heap.props.mem p ≠ none := by rw [hc]; simp
    have e1 : p + 16 - 16 = p := by omega
    have e2 : m.heap.props.mem (p + 16 - 8) = none := by
      rw [show p + 16 - 8 = p + 8 by omega]; exact h.nocell hne (by omega) (by omega)
    have hp8 : p + 16 - 8 ≠ p := by omega
    refine ⟨{ m with heap := { m.heap with props :=
        { m.heap.props with mem := upd m.heap.props.mem p (some ⟨c.head, (c.body.1, v)⟩) } } }, ?_, ?_, rfl, ?_, ?_⟩
    · rw [writeSlot, hv]; simp only [e1, e2, hc, Option.map_some]
    · refine ⟨rfl, rfl, rfl, rfl, rfl, rfl, fun x => ?_, fun _ => .rfl⟩
      by_cases hx : x = p
      · subst hx; simp [upd_same, hc]
      · simp [upd_other _ _ _ _ hx]
    · rw [readSlot]; simp only [hv, upd_other _ _ _ _ hp8, e2, e1, upd_same, Option.map_some]
    · intro b hb
      simp only [readSlot]
      cases m.vars b with
      | some _ => rfl
      | none =>
        have hb16 : b - 16 ≠ p := by have := h.cell p hne; omega
        by_cases hb8 : b - 8 = p
        · simp only [hb8, upd_same, hc]
        · simp only [upd_other _ _ _ _ hb8, upd_other _ _ _ _ hb16]

end Mjs.Gc
