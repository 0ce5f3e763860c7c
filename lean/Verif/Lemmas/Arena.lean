import Verif.Model.Arena

namespace Mjs.Arena

variable {α : Type}

theorem upd_same (f : Nat → Option α) (a : Nat) (x : Option α) : upd f a x a = x := if_pos rfl
theorem upd_other (f : Nat → Option α) (a b : Nat) (x : Option α) (h : b ≠ a) : upd f a x b = f b := if_neg h

/-- The addresses of `n` cells from `cur` on. -/
def cells (cs cur : Nat) : Nat → List Nat
  | 0 => []
  | n + 1 => cur :: cells cs (cur + cs) n

theorem mem_cells (cs cur n x : Nat) : x ∈ cells cs cur n ↔ ∃ k, k < n ∧ x = cur + k * cs := by
  induction n generalizing cur with
  | zero => simp [cells]
  | succ n ih =>
    simp only [cells, List.mem_cons, ih]
    constructor
    · rintro (h | ⟨k, hk, h⟩)
      · exact ⟨0, by omega, by simp [h]⟩
      · exact ⟨k + 1, by omega, by rw [h, Nat.add_mul]; omega⟩
    · rintro ⟨k, hk, h⟩
      cases k with
      | zero => left; simpa using h
      | succ k => right; exact ⟨k, by omega, by rw [h, Nat.add_mul]; omega⟩

theorem cells_range {cs cur n x : Nat} (h : x ∈ cells cs cur n) : cur ≤ x ∧ x + cs ≤ cur + n * cs := by
  obtain ⟨k, hk, rfl⟩ := (mem_cells _ _ _ _).1 h
  have := Nat.mul_le_mul_right cs (show k + 1 ≤ n from hk)
  rw [Nat.add_mul] at this
  omega

theorem cells_nodup (cs cur n : Nat) (h : 0 < cs) : (cells cs cur n).Nodup := by
  induction n generalizing cur with
  | zero => simp [cells]
  | succ n ih =>
    rw [cells, List.nodup_cons]
    refine ⟨fun hm => ?_, ih _⟩
    have := cells_range hm
    omega

/-- A chain of cells linked by their head words, ended by NULL. -/
inductive FreeList (mem : Nat → Option (Cell α)) : Nat → List Nat → Prop
  | nil : FreeList mem 0 []
  | cons {r c l} : r ≠ 0 → mem r = some c → FreeList mem c.head l → FreeList mem r (r :: l)

theorem FreeList.congr {mem mem' : Nat → Option (Cell α)} {r l} (h : FreeList mem r l) (he : ∀ x ∈ l, mem' x = mem x) :
    FreeList mem' r l := by
  induction h with
  | nil => exact .nil
  | cons h0 hm _ ih =>
    refine .cons h0 (by rw [he _ (by simp), hm]) (ih fun x hx => he x (by simp [hx]))

theorem FreeList.det {mem : Nat → Option (Cell α)} {r l l'} (h : FreeList mem r l) (h' : FreeList mem r l') : l = l' := by
  induction h generalizing l' with
  | nil => cases h' with
    | nil => rfl
    | cons h0 => exact absurd rfl h0
  | cons h0 hm _ ih => cases h' with
    | nil => exact absurd rfl h0
    | cons _ hm' h' =>
      rw [hm] at hm'; cases hm'; rw [ih h']

theorem FreeList.head {mem : Nat → Option (Cell α)} {r l} (h : FreeList mem r l) : r = l.headD 0 := by
  cases h <;> rfl

theorem FreeList.defined {mem : Nat → Option (Cell α)} {r l} (h : FreeList mem r l) : ∀ x ∈ l, mem x ≠ none := by
  induction h with
  | nil => simp
  | cons _ hm _ ih =>
    intro x hx
    rcases List.mem_cons.1 hx with rfl | hx
    · simp [hm]
    · exact ih x hx

/-- The blocks contain the cell address `x`. -/
def IsCell (cs : Nat) (blocks : List (Nat × Nat)) (x : Nat) : Prop := ∃ b ∈ blocks, x ∈ cells cs b.1 b.2

/-- Well-formed arena whose free cells are `fl`. -/
structure Ok (a : Arena α) (fl : List Nat) : Prop where
  cs : 0 < a.cellSize
  cs8 : a.cellSize % 8 = 0
  inc : 0 < a.inc
  blk : ∀ b ∈ a.blocks, 0 < b.1 ∧ b.1 % 8 = 0 ∧ b.1 + b.2 * a.cellSize < 2 ^ 47
  disj : a.blocks.Pairwise fun x y => x.1 + x.2 * a.cellSize ≤ y.1 ∨ y.1 + y.2 * a.cellSize ≤ x.1
  defd : ∀ x, a.mem x ≠ none ↔ IsCell a.cellSize a.blocks x
  list : FreeList a.mem a.free fl
  nodup : fl.Nodup

/-- The cell is in use: it belongs to a block and is not on the free list. -/
def Used (a : Arena α) (fl : List Nat) (x : Nat) : Prop := a.mem x ≠ none ∧ x ∉ fl

/-- `calloc` may return `b` for `n` more cells: not NULL, aligned, inside the address space and apart from the
blocks in use. -/
def Fresh (a : Arena α) (b n : Nat) : Prop :=
  0 < b ∧ b % 8 = 0 ∧ b + n * a.cellSize < 2 ^ 47 ∧
    ∀ c ∈ a.blocks, b + n * a.cellSize ≤ c.1 ∨ c.1 + c.2 * a.cellSize ≤ b

theorem cell_mod {cs b n x : Nat} (h8 : cs % 8 = 0) (hb : b % 8 = 0) (h : x ∈ cells cs b n) : x % 8 = 0 := by
  obtain ⟨k, _, rfl⟩ := (mem_cells _ _ _ _).1 h
  have : k * cs % 8 = 0 := by rw [Nat.mul_mod, h8]; simp
  omega

theorem Ok.cellAddr {a : Arena α} {fl} (h : Ok a fl) {x} (hx : a.mem x ≠ none) : 0 < x ∧ x % 8 = 0 ∧ x < 2 ^ 47 := by
  obtain ⟨b, hb, hx⟩ := (h.defd x).1 hx
  obtain ⟨h1, h2, h3⟩ := h.blk b hb
  have := cells_range hx
  exact ⟨by omega, cell_mod h.cs8 h2 hx, by omega⟩

theorem Ok.zero {a : Arena α} {fl} (h : Ok a fl) : a.mem 0 = none := by
  by_cases h0 : a.mem 0 = none
  · exact h0
  · have := h.cellAddr h0; omega

/-- The head words of the free list are aligned. -/
theorem FreeList.aligned {mem : Nat → Option (Cell α)} {r l} (h : FreeList mem r l)
    (hal : ∀ x, mem x ≠ none → x % 8 = 0) : r % 8 = 0 ∧ ∀ x ∈ l, ∀ c, mem x = some c → c.head % 8 = 0 := by
  induction h with
  | nil => simp
  | @cons r c l _ hm hf ih =>
    refine ⟨hal _ (by simp [hm]), fun x hx c' hc => ?_⟩
    rcases List.mem_cons.1 hx with rfl | hx
    · rw [hm] at hc; cases hc; exact ih.1
    · exact ih.2 x hx c' hc

variable [Inhabited α]

theorem addCells_spec (a : Arena α) (cur n : Nat) (hcs : 0 < a.cellSize) (hcur : 0 < cur) (fl : List Nat)
    (hl : FreeList a.mem a.free fl) (hd : ∀ x ∈ fl, x ∉ cells a.cellSize cur n) (hn : fl.Nodup) :
    let a' := addCells a cur n
    a'.cellSize = a.cellSize ∧ a'.inc = a.inc ∧ a'.blocks = a.blocks ∧
    FreeList a'.mem a'.free ((cells a.cellSize cur n).reverse ++ fl) ∧
    ((cells a.cellSize cur n).reverse ++ fl).Nodup ∧
    (∀ x, x ∉ cells a.cellSize cur n → a'.mem x = a.mem x) ∧
    (∀ x ∈ cells a.cellSize cur n, a'.mem x ≠ none) := by
  induction n generalizing a cur fl with
  | zero => simpa [addCells, cells] using ⟨hl, hn⟩
  | succ n ih =>
    simp only [addCells]
    have hc0 : cur ∉ fl := fun h => hd cur h (by simp [cells])
    have key := ih { a with free := cur, mem := upd a.mem cur (some ⟨a.free, default⟩) } (cur + a.cellSize) hcs (by omega)
      (cur :: fl) (.cons (Nat.ne_of_gt hcur) (upd_same _ _ _) (hl.congr fun x hx => upd_other _ _ _ _ (fun h => hc0 (h ▸ hx))))
      (by
        intro x hx hm
        rcases List.mem_cons.1 hx with rfl | hx
        · have := cells_range hm; simp only at this; omega
        · exact hd x hx (by simp only [cells, List.mem_cons]; exact .inr hm))
      (List.nodup_cons.2 ⟨hc0, hn⟩)
    simp only at key
    obtain ⟨k1, k2, k3, k4, k5, k6, k7⟩ := key
    refine ⟨k1, k2, k3, by simpa [cells] using k4, by simpa [cells] using k5, ?_, ?_⟩
    · intro x hx
      simp only [cells, List.mem_cons, not_or] at hx
      rw [k6 x hx.2]; exact upd_other _ _ _ _ hx.1
    · intro x hx
      simp only [cells, List.mem_cons] at hx
      by_cases hx' : x ∈ cells a.cellSize (cur + a.cellSize) n
      · exact k7 x hx'
      · rcases hx with rfl | hx
        · rw [k6 x hx', upd_same]; simp
        · exact absurd hx hx'

theorem isCell_cons (cs : Nat) (b : Nat × Nat) (bs : List (Nat × Nat)) (x : Nat) :
    IsCell cs (b :: bs) x ↔ x ∈ cells cs b.1 b.2 ∨ IsCell cs bs x := by simp [IsCell]

theorem newBlock_spec (a : Arena α) (fl : List Nat) (n b : Nat) (h : Ok a fl) (hf : Fresh a b n) :
    ∃ a', newBlock a n (some b) = some a' ∧ a'.cellSize = a.cellSize ∧ a'.inc = a.inc ∧
      Ok a' ((cells a.cellSize b n).reverse ++ fl) ∧ (∀ x, a.mem x ≠ none → a'.mem x = a.mem x) ∧
      (∀ x ∈ cells a.cellSize b n, a.mem x = none) := by
  obtain ⟨f1, f2, f3, f4⟩ := hf
  have hout : ∀ x ∈ cells a.cellSize b n, a.mem x = none := by
    intro x hx
    by_cases hc : a.mem x = none
    · exact hc
    · obtain ⟨c, hc, hx'⟩ := (h.defd x).1 hc
      have r1 := cells_range hx
      have r2 := cells_range hx'
      have := h.cs
      rcases f4 c hc <;> omega
  obtain ⟨k1, k2, k3, k4, k5, k6, k7⟩ := addCells_spec a b n h.cs f1 fl h.list
    (fun x hx hm => h.list.defined x hx (hout x hm)) h.nodup
  refine ⟨_, rfl, k1, k2, ⟨by rw [k1]; exact h.cs, by rw [k1]; exact h.cs8, by rw [k2]; exact h.inc, ?_, ?_, ?_, k4, k5⟩,
    ?_, hout⟩
  · intro c hc
    rcases List.mem_cons.1 hc with rfl | hc
    · simp only [k1]; exact ⟨f1, f2, f3⟩
    · simp only [k1]; exact h.blk c hc
  · simp only [k1, List.pairwise_cons]
    exact ⟨f4, h.disj⟩
  · intro x
    simp only [k1, isCell_cons]
    by_cases hx : x ∈ cells a.cellSize b n
    · simp [hx, k7 x hx]
    · simp [hx, k6 x hx, ← h.defd x]
  · intro x hx
    exact k6 x fun hm => hx (hout x hm)

omit [Inhabited α] in
theorem gcNeeded_total (a : Arena α) (n r : Nat) (l : List Nat) (h : FreeList a.mem r l) : ∃ g, gcNeeded a n r = some g := by
  induction n generalizing r l with
  | zero => exact ⟨_, rfl⟩
  | succ n ih =>
    cases h with
    | nil => exact ⟨_, rfl⟩
    | cons h0 hm hf =>
      obtain ⟨g, hg⟩ := ih _ _ hf
      exact ⟨g, by simp [gcNeeded, h0, hm, hg]⟩

theorem unmark_aligned {w : Nat} (h : w % 8 = 0) : unmark w = w := by unfold unmark; omega

theorem takeCell_spec (a : Arena α) (r : Nat) (fl : List Nat) (h : Ok a (r :: fl)) :
    ∃ a' g, takeCell a = some (a', r, g) ∧ a'.cellSize = a.cellSize ∧ a'.inc = a.inc ∧ Ok a' fl ∧ a'.blocks = a.blocks ∧
      a'.mem r = some ⟨0, default⟩ ∧ (∀ x, x ≠ r → a'.mem x = a.mem x) := by
  have hl := h.list
  have hr : a.free = r := hl.head
  rw [hr] at hl
  cases hl with
  | @cons _ c _ h0 hm hf =>
  have hnd := List.nodup_cons.1 h.nodup
  have hal := (FreeList.aligned h.list fun x hx => (h.cellAddr hx).2.1).2 r (by simp) c hm
  have hne : ∀ x ∈ fl, x ≠ r := fun x hx e => hnd.1 (e ▸ hx)
  obtain ⟨g, hg⟩ := gcNeeded_total { a with free := unmark c.head, mem := upd a.mem r (some ⟨unmark c.head, c.body⟩) } 3
    (unmark c.head) fl (by rw [unmark_aligned hal]; exact hf.congr fun x hx => upd_other _ _ _ _ (hne x hx))
  have key : ∀ x, (upd (upd a.mem r (some ⟨unmark c.head, c.body⟩)) r (some (⟨0, default⟩ : Cell α))) x =
      upd a.mem r (some ⟨0, default⟩) x := by
    intro x; unfold upd; split <;> simp_all
  refine ⟨{ a with free := unmark c.head, mem := upd (upd a.mem r (some ⟨unmark c.head, c.body⟩)) r (some ⟨0, default⟩) },
    g, by simp only [takeCell, hr, hm, Option.bind_some, hg, Option.map_some], rfl, rfl,
    ⟨h.cs, h.cs8, h.inc, h.blk, h.disj, ?_, ?_, hnd.2⟩, rfl, ?_, ?_⟩
  · intro x
    simp only [key]
    by_cases hx : x = r
    · rw [hx, upd_same, ← h.defd r]; simp [hm]
    · rw [upd_other _ _ _ _ hx]; exact h.defd x
  · simp only [unmark_aligned hal]
    refine hf.congr fun x hx => ?_
    rw [upd_other _ _ _ _ (hne x hx), upd_other _ _ _ _ (hne x hx)]
  · simp only [upd_same]
  · intro x hx
    simp only [upd_other _ _ _ _ hx]

/-- Allocation: a cell that was not in use, zeroed; everything in use keeps its contents. -/
theorem allocCell_spec (a : Arena α) (fl : List Nat) (base : Option Nat) (h : Ok a fl)
    (hb : fl = [] → ∃ b, base = some b ∧ Fresh a b a.inc) :
    ∃ a' r g fl', allocCell a base = some (a', r, g) ∧ a'.cellSize = a.cellSize ∧ a'.inc = a.inc ∧ Ok a' fl' ∧
      ¬ Used a fl r ∧ Used a' fl' r ∧ a'.mem r = some ⟨0, default⟩ ∧
      (∀ x, Used a fl x → Used a' fl' x ∧ a'.mem x = a.mem x) ∧ (∀ x, Used a' fl' x → x = r ∨ Used a fl x) ∧
      (∀ x, a.mem x ≠ none → a'.mem x ≠ none) := by
  by_cases hfl : fl = []
  · subst hfl
    obtain ⟨b, rfl, hf⟩ := hb rfl
    obtain ⟨a1, e1, c1, i1, o1, m1, n1⟩ := newBlock_spec a [] a.inc b h hf
    have h0 : a.free = 0 := h.list.head
    have hex : ∃ r l, (cells a.cellSize b a.inc).reverse ++ [] = r :: l := by
      have : (cells a.cellSize b a.inc).reverse ++ [] ≠ [] := by
        intro e
        simp only [List.append_nil, List.reverse_eq_nil_iff] at e
        have := h.inc
        obtain ⟨k, hk⟩ : ∃ k, a.inc = k + 1 := ⟨a.inc - 1, by omega⟩
        rw [hk] at e
        simp [cells] at e
      exact List.exists_cons_of_ne_nil this
    obtain ⟨r, l, hrl⟩ := hex
    rw [hrl] at o1
    obtain ⟨a2, g, e2, c2, i2, o2, b2, z2, m2⟩ := takeCell_spec a1 r l o1
    have hrn : a.mem r = none := n1 r (by
      have : r ∈ (cells a.cellSize b a.inc).reverse ++ [] := by rw [hrl]; simp
      simpa using this)
    have hln : ∀ x ∈ l, a.mem x = none := fun x hx => n1 x (by
      have : x ∈ (cells a.cellSize b a.inc).reverse ++ [] := by rw [hrl]; simp [hx]
      simpa using this)
    have hnd := List.nodup_cons.1 o1.nodup
    refine ⟨a2, r, g, l, by simp [allocCell, refill, h0, e1, e2], by rw [c2, c1], by rw [i2, i1], o2, ?_, ?_, z2, ?_, ?_, ?_⟩
    · simp [Used, hrn]
    · exact ⟨by simp [z2], hnd.1⟩
    · intro x hx
      have hxr : x ≠ r := fun e => hx.1 (e ▸ hrn)
      have : a2.mem x = a.mem x := by rw [m2 x hxr, m1 x hx.1]
      exact ⟨⟨by rw [this]; exact hx.1, fun hm => hx.1 (hln x hm)⟩, this⟩
    · intro x hx
      by_cases hxr : x = r
      · exact .inl hxr
      · right
        refine ⟨?_, by simp⟩
        intro hn
        have h1 : a1.mem x ≠ none := by rw [← m2 x hxr]; exact hx.1
        obtain ⟨c, hc, hxc⟩ := (o1.defd x).1 h1
        -- the block is either the new one, whose cells are free, or an old one
        have : x ∈ r :: l := by
          have hb1 : a1.blocks = (b, a.inc) :: a.blocks := by
            simp only [newBlock, Option.map_some, Option.some.injEq] at e1
            rw [← e1]
          rw [hb1] at hc
          rcases List.mem_cons.1 hc with rfl | hc
          · rw [← hrl, c1.symm]; simpa using hxc
          · exact absurd hn ((h.defd x).2 ⟨c, hc, c1 ▸ hxc⟩)
        rcases List.mem_cons.1 this with e | e
        · exact hxr e
        · exact hx.2 e
    · intro x hx
      by_cases hxr : x = r
      · rw [hxr, z2]; simp
      · rw [m2 x hxr, m1 x hx]; exact hx
  · obtain ⟨r, l, rfl⟩ := List.exists_cons_of_ne_nil hfl
    have h0 : a.free ≠ 0 := by
      have hd := h.list.defined r (by simp)
      have hl := h.list.head
      simp only [List.headD_cons] at hl
      rw [hl]
      exact fun e => by have := h.cellAddr hd; omega
    obtain ⟨a2, g, e2, c2, i2, o2, b2, z2, m2⟩ := takeCell_spec a r l h
    have hnd := List.nodup_cons.1 h.nodup
    refine ⟨a2, r, g, l, by simp [allocCell, refill, h0, e2], c2, i2, o2, ?_, ?_, z2, ?_, ?_, ?_⟩
    · simp [Used]
    · exact ⟨by simp [z2], hnd.1⟩
    · intro x hx
      have hxr : x ≠ r := fun e => hx.2 (by simp [e])
      rw [m2 x hxr]
      exact ⟨⟨by rw [m2 x hxr]; exact hx.1, fun hm => hx.2 (by simp [hm])⟩, rfl⟩
    · intro x hx
      by_cases hxr : x = r
      · exact .inl hxr
      · right
        exact ⟨by rw [← m2 x hxr]; exact hx.1, fun hm => by
          rcases List.mem_cons.1 hm with e | e
          · exact hxr e
          · exact hx.2 e⟩
    · intro x hx
      by_cases hxr : x = r
      · rw [hxr, z2]; simp
      · rw [m2 x hxr]; exact hx

theorem init_spec (cs n inc b : Nat) (h0 : 0 < cs) (h8 : cs % 8 = 0) (hi : 0 < inc) (hb : 0 < b) (hb8 : b % 8 = 0)
    (hm : b + n * cs < 2 ^ 47) :
    ∃ a : Arena α, init cs n inc (some b) = some a ∧ Ok a (cells cs b n).reverse ∧ a.cellSize = cs ∧ a.inc = inc ∧
      ∀ x, ¬ Used a (cells cs b n).reverse x := by
  have hok : Ok ({ cellSize := cs, inc := inc, blocks := [], free := 0, mem := fun _ => none } : Arena α) [] :=
    ⟨h0, h8, hi, by simp, by simp, by simp [IsCell], .nil, by simp⟩
  obtain ⟨a, e, c, i, o, m, _⟩ := newBlock_spec _ [] n b hok ⟨hb, hb8, hm, by simp⟩
  refine ⟨a, e, by simpa using o, c, i, ?_⟩
  intro x hx
  have hb1 : a.blocks = [(b, n)] := by
    simp only [newBlock, Option.map_some, Option.some.injEq] at e
    rw [← e]
  obtain ⟨c', hc, hxc⟩ := (o.defd x).1 hx.1
  rw [hb1, List.mem_singleton] at hc
  subst hc
  rw [c] at hxc
  exact hx.2 (by simpa using hxc)

end Mjs.Arena
