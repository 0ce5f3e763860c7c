import Verif.Lemmas.Sweep

/-!
# C23, C25: the cell allocator

A history of one arena is any sequence of allocations, writes to cells in use (the program's and the collector's, which
marks cells by writing bit 0 of their first word) and sweeps.  `live` is the set of cells in use according to the
history alone: handed out, and marked at every sweep since.
-/

namespace Mjs.Props
open Mjs Mjs.Arena

variable {α : Type} [Inhabited α]

/-- The C allocator returns a block when the arena asks for one (when it has no free cell). -/
def CallocGives (a : Arena α) (base : Option Nat) : Prop := a.free = 0 → ∃ b, base = some b ∧ Fresh a b a.inc

/-- The histories of an arena. -/
inductive ArenaHist : Arena α → (Nat → Prop) → Prop
  | start {cs n inc b a} : 0 < cs → cs % 8 = 0 → 0 < inc → 0 < b → b % 8 = 0 → b + n * cs < 2 ^ 47 →
      Arena.init cs n inc (some b) = some a → ArenaHist a fun _ => False
  | alloc {a live base a' r g} : ArenaHist a live → CallocGives a base → allocCell a base = some (a', r, g) →
      ArenaHist a' fun x => x = r ∨ live x
  | write {a live x} (c : Cell α) : ArenaHist a live → live x → ArenaHist { a with mem := upd a.mem x (some c) } live
  | sweep {a live a'} : ArenaHist a live → sweep a = some a' →
      ArenaHist a' fun x => live x ∧ ∃ c, a.mem x = some c ∧ c.head % 2 = 1

omit [Inhabited α] in
theorem ok_write {a : Arena α} {fl x c} (h : Ok a fl) (hu : Used a fl x) :
    Ok { a with mem := upd a.mem x (some c) } fl ∧ ∀ y, Used { a with mem := upd a.mem x (some c) } fl y ↔ Used a fl y := by
  have hd : ∀ y, upd a.mem x (some c) y ≠ none ↔ a.mem y ≠ none := by
    intro y
    by_cases hy : y = x
    · subst hy; rw [upd_same]; simp [hu.1]
    · rw [upd_other _ _ _ _ hy]
  refine ⟨⟨h.cs, h.cs8, h.inc, h.blk, h.disj, fun y => (hd y).trans (h.defd y), ?_, h.nodup⟩, fun y => ?_⟩
  · exact h.list.congr fun y hy => upd_other _ _ _ _ fun e => hu.2 (e ▸ hy)
  · simp only [Used]
    rw [hd]

omit [Inhabited α] in
theorem marked_iff_odd (mem : Nat → Option (Cell α)) (x : Nat) :
    Marked mem x ↔ ∃ c, mem x = some c ∧ c.head % 2 = 1 := by
  simp [Marked, marked]

theorem ArenaHist.ok {a : Arena α} {live} (h : ArenaHist a live) : ∃ fl, Ok a fl ∧ ∀ x, Used a fl x ↔ live x := by
  induction h with
  | start h1 h2 h3 h4 h5 h6 e =>
    obtain ⟨a1, e1, o, _, _, hu⟩ := init_spec (α := α) _ _ _ _ h1 h2 h3 h4 h5 h6
    rw [e] at e1
    cases e1
    exact ⟨_, o, fun x => by simp [hu x]⟩
  | alloc _ hc e ih =>
    obtain ⟨fl, o, hl⟩ := ih
    obtain ⟨a1, r1, g1, fl', e1, _, _, o', _, hr, _, h1, h2, _⟩ := allocCell_spec _ fl _ o (fun hf => hc (by
      have := o.list.head; rw [hf] at this; exact this))
    rw [e] at e1
    cases e1
    refine ⟨fl', o', fun x => ⟨fun hx => ?_, ?_⟩⟩
    · exact (h2 x hx).imp_right (hl x).1
    · rintro (rfl | hx)
      · exact hr
      · exact (h1 x ((hl x).2 hx)).1
  | write c _ hx ih =>
    obtain ⟨fl, o, hl⟩ := ih
    obtain ⟨o', hu⟩ := ok_write (c := c) o ((hl _).2 hx)
    exact ⟨fl, o', fun y => (hu y).trans (hl y)⟩
  | sweep _ e ih =>
    obtain ⟨fl, o, hl⟩ := ih
    obtain ⟨a1, fl', e1, o', _, _, hu, _⟩ := sweep_spec _ fl o
    rw [e] at e1
    cases e1
    exact ⟨fl', o', fun x => by rw [hu, hl, marked_iff_odd]⟩

/-- **C23.** Allocation succeeds whenever the C allocator does, the new cell is not in use, it is zeroed, and every cell
in use keeps its contents. -/
theorem C23_alloc_fresh {a : Arena α} {live} (h : ArenaHist a live) {base} (hc : CallocGives a base) :
    ∃ a' r g, allocCell a base = some (a', r, g) ∧ ¬ live r ∧ a'.mem r = some ⟨0, default⟩ ∧
      (∀ x, live x → a'.mem x = a.mem x) ∧ ArenaHist a' fun x => x = r ∨ live x := by
  obtain ⟨fl, o, hl⟩ := h.ok
  obtain ⟨a', r, g, fl', e, _, _, _, h1, _, h2, h3, _⟩ := allocCell_spec _ fl base o (fun hf => hc (by
    have := o.list.head; rw [hf] at this; exact this))
  exact ⟨a', r, g, e, fun hr => h1 ((hl r).2 hr), h2, fun x hx => (h3 x ((hl x).2 hx)).2, .alloc h hc e⟩

/-- **C23.** A cell in use is never on the free list, and every cell in use is a cell of a block (so it is aligned, not
NULL, and its contents are there). -/
theorem C23_live_not_free {a : Arena α} {live} (h : ArenaHist a live) {x} (hx : live x) :
    a.mem x ≠ none ∧ 0 < x ∧ x % 8 = 0 ∧ ∀ fl, FreeList a.mem a.free fl → x ∉ fl := by
  obtain ⟨fl, o, hl⟩ := h.ok
  obtain ⟨h1, h2⟩ := (hl x).2 hx
  obtain ⟨h3, h4, _⟩ := o.cellAddr h1
  refine ⟨h1, h3, h4, fun fl' hf => ?_⟩
  rw [hf.det o.list]
  exact h2

/-- **C25, for one arena.** A sweep always completes.  A cell in use whose mark is set stays, with its contents and without
the mark.  Every other cell of the remaining blocks is on the free list, and the free list is exactly these cells, each
once.  A block other than the oldest remains only if it holds a cell in use; the oldest always remains. -/
theorem C25_sweep {a : Arena α} {live} (h : ArenaHist a live) :
    ∃ a' fl, sweep a = some a' ∧ FreeList a'.mem a'.free fl ∧ fl.Nodup ∧
      (∀ x c, live x → a.mem x = some c → c.head % 2 = 1 → a'.mem x = some ⟨c.head - 1, c.body⟩) ∧
      (∀ x, IsCell a'.cellSize a'.blocks x → (x ∈ fl ↔ ¬ (live x ∧ ∃ c, a.mem x = some c ∧ c.head % 2 = 1))) ∧
      (∀ x ∈ fl, IsCell a'.cellSize a'.blocks x) ∧
      a'.blocks.Sublist a.blocks ∧
      (∀ b pre post, a'.blocks = pre ++ b :: post → post ≠ [] → 0 < b.2 →
        ∃ x ∈ cells a'.cellSize b.1 b.2, live x ∧ ∃ c, a.mem x = some c ∧ c.head % 2 = 1) ∧
      (a.blocks ≠ [] → a'.blocks ≠ []) := by
  obtain ⟨fl, o, hl⟩ := h.ok
  obtain ⟨a', fl', e, o', hcs, _, hu, hk, hb1, hb2, hb3⟩ := sweep_spec a fl o
  refine ⟨a', fl', e, o'.list, o'.nodup, ?_, ?_, ?_, hb1, ?_, hb3⟩
  · intro x c hx hc hm
    rw [hk x c ((hl x).2 hx) hc (by simp [marked, hm])]
    simp only [unmark, hm]
  · intro x hx
    rw [← hl, ← marked_iff_odd, ← hu]
    simp only [Used, (o'.defd x).2 hx, ne_eq, not_false_eq_true, true_and, Classical.not_not]
  · intro x hx
    exact (o'.defd x).1 (o'.list.defined x hx)
  · intro b pre post h1 h2 h3
    rw [hcs]
    obtain ⟨x, hx, hux⟩ := hb2 b pre post h1 h2 h3
    refine ⟨x, hx, ?_⟩
    rw [← hl, ← marked_iff_odd, ← hu]
    exact hux

/-- Allocate `n` cells, the C allocator refusing any new block. -/
def allocMany (a : Arena α) : Nat → Option (Arena α × List Nat)
  | 0 => some (a, [])
  | n + 1 => (allocCell a none).bind fun r => (allocMany r.1 n).map fun q => (q.1, r.2.1 :: q.2)

/-- **C25.** The cells on the free list are available: they are handed out one after the other without any new block. -/
theorem C25_reusable {a : Arena α} {live} (h : ArenaHist a live) {fl} (hf : FreeList a.mem a.free fl) :
    ∃ a', allocMany a fl.length = some (a', fl) := by
  induction fl generalizing a live with
  | nil => exact ⟨a, rfl⟩
  | cons r fl ih =>
    obtain ⟨fl0, o, hl⟩ := h.ok
    have := o.list.det hf
    subst this
    obtain ⟨a1, g, e, c1, c2, o1, hb, hm, hm'⟩ := takeCell_spec a r fl o
    have hne : a.free ≠ 0 := by
      rw [o.list.head]
      have := o.cellAddr (o.list.defined r (by simp))
      simp only [List.headD_cons]; omega
    have e2 : allocCell a none = some (a1, r, g) := by rw [allocCell, refill, if_neg hne, Option.bind_some, e]
    obtain ⟨a', e3⟩ := ih (.alloc h (fun h0 => absurd h0 hne) e2) o1.list
    exact ⟨a', by simp [allocMany, e2, e3]⟩

/-- The hypotheses are met: an arena of two cells, one of them handed out, then a second and, in a new block, a third,
the first of which is marked. -/
example : ∃ (a : Arena Nat) (live : Nat → Prop) (x y : Nat), ArenaHist a live ∧ live x ∧ live y ∧ x ≠ y ∧
    (∃ c, a.mem x = some c ∧ c.head % 2 = 1) ∧ a.blocks.length = 2 ∧ CallocGives a (some 8192) := by
  have h0 : ArenaHist (α := Nat) _ _ := .start (cs := 8) (n := 2) (inc := 3) (b := 64) (by decide) (by decide) (by decide)
    (by decide) (by decide) (by decide) rfl
  have h1 := h0.alloc (base := none) (r := 72) (g := true) (fun h => by cases h) rfl
  have h2 := h1.alloc (base := none) (r := 64) (g := true) (fun h => by cases h) rfl
  have h3 := h2.alloc (base := some 4096) (r := 4112) (g := true)
    (fun _ => ⟨4096, rfl, by decide, by decide, by decide, by decide⟩) rfl
  have h4 := h3.write (x := 72) ⟨1, 5⟩ (by simp)
  refine ⟨_, _, 72, 64, h4, by simp, by simp, by decide, ⟨⟨1, 5⟩, rfl, rfl⟩, rfl, fun h => by cases h⟩

end Mjs.Props
