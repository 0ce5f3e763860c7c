import Verif.Model.Destroy
import Verif.Props.Arena

/-!
# C83: cells are destroyed, and blocks given back, exactly once
-/

namespace Mjs.Props
open Mjs Mjs.Arena

variable {α : Type} [Inhabited α]

/-! ## Specification -/

/-- What has happened to an arena so far: the cells handed out and the cells destroyed (an address occurs once for each time), the blocks
taken from the C allocator and those given back. -/
structure Ledger where
  handed : List Nat := []
  destroyed : List Nat := []
  taken : List (Nat × Nat) := []
  returned : List (Nat × Nat) := []

/-- The histories of an arena, as `ArenaHist`, with the ledger.  The first word of a cell in use is a pointer, so bit 1 of it is never
set (mjs_ffi.h:38-40). -/
inductive Life : Arena α → (Nat → Prop) → Ledger → Prop
  | start {cs n inc b a} : 0 < cs → cs % 8 = 0 → 0 < inc → 0 < b → b % 8 = 0 → b + n * cs < 2 ^ 47 →
      Arena.init cs n inc (some b) = some a → Life a (fun _ => False) { taken := [(b, n)] }
  | alloc {a live L base a' r g} : Life a live L → CallocGives a base → allocCell a base = some (a', r, g) →
      Life a' (fun x => x = r ∨ live x)
        { L with handed := r :: L.handed, taken := (if a.free = 0 then [(base.getD 0, a.inc)] else []) ++ L.taken }
  | write {a live L x} (c : Cell α) : Life a live L → live x → c.head / 2 % 2 = 0 → Life { a with mem := upd a.mem x (some c) } live L
  | sweep {a live L a' d r} : Life a live L → sweep a = some a' → sweepLog a = some (d, r) →
      Life a' (fun x => live x ∧ ∃ c, a.mem x = some c ∧ c.head % 2 = 1)
        { L with destroyed := d ++ L.destroyed, returned := r ++ L.returned }

/-! ## Lemmas -/

/-- The cell is neither marked nor free. -/
def garbage (mem : Nat → Option (Cell α)) (x : Nat) : Bool :=
  match mem x with
  | none => false
  | some c => !marked c.head && !markedFree c.head

theorem sweepCell_frame {mem : Nat → Option (Cell α)} {free cur : Nat} (h : mem cur ≠ none) :
    ∃ r, sweepCell mem free cur = some r ∧ ∀ x, x ≠ cur → r.1 x = mem x := by
  obtain ⟨c, hc⟩ := Option.ne_none_iff_exists'.1 h
  unfold sweepCell
  rw [hc]
  refine ⟨_, rfl, fun x hx => ?_⟩
  dsimp only
  split <;> exact upd_other _ _ _ _ hx

theorem sweepCells_frame (cs : Nat) (hcs : 0 < cs) : ∀ (n : Nat) (mem : Nat → Option (Cell α)) (free cur freed : Nat),
    (∀ x ∈ cells cs cur n, mem x ≠ none) →
    (∃ r, sweepCells cs mem free cur freed n = some r ∧ ∀ x, x ∉ cells cs cur n → r.1 x = mem x) ∧
      sweepCellsLog cs mem free cur n = some ((cells cs cur n).filter (garbage mem))
  | 0, mem, free, cur, freed, _ => ⟨⟨_, rfl, fun _ _ => rfl⟩, rfl⟩
  | n + 1, mem, free, cur, freed, hd => by
    have h0 := hd cur (by simp [cells])
    obtain ⟨r, e, hf⟩ := sweepCell_frame (free := free) h0
    have hout : ∀ x ∈ cells cs (cur + cs) n, x ≠ cur := fun x h e => by subst e; have := cells_range h; omega
    obtain ⟨⟨q, e1, f1⟩, e2⟩ := sweepCells_frame cs hcs n r.1 r.2.1 (cur + cs) (if r.2.2 then freed + 1 else freed)
      (fun x hx => by rw [hf x (hout x hx)]; exact hd x (by simp [cells, hx]))
    refine ⟨⟨q, by simp only [sweepCells, e, Option.bind_some]; exact e1, fun x hx => ?_⟩, ?_⟩
    · simp only [cells, List.mem_cons, not_or] at hx
      rw [f1 x hx.2, hf x hx.1]
    · obtain ⟨c, hc⟩ := Option.ne_none_iff_exists'.1 h0
      have hg : (cells cs (cur + cs) n).filter (garbage r.1) = (cells cs (cur + cs) n).filter (garbage mem) :=
        List.filter_congr fun x hx => by unfold garbage; rw [hf x (hout x hx)]
      simp only [sweepCellsLog, hc, Option.bind_some, e, e2, Option.map_some, hg, cells, List.filter_cons]
      congr 1
      have : garbage mem cur = (!marked c.head && !markedFree c.head) := by unfold garbage; rw [hc]
      rw [this]
      cases marked c.head <;> cases markedFree c.head <;> rfl

theorem sweepBlocksLog_spec (cs : Nat) (hcs : 0 < cs) : ∀ (bs : List (Nat × Nat)) (mem : Nat → Option (Cell α)) (free : Nat),
    bs.Pairwise (fun x y => x.1 + x.2 * cs ≤ y.1 ∨ y.1 + y.2 * cs ≤ x.1) → (∀ x, IsCell cs bs x → mem x ≠ none) →
    ∃ q r, sweepBlocksLog cs mem free bs = some q ∧ sweepBlocks cs mem free bs = some r ∧ q.1.Nodup ∧
      (∀ x, x ∈ q.1 ↔ IsCell cs bs x ∧ garbage mem x = true) ∧ (q.2 ++ r.2.2).Perm bs
  | [], mem, free, _, _ => ⟨_, _, rfl, rfl, List.nodup_nil, by simp [IsCell], .refl _⟩
  | (base, size) :: rest, mem, free, hp, hd => by
    have hp' := List.pairwise_cons.1 hp
    have hc0 : ∀ x, x ∈ cells cs base size → ¬ IsCell cs rest x := by
      rintro x hx ⟨b', hb', hx'⟩
      have r1 := cells_range hx
      have r2 := cells_range hx'
      have := hp'.1 b' hb'
      simp only at this
      omega
    obtain ⟨⟨r1, e1, f1⟩, e2⟩ := sweepCells_frame cs hcs size mem free base 0 (fun x hx => hd x ((isCell_cons _ _ _ _).2 (.inl hx)))
    have hmem : ∀ (mem1 : Nat → Option (Cell α)), (∀ x, x ∉ cells cs base size → mem1 x = mem x) → ∀ (l : List Nat) (_ : l.Nodup),
        (∀ x, x ∈ l ↔ IsCell cs rest x ∧ garbage mem1 x = true) →
        ((cells cs base size).filter (garbage mem) ++ l).Nodup ∧ (∀ x, x ∈ (cells cs base size).filter (garbage mem) ++ l ↔
          IsCell cs ((base, size) :: rest) x ∧ garbage mem x = true) := by
      intro mem1 k l hl hx
      refine ⟨?_, fun x => ?_⟩
      · rw [List.nodup_append]
        refine ⟨(cells_nodup cs base size hcs).filter _, hl, ?_⟩
        rintro x h1 y h2 rfl
        exact hc0 x (List.mem_filter.1 h1).1 ((hx x).1 h2).1
      · rw [List.mem_append, List.mem_filter, hx, isCell_cons]
        constructor
        · rintro (⟨h1, h2⟩ | ⟨h1, h2⟩)
          · exact ⟨.inl h1, h2⟩
          · refine ⟨.inr h1, ?_⟩
            have := k x fun h => hc0 x h h1
            unfold garbage at h2 ⊢
            rwa [this] at h2
        · rintro ⟨h1 | h1, h2⟩
          · exact .inl ⟨h1, h2⟩
          · refine .inr ⟨h1, ?_⟩
            have := k x fun h => hc0 x h h1
            unfold garbage at h2 ⊢
            rwa [this]
    have hrest : ∀ (mem1 : Nat → Option (Cell α)), (∀ x, x ∉ cells cs base size → mem1 x = mem x) → ∀ x, IsCell cs rest x → mem1 x ≠ none := by
      intro mem1 k x hx
      rw [k x fun h => hc0 x h hx]
      exact hd x ((isCell_cons _ _ _ _).2 (.inr hx))
    have hdrop : ∀ x, x ∉ cells cs base size → dropCells cs r1.1 base size x = mem x := by
      intro x hx; rw [dropCells_spec, if_neg hx, f1 x hx]
    simp only [sweepBlocksLog, sweepBlocks, e1, e2, Option.bind_some]
    by_cases hc : rest ≠ [] ∧ r1.2.2 = size
    · rw [if_pos hc, if_pos hc]
      obtain ⟨q, r, g1, g2, g3, g4, g5⟩ := sweepBlocksLog_spec cs hcs rest (dropCells cs r1.1 base size) free hp'.2 (hrest _ hdrop)
      obtain ⟨n1, n2⟩ := hmem _ hdrop q.1 g3 g4
      exact ⟨(_, (base, size) :: q.2), r, by rw [g1]; rfl, g2, n1, n2, List.Perm.cons (base, size) g5⟩
    · rw [if_neg hc, if_neg hc]
      obtain ⟨q, r, g1, g2, g3, g4, g5⟩ := sweepBlocksLog_spec cs hcs rest r1.1 r1.2.1 hp'.2 (hrest _ f1)
      obtain ⟨n1, n2⟩ := hmem _ f1 q.1 g3 g4
      exact ⟨(_, q.2), (r.1, r.2.1, (base, size) :: r.2.2), by rw [g1]; rfl, by rw [g2]; rfl, n1, n2,
        List.perm_middle.trans (.cons (base, size) g5)⟩

/-- Bit 1 of the first word of the cells in use is not set. -/
def Heads (a : Arena α) (fl : List Nat) : Prop := ∀ x c, x ∉ fl → a.mem x = some c → c.head / 2 % 2 = 0

theorem sweepLog_spec (a : Arena α) (fl : List Nat) (h : Ok a fl) (hh : Heads a fl) : ∃ d r a', sweepLog a = some (d, r) ∧
    Arena.sweep a = some a' ∧ d.Nodup ∧ (∀ x, x ∈ d ↔ Used a fl x ∧ ¬ Marked a.mem x) ∧ (r ++ a'.blocks).Perm a.blocks := by
  obtain ⟨mem1, e1, k1, k2⟩ := markFreeList_spec a.mem a.free fl h.list h.nodup
  have hdef : ∀ x, mem1 x ≠ none ↔ a.mem x ≠ none := by
    intro x
    by_cases hx : x ∈ fl
    · obtain ⟨c, e, e'⟩ := k2 x hx
      simp [e, e']
    · rw [k1 x hx]
  obtain ⟨q, r, g1, g2, g3, g4, g5⟩ := sweepBlocksLog_spec a.cellSize h.cs a.blocks mem1 0 h.disj
    (fun x hx => (hdef x).2 ((h.defd x).2 hx))
  refine ⟨q.1, q.2, { a with mem := r.1, free := r.2.1, blocks := r.2.2 }, ?_, ?_, g3, fun x => ?_, g5⟩
  · unfold sweepLog; rw [e1]; exact g1
  · unfold Arena.sweep; rw [e1]; simp only [Option.bind_some, g2, Option.map_some]
  · rw [g4, ← h.defd]
    by_cases hx : x ∈ fl
    · obtain ⟨c, e, e'⟩ := k2 x hx
      constructor
      · rintro ⟨-, hg⟩
        unfold garbage at hg
        rw [e'] at hg
        exfalso
        have : markedFree (markFree c.head) = true := by simp only [markedFree, markFree, beq_iff_eq]; omega
        simp [this] at hg
      · rintro ⟨⟨-, h2⟩, -⟩
        exact absurd hx h2
    · unfold garbage Used Marked
      rw [k1 x hx]
      cases hc : a.mem x with
      | none => simp
      | some c =>
        have := hh x c hx hc
        have hm : markedFree c.head = false := by simp only [markedFree, beq_eq_false_iff_ne]; omega
        simp [hm, hx]

/-- What every history keeps. -/
theorem Life.keeps {a : Arena α} {live : Nat → Prop} {L : Ledger} (h : Life a live L) : ArenaHist a live ∧
    (∀ x c, live x → a.mem x = some c → c.head / 2 % 2 = 0) ∧
    (∀ x, live x → L.handed.count x = L.destroyed.count x + 1) ∧ (∀ x, ¬ live x → L.handed.count x = L.destroyed.count x) ∧
    (L.returned ++ a.blocks).Perm L.taken := by
  induction h with
  | @start cs n inc b a h1 h2 h3 h4 h5 h6 e =>
    refine ⟨.start h1 h2 h3 h4 h5 h6 e, fun _ _ h => h.elim, fun _ h => h.elim, fun x _ => rfl, ?_⟩
    have hb : a.blocks = [(b, n)] := by
      unfold Arena.init newBlock at e
      simp only [Option.map_some, Option.some.injEq] at e
      rw [← e]
    rw [hb]
    exact .refl _
  | @alloc a live L base a' r g hL hc e ih =>
    obtain ⟨ha, hh, c1, c2, hp⟩ := ih
    have hh' := ArenaHist.alloc ha hc e
    obtain ⟨a1, r1, g1, e1, hr, hz, hk, -⟩ := C23_alloc_fresh ha hc
    rw [e] at e1
    cases e1
    refine ⟨hh', ?_, ?_, ?_, ?_⟩
    · rintro x c (rfl | hx) hcx
      · rw [hz] at hcx; cases hcx; simp
      · rw [hk x hx] at hcx; exact hh x c hx hcx
    · rintro x (rfl | hx)
      · rw [List.count_cons_self, c2 x hr]
      · have : x ≠ r := fun e => hr (e ▸ hx)
        rw [List.count_cons_of_ne (Ne.symm this), c1 x hx]
    · intro x hx
      have hx' := not_or.1 hx
      rw [List.count_cons_of_ne (Ne.symm hx'.1), c2 x hx'.2]
    · have hb : a'.blocks = (if a.free = 0 then [(base.getD 0, a.inc)] else []) ++ a.blocks := by
        unfold allocCell refill at e
        by_cases hf : a.free = 0
        · rw [if_pos hf] at e ⊢
          obtain ⟨b, rfl, -⟩ := hc hf
          simp only [newBlock, Option.map_some, Option.bind_some] at e
          unfold takeCell at e
          obtain ⟨c, -, e⟩ := Option.bind_eq_some_iff.1 e
          obtain ⟨y, -, e⟩ := Option.map_eq_some_iff.1 e
          simp only [Prod.mk.injEq] at e
          rw [← e.1]
          rfl
        · rw [if_neg hf] at e ⊢
          simp only [Option.bind_some] at e
          unfold takeCell at e
          obtain ⟨c, -, e⟩ := Option.bind_eq_some_iff.1 e
          obtain ⟨y, -, e⟩ := Option.map_eq_some_iff.1 e
          simp only [Prod.mk.injEq] at e
          rw [← e.1]
          rfl
      simp only [hb]
      refine List.Perm.trans ?_ (hp.append_left _)
      rw [← List.append_assoc, ← List.append_assoc]
      exact List.perm_append_comm.append_right _
  | @write a live L x c hL hx hb ih =>
    obtain ⟨ha, hh, c1, c2, hp⟩ := ih
    refine ⟨.write c ha hx, ?_, c1, c2, hp⟩
    intro y d hy hd
    dsimp only at hd
    by_cases e : y = x
    · subst e
      rw [upd_same] at hd
      cases hd
      exact hb
    · rw [upd_other _ _ _ _ e] at hd
      exact hh y d hy hd
  | @sweep a live L a' d r hL e1 e2 ih =>
    obtain ⟨ha, hh, c1, c2, hp⟩ := ih
    obtain ⟨fl, o, hl⟩ := ha.ok
    obtain ⟨d', r', a1, g1, g2, g3, g4, g5⟩ := sweepLog_spec a fl o (fun x c hx hc => hh x c ((hl x).1 ⟨by simp [hc], hx⟩) hc)
    rw [e2] at g1
    rw [e1] at g2
    cases g1
    cases g2
    have hd : ∀ x, x ∈ d ↔ live x ∧ ¬ ∃ c, a.mem x = some c ∧ c.head % 2 = 1 := by
      intro x
      rw [g4, hl, marked_iff_odd]
    refine ⟨.sweep ha e1, ?_, ?_, ?_, ?_⟩
    · rintro x c ⟨hx, c0, h1, h2⟩ hc
      obtain ⟨a2, fl2, s1, -, -, s4, -⟩ := C25_sweep ha
      rw [e1] at s1
      cases s1
      rw [s4 x c0 hx h1 h2] at hc
      cases hc
      have := hh x c0 hx h1
      show (c0.head - 1) / 2 % 2 = 0
      omega
    · rintro x ⟨hx, hm⟩
      have : d.count x = 0 := List.count_eq_zero.2 fun h => ((hd x).1 h).2 hm
      simp only [List.count_append, this, c1 x hx]
      omega
    · intro x hx
      simp only [List.count_append]
      by_cases hv : live x
      · have hin : x ∈ d := (hd x).2 ⟨hv, fun hm => hx ⟨hv, hm⟩⟩
        have : d.count x = 1 := by
          have h1 := List.nodup_iff_count.1 g3 x
          have h2 := List.count_pos_iff.2 hin
          omega
        rw [this, c1 x hv]
        omega
      · have : d.count x = 0 := List.count_eq_zero.2 fun h => hv ((hd x).1 h).1
        rw [this, c2 x hv]
        omega
    · refine List.Perm.trans ?_ hp
      simp only
      have : (r ++ L.returned ++ a'.blocks).Perm (L.returned ++ (r ++ a'.blocks)) := by
        rw [← List.append_assoc]
        exact List.perm_append_comm.append_right _
      exact this.trans (g5.append_left _)

/-! ## The property -/

/-- **C83, while the engine lives.** At any time, a cell in use was destroyed once less than it was handed out, any other address as often;
the blocks that the arena has are those taken and not given back. -/
theorem C83_balance {a : Arena α} {live : Nat → Prop} {L : Ledger} (h : Life a live L) :
    (∀ x, live x → L.handed.count x = L.destroyed.count x + 1) ∧ (∀ x, ¬ live x → L.handed.count x = L.destroyed.count x) ∧
      (L.returned ++ a.blocks).Perm L.taken :=
  h.keeps.2.2

/-- **C83, a collection.** It always completes; it destroys the cells in use that are not marked, each once, and no other. -/
theorem C83_collection {a : Arena α} {live : Nat → Prop} {L : Ledger} (h : Life a live L) : ∃ a' d r, sweep a = some a' ∧
    sweepLog a = some (d, r) ∧ d.Nodup ∧ ∀ x, x ∈ d ↔ live x ∧ ¬ ∃ c, a.mem x = some c ∧ c.head % 2 = 1 := by
  obtain ⟨ha, hh, -⟩ := h.keeps
  obtain ⟨fl, o, hl⟩ := ha.ok
  obtain ⟨d, r, a1, g1, g2, g3, g4, -⟩ := sweepLog_spec a fl o (fun x c hx hc => hh x c ((hl x).1 ⟨by simp [hc], hx⟩) hc)
  exact ⟨a1, d, r, g2, g1, g3, fun x => by rw [g4, hl, marked_iff_odd]⟩

/-- **C83, the end.** Between collections no cell is marked.  Destroying the arena then completes, every cell has been destroyed as often as it was handed
out, and every block taken from the C allocator has been given back exactly once. -/
theorem C83_destroy {a : Arena α} {live : Nat → Prop} {L : Ledger} (h : Life a live L)
    (hm : ∀ x c, live x → a.mem x = some c → c.head % 2 = 0) :
    ∃ d r, destroy a = some (d, r) ∧ (∀ x, (d ++ L.destroyed).count x = L.handed.count x) ∧ (r ++ L.returned).Perm L.taken := by
  obtain ⟨ha, hh, c1, c2, hp⟩ := h.keeps
  obtain ⟨fl, o, hl⟩ := ha.ok
  obtain ⟨d, r, a1, g1, g2, g3, g4, g5⟩ := sweepLog_spec a fl o (fun x c hx hc => hh x c ((hl x).1 ⟨by simp [hc], hx⟩) hc)
  have hd : ∀ x, x ∈ d ↔ live x := by
    intro x
    rw [g4, hl, marked_iff_odd]
    refine ⟨fun h => h.1, fun h => ⟨h, ?_⟩⟩
    rintro ⟨c, e1, e2⟩
    have := hm x c h e1
    omega
  have hcount : ∀ x, (d ++ L.destroyed).count x = L.handed.count x := by
    intro x
    rw [List.count_append]
    by_cases hv : live x
    · have h1 := List.nodup_iff_count.1 g3 x
      have h2 := List.count_pos_iff.2 ((hd x).2 hv)
      rw [c1 x hv]
      omega
    · have : d.count x = 0 := List.count_eq_zero.2 fun h => hv ((hd x).1 h)
      rw [this, c2 x hv]
      omega
  unfold destroy
  by_cases hb : a.blocks = []
  · rw [if_neg (by simp [hb])]
    have hn : ∀ x, ¬ live x := by
      intro x hx
      have := (o.defd x).1 ((hl x).2 hx).1
      rw [hb] at this
      obtain ⟨b, h, -⟩ := this
      cases h
    have : d = [] := List.eq_nil_iff_forall_not_mem.2 fun x h => hn x ((hd x).1 h)
    subst this
    refine ⟨[], [], rfl, hcount, ?_⟩
    rw [hb, List.append_nil] at hp
    exact hp
  · rw [if_pos hb, g2, g1]
    refine ⟨d, r ++ a1.blocks, rfl, hcount, List.Perm.trans ?_ hp⟩
    exact List.perm_append_comm.trans (g5.append_left _)

/-- An arena of two cells that grew by three, where one of three cells was kept by a collection. -/
example : ∃ (a : Arena Nat) (live : Nat → Prop) (L : Ledger), Life a live L ∧ live 72 ∧ ¬ live 4112 ∧ L.handed = [4112, 64, 72] ∧
    4112 ∈ L.destroyed ∧ 64 ∈ L.destroyed ∧ 72 ∉ L.destroyed ∧ L.taken = [(4096, 3), (64, 2)] ∧
    ∀ x c, live x → a.mem x = some c → c.head % 2 = 0 := by
  have h0 : Life (α := Nat) _ _ _ := .start (cs := 8) (n := 2) (inc := 3) (b := 64) (by decide) (by decide) (by decide)
    (by decide) (by decide) (by decide) rfl
  have h1 := h0.alloc (base := none) (r := 72) (g := true) (fun h => by cases h) rfl
  have h2 := h1.alloc (base := none) (r := 64) (g := true) (fun h => by cases h) rfl
  have h3 := h2.alloc (base := some 4096) (r := 4112) (g := true)
    (fun _ => ⟨4096, rfl, by decide, by decide, by decide, by decide⟩) rfl
  have h4 := h3.write (x := 72) ⟨1, 5⟩ (by simp) (by decide)
  obtain ⟨a5, d, r, e1, e2, -, hd⟩ := C83_collection h4
  have h5 := h4.sweep e1 e2
  refine ⟨_, _, _, h5, ?_, ?_, rfl, ?_, ?_, ?_, rfl, ?_⟩
  · exact ⟨by simp, ⟨1, 5⟩, rfl, rfl⟩
  · rintro ⟨-, c, hc, hm⟩
    cases hc
    cases hm
  · refine List.mem_append_left _ ((hd 4112).2 ⟨by simp, ?_⟩)
    rintro ⟨c, hc, hm⟩
    cases hc
    cases hm
  · refine List.mem_append_left _ ((hd 64).2 ⟨by simp, ?_⟩)
    rintro ⟨c, hc, hm⟩
    cases hc
    cases hm
  · intro h
    rcases List.mem_append.1 h with h | h
    · exact ((hd 72).1 h).2 ⟨⟨1, 5⟩, rfl, rfl⟩
    · cases h
  · rintro x c ⟨hx, c0, hc0, hm⟩ hc
    obtain ⟨a2, fl2, s1, -, -, s4, -⟩ := C25_sweep h4.keeps.1
    rw [e1] at s1
    cases s1
    rw [s4 x c0 hx hc0 hm] at hc
    cases hc
    show (c0.head - 1) % 2 = 0
    omega

end Mjs.Props
