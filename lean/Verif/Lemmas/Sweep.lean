import Verif.Lemmas.Arena

namespace Mjs.Arena

variable {α : Type} [Inhabited α]

/-- The cell at `x` is there and carries the collector's mark. -/
def Marked (mem : Nat → Option (Cell α)) (x : Nat) : Prop := ∃ c, mem x = some c ∧ marked c.head = true

instance (mem : Nat → Option (Cell α)) (x : Nat) : Decidable (Marked mem x) :=
  match h : mem x with
  | none => isFalse (by simp [Marked, h])
  | some c => if hc : marked c.head = true then isTrue ⟨c, h, hc⟩ else isFalse (by simp [Marked, h, hc])

omit [Inhabited α] in
theorem markFreeList_spec (mem : Nat → Option (Cell α)) (cur : Nat) (fl : List Nat) (h : FreeList mem cur fl)
    (hn : fl.Nodup) :
    ∃ mem', markFreeList mem cur = some mem' ∧ (∀ x, x ∉ fl → mem' x = mem x) ∧
      (∀ x ∈ fl, ∃ c, mem x = some c ∧ mem' x = some ⟨markFree c.head, c.body⟩) := by
  induction fl generalizing mem cur with
  | nil =>
    cases h
    rw [markFreeList, if_pos rfl]
    exact ⟨mem, rfl, fun _ _ => rfl, by simp⟩
  | cons r fl ih =>
    have hnd := List.nodup_cons.1 hn
    cases h with
    | @cons _ c _ h0 hm hf =>
    have hne : ∀ x ∈ fl, x ≠ r := fun x hx e => hnd.1 (e ▸ hx)
    obtain ⟨mem', e, h1, h2⟩ := ih (upd mem r (some ⟨markFree c.head, c.body⟩)) c.head
      (hf.congr fun x hx => upd_other _ _ _ _ (hne x hx)) hnd.2
    refine ⟨mem', ?_, ?_, ?_⟩
    · rw [markFreeList, if_neg h0, hm]; exact e
    · intro x hx
      simp only [List.mem_cons, not_or] at hx
      rw [h1 x hx.2, upd_other _ _ _ _ hx.1]
    · intro x hx
      rcases List.mem_cons.1 hx with rfl | hx
      · exact ⟨c, hm, by rw [h1 x hnd.1, upd_same]⟩
      · obtain ⟨c', e1, e2⟩ := h2 x hx
        rw [upd_other _ _ _ _ (hne x hx)] at e1
        exact ⟨c', e1, e2⟩

theorem marked_markFree {w : Nat} (h : w % 8 = 0) : marked (markFree w) = false := by
  simp only [marked, markFree, beq_eq_false_iff_ne]; omega

/-- What the sweep makes of the cell at `x`. -/
theorem sweepCells_spec (cs : Nat) (hcs : 0 < cs) (n : Nat) (mem : Nat → Option (Cell α)) (free cur freed : Nat)
    (fl : List Nat) (hcur : 0 < cur) (hd : ∀ x ∈ cells cs cur n, mem x ≠ none) (hl : FreeList mem free fl)
    (hfl : ∀ x ∈ fl, x ∉ cells cs cur n) (hn : fl.Nodup) :
    ∃ mem' free', sweepCells cs mem free cur freed n =
        some (mem', free', freed + ((cells cs cur n).filter fun x => ¬ Marked mem x).length) ∧
      FreeList mem' free' (((cells cs cur n).filter fun x => ¬ Marked mem x).reverse ++ fl) ∧
      (∀ x, x ∉ cells cs cur n → mem' x = mem x) ∧
      (∀ x ∈ cells cs cur n, mem' x ≠ none) ∧
      (∀ x ∈ cells cs cur n, ∀ c, mem x = some c → marked c.head = true → mem' x = some ⟨unmark c.head, c.body⟩) := by
  induction n generalizing mem free cur freed fl with
  | zero => exact ⟨mem, free, by simp [sweepCells, cells], by simpa [cells] using hl, by simp [cells], by simp [cells], by simp [cells]⟩
  | succ n ih =>
    obtain ⟨c, hc⟩ := Option.ne_none_iff_exists'.1 (hd cur (by simp [cells]))
    have hout : cur ∉ cells cs (cur + cs) n := fun h => by have := cells_range h; omega
    have hcfl : cur ∉ fl := fun h => hfl cur h (by simp [cells])
    have heq : ∀ (y : Option (Cell α)) x, x ∈ cells cs (cur + cs) n → upd mem cur y x = mem x :=
      fun y x hx => upd_other _ _ _ _ (fun e => hout (e ▸ hx))
    have hmk : ∀ (y : Option (Cell α)), (cells cs (cur + cs) n).filter (fun x => ¬ Marked (upd mem cur y) x) =
        (cells cs (cur + cs) n).filter (fun x => ¬ Marked mem x) := by
      intro y
      refine List.filter_congr fun x hx => ?_
      have : Marked (upd mem cur y) x ↔ Marked mem x := by unfold Marked; rw [heq y x hx]
      simp only [this]
    by_cases hm : marked c.head = true
    · have hM : Marked mem cur := ⟨c, hc, hm⟩
      obtain ⟨mem', free', e, k1, k2, k3, k4⟩ := ih (upd mem cur (some ⟨unmark c.head, c.body⟩)) free (cur + cs) freed fl
        (by omega) (fun x hx => by rw [heq _ x hx]; exact hd x (by simp [cells, hx]))
        (hl.congr fun x hx => upd_other _ _ _ _ (fun e => hcfl (e ▸ hx)))
        (fun x hx h => hfl x hx (by simp [cells, h])) hn
      rw [hmk] at e k1
      refine ⟨mem', free', ?_, ?_, ?_, ?_, ?_⟩
      · simp only [sweepCells, sweepCell, hc, Option.map_some, hm, if_true, Option.bind_some, Bool.false_eq_true, if_false, e,
          cells, List.filter_cons, hM, not_true, decide_false]
      · simpa only [cells, List.filter_cons, hM, not_true, decide_false, Bool.false_eq_true, if_false] using k1
      · intro x hx
        simp only [cells, List.mem_cons, not_or] at hx
        rw [k2 x hx.2, upd_other _ _ _ _ hx.1]
      · intro x hx
        by_cases hx' : x ∈ cells cs (cur + cs) n
        · exact k3 x hx'
        · rw [k2 x hx']
          simp only [cells, List.mem_cons] at hx
          rcases hx with rfl | hx
          · rw [upd_same]; simp
          · exact absurd hx hx'
      · intro x hx c' hc' hmc
        by_cases hx' : x ∈ cells cs (cur + cs) n
        · exact k4 x hx' c' (by rw [heq _ x hx']; exact hc') hmc
        · simp only [cells, List.mem_cons] at hx
          rcases hx with rfl | hx
          · rw [hc] at hc'; cases hc'
            rw [k2 x hx', upd_same]
          · exact absurd hx hx'
    · have hM : ¬ Marked mem cur := by rintro ⟨c', h1, h2⟩; rw [hc] at h1; cases h1; exact hm h2
      obtain ⟨mem', free', e, k1, k2, k3, k4⟩ := ih
        (upd mem cur (some ⟨free, if markedFree c.head then c.body else default⟩)) cur (cur + cs) (freed + 1) (cur :: fl)
        (by omega) (fun x hx => by rw [heq _ x hx]; exact hd x (by simp [cells, hx]))
        (.cons (Nat.ne_of_gt hcur) (upd_same _ _ _) (hl.congr fun x hx => upd_other _ _ _ _ (fun e => hcfl (e ▸ hx))))
        (fun x hx h => by
          rcases List.mem_cons.1 hx with rfl | hx
          · exact hout h
          · exact hfl x hx (by simp [cells, h])) (List.nodup_cons.2 ⟨hcfl, hn⟩)
      rw [hmk] at e k1
      refine ⟨mem', free', ?_, ?_, ?_, ?_, ?_⟩
      · simp only [sweepCells, sweepCell, hc, Option.map_some, hm, Option.bind_some, Bool.false_eq_true, if_false, if_true, e,
          cells, List.filter_cons, hM, not_false_eq_true, decide_true, List.length_cons]
        congr 3
        omega
      · simpa only [cells, List.filter_cons, hM, not_false_eq_true, decide_true, if_true, List.reverse_cons,
          List.append_assoc, List.singleton_append] using k1
      · intro x hx
        simp only [cells, List.mem_cons, not_or] at hx
        rw [k2 x hx.2, upd_other _ _ _ _ hx.1]
      · intro x hx
        by_cases hx' : x ∈ cells cs (cur + cs) n
        · exact k3 x hx'
        · rw [k2 x hx']
          simp only [cells, List.mem_cons] at hx
          rcases hx with rfl | hx
          · rw [upd_same]; simp
          · exact absurd hx hx'
      · intro x hx c' hc' hmc
        by_cases hx' : x ∈ cells cs (cur + cs) n
        · exact k4 x hx' c' (by rw [heq _ x hx']; exact hc') hmc
        · simp only [cells, List.mem_cons] at hx
          rcases hx with rfl | hx
          · exact absurd ⟨c', hc', hmc⟩ hM
          · exact absurd hx hx'

omit [Inhabited α] in
theorem dropCells_spec (cs : Nat) (n : Nat) (mem : Nat → Option (Cell α)) (cur x : Nat) :
    dropCells cs mem cur n x = if x ∈ cells cs cur n then none else mem x := by
  induction n generalizing mem cur with
  | zero => simp [dropCells, cells]
  | succ n ih =>
    simp only [dropCells, ih, cells, List.mem_cons]
    by_cases h : x ∈ cells cs (cur + cs) n
    · simp [h]
    · by_cases h' : x = cur
      · simp [h', upd_same]
      · simp [h, h', upd_other]

theorem length_cells (cs cur n : Nat) : (cells cs cur n).length = n := by
  induction n generalizing cur with
  | zero => rfl
  | succ n ih => simp [cells, ih]

theorem sweepBlocks_spec (cs : Nat) (hcs : 0 < cs) (bs : List (Nat × Nat)) (mem : Nat → Option (Cell α)) (free : Nat)
    (fl : List Nat) (hb : ∀ b ∈ bs, 0 < b.1)
    (hp : bs.Pairwise fun x y => x.1 + x.2 * cs ≤ y.1 ∨ y.1 + y.2 * cs ≤ x.1)
    (hd : ∀ x, IsCell cs bs x → mem x ≠ none) (hl : FreeList mem free fl) (hfl : ∀ x ∈ fl, ¬ IsCell cs bs x)
    (hn : fl.Nodup) :
    ∃ mem' free' bs' fl', sweepBlocks cs mem free bs = some (mem', free', bs') ∧ FreeList mem' free' fl' ∧ fl'.Nodup ∧
      bs'.Sublist bs ∧ (∀ x ∈ fl, x ∈ fl') ∧ (∀ x ∈ fl', x ∈ fl ∨ IsCell cs bs' x) ∧
      (∀ x, IsCell cs bs' x → (x ∈ fl' ↔ ¬ Marked mem x)) ∧
      (∀ x, ¬ IsCell cs bs x → mem' x = mem x) ∧
      (∀ x, IsCell cs bs x → ¬ IsCell cs bs' x → mem' x = none ∧ ¬ Marked mem x) ∧
      (∀ x, IsCell cs bs' x → mem' x ≠ none) ∧
      (∀ x c, IsCell cs bs x → mem x = some c → marked c.head = true → mem' x = some ⟨unmark c.head, c.body⟩) ∧
      (bs ≠ [] → bs' ≠ []) ∧
      (∀ b pre post, bs' = pre ++ b :: post → post ≠ [] → 0 < b.2 → ∃ x ∈ cells cs b.1 b.2, Marked mem x) := by
  induction bs generalizing mem free fl with
  | nil =>
    exact ⟨mem, free, [], fl, rfl, hl, hn, List.Sublist.refl _, fun x h => h, fun x h => .inl h, by simp [IsCell], by simp,
      by simp [IsCell], by simp [IsCell], by simp [IsCell], by simp, by simp⟩
  | cons b rest ih =>
    obtain ⟨base, size⟩ := b
    have hp' := List.pairwise_cons.1 hp
    have hc0 : ∀ x, x ∈ cells cs base size → ¬ IsCell cs rest x := by
      rintro x hx ⟨b', hb', hx'⟩
      have r1 := cells_range hx
      have r2 := cells_range hx'
      have := hp'.1 b' hb'
      simp only at this
      omega
    obtain ⟨mem1, free1, e1, k1, k2, k3, k4⟩ := sweepCells_spec cs hcs size mem free base 0 fl (hb (base, size) (by simp))
      (fun x hx => hd x ((isCell_cons _ _ _ _).2 (.inl hx))) hl
      (fun x hx h => hfl x hx ((isCell_cons _ _ _ _).2 (.inl h))) hn
    have hM : ∀ (mem1 : Nat → Option (Cell α)), (∀ x, x ∉ cells cs base size → mem1 x = mem x) →
        ∀ x, IsCell cs rest x → (Marked mem1 x ↔ Marked mem x) := by
      intro mem1 k2 x hx
      unfold Marked
      rw [k2 x fun h => hc0 x h hx]
    simp only [sweepBlocks, e1, Option.bind_some]
    by_cases hrel : rest ≠ [] ∧ 0 + ((cells cs base size).filter fun x => ¬ Marked mem x).length = size
    · -- the block is released
      rw [if_pos hrel]
      have hall : ∀ x ∈ cells cs base size, ¬ Marked mem x := by
        have hlen : ((cells cs base size).filter fun x => ¬ Marked mem x).length = (cells cs base size).length := by
          rw [length_cells]; omega
        intro x hx
        have := List.length_filter_eq_length_iff.1 hlen x hx
        simpa using this
      have hdrop : ∀ x, x ∉ cells cs base size → dropCells cs mem1 base size x = mem x := by
        intro x hx; rw [dropCells_spec, if_neg hx, k2 x hx]
      obtain ⟨mem', free', bs', fl', e, q1, q2, q3, q4, q5, q6, q7, q8, q9, q10, q11, q12⟩ := ih
        (dropCells cs mem1 base size) free fl (fun b hb' => hb b (by simp [hb'])) hp'.2
        (fun x hx => by
          rw [hdrop x fun h => hc0 x h hx]
          exact hd x ((isCell_cons _ _ _ _).2 (.inr hx)))
        (hl.congr fun x hx => hdrop x fun h => hfl x hx ((isCell_cons _ _ _ _).2 (.inl h)))
        (fun x hx h => hfl x hx ((isCell_cons _ _ _ _).2 (.inr h))) hn
      have hM' := hM _ hdrop
      have hsub : ∀ x, IsCell cs bs' x → IsCell cs rest x := fun x ⟨b, hb, hx⟩ => ⟨b, q3.mem hb, hx⟩
      refine ⟨mem', free', bs', fl', e, q1, q2, q3.cons _, q4, q5, ?_, ?_, ?_, q9, ?_, fun _ => q11 hrel.1, ?_⟩
      · intro x hx
        rw [q6 x hx, hM' x (hsub x hx)]
      · intro x hx
        rw [isCell_cons, not_or] at hx
        rw [q7 x hx.2, hdrop x hx.1]
      · intro x hx hx'
        rcases (isCell_cons _ _ _ _).1 hx with hx | hx
        · refine ⟨?_, hall x hx⟩
          rw [q7 x (hc0 x hx), dropCells_spec, if_pos hx]
        · rw [← hM' x hx]; exact q8 x hx hx'
      · intro x c hx hc hm
        rcases (isCell_cons _ _ _ _).1 hx with hx | hx
        · exact absurd ⟨c, hc, hm⟩ (hall x hx)
        · exact q10 x c hx (by rw [hdrop x fun h => hc0 x h hx]; exact hc) hm
      · intro b pre post e' hpost h0
        obtain ⟨x, hx, hmx⟩ := q12 b pre post e' hpost h0
        have : b ∈ bs' := by rw [e']; simp
        exact ⟨x, hx, (hM' x ⟨b, q3.mem this, hx⟩).1 hmx⟩
    · rw [if_neg hrel]
      have hfm : ∀ x ∈ ((cells cs base size).filter fun x => ¬ Marked mem x).reverse,
          x ∈ cells cs base size ∧ ¬ Marked mem x := fun x hx => by simpa using hx
      obtain ⟨mem', free', bs', fl', e, q1, q2, q3, q4, q5, q6, q7, q8, q9, q10, q11, q12⟩ := ih mem1 free1
        (((cells cs base size).filter fun x => ¬ Marked mem x).reverse ++ fl) (fun b hb' => hb b (by simp [hb'])) hp'.2
        (fun x hx => by
          rw [k2 x fun h => hc0 x h hx]
          exact hd x ((isCell_cons _ _ _ _).2 (.inr hx)))
        k1
        (fun x hx h => by
          rcases List.mem_append.1 hx with hx | hx
          · exact hc0 x (hfm x hx).1 h
          · exact hfl x hx ((isCell_cons _ _ _ _).2 (.inr h)))
        (by
          rw [List.nodup_append]
          refine ⟨(List.reverse_perm _).nodup_iff.2 ((cells_nodup cs base size hcs).filter _), hn, ?_⟩
          rintro x hx y hy rfl
          exact hfl x hy ((isCell_cons _ _ _ _).2 (.inl (hfm x hx).1)))
      have hM' := hM _ k2
      have hsub : ∀ x, IsCell cs bs' x → IsCell cs rest x := fun x ⟨b, hb, hx⟩ => ⟨b, q3.mem hb, hx⟩
      refine ⟨mem', free', (base, size) :: bs', fl', by rw [e]; rfl, q1, q2, q3.cons_cons _,
        fun x hx => q4 x (by simp [hx]), ?_, ?_, ?_, ?_, ?_, ?_, by simp, ?_⟩
      · intro x hx
        rcases q5 x hx with h | h
        · rcases List.mem_append.1 h with h | h
          · exact .inr ((isCell_cons _ _ _ _).2 (.inl (hfm x h).1))
          · exact .inl h
        · exact .inr ((isCell_cons _ _ _ _).2 (.inr h))
      · intro x hx
        rcases (isCell_cons _ _ _ _).1 hx with hx | hx
        · constructor
          · intro h
            rcases q5 x h with h | h
            · rcases List.mem_append.1 h with h | h
              · exact (hfm x h).2
              · exact absurd ((isCell_cons _ _ _ _).2 (.inl hx)) (hfl x h)
            · exact absurd (hsub x h) (hc0 x hx)
          · intro h
            exact q4 x (by simp [hx, h])
        · rw [q6 x hx, hM' x (hsub x hx)]
      · intro x hx
        rw [isCell_cons, not_or] at hx
        rw [q7 x hx.2, k2 x hx.1]
      · intro x hx hx'
        rw [isCell_cons, not_or] at hx'
        rcases (isCell_cons _ _ _ _).1 hx with hx | hx
        · exact absurd hx hx'.1
        · rw [← hM' x hx]; exact q8 x hx hx'.2
      · intro x hx
        rcases (isCell_cons _ _ _ _).1 hx with hx | hx
        · rw [q7 x (hc0 x hx)]; exact k3 x hx
        · exact q9 x hx
      · intro x c hx hc hm
        rcases (isCell_cons _ _ _ _).1 hx with hx | hx
        · rw [q7 x (hc0 x hx)]; exact k4 x hx c hc hm
        · exact q10 x c hx (by rw [k2 x fun h => hc0 x h hx]; exact hc) hm
      · intro b pre post e' hpost h0
        cases pre with
        | nil =>
          simp only [List.nil_append, List.cons.injEq] at e'
          obtain ⟨rfl, rfl⟩ := e'
          have hrest : rest ≠ [] := by
            intro h; subst h
            have := List.sublist_nil.1 q3
            exact hpost this
          rcases Classical.em (∃ x ∈ cells cs base size, Marked mem x) with h | h
          · exact h
          · exfalso
            refine hrel ⟨hrest, ?_⟩
            rw [List.filter_eq_self.2, length_cells]
            · omega
            · intro x hx
              simp only [decide_eq_true_eq]
              exact fun hm => h ⟨x, hx, hm⟩
        | cons b0 pre =>
          simp only [List.cons_append, List.cons.injEq] at e'
          obtain ⟨rfl, rfl⟩ := e'
          obtain ⟨x, hx, hmx⟩ := q12 b pre post rfl hpost h0
          exact ⟨x, hx, (hM' x ⟨b, q3.mem (by simp), hx⟩).1 hmx⟩

/-- Sweeping a well-formed arena: exactly the marked used cells stay in use, unmarked and otherwise unchanged; all other
cells of the remaining blocks are free; only blocks without a marked cell are released, and every block but the last
without a marked cell is. -/
theorem sweep_spec (a : Arena α) (fl : List Nat) (h : Ok a fl) :
    ∃ a' fl', sweep a = some a' ∧ Ok a' fl' ∧ a'.cellSize = a.cellSize ∧ a'.inc = a.inc ∧
      (∀ x, Used a' fl' x ↔ Used a fl x ∧ Marked a.mem x) ∧
      (∀ x c, Used a fl x → a.mem x = some c → marked c.head = true → a'.mem x = some ⟨unmark c.head, c.body⟩) ∧
      a'.blocks.Sublist a.blocks ∧
      (∀ b pre post, a'.blocks = pre ++ b :: post → post ≠ [] → 0 < b.2 →
        ∃ x ∈ cells a.cellSize b.1 b.2, Used a' fl' x) ∧ (a.blocks ≠ [] → a'.blocks ≠ []) := by
  obtain ⟨mem1, e1, k1, k2⟩ := markFreeList_spec a.mem a.free fl h.list h.nodup
  have hal := (FreeList.aligned h.list fun x hx => (h.cellAddr hx).2.1).2
  have hM : ∀ x, Marked mem1 x ↔ Used a fl x ∧ Marked a.mem x := by
    intro x
    by_cases hx : x ∈ fl
    · obtain ⟨c, e, e'⟩ := k2 x hx
      simp only [Marked, e', Option.some.injEq, exists_eq_left', marked_markFree (hal x hx c e), Used, hx]
      simp
    · unfold Marked
      rw [k1 x hx]
      constructor
      · rintro ⟨c, e, hm⟩
        exact ⟨⟨by simp [e], hx⟩, c, e, hm⟩
      · exact fun h => h.2
  have hdef : ∀ x, mem1 x ≠ none ↔ a.mem x ≠ none := by
    intro x
    by_cases hx : x ∈ fl
    · obtain ⟨c, e, e'⟩ := k2 x hx
      simp [e, e']
    · rw [k1 x hx]
  obtain ⟨mem', free', bs', fl', e, q1, q2, q3, q4, q5, q6, q7, q8, q9, q10, q11, q12⟩ :=
    sweepBlocks_spec a.cellSize h.cs a.blocks mem1 0 [] (fun b hb => (h.blk b hb).1) h.disj
      (fun x hx => (hdef x).2 ((h.defd x).2 hx)) .nil (by simp) (by simp)
  have hsub : ∀ x, IsCell a.cellSize bs' x → IsCell a.cellSize a.blocks x := fun x ⟨b, hb, hx⟩ => ⟨b, q3.mem hb, hx⟩
  have hUsed : ∀ x, (mem' x ≠ none ∧ x ∉ fl') ↔ Used a fl x ∧ Marked a.mem x := by
    intro x
    rw [← hM]
    by_cases hx : IsCell a.cellSize bs' x
    · have := q6 x hx
      constructor
      · rintro ⟨_, h2⟩
        exact Classical.not_not.1 fun hn => h2 (this.2 hn)
      · intro hm
        exact ⟨q9 x hx, fun h => this.1 h hm⟩
    · by_cases hx' : IsCell a.cellSize a.blocks x
      · obtain ⟨h1, h2⟩ := q8 x hx' hx
        simp [h1, h2]
      · have h0 : mem1 x = none := by
          by_cases h0 : mem1 x = none
          · exact h0
          · exact absurd ((h.defd x).1 ((hdef x).1 h0)) hx'
        rw [q7 x hx', h0]
        simp [Marked, h0]
  refine ⟨{ a with mem := mem', free := free', blocks := bs' }, fl', ?_, ?_, rfl, rfl, hUsed, ?_, q3, ?_, q11⟩
  · simp only [sweep, e1, Option.bind_some, e, Option.map_some]
  · refine ⟨h.cs, h.cs8, h.inc, fun b hb => h.blk b (q3.mem hb), h.disj.sublist q3, ?_, q1, q2⟩
    intro x
    constructor
    · intro hx
      apply Classical.byContradiction
      intro hn
      by_cases hx' : IsCell a.cellSize a.blocks x
      · exact hx (q8 x hx' hn).1
      · simp only at hx
        rw [q7 x hx', hdef, h.defd] at hx
        exact hx' hx
    · exact q9 x
  · intro x c hu hc hm
    have hx : IsCell a.cellSize a.blocks x := (h.defd x).1 hu.1
    exact q10 x c hx (by rw [k1 x hu.2]; exact hc) hm
  · intro b pre post eb hpost h0
    obtain ⟨x, hx, hm⟩ := q12 b pre post eb hpost h0
    exact ⟨x, hx, (hUsed x).2 ((hM x).1 hm)⟩

end Mjs.Arena
