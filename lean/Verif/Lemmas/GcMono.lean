import Verif.Model.Gc

/-! A larger bound on the depth of the collector's recursion does not change its result. -/

namespace Mjs.Gc
open Mjs Mjs.Mbuf Mjs.Varint Mjs.Str Mjs.Arena Mjs.Obj

variable {σ : Type}

theorem mark_mono (n : Nat) :
    (∀ (m : Mem σ) a m', markVal n m a = some m' → markVal (n + 1) m a = some m') ∧
    (∀ (m : Mem σ) v m', markObject n m v = some m' → markObject (n + 1) m v = some m') ∧
    (∀ (m : Mem σ) p m', markProps n m p = some m' → markProps (n + 1) m p = some m') := by
  induction n with
  | zero =>
    refine ⟨fun _ _ _ h => ?_, fun _ _ _ h => ?_, fun _ _ _ h => ?_⟩
    · rw [markVal] at h; cases h
    · rw [markObject] at h; cases h
    · rw [markProps] at h; cases h
  | succ n ih =>
    obtain ⟨i1, i2, i3⟩ := ih
    refine ⟨fun m a m' h => ?_, fun m v m' h => ?_, fun m p m' h => ?_⟩
    · rw [markVal] at h ⊢
      simp only [Option.bind_eq_bind, Option.bind_eq_some_iff] at h ⊢
      obtain ⟨v, hv, h⟩ := h
      refine ⟨v, hv, ?_⟩
      split
      · rw [if_pos ‹_›] at h
        simp only [Option.bind_eq_some_iff] at h ⊢
        obtain ⟨m1, h1, h2⟩ := h
        exact ⟨m1, i2 _ _ _ h1, h2⟩
      · rw [if_neg ‹_›] at h
        exact h
    · rw [markObject] at h ⊢
      simp only at h ⊢
      split
      · rw [if_pos ‹_›] at h; cases h
      · rw [if_neg ‹_›] at h
        simp only [Option.bind_eq_bind, Option.bind_eq_some_iff] at h ⊢
        obtain ⟨c, hc, h1⟩ := h
        refine ⟨c, hc, ?_⟩
        split
        · rw [if_pos ‹_›] at h1; exact h1
        · rw [if_neg ‹_›] at h1; exact i3 _ _ _ h1
    · rw [markProps] at h ⊢
      split
      · rw [if_pos ‹_›] at h; exact h
      · rw [if_neg ‹_›] at h
        split
        · rw [if_pos ‹_›] at h; cases h
        · rw [if_neg ‹_›] at h
          simp only [Option.bind_eq_bind, Option.bind_eq_some_iff] at h ⊢
          obtain ⟨m1, h1, m2, h2, c, hc, h3⟩ := h
          exact ⟨m1, i1 _ _ _ h1, m2, i1 _ _ _ h2, c, hc, i3 _ _ _ h3⟩

theorem markAll_mono {n : Nat} {as : List Nat} : ∀ {m m' : Mem σ}, markAll n m as = some m' → markAll (n + 1) m as = some m' := by
  induction as with
  | nil => intro m m' h; exact h
  | cons a as ih =>
    intro m m' h
    simp only [markAll, List.foldlM_cons, Option.bind_eq_bind, Option.bind_eq_some_iff] at h ⊢
    obtain ⟨m1, h1, h2⟩ := h
    exact ⟨m1, (mark_mono n).1 _ _ _ h1, ih h2⟩

theorem relink_mono (n : Nat) : ∀ (m : Mem σ) h head r, relink n m h head = some r → relink (n + 1) m h head = some r := by
  induction n with
  | zero => intro m h head r e; rw [relink] at e; cases e
  | succ n ih =>
    intro m h head r e
    rw [relink] at e ⊢
    split
    · rw [if_pos ‹_›] at e; exact e
    · rw [if_neg ‹_›] at e
      simp only [Option.bind_eq_bind, Option.bind_eq_some_iff] at e ⊢
      obtain ⟨x, hx, m1, h1, h2⟩ := e
      exact ⟨x, hx, m1, h1, ih _ _ _ _ h2⟩

theorem compactLoop_mono (n : Nat) : ∀ (m : Mem σ) p head r, compactLoop n m p head = some r → compactLoop (n + 1) m p head = some r := by
  induction n with
  | zero => intro m p head r e; rw [compactLoop] at e; cases e
  | succ n ih =>
    intro m p head r e
    rw [compactLoop] at e ⊢
    simp only at e ⊢
    split
    · rw [if_pos ‹_›] at e
      simp only [Option.bind_eq_bind, Option.bind_eq_some_iff] at e ⊢
      obtain ⟨mk, hmk, e⟩ := e
      refine ⟨mk, hmk, ?_⟩
      split
      · rw [if_pos ‹_›] at e
        simp only [Option.bind_eq_some_iff] at e ⊢
        obtain ⟨h, hh, ⟨m1, h1⟩, hr, len, hl, b1, hb1, m2, hm2, b3, hb3, e⟩ := e
        exact ⟨h, hh, ⟨m1, h1⟩, relink_mono n _ _ _ _ hr, len, hl, b1, hb1, m2, hm2, b3, hb3, ih _ _ _ _ e⟩
      · rw [if_neg ‹_›] at e
        simp only [Option.bind_eq_some_iff] at e ⊢
        obtain ⟨len, hl, e⟩ := e
        exact ⟨len, hl, ih _ _ _ _ e⟩
    · rw [if_neg ‹_›] at e; exact e

theorem mjsGc_succ [Inhabited σ] {n : Nat} {m m' : Mem σ} {r full al} (h : mjsGc n m r full al = some m') :
    mjsGc (n + 1) m r full al = some m' := by
  simp only [mjsGc, Option.bind_eq_bind, Option.bind_eq_some_iff] at h ⊢
  obtain ⟨m1, h1, m2, h2, o, ho, p, hp, s, hs, e⟩ := h
  exact ⟨m1, markAll_mono h1, m2, compactLoop_mono n _ _ _ _ h2, o, ho, p, hp, s, hs, e⟩

theorem mjsGc_mono [Inhabited σ] {n k : Nat} {m m' : Mem σ} {r full al} (h : mjsGc n m r full al = some m') (hk : n ≤ k) :
    mjsGc k m r full al = some m' := by
  induction k with
  | zero =>
    have : n = 0 := by omega
    subst this
    exact h
  | succ k ih =>
    by_cases e : n = k + 1
    · rw [← e]; exact h
    · exact mjsGc_succ (ih (by omega))

end Mjs.Gc
