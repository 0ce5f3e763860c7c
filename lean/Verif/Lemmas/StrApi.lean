import Verif.Model.StrApi
import Verif.Spec.Slice
import Verif.Lemmas.Num
import Verif.Props.Str

namespace Mjs.Str
open Mjs Mjs.Mbuf Mjs.Spec.Double Mjs.Spec.Slice

theorem getType_string {v : Val} (h : isString v = true) : getType v = some .string := by
  obtain ⟨t, h1, h2⟩ := (Props.C04_getType v).2 .string h (by decide)
  cases t <;> simp_all [Props.kindOfTy]

theorem getType_number {v : Val} (h : isNumber v = true) : getType v = some .number := by
  obtain ⟨t, h1, h2⟩ := (Props.C04_getType v).2 .number h (by decide)
  cases t <;> simp_all [Props.kindOfTy]

theorem checkArg_string {v : Val} (h : isString v = true) : checkArg (some v) .string = some (some v) := by
  simp [checkArg, getType_string h]

theorem checkArg_number {v : Val} (h : isNumber v = true) : checkArg (some v) .number = some (some v) := by
  simp [checkArg, getType_number h]

theorem cInt_eq {n : Nat} (h : n < 2 ^ 31) : cInt n = n := by
  rw [cInt, BitVec.toInt_eq_toNat_of_lt (by rw [BitVec.toNat_ofNat]; omega), BitVec.toNat_ofNat]
  omega

theorem normalizeIdx_eq (i : Int) (n : Nat) : normalizeIdx i n = (position i n : Nat) := by
  unfold normalizeIdx position
  simp only
  repeat' split
  all_goals omega

theorem position_le (i : Int) (n : Nat) : position i n ≤ n := by
  unfold position; split <;> omega

theorem readC_take {cmem a n bs} (h : readC cmem a n = some bs) (i k : Nat) (hk : i + k ≤ n) :
    readC cmem (a + i) k = some ((bs.drop i).take k) := by
  induction n generalizing a i k bs with
  | zero =>
    simp only [readC, Option.some.injEq] at h
    obtain ⟨rfl, rfl⟩ : i = 0 ∧ k = 0 := by omega
    simp [readC]
  | succ n ih =>
    simp only [readC, Option.bind_eq_bind, Option.bind_eq_some_iff, Option.some.injEq] at h
    obtain ⟨b, h1, bs', h2, rfl⟩ := h
    cases i with
    | zero =>
      cases k with
      | zero => simp [readC]
      | succ k =>
        have := ih h2 0 k (by omega)
        simp only [Nat.add_zero, List.drop_zero] at this ⊢
        simp [readC, h1, this]
    | succ i =>
      have := ih h2 i k (by omega)
      rw [show a + (i + 1) = a + 1 + i by omega, this]
      simp

/-- Reading a part of what can be read. -/
theorem load_add {cmem m p n bs} (h : load cmem m p n = some bs) (i k : Nat) (hk : i + k ≤ n) :
    load cmem m (p.add i) k = some ((bs.drop i).take k) := by
  cases p with
  | null =>
    simp only [load] at h
    split at h
    · cases h
      obtain ⟨rfl, rfl⟩ : i = 0 ∧ k = 0 := by omega
      simp [Ptr.add, load]
    · exact absurd h (by simp)
  | ext a => exact readC_take h i k hk
  | own a =>
    simp only [load] at h
    split at h
    · cases h
      simp only [Ptr.add, load]
      rw [if_pos (by omega), show a + i - m.addr = a - m.addr + i by omega, ← List.drop_drop]
      rw [List.drop_take, List.take_take, Nat.min_eq_left (by omega)]
    · exact absurd h (by simp)
  | loc b =>
    simp only [load] at h
    split at h
    · cases h
      simp only [Ptr.add, load]
      rw [if_pos (by simp; omega), List.drop_take, List.take_take, Nat.min_eq_left (by omega)]
    · exact absurd h (by simp)

theorem add_isNull (p : Ptr) (i : Nat) : (p.add i).isNull = p.isNull := by cases p <;> rfl

theorem occursAt_iff (x t : List UInt8) (i : Nat) :
    OccursAt x t i ↔ i + t.length ≤ x.length ∧ (x.drop i).take t.length = t := by
  constructor
  · rintro ⟨pre, post, rfl, rfl⟩
    refine ⟨by simp, ?_⟩
    rw [List.append_assoc, drop_len_append, take_len_append]
  · rintro ⟨h1, h2⟩
    refine ⟨x.take i, (x.drop i).drop t.length, ?_, by simp; omega⟩
    conv => rhs; rw [List.append_assoc, ← h2]
    rw [List.length_take]
    have : min t.length (x.drop i).length = t.length := by simp; omega
    rw [this, List.take_append_drop, List.take_append_drop]

theorem strstrLoop_spec (h n : List UInt8) (i cnt : Nat) (hc : i + cnt + n.length ≤ h.length + 1) :
    (∀ j, strstrLoop h n i cnt = some j ↔
      i ≤ j ∧ j < i + cnt ∧ OccursAt h n j ∧ ∀ k, i ≤ k → k < j → ¬ OccursAt h n k) ∧
    (strstrLoop h n i cnt = none ↔ ∀ k, i ≤ k → k < i + cnt → ¬ OccursAt h n k) := by
  induction cnt generalizing i with
  | zero =>
    simp only [strstrLoop]
    refine ⟨fun j => ⟨fun h => absurd h (by simp), fun h => by omega⟩, ⟨fun _ k _ _ => by omega, fun _ => trivial⟩⟩
  | succ cnt ih =>
    have hocc : memcmp ((h.drop i).take n.length) n = 0 ↔ OccursAt h n i := by
      rw [memcmp_zero _ _ (by simp; omega), occursAt_iff]
      exact ⟨fun e => ⟨by omega, e⟩, fun e => e.2⟩
    obtain ⟨ih1, ih2⟩ := ih (i + 1) (by omega)
    simp only [strstrLoop]
    by_cases ho : OccursAt h n i
    · rw [if_pos (hocc.2 ho)]
      constructor
      · intro j
        constructor
        · intro e; cases e
          exact ⟨Nat.le_refl _, by omega, ho, fun k _ _ => by omega⟩
        · rintro ⟨h1, h2, h3, h4⟩
          by_cases hij : i = j
          · rw [hij]
          · exact absurd ho (h4 i (Nat.le_refl _) (by omega))
      · constructor
        · intro e; exact absurd e (by simp)
        · intro e; exact absurd ho (e i (Nat.le_refl _) (by omega))
    · rw [if_neg (fun e => ho (hocc.1 e))]
      constructor
      · intro j
        rw [ih1]
        constructor
        · rintro ⟨h1, h2, h3, h4⟩
          refine ⟨by omega, by omega, h3, fun k hk1 hk2 => ?_⟩
          by_cases hik : i = k
          · exact hik ▸ ho
          · exact h4 k (by omega) hk2
        · rintro ⟨h1, h2, h3, h4⟩
          have : i ≠ j := fun e => ho (e ▸ h3)
          exact ⟨by omega, by omega, h3, fun k hk1 hk2 => h4 k (by omega) hk2⟩
      · rw [ih2]
        constructor
        · intro e k hk1 hk2
          by_cases hik : i = k
          · exact hik ▸ ho
          · exact e k (by omega) (by omega)
        · intro e k hk1 hk2
          exact e k (by omega) (by omega)

/-- `mg_strstr` finds the first occurrence. -/
theorem strstr_spec (h n : List UInt8) :
    (∀ j, strstr h n = some j ↔ OccursAt h n j ∧ ∀ k, k < j → ¬ OccursAt h n k) ∧
    (strstr h n = none ↔ ∀ k, ¬ OccursAt h n k) := by
  unfold strstr
  split
  · rename_i hl
    have hno : ∀ k, ¬ OccursAt h n k := by
      intro k hk
      rw [occursAt_iff] at hk
      omega
    exact ⟨fun j => ⟨fun h => absurd h (by simp), fun h => absurd h.1 (hno j)⟩, ⟨fun _ => hno, fun _ => rfl⟩⟩
  · obtain ⟨h1, h2⟩ := strstrLoop_spec h n 0 (h.length - n.length + 1) (by omega)
    have hb : ∀ k, OccursAt h n k → k < 0 + (h.length - n.length + 1) := by
      intro k hk
      rw [occursAt_iff] at hk
      omega
    constructor
    · intro j
      rw [h1]
      exact ⟨fun ⟨_, _, a, b⟩ => ⟨a, fun k hk => b k (Nat.zero_le _) hk⟩,
        fun ⟨a, b⟩ => ⟨Nat.zero_le _, hb j a, a, fun k _ hk => b k hk⟩⟩
    · rw [h2]
      exact ⟨fun e k hk => e k (Nat.zero_le _) (hb k hk) hk, fun e k _ _ => e k⟩

theorem occursAt_drop (x t : List UInt8) (b i : Nat) (hb : b ≤ x.length) :
    OccursAt (x.drop b) t i ↔ OccursAt x t (b + i) := by
  rw [occursAt_iff, occursAt_iff, List.drop_drop, List.length_drop]
  constructor
  · rintro ⟨h1, h2⟩; exact ⟨by omega, h2⟩
  · rintro ⟨h1, h2⟩; exact ⟨by omega, h2⟩

end Mjs.Str
