import Verif.Lemmas.Tok

/-! Longest match of operators. -/

namespace Mjs.Tok
open Mjs.Spec.Tok

theorem ops_eq : operators.map (fun o => (text o.1, o.2)) = translations := by decide

theorem longest_iff (r : List UInt8) (tok len : Nat) :
    LongestOp r tok len ↔ (∃ o ∈ translations, o.1 <+: r ∧ o.2 = tok ∧ o.1.length = len) ∧
      ∀ o ∈ translations, o.1 <+: r → o.1.length ≤ len := by
  rw [← ops_eq]
  simp only [LongestOp, List.mem_map, forall_exists_index, and_imp, forall_apply_eq_imp_iff₂]
  constructor
  · rintro ⟨⟨o, h1, h2⟩, h3⟩
    exact ⟨⟨_, ⟨o, h1, rfl⟩, h2⟩, h3⟩
  · rintro ⟨⟨_, ⟨o, h1, rfl⟩, h2⟩, h3⟩
    exact ⟨⟨o, h1, h2⟩, h3⟩

theorem pre1 (r : List UInt8) (a : UInt8) (ha : a ≠ 0) : [a] <+: r ↔ r.getD 0 0 = a := by
  rcases r with _ | ⟨x, r⟩
  · simp [Ne.symm ha]
  · simp [eq_comm]

theorem pre2 (r : List UInt8) (a b : UInt8) (ha : a ≠ 0) (hb : b ≠ 0) :
    [a, b] <+: r ↔ r.getD 0 0 = a ∧ r.getD 1 0 = b := by
  rcases r with _ | ⟨x, _ | ⟨y, r⟩⟩
  · simp [Ne.symm ha]
  · simp [Ne.symm hb]
  · simp [eq_comm]

theorem pre3 (r : List UInt8) (a b c : UInt8) (ha : a ≠ 0) (hb : b ≠ 0) (hc : c ≠ 0) :
    [a, b, c] <+: r ↔ r.getD 0 0 = a ∧ r.getD 1 0 = b ∧ r.getD 2 0 = c := by
  rcases r with _ | ⟨x, _ | ⟨y, _ | ⟨z, r⟩⟩⟩
  · simp [Ne.symm ha]
  · simp [Ne.symm hb]
  · simp [Ne.symm hc]
  · simp [eq_comm]

theorem pre4 (r : List UInt8) (a b c d : UInt8) (ha : a ≠ 0) (hb : b ≠ 0) (hc : c ≠ 0) (hd : d ≠ 0) :
    [a, b, c, d] <+: r ↔ r.getD 0 0 = a ∧ r.getD 1 0 = b ∧ r.getD 2 0 = c ∧ r.getD 3 0 = d := by
  rcases r with _ | ⟨x, _ | ⟨y, _ | ⟨z, _ | ⟨w, r⟩⟩⟩⟩
  · simp [Ne.symm ha]
  · simp [Ne.symm hb]
  · simp [Ne.symm hc]
  · simp [Ne.symm hd]
  · simp [eq_comm]

/-- Which operators start with the four bytes. -/
def matches4 (c0 c1 c2 c3 : UInt8) (o : List UInt8) : Bool :=
  o == [c0] || o == [c0, c1] || o == [c0, c1, c2] || o == [c0, c1, c2, c3]

theorem op_shape : ∀ o ∈ translations, o.1 ≠ [] ∧ o.1.length ≤ 4 ∧ (0 : UInt8) ∉ o.1 ∧
    (∀ b ∈ o.1[1]?, b = 61 ∨ o.1[0]? = some b) ∧ (∀ b ∈ o.1[2]?, b = 61 ∨ b = 62) ∧ (∀ b ∈ o.1[3]?, b = 61) := by decide

theorem prefix_iff (r : List UInt8) (o : List UInt8 × Nat) (ho : o ∈ translations) :
    o.1 <+: r ↔ matches4 (r.getD 0 0) (r.getD 1 0) (r.getD 2 0) (r.getD 3 0) o.1 = true := by
  obtain ⟨h3, h2, h1, _⟩ := op_shape o ho
  obtain ⟨s, t⟩ := o
  simp only at h1 h2 h3 ⊢
  simp only [matches4, Bool.or_eq_true, beq_iff_eq]
  have fwd : ∀ c0 c1 c2 c3 : UInt8, (s = [c0] ∨ s = [c0, c1]) ∨ s = [c0, c1, c2] ∨ s = [c0, c1, c2, c3] ↔
      ((s = [c0] ∨ s = [c0, c1]) ∨ s = [c0, c1, c2]) ∨ s = [c0, c1, c2, c3] := fun _ _ _ _ => or_assoc.symm
  rw [← fwd]
  rcases s with _ | ⟨a, _ | ⟨b, _ | ⟨c, _ | ⟨d, _ | ⟨e, s⟩⟩⟩⟩⟩
  · exact absurd rfl h3
  · simp only [List.mem_cons, List.not_mem_nil, or_false] at h1
    rw [pre1 r a (Ne.symm h1)]
    constructor
    · intro h; rw [h]; simp
    · intro h; simp only [List.cons.injEq, and_true, reduceCtorEq, and_false, or_false] at h; exact h.symm
  · simp only [List.mem_cons, List.not_mem_nil, or_false, not_or] at h1
    rw [pre2 r a b (Ne.symm h1.1) (Ne.symm h1.2)]
    constructor
    · intro h; rw [h.1, h.2]; simp
    · intro h
      simp only [List.cons.injEq, and_true, reduceCtorEq, and_false, or_false, false_or] at h
      exact ⟨h.1.symm, h.2.symm⟩
  · simp only [List.mem_cons, List.not_mem_nil, or_false, not_or] at h1
    rw [pre3 r a b c (Ne.symm h1.1) (Ne.symm h1.2.1) (Ne.symm h1.2.2)]
    constructor
    · intro h; rw [h.1, h.2.1, h.2.2]; simp
    · intro h
      simp only [List.cons.injEq, and_true, reduceCtorEq, and_false, or_false, false_or] at h
      exact ⟨h.1.symm, h.2.1.symm, h.2.2.symm⟩
  · simp only [List.mem_cons, List.not_mem_nil, or_false, not_or] at h1
    rw [pre4 r a b c d (Ne.symm h1.1) (Ne.symm h1.2.1) (Ne.symm h1.2.2.1) (Ne.symm h1.2.2.2)]
    constructor
    · intro h; rw [h.1, h.2.1, h.2.2.1, h.2.2.2]; simp
    · intro h
      simp only [List.cons.injEq, and_true, reduceCtorEq, and_false, false_or] at h
      exact ⟨h.1.symm, h.2.1.symm, h.2.2.1.symm, h.2.2.2.symm⟩
  · simp only [List.length_cons] at h2; omega

/-- What longest match means for four bytes; decidable. -/
def best4 (c0 c1 c2 c3 : UInt8) : Bool :=
  let r := opF c0 c1 c2 c3
  let tok := ptranslate r.1
  let len := 1 + r.2
  translations.any (fun o => matches4 c0 c1 c2 c3 o.1 && o.2 == tok && o.1.length == len) &&
  translations.all (fun o => !matches4 c0 c1 c2 c3 o.1 || o.1.length ≤ len)

/-- The characters that begin an operator of more than one character, or one made of two of them. -/
def opChars : List UInt8 := [38, 124, 60, 62, 45, 43, 94, 126, 37, 47, 42, 61, 33]

/-- Second, third and fourth characters that matter in no operator are as good as 0. -/
def k1 (c0 c : UInt8) : UInt8 := if c = 61 ∨ c = c0 then c else 0
def k2 (c : UInt8) : UInt8 := if c = 61 ∨ c = 62 then c else 0
def k3 (c : UInt8) : UInt8 := if c = 61 then c else 0

theorem opF_canon (c0 c1 c2 c3 : UInt8) (h : c0 ∈ opChars) : opF c0 (k1 c0 c1) (k2 c2) (k3 c3) = opF c0 c1 c2 c3 := by
  have e1 : k1 c0 c1 = c1 ∨ (k1 c0 c1 = 0 ∧ c1 ≠ 61 ∧ c1 ≠ c0) := by
    by_cases h1 : c1 = 61 ∨ c1 = c0
    · exact .inl (if_pos h1)
    · exact .inr ⟨if_neg h1, fun e => h1 (.inl e), fun e => h1 (.inr e)⟩
  have e2 : k2 c2 = c2 ∨ (k2 c2 = 0 ∧ c2 ≠ 61 ∧ c2 ≠ 62) := by
    by_cases h1 : c2 = 61 ∨ c2 = 62
    · exact .inl (if_pos h1)
    · exact .inr ⟨if_neg h1, fun e => h1 (.inl e), fun e => h1 (.inr e)⟩
  have e3 : k3 c3 = c3 ∨ (k3 c3 = 0 ∧ c3 ≠ 61) := by
    by_cases h1 : c3 = 61
    · exact .inl (if_pos h1)
    · exact .inr ⟨if_neg h1, h1⟩
  generalize k1 c0 c1 = d1 at *
  generalize k2 c2 = d2 at *
  generalize k3 c3 = d3 at *
  simp only [opChars, List.mem_cons, List.not_mem_nil, or_false] at h
  rcases e1 with rfl | ⟨rfl, e1, e1'⟩ <;> rcases e2 with rfl | ⟨rfl, e2, e2'⟩ <;> rcases e3 with rfl | ⟨rfl, e3⟩ <;>
  rcases h with rfl | rfl | rfl | rfl | rfl | rfl | rfl | rfl | rfl | rfl | rfl | rfl | rfl <;>
  simp_all [opF, firstTok]

theorem best4_table : ∀ c0 ∈ opChars, ∀ c1 ∈ [0, 61, c0], ∀ c2 ∈ [(0 : UInt8), 61, 62], ∀ c3 ∈ [(0 : UInt8), 61],
    ¬ (c0 = 126 ∧ c1 = 61) → best4 c0 c1 c2 c3 = true := by decide +kernel

theorem matches_canon (c0 c1 c2 c3 : UInt8) (o : List UInt8 × Nat) (ho : o ∈ translations) :
    matches4 c0 (k1 c0 c1) (k2 c2) (k3 c3) o.1 = matches4 c0 c1 c2 c3 o.1 := by
  obtain ⟨h3, h2, h1, hb, hc, hd⟩ := op_shape o ho
  obtain ⟨s, t⟩ := o
  simp only at *
  have i1 : ∀ b, b ≠ 0 → (b = 61 ∨ b = c0) → (b = k1 c0 c1 ↔ b = c1) := by
    intro b h0 h
    unfold k1
    split
    · rfl
    · rename_i hn
      constructor
      · intro e; exact absurd e h0
      · intro e; subst e; exact absurd h hn
  have i2 : ∀ b, b ≠ 0 → (b = 61 ∨ b = 62) → (b = k2 c2 ↔ b = c2) := by
    intro b h0 h
    unfold k2
    split
    · rfl
    · rename_i hn
      constructor
      · intro e; exact absurd e h0
      · intro e; subst e; exact absurd h hn
  have i3 : ∀ b, b ≠ 0 → b = 61 → (b = k3 c3 ↔ b = c3) := by
    intro b h0 h
    unfold k3
    split
    · rfl
    · rename_i hn
      constructor
      · intro e; exact absurd e h0
      · intro e; subst e; exact absurd h hn
  rw [Bool.eq_iff_iff]
  simp only [matches4, Bool.or_eq_true, beq_iff_eq]
  rcases s with _ | ⟨a, _ | ⟨b, _ | ⟨c, _ | ⟨d, _ | ⟨e, s⟩⟩⟩⟩⟩
  · exact absurd rfl h3
  · simp only [List.cons.injEq, and_true, reduceCtorEq, and_false]
  · simp only [List.cons.injEq, and_true, reduceCtorEq, and_false, or_false, false_or]
    simp at hb h1
    by_cases ha : a = c0
    · subst ha
      simp only [true_and]
      exact i1 b (Ne.symm h1.2) (by rcases hb with h | h <;> simp [h])
    · simp [ha]
  · simp only [List.cons.injEq, and_true, reduceCtorEq, and_false, or_false, false_or]
    simp at hb hc h1
    by_cases ha : a = c0
    · subst ha
      simp only [true_and]
      rw [i1 b (Ne.symm h1.2.1) (by rcases hb with h | h <;> simp [h]), i2 c (Ne.symm h1.2.2) hc]
    · simp [ha]
  · simp only [List.cons.injEq, and_true, reduceCtorEq, and_false, false_or]
    simp at hb hc hd h1
    by_cases ha : a = c0
    · subst ha
      simp only [true_and]
      rw [i1 b (Ne.symm h1.2.1) (by rcases hb with h | h <;> simp [h]), i2 c (Ne.symm h1.2.2.1) hc,
        i3 d (Ne.symm h1.2.2.2) hd]
    · simp [ha]
  · simp only [List.length_cons] at h2; omega

theorem opF_longest (r : List UInt8) (h : r.getD 0 0 ∈ opChars) (hn : ¬ (r.getD 0 0 = 126 ∧ r.getD 1 0 = 61)) :
    LongestOp r (ptranslate (opF (r.getD 0 0) (r.getD 1 0) (r.getD 2 0) (r.getD 3 0)).1)
      (1 + (opF (r.getD 0 0) (r.getD 1 0) (r.getD 2 0) (r.getD 3 0)).2) := by
  rw [longest_iff]
  have hpre := prefix_iff r
  generalize r.getD 0 0 = c0 at *
  generalize r.getD 1 0 = c1 at *
  generalize r.getD 2 0 = c2 at *
  generalize r.getD 3 0 = c3 at *
  have hb : best4 c0 (k1 c0 c1) (k2 c2) (k3 c3) = true := by
    refine best4_table c0 h _ ?_ _ ?_ _ ?_ ?_
    · unfold k1; split
      · rename_i hx; rcases hx with hx | hx <;> simp [hx]
      · simp
    · unfold k2; split
      · rename_i hx; rcases hx with hx | hx <;> simp [hx]
      · simp
    · unfold k3; split
      · rename_i hx; simp [hx]
      · simp
    · rintro ⟨h0, h1⟩
      apply hn
      refine ⟨h0, ?_⟩
      unfold k1 at h1
      split at h1
      · exact h1
      · exact absurd h1 (by decide)
  unfold best4 at hb
  rw [opF_canon c0 c1 c2 c3 h] at hb
  simp only [Bool.and_eq_true, List.any_eq_true, List.all_eq_true, beq_iff_eq, Bool.or_eq_true, Bool.not_eq_true',
    decide_eq_true_eq] at hb
  obtain ⟨⟨o, ho, ⟨hm, ht⟩, hl⟩, hall⟩ := hb
  refine ⟨⟨o, ho, ?_, ht, hl⟩, ?_⟩
  · rw [hpre o ho, ← matches_canon c0 c1 c2 c3 o ho]; exact hm
  · intro o' ho' hp
    rw [hpre o' ho', ← matches_canon c0 c1 c2 c3 o' ho'] at hp
    rcases hall o' ho' with hx | hx
    · rw [hp] at hx; cases hx
    · exact hx

end Mjs.Tok
