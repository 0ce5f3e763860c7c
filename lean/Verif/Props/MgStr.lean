import Verif.Model.MgStr
import Verif.Lemmas.StrApi

/-!
# C56: hex text, C57: counted strings

The order of byte strings is Lean's lexicographic order `<` of lists of bytes.
-/

namespace Mjs.Props
open Mjs Mjs.MgStr Mjs.Spec.Slice

/-! ### C56 -/

theorem toHex_length (bs : List UInt8) : (toHex bs).length = 2 * bs.length + 1 := by
  induction bs with
  | nil => rfl
  | cons b bs ih => simp only [toHex, List.length_cons, ih]; omega

/-- The digits of one byte (a finite table, all of it). -/
theorem hex_byte : ∀ b : Fin 256, let d1 := hexDigits[((UInt8.ofNat b) >>> 4).toNat]!
    let d2 := hexDigits[((UInt8.ofNat b) &&& 0x0f).toNat]!
    UInt8.ofNat ((fourbit d1 <<< 4) + fourbit d2) = UInt8.ofNat b ∧
      ((48 ≤ d1 ∧ d1 ≤ 57) ∨ (97 ≤ d1 ∧ d1 ≤ 102)) ∧ ((48 ≤ d2 ∧ d2 ≤ 57) ∨ (97 ≤ d2 ∧ d2 ≤ 102)) := by
  decide +kernel

theorem hex_byte' (b : UInt8) : let d1 := hexDigits[(b >>> 4).toNat]!
    let d2 := hexDigits[(b &&& 0x0f).toNat]!
    UInt8.ofNat ((fourbit d1 <<< 4) + fourbit d2) = b ∧
      ((48 ≤ d1 ∧ d1 ≤ 57) ∨ (97 ≤ d1 ∧ d1 ≤ 102)) ∧ ((48 ≤ d2 ∧ d2 ≤ 57) ∨ (97 ≤ d2 ∧ d2 ≤ 102)) := by
  have := hex_byte ⟨b.toNat, b.toNat_lt⟩
  simpa only [UInt8.ofNat_toNat] using this

theorem fromHex_toHex (bs pre : List UInt8) :
    fromHex (pre ++ toHex bs) pre.length (pre.length + 2 * bs.length) = some (bs ++ [0]) := by
  induction bs generalizing pre with
  | nil => rw [fromHex, if_neg (by simp)]; rfl
  | cons b bs ih =>
    have hb := (hex_byte' b).1
    rw [fromHex, if_pos (by simp)]
    have e1 : (pre ++ toHex (b :: bs))[pre.length]? = some (hexDigits[(b >>> 4).toNat]!) := by
      rw [List.getElem?_append_right (Nat.le_refl _), Nat.sub_self]; rfl
    have e2 : (pre ++ toHex (b :: bs))[pre.length + 1]? = some (hexDigits[(b &&& 0x0f).toNat]!) := by
      rw [List.getElem?_append_right (by omega), show pre.length + 1 - pre.length = 1 by omega]; rfl
    rw [e1, Option.bind_some, e2, Option.bind_some]
    have := ih (pre ++ [hexDigits[(b >>> 4).toNat]!, hexDigits[(b &&& 0x0f).toNat]!])
    simp only [List.append_assoc, List.length_append, List.length_cons, List.length_nil, List.cons_append,
      List.nil_append] at this
    rw [toHex, show pre.length + 2 * (b :: bs).length = pre.length + (0 + 1 + 1) + 2 * bs.length by simp; omega,
      show pre.length + 2 = pre.length + (0 + 1 + 1) by omega, this, Option.map_some, hb]
    rfl

/-- **C56.** The hex text of any bytes is two lower case hex digits per byte and a NUL; converting the text back gives the
bytes (and a NUL). -/
theorem C56_hex_roundtrip (bs : List UInt8) :
    ∃ text, toHex bs = text ++ [0] ∧ text.length = 2 * bs.length ∧
      (∀ c ∈ text, (48 ≤ c ∧ c ≤ 57) ∨ (97 ≤ c ∧ c ≤ 102)) ∧
      fromHex (toHex bs) 0 text.length = some (bs ++ [0]) := by
  have hrt := fromHex_toHex bs []
  simp only [List.nil_append, List.length_nil, Nat.zero_add] at hrt
  have : ∃ text, toHex bs = text ++ [0] ∧ (∀ c ∈ text, (48 ≤ c ∧ c ≤ 57) ∨ (97 ≤ c ∧ c ≤ 102)) := by
    clear hrt
    induction bs with
    | nil => exact ⟨[], rfl, by simp⟩
    | cons b bs ih =>
      obtain ⟨t, h1, h2⟩ := ih
      refine ⟨_ :: _ :: t, by rw [toHex, h1]; rfl, ?_⟩
      intro c hc
      rcases List.mem_cons.1 hc with rfl | hc
      · exact (hex_byte' b).2.1
      · rcases List.mem_cons.1 hc with rfl | hc
        · exact (hex_byte' b).2.2
        · exact h2 c hc
  obtain ⟨text, h1, h2⟩ := this
  have hl : text.length = 2 * bs.length := by
    have := toHex_length bs
    rw [h1, List.length_append] at this
    simpa using this
  refine ⟨text, h1, hl, h2, ?_⟩
  rw [hl]; exact hrt

example : toHex [0xAB, 0x07] = [97, 98, 48, 55, 0] := by decide

/-! ### C57 -/

theorem schar_eq (b : UInt8) : schar b = if b.toNat < 128 then (b.toNat : Int) else b.toNat - 256 := by
  unfold schar
  rw [BitVec.toInt_eq_toNat_cond]
  simp only [UInt8.toNat_toBitVec]
  split <;> split <;> omega

theorem schar_inj {a b : UInt8} (h : schar a = schar b) : a = b := by
  rw [schar_eq, schar_eq] at h
  apply UInt8.toNat.inj
  have := a.toNat_lt; have := b.toNat_lt
  split at h <;> split at h <;> omega

/-- **C57, equality.** The comparison returns 0 exactly for equal strings. -/
theorem C57_zero_iff_equal (a b : List UInt8) : strcmp a b = 0 ↔ a = b := by
  induction a generalizing b with
  | nil => cases b <;> simp [strcmp]
  | cons x xs ih =>
    cases b with
    | nil => simp [strcmp]
    | cons y ys =>
      unfold strcmp
      by_cases h1 : schar x < schar y
      · rw [if_pos h1]
        have : x ≠ y := by rintro rfl; omega
        simp [this]
      · by_cases h2 : schar x > schar y
        · rw [if_neg h1, if_pos h2]
          have : x ≠ y := by rintro rfl; omega
          simp [this]
        · rw [if_neg h1, if_neg h2, ih]
          have : x = y := schar_inj (by omega)
          simp [this]

/-- **C57, antisymmetry.** Swapping the arguments negates the result. -/
theorem C57_antisymmetric (a b : List UInt8) : strcmp b a = - strcmp a b := by
  induction a generalizing b with
  | nil => cases b <;> simp [strcmp]
  | cons x xs ih =>
    cases b with
    | nil => simp [strcmp]
    | cons y ys =>
      unfold strcmp
      by_cases h1 : schar x < schar y
      · rw [if_pos h1, if_neg (by omega), if_pos h1]; rfl
      · by_cases h2 : schar x > schar y
        · simp only [if_neg h1, if_pos h2]
        · rw [if_neg h1, if_neg h2, if_neg (by omega), if_neg (by omega), ih]

theorem strcmp_range (a b : List UInt8) : strcmp a b = -1 ∨ strcmp a b = 0 ∨ strcmp a b = 1 := by
  induction a generalizing b with
  | nil => cases b <;> simp [strcmp]
  | cons x xs ih =>
    cases b with
    | nil => simp [strcmp]
    | cons y ys =>
      unfold strcmp
      split
      · exact .inl rfl
      · split
        · exact .inr (.inr rfl)
        · exact ih ys

/-- **C57, transitivity.** -/
theorem C57_transitive (a b c : List UInt8) (h1 : strcmp a b ≤ 0) (h2 : strcmp b c ≤ 0) : strcmp a c ≤ 0 := by
  induction a generalizing b c with
  | nil => cases c <;> simp [strcmp]
  | cons x xs ih =>
    cases b with
    | nil => simp [strcmp] at h1
    | cons y ys =>
      cases c with
      | nil => simp [strcmp] at h2
      | cons z zs =>
        unfold strcmp at h1 h2 ⊢
        by_cases a1 : schar x < schar y
        · by_cases a2 : schar y < schar z
          · rw [if_pos (by omega)]; omega
          · rw [if_neg a2] at h2
            split at h2
            · omega
            · rw [if_pos (by omega)]; omega
        · rw [if_neg a1] at h1
          split at h1
          · omega
          · by_cases a2 : schar y < schar z
            · rw [if_pos (by omega)]; omega
            · rw [if_neg a2] at h2
              split at h2
              · omega
              · rw [if_neg (by omega), if_neg (by omega)]
                exact ih ys zs h1 h2

/-- **C57, order (partial).** For ASCII strings the comparison is the lexicographic byte order.  Missing: strings with
bytes of 128 and more, see `C57_high_bytes_sort_low`. -/
theorem C57_lexicographic_partial (a b : List UInt8) (ha : ∀ c ∈ a, c < 128) (hb : ∀ c ∈ b, c < 128) :
    strcmp a b < 0 ↔ a < b := by
  induction a generalizing b with
  | nil => cases b <;> simp [strcmp]
  | cons x xs ih =>
    cases b with
    | nil => simp [strcmp]
    | cons y ys =>
      have hx : x.toNat < 128 := UInt8.lt_iff_toNat_lt.1 (ha x (by simp))
      have hy : y.toNat < 128 := UInt8.lt_iff_toNat_lt.1 (hb y (by simp))
      have ex : schar x = x.toNat := by rw [schar_eq, if_pos hx]
      have ey : schar y = y.toNat := by rw [schar_eq, if_pos hy]
      rw [List.cons_lt_cons_iff, UInt8.lt_iff_toNat_lt]
      unfold strcmp
      by_cases h1 : schar x < schar y
      · rw [if_pos h1]
        exact ⟨fun _ => .inl (by omega), fun _ => by omega⟩
      · by_cases h2 : schar x > schar y
        · rw [if_neg h1, if_pos h2]
          refine ⟨fun h => absurd h (by omega), ?_⟩
          rintro (h | ⟨h, _⟩)
          · omega
          · subst h; omega
        · rw [if_neg h1, if_neg h2, ih ys (fun c hc => ha c (by simp [hc])) (fun c hc => hb c (by simp [hc]))]
          have hxy : x = y := schar_inj (by omega)
          subst hxy
          constructor
          · intro h; exact .inr ⟨rfl, h⟩
          · rintro (h | ⟨_, h⟩)
            · omega
            · exact h

/-- **C57, violation.** A string that starts with a byte of 128 or more sorts before every ASCII string. -/
theorem C57_high_bytes_sort_low (x y : UInt8) (xs ys : List UInt8) (hx : 128 ≤ x) (hy : y < 128) :
    strcmp (x :: xs) (y :: ys) < 0 ∧ ¬ (x :: xs) < (y :: ys) := by
  have h1 : 128 ≤ x.toNat := UInt8.le_iff_toNat_le.1 hx
  have h2 : y.toNat < 128 := UInt8.lt_iff_toNat_lt.1 hy
  have := x.toNat_lt
  constructor
  · unfold strcmp
    rw [if_pos (by rw [schar_eq, schar_eq, if_neg (by omega), if_pos h2]; omega)]
    omega
  · rw [List.cons_lt_cons_iff, UInt8.lt_iff_toNat_lt]
    rintro (h | ⟨h, _⟩)
    · omega
    · subst h; omega

example : strcmp [0xC3] [0x41] < 0 ∧ strcmp [97, 98] [97, 98, 99] < 0 ∧ strcmp [98] [97, 98, 99] > 0 := by decide

/-- **C57, bounded comparison.** Comparing at most `n` bytes is 0 exactly if the first `n` bytes agree. -/
theorem C57_strncmp (a b : List UInt8) (n : Nat) : strncmp a b n = 0 ↔ a.take n = b.take n := by
  have : ∀ l : List UInt8, (if l.length > n then l.take n else l) = l.take n := by
    intro l; split
    · rfl
    · rw [List.take_of_length_le (by omega)]
  unfold strncmp
  simp only [this]
  exact C57_zero_iff_equal _ _

/-- **C57, prefix test.** -/
theorem C57_starts_with (s pre : List UInt8) : startsWith s pre = true ↔ pre <+: s := by
  unfold startsWith
  split
  · rename_i h
    simp only [Bool.false_eq_true, false_iff]
    intro hp
    have := hp.length_le
    omega
  · rw [decide_eq_true_iff, C57_zero_iff_equal]
    constructor
    · intro h; rw [← h]; exact List.take_prefix _ _
    · intro h; exact (List.prefix_iff_eq_take.1 h).symm

/-- **C57, substring search.** The search returns the first position where the needle occurs, or nothing if there is
none. -/
theorem C57_strstr (h n : List UInt8) :
    (∀ i, Str.strstr h n = some i ↔ OccursAt h n i ∧ ∀ j, j < i → ¬ OccursAt h n j) ∧
    (Str.strstr h n = none ↔ ∀ i, ¬ OccursAt h n i) := Str.strstr_spec h n

theorem strchrFrom_spec (c : Int) (s : List UInt8) (k : Nat) :
    (∀ i, strchrFrom k c s = some i → ∃ b, k ≤ i ∧ s[i - k]? = some b ∧ schar b = c ∧
      ∀ j, j < i - k → ∀ b', s[j]? = some b' → schar b' ≠ c) ∧
    (strchrFrom k c s = none → ∀ b ∈ s, schar b ≠ c) := by
  induction s generalizing k with
  | nil => simp [strchrFrom]
  | cons x xs ih =>
    unfold strchrFrom
    by_cases h : schar x = c
    · rw [if_pos h]
      refine ⟨?_, fun h => absurd h (by simp)⟩
      rintro i hi
      cases hi
      exact ⟨x, Nat.le_refl _, by simp, h, fun j hj => absurd hj (by omega)⟩
    · rw [if_neg h]
      obtain ⟨i1, i2⟩ := ih (k + 1)
      constructor
      · intro i hi
        obtain ⟨b, h1, h2, h3, h4⟩ := i1 i hi
        refine ⟨b, by omega, ?_, h3, ?_⟩
        · rw [show i - k = (i - (k + 1)) + 1 by omega]; exact h2
        · intro j hj b' hb'
          cases j with
          | zero => simp at hb'; subst hb'; exact h
          | succ j => exact h4 j (by omega) b' (by simpa using hb')
      · intro hn b hb
        rcases List.mem_cons.1 hb with rfl | hb
        · exact h
        · exact i2 hn b hb

/-- **C57, character search.** For an ASCII character the search returns its first position, or nothing if it does not
occur. -/
theorem C57_strchr (s : List UInt8) (c : UInt8) (hc : c < 128) :
    (∀ i, strchr s c.toNat = some i → s[i]? = some c ∧ ∀ j, j < i → s[j]? ≠ some c) ∧
    (strchr s c.toNat = none → c ∉ s) := by
  have hc' : c.toNat < 128 := UInt8.lt_iff_toNat_lt.1 hc
  have key : ∀ b : UInt8, schar b = c.toNat ↔ b = c := by
    intro b
    constructor
    · intro h
      refine schar_inj ?_
      rw [h, schar_eq, if_pos hc']
    · rintro rfl; rw [schar_eq, if_pos hc']
  obtain ⟨h1, h2⟩ := strchrFrom_spec c.toNat s 0
  constructor
  · intro i hi
    obtain ⟨b, _, e, hb, hmin⟩ := h1 i hi
    rw [key] at hb
    subst hb
    refine ⟨by simpa using e, fun j hj hs => hmin j (by omega) _ hs ((key _).2 rfl)⟩
  · intro hn hmem
    exact h2 hn c hmem ((key c).2 rfl)

theorem stripFront_spec (s : List UInt8) : ∃ l, s = l ++ stripFront s ∧ (∀ b ∈ l, isspace b = true) ∧
    ∀ b, (stripFront s).head? = some b → isspace b = false := by
  induction s with
  | nil => exact ⟨[], rfl, by simp, by simp [stripFront]⟩
  | cons x xs ih =>
    unfold stripFront
    by_cases h : isspace x = true
    · rw [if_pos h]
      obtain ⟨l, h1, h2, h3⟩ := ih
      refine ⟨x :: l, by rw [List.cons_append, ← h1], ?_, h3⟩
      intro b hb
      rcases List.mem_cons.1 hb with rfl | hb
      · exact h
      · exact h2 b hb
    · rw [if_neg h]
      exact ⟨[], rfl, by simp, by intro b hb; simp at hb; subst hb; simpa using h⟩

theorem stripBack_spec (s : List UInt8) : ∃ r, s = stripBack s ++ r ∧ (∀ b ∈ r, isspace b = true) ∧
    ∀ b, (stripBack s).getLast? = some b → isspace b = false := by
  induction hn : s.length using Nat.strongRecOn generalizing s with
  | ind n ih =>
    rw [stripBack]
    split
    · rename_i h
      exact ⟨[], by simp, by simp, by intro b hb; rw [h] at hb; cases hb⟩
    · rename_i b h
      have hne : s ≠ [] := by rintro rfl; simp at h
      have hpos := List.length_pos_iff.2 hne
      split
      · rename_i hb
        obtain ⟨r, h1, h2, h3⟩ := ih (s.length - 1) (by omega) s.dropLast (by simp)
        refine ⟨r ++ [b], ?_, ?_, h3⟩
        · rw [← List.append_assoc, ← h1]
          have hl := List.dropLast_concat_getLast hne
          rw [List.getLast?_eq_some_getLast hne, Option.some.injEq] at h
          rw [← h]; exact hl.symm
        · intro c hc
          rcases List.mem_append.1 hc with hc | hc
          · exact h2 c hc
          · simp at hc; subst hc; exact hb
      · rename_i hb
        exact ⟨[], by simp, by simp, by intro c hc; rw [h] at hc; cases hc; simpa using hb⟩

/-- **C57, trimming.** Trimming removes white space only, at both ends, and all of it. -/
theorem C57_strstrip (s : List UInt8) :
    ∃ l r, s = l ++ strstrip s ++ r ∧ (∀ b ∈ l ++ r, b = 32 ∨ (9 ≤ b ∧ b ≤ 13)) ∧
      (∀ b, (strstrip s).head? = some b ∨ (strstrip s).getLast? = some b → ¬ (b = 32 ∨ (9 ≤ b ∧ b ≤ 13))) := by
  have key : ∀ b, isspace b = true ↔ (b = 32 ∨ (9 ≤ b ∧ b ≤ 13)) := by intro b; simp [isspace]
  obtain ⟨l, a1, a2, a3⟩ := stripFront_spec s
  obtain ⟨r, b1, b2, b3⟩ := stripBack_spec (stripFront s)
  refine ⟨l, r, ?_, ?_, ?_⟩
  · rw [strstrip, List.append_assoc, ← b1]; exact a1
  · intro b hb
    rw [← key]
    rcases List.mem_append.1 hb with h | h
    · exact a2 b h
    · exact b2 b h
  · intro b hb
    rw [← key]
    rcases hb with hb | hb
    · have : (stripFront s).head? = some b := by
        rw [b1]
        unfold strstrip at hb
        cases hs : stripBack (stripFront s) with
        | nil => rw [hs] at hb; simp at hb
        | cons y ys => rw [hs] at hb; simpa using hb
      rw [a3 b this]; decide
    · rw [b3 b hb]; decide

example : strstrip [32, 9, 97, 32, 98, 10] = [97, 32, 98] := by
  have h1 : stripFront [32, 9, 97, 32, 98, 10] = [97, 32, 98, 10] := by decide
  have h2 : stripBack [97, 32, 98] = [97, 32, 98] := by rw [stripBack]; rfl
  rw [strstrip, h1, stripBack]
  exact h2

end Mjs.Props
