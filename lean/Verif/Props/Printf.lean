import Verif.Lemmas.Printf
import Verif.Spec.Text

/-!
# C55: formatted printing

`vsnprintf mem W fmt args` is the memory after printing into the first `W` bytes of `mem`, and the return value; it is
`none` if the code would abort, or access memory outside of `mem` or of a string argument.
-/

namespace Mjs.Props
open Mjs Mjs.Printf Mjs.Spec

/-- "The formatter prints `t`": into a buffer of any size `W`, at the beginning of any memory, it writes the first `W - 1`
bytes of `t` and a NUL, leaves all other bytes alone, and returns the length of `t`. -/
def Prints (fmt : List UInt8) (args : List Arg) (t : List UInt8) : Prop :=
  ∀ (mem : List UInt8) (W : Nat), W ≤ mem.length →
    vsnprintf mem W fmt args =
      some (if W = 0 then mem else t.take (W - 1) ++ [0] ++ mem.drop (min (t.length + 1) W), t.length)

/-- **C55.** For every format and argument list: either the call is an error for all buffers, or there is one text that
is printed to buffers of all sizes. -/
theorem C55_prints_one_text (fmt : List UInt8) (args : List Arg) :
    (∃ t, Prints fmt args t) ∨ (∀ mem W, W ≤ mem.length → vsnprintf mem W fmt args = none) := by
  cases h : text fmt args with
  | none => exact .inr fun mem W hW => by rw [vsnprintf_text mem W hW, h]; rfl
  | some t =>
    refine .inl ⟨t, fun mem W hW => ?_⟩
    rw [vsnprintf_text mem W hW, h]
    simp

/-- **C55, bounds.** Whatever is printed, bytes at index `W` and above keep their value, and a non-empty buffer holds a
NUL. -/
theorem C55_bounded (fmt : List UInt8) (args : List Arg) (mem mem' : List UInt8) (W n : Nat) (hW : W ≤ mem.length)
    (h : vsnprintf mem W fmt args = some (mem', n)) :
    mem'.length = mem.length ∧ mem'.drop W = mem.drop W ∧ (0 < W → ∃ i, i < W ∧ i ≤ n ∧ mem'[i]? = some 0) := by
  rcases C55_prints_one_text fmt args with ⟨t, ht⟩ | he
  · rw [ht mem W hW] at h
    cases h
    by_cases h0 : W = 0
    · subst h0; simp
    · simp only [h0, if_false]
      refine ⟨by simp; omega, ?_, fun _ => ⟨min t.length (W - 1), by omega, by omega, ?_⟩⟩
      · rw [List.drop_append, List.drop_of_length_le (by simp; omega), List.nil_append, List.drop_drop]
        congr 1
        simp; omega
      · rw [List.append_assoc, List.getElem?_append_right (by simp; omega)]
        have : min t.length (W - 1) - (t.take (W - 1)).length = 0 := by simp; omega
        rw [this]; rfl
  · rw [he mem W hW] at h; cases h

theorem value_inj {base : Nat} {t : List UInt8} {n m : Nat} (h1 : Spec.Numeral.Value base t n)
    (h2 : Spec.Numeral.Value base t m) : n = m := by
  induction h1 generalizing m with
  | nil =>
    generalize he : ([] : List UInt8) = t at h2
    cases h2 with
    | nil => rfl
    | snoc => simp at he
  | @snoc text n c d _ hd _ ih =>
    generalize he : text ++ [c] = t at h2
    cases h2 with
    | nil => simp at he
    | @snoc text' n' c' d' h' hd' _ =>
      have := List.append_inj' he rfl
      obtain ⟨e1, e2⟩ := this
      cases e2
      subst e1
      rw [hd] at hd'
      cases hd'
      rw [ih h']

theorem value_digit {base : Nat} {t : List UInt8} {n : Nat} (h : Spec.Numeral.Value base t n) : ∀ c ∈ t, c ≠ 45 := by
  induction h with
  | nil => simp
  | snoc _ hd _ ih =>
    intro c hc
    rcases List.mem_append.1 hc with hc | hc
    · exact ih c hc
    · simp only [List.mem_singleton] at hc
      subst hc
      rintro rfl
      have : Spec.Numeral.digit 45 = none := by decide
      rw [this] at hd
      cases hd

/-- **C55, reading back.** A numeral is the numeral of one integer only. -/
theorem C55_numeral_reads_back (base : Nat) (n m : Int) (t : List UInt8) (h1 : Spec.Numeral.Int base n t)
    (h2 : Spec.Numeral.Int base m t) : n = m := by
  unfold Spec.Numeral.Int at h1 h2
  split at h1 <;> split at h2
  · obtain ⟨t1, e1, a1, _⟩ := h1
    obtain ⟨t2, e2, a2, _⟩ := h2
    rw [e1] at e2
    cases e2
    have := value_inj a1 a2
    omega
  · obtain ⟨t1, e1, _⟩ := h1
    exact absurd rfl (value_digit h2.1 45 (by rw [e1]; simp))
  · obtain ⟨t1, e1, _⟩ := h2
    exact absurd rfl (value_digit h1.1 45 (by rw [e1]; simp))
  · have := value_inj h1.1 h2.1
    omega

theorem prints_of_text {fmt args t} (h : text fmt args = some t) : Prints fmt args t := by
  intro mem W hW
  rw [vsnprintf_text mem W hW, h]
  simp

theorem text_num (spec : List UInt8) (c : Conv) (n v : Int) (base : Nat)
    (hb : 2 ≤ base) (hbase : base = 10 ∨ base = 16) (hp : parseConv spec [.int n] = some (c, [], [.int n]))
    (hc1 : c.ch ≠ 99) (hc2 : c.ch ≠ 112) (hz : c.zero = false) (hf : fetched c n = some (v, base)) (h1 : -2 ^ 63 < v)
    (h2 : v < 2 ^ 63) : ∃ t, Prints (37 :: spec) [.int n] t ∧ Spec.Numeral.Int base v t := by
  obtain ⟨tmp, e, hn⟩ := itoaTmp_numeral v base hb (by omega) c.width h1 h2 hbase
  refine ⟨tmp.reverse, prints_of_text ?_, hn⟩
  rw [text_conv, hp]
  simp only [Option.bind_some, convText]
  rw [if_neg hc1, if_neg hc2, hf]
  simp only [Option.bind_some, hb, dif_pos, hz, e, Option.map_some, text]
  simp

/-- **C55, numbers.** `%d` of every `int`, `%u` and `%x` of every `unsigned`, `%ld` of every `long` but the least, print
the numeral of the argument. -/
theorem C55_numbers (n : Int) :
    (-2 ^ 31 ≤ n → n < 2 ^ 31 → ∃ t, Prints (ascii "%d") [.int n] t ∧ Spec.Numeral.Int 10 n t) ∧
    (0 ≤ n → n < 2 ^ 32 → (∃ t, Prints (ascii "%u") [.int n] t ∧ Spec.Numeral.Int 10 n t) ∧
      ∃ t, Prints (ascii "%x") [.int n] t ∧ Spec.Numeral.Int 16 n t) ∧
    (-2 ^ 63 < n → n < 2 ^ 63 → ∃ t, Prints (ascii "%ld") [.int n] t ∧ Spec.Numeral.Int 10 n t) := by
  refine ⟨fun h1 h2 => ?_, fun h1 h2 => ⟨?_, ?_⟩, fun h1 h2 => ?_⟩
  · refine text_num [100] ⟨false, 0, 0, 0, 100⟩ n n 10 (by decide) (.inl rfl) rfl (by decide) (by decide) rfl ?_ (by omega) (by omega)
    simp only [fetched, if_true]
    congr 2
    rw [BitVec.toInt_ofInt, Int.bmod]; omega
  · refine text_num [117] ⟨false, 0, 0, 0, 117⟩ n n 10 (by decide) (.inl rfl) rfl (by decide) (by decide) rfl ?_ (by omega) (by omega)
    simp only [fetched]
    rw [if_neg (by decide), if_pos (by decide), if_pos trivial, if_neg (by decide)]
    congr 2
    rw [BitVec.toNat_ofInt]; omega
  · refine text_num [120] ⟨false, 0, 0, 0, 120⟩ n n 16 (by decide) (.inr rfl) rfl (by decide) (by decide) rfl ?_ (by omega) (by omega)
    simp only [fetched]
    rw [if_neg (by decide), if_pos (by decide), if_pos trivial, if_pos (by decide)]
    congr 2
    rw [BitVec.toNat_ofInt]; omega
  · refine text_num [108, 100] ⟨false, 0, 0, 108, 100⟩ n n 10 (by decide) (.inl rfl) rfl (by decide) (by decide) rfl ?_ h1 h2
    simp only [fetched, if_true]
    rw [if_neg (by decide), if_pos (.inl trivial)]
    congr 2
    rw [BitVec.toInt_ofInt, Int.bmod]; omega

/-- **C55, violation.** `%lu` of an `unsigned long` above 2^63 prints the numeral of a negative number. -/
theorem C55_large_unsigned_printed_negative (n : Int) (h1 : 2 ^ 63 < n) (h2 : n < 2 ^ 64) :
    ∃ t, Prints (ascii "%lu") [.int n] t ∧ Spec.Numeral.Int 10 (n - 2 ^ 64) t := by
  refine text_num [108, 117] ⟨false, 0, 0, 108, 117⟩ n (n - 2 ^ 64) 10 (by decide) (.inl rfl) rfl (by decide) (by decide) rfl ?_ (by omega) (by omega)
  simp only [fetched]
  rw [if_neg (by decide), if_pos (by decide), if_neg (by decide), if_pos (.inl trivial), if_neg (by decide)]
  congr 2
  rw [BitVec.toInt_ofInt, Int.bmod]; omega

/-- **C55, the formatter's scratch space.** Every 64-bit integer but the least one is printed without leaving the
40-byte scratch array, in base 8 or higher, with or without zero padding to any width. -/
theorem C55_scratch_fits (num : Int) (base : Nat) (hb : 2 ≤ base) (h8 : 8 ≤ base) (zero : Bool) (width : Int)
    (h1 : -2 ^ 63 < num) (h2 : num < 2 ^ 63) : ∃ tmp, itoaTmp num base hb zero width = some tmp ∧ tmp.length ≤ 40 := by
  have hlen : (digitsRev num.natAbs base hb).length ≤ 21 :=
    digitsRev_length _ _ hb 20 (Nat.lt_of_lt_of_le (show num.natAbs < 8 ^ 21 by omega) (Nat.pow_le_pow_left h8 21))
  simp only [itoaTmp, if_neg (show ¬ num = -2 ^ 63 by omega)]
  cases zero <;> simp only [if_true, if_false, Bool.false_eq_true] <;> split <;>
    (rw [if_pos (by (try simp only [List.length_append, List.length_replicate, List.length_cons, List.length_nil]); omega)]
     exact ⟨_, rfl, by (try simp only [List.length_append, List.length_replicate, List.length_cons, List.length_nil]); omega⟩)

example : ∃ tmp, itoaTmp (-5) 10 (by decide) true 1000 = some tmp ∧ tmp.length ≤ 40 :=
  C55_scratch_fits (-5) 10 (by decide) (by decide) true 1000 (by decide) (by decide)

theorem strChars_nul (pre bs rest : List UInt8) (h : ∀ c ∈ bs, c ≠ 0) :
    strChars (pre ++ bs ++ 0 :: rest) pre.length 0 = some bs := by
  induction bs generalizing pre with
  | nil =>
    rw [strChars, if_pos (by omega)]
    have : (pre ++ [] ++ 0 :: rest)[pre.length]? = some 0 := by simp
    split
    · rename_i h; rw [this] at h; cases h
    · rename_i c h; rw [this] at h; cases h; rfl
  | cons b bs ih =>
    have hb := h b (by simp)
    have := ih (pre ++ [b]) (fun c hc => h c (by simp [hc]))
    rw [strChars, if_pos (by omega)]
    have e : (pre ++ b :: bs ++ 0 :: rest)[pre.length]? = some b := by simp
    split
    · rename_i h; rw [e] at h; cases h
    · rename_i c h'
      rw [e] at h'
      cases h'
      rw [if_pos hb]
      simp only [List.length_append, List.length_singleton, List.append_assoc, List.nil_append, List.cons_append] at this ⊢
      rw [this]; rfl

/-- **C55, strings.** `%s` prints the bytes before the NUL. -/
theorem C55_string (bs rest : List UInt8) (h : ∀ c ∈ bs, c ≠ 0) :
    Prints (ascii "%s") [.str (some (bs ++ 0 :: rest))] bs := by
  refine prints_of_text (fmt := [37, 115]) ?_
  have hp : parseConv [115] [.str (some (bs ++ 0 :: rest))] =
      some (⟨false, 0, 0, 0, 115⟩, [], [.str (some (bs ++ 0 :: rest))]) := rfl
  have := strChars_nul [] bs rest h
  simp only [List.nil_append, List.length_nil] at this
  rw [text_conv, hp]
  simp only [Option.bind_some, convText, strText, this, if_true, text]
  simp

/-- Concretely: "%d!" with -12 into 4 of 6 bytes. -/
example : vsnprintf [9, 9, 9, 9, 9, 9] 4 (ascii "%d!") [.int (-12)] = some ([45, 49, 50, 0, 9, 9], 4) := by
  have e : text (ascii "%d!") [.int (-12)] = some [45, 49, 50, 33] := by
    rw [show ascii "%d!" = 37 :: [100, 33] from rfl, text_conv]
    have hp : parseConv [100, 33] [.int (-12)] = some (⟨false, 0, 0, 0, 100⟩, [33], [.int (-12)]) := rfl
    have ht : text [33] [] = some [33] := by rw [text_lit (by decide), text]; rfl
    have hd : itoaTmp (-12) 10 (by decide) false 0 = some [50, 49, 45] := by
      have : digitsRev 12 10 (by decide) = [50, 49] := by
        rw [digitsRev, dif_pos (by decide), digitsRev, dif_neg (by decide)]; rfl
      simp [itoaTmp, this]
    have hf : fetched ⟨false, 0, 0, 0, 100⟩ (-12) = some (-12, 10) := by decide
    simp only [hp, Option.bind_some, convText, hf, ht]
    rw [if_neg (by decide), if_neg (by decide), dif_pos (by decide), hd]
    rfl
  rw [vsnprintf_text _ _ (by decide), e]; rfl

end Mjs.Props
