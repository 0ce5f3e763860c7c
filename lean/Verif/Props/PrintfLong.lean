import Verif.Props.Printf

/-!
# C55: length modifiers
-/

namespace Mjs.Props
open Mjs Mjs.Printf Mjs.Spec

/-- **C55, long numbers.** `%lld` and `%zd` of every 64 bit integer but the least, and `%lu`, `%zu` and `%lx` of every one that is below 2^63, print the numeral of
the argument. -/
theorem C55_long_numbers (n : Int) :
    (-2 ^ 63 < n → n < 2 ^ 63 → (∃ t, Prints (ascii "%lld") [.int n] t ∧ Spec.Numeral.Int 10 n t) ∧ ∃ t, Prints (ascii "%zd") [.int n] t ∧ Spec.Numeral.Int 10 n t) ∧
    (0 ≤ n → n < 2 ^ 63 → (∃ t, Prints (ascii "%lu") [.int n] t ∧ Spec.Numeral.Int 10 n t) ∧ (∃ t, Prints (ascii "%zu") [.int n] t ∧ Spec.Numeral.Int 10 n t) ∧
      ∃ t, Prints (ascii "%lx") [.int n] t ∧ Spec.Numeral.Int 16 n t) := by
  have key : -2 ^ 63 < n → n < 2 ^ 63 → (BitVec.ofInt 64 n).toInt = n := fun h1 h2 => by
    rw [BitVec.toInt_ofInt, Int.bmod]; omega
  refine ⟨fun h1 h2 => ⟨?_, ?_⟩, fun h1 h2 => ⟨?_, ?_, ?_⟩⟩
  · refine text_num [108, 108, 100] ⟨false, 0, 0, 113, 100⟩ n n 10 (by decide) (.inl rfl) rfl (by decide) (by decide) rfl ?_ h1 h2
    simp [fetched, key h1 h2]
  · refine text_num [122, 100] ⟨false, 0, 0, 122, 100⟩ n n 10 (by decide) (.inl rfl) rfl (by decide) (by decide) rfl ?_ h1 h2
    simp [fetched, key h1 h2]
  · refine text_num [108, 117] ⟨false, 0, 0, 108, 117⟩ n n 10 (by decide) (.inl rfl) rfl (by decide) (by decide) rfl ?_ (by omega) h2
    simp [fetched, key (by omega) h2]
  · refine text_num [122, 117] ⟨false, 0, 0, 122, 117⟩ n n 10 (by decide) (.inl rfl) rfl (by decide) (by decide) rfl ?_ (by omega) h2
    simp [fetched, key (by omega) h2]
  · refine text_num [108, 120] ⟨false, 0, 0, 108, 120⟩ n n 16 (by decide) (.inr rfl) rfl (by decide) (by decide) rfl ?_ (by omega) h2
    simp [fetched, key (by omega) h2]

/-- **C55 is violated** for other modifiers: the program is ended by `%llu`, `%llx`, `%hd`, `%hhd`, `%hu` and `%jd`, whatever the argument. -/
theorem C55_violation_modifiers (n : Int) (mem : List UInt8) (W : Nat) (hW : W ≤ mem.length) :
    vsnprintf mem W (ascii "%llu") [.int n] = none ∧ vsnprintf mem W (ascii "%llx") [.int n] = none ∧ vsnprintf mem W (ascii "%hd") [.int n] = none ∧
    vsnprintf mem W (ascii "%hhd") [.int n] = none ∧ vsnprintf mem W (ascii "%hu") [.int n] = none ∧ vsnprintf mem W (ascii "%jd") [.int n] = none := by
  have key : ∀ (spec : List UInt8) (c : Conv), parseConv spec [.int n] = some (c, [], [.int n]) → c.ch ≠ 99 → c.ch ≠ 112 → fetched c n = none →
      vsnprintf mem W (37 :: spec) [.int n] = none := fun spec c hp h1 h2 hf => by
    rw [vsnprintf_text mem W hW, text_conv, hp]
    simp only [Option.bind_some, convText]
    rw [if_neg h1, if_neg h2, hf]
    rfl
  refine ⟨key [108, 108, 117] ⟨false, 0, 0, 113, 117⟩ rfl (by decide) (by decide) ?_, key [108, 108, 120] ⟨false, 0, 0, 113, 120⟩ rfl (by decide) (by decide) ?_,
    key [104, 100] ⟨false, 0, 0, 104, 100⟩ rfl (by decide) (by decide) ?_, key [104, 104, 100] ⟨false, 0, 0, 72, 100⟩ rfl (by decide) (by decide) ?_,
    key [104, 117] ⟨false, 0, 0, 104, 117⟩ rfl (by decide) (by decide) ?_, key [106, 100] ⟨false, 0, 0, 106, 100⟩ rfl (by decide) (by decide) ?_⟩ <;> simp [fetched]

example : (-2 ^ 63 < (-9223372036854775807 : Int)) ∧ (-9223372036854775807 : Int) < 2 ^ 63 := by decide

end Mjs.Props
