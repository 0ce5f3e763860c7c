import Verif.Model.ReadFile

/-!
# C99: reading a file gives all of it or nothing, and leaves nothing open
-/

namespace Mjs.Props
open Mjs.ReadFile

/-- **C99, success.** If the file can be opened, has the size that `ftell` tells, and there is memory for one byte more, the block returned holds all its bytes and a NUL, and the file is closed. -/
theorem C99_read {a : Answers} (ho : a.opens = true) (hs : a.seeks = true) (ht : a.tell = a.bytes.length) (hl : a.bytes.length < 2 ^ 63) (hm : a.gives (a.bytes.length + 1) = true) :
    readFile a = some ⟨some (a.bytes ++ [0]), 0, 1⟩ := by
  have e1 : (a.tell % 2 ^ 64).toNat = a.bytes.length := by rw [ht]; omega
  have e2 : (a.bytes.length + 1) % 2 ^ 64 = a.bytes.length + 1 := by omega
  unfold readFile
  rw [ho, hs, e1]
  dsimp only
  rw [e2, hm, List.take_length]
  rw [if_neg (by simp), if_neg (by simp), if_pos rfl, if_neg (by omega), if_neg (by simp), if_neg (by omega)]

/-- **C99, a file that grows.** If it has become longer since its size was asked for, the block holds as many bytes as it had. -/
theorem C99_grown {a : Answers} {n : Nat} (ho : a.opens = true) (hs : a.seeks = true) (ht : a.tell = n) (hn : n < 2 ^ 63) (hl : n ≤ a.bytes.length) (hm : a.gives (n + 1) = true) :
    readFile a = some ⟨some (a.bytes.take n ++ [0]), 0, 1⟩ := by
  have e1 : (a.tell % 2 ^ 64).toNat = n := by rw [ht]; omega
  have e2 : (n + 1) % 2 ^ 64 = n + 1 := by omega
  have e3 : (a.bytes.take n).length = n := by rw [List.length_take]; omega
  unfold readFile
  rw [ho, hs, e1]
  dsimp only
  rw [e2, hm, e3]
  rw [if_neg (by simp), if_neg (by simp), if_pos rfl, if_neg (by omega), if_neg (by omega), if_neg (by omega)]

/-- **C99, failure.** If it cannot be opened, has no end that can be sought, or there is no memory, nothing is returned, and nothing is left open or allocated. -/
theorem C99_failure {a : Answers} (h : a.opens = false ∨ a.seeks = false ∨ ∀ n, a.gives n = false) : readFile a = some ⟨none, 0, 0⟩ := by
  unfold readFile
  rcases h with h | h | h
  · simp [h]
  · simp [h]
  · simp [h]

/-- **C99, memory.** If `ftell` succeeds no byte outside the block is written, and a block is left exactly if it is returned. -/
theorem C99_blocks_partial {a : Answers} (h0 : 0 ≤ a.tell) (h1 : a.tell < 2 ^ 63) : ∃ r, readFile a = some r ∧ (r.blocks = if r.data.isSome then 1 else 0) ∧
    (r.files = 0 ∨ (r.data = none ∧ (a.bytes.length : Int) < a.tell)) := by
  unfold readFile
  have e2 : ((a.tell % 2 ^ 64).toNat + 1) % 2 ^ 64 = (a.tell % 2 ^ 64).toNat + 1 := by omega
  have e3 : (a.bytes.take (a.tell % 2 ^ 64).toNat).length ≤ (a.tell % 2 ^ 64).toNat := by rw [List.length_take]; omega
  dsimp only
  rw [e2]
  split
  · exact ⟨_, rfl, rfl, .inl rfl⟩
  · split
    · exact ⟨_, rfl, rfl, .inl rfl⟩
    · split
      · rw [if_neg (by omega)]
        split
        · rename_i hne
          refine ⟨_, rfl, rfl, .inr ⟨rfl, ?_⟩⟩
          rw [List.length_take] at hne
          omega
        · rw [if_neg (by omega)]
          exact ⟨_, rfl, rfl, .inl rfl⟩
      · exact ⟨_, rfl, rfl, .inl rfl⟩

/-- **C99 is violated** if the file has become shorter since its size was asked for: it is left open for good. -/
theorem C99_violation_open {a : Answers} {n : Nat} (ho : a.opens = true) (hs : a.seeks = true) (ht : a.tell = n) (hn : n < 2 ^ 63) (hl : a.bytes.length < n) (hm : a.gives (n + 1) = true) :
    readFile a = some ⟨none, 1, 0⟩ := by
  have e1 : (a.tell % 2 ^ 64).toNat = n := by rw [ht]; omega
  have e2 : (n + 1) % 2 ^ 64 = n + 1 := by omega
  have e3 : (a.bytes.take n).length = a.bytes.length := by rw [List.length_take]; omega
  unfold readFile
  rw [ho, hs, e1]
  dsimp only
  rw [e2, hm, e3]
  rw [if_neg (by simp), if_neg (by simp), if_pos rfl, if_neg (by omega), if_pos (by omega)]

/-- **C99 is violated** if `ftell` fails, with -1: the bytes of the file are written behind a block of size 0. -/
theorem C99_violation_tell {a : Answers} (ho : a.opens = true) (hs : a.seeks = true) (ht : a.tell = -1) (hm : a.gives 0 = true) (hb : a.bytes ≠ []) : readFile a = none := by
  have e1 : (a.tell % 2 ^ 64).toNat = 18446744073709551615 := by rw [ht]; rfl
  have e2 : (18446744073709551615 + 1) % 2 ^ 64 = 0 := by decide
  unfold readFile
  rw [ho, hs, e1]
  dsimp only
  rw [e2, hm]
  have : 0 < a.bytes.length := List.length_pos_iff.2 hb
  rw [if_neg (by simp), if_neg (by simp), if_pos rfl, if_pos (by rw [List.length_take]; omega)]

/-- Non-vacuity: the file `ab`. -/
example : readFile ⟨true, true, 2, fun n => n ≤ 10, [97, 98]⟩ = some ⟨some [97, 98, 0], 0, 1⟩ := C99_read (a := ⟨true, true, 2, fun n => n ≤ 10, [97, 98]⟩) rfl rfl rfl (by decide) rfl

/-- The hypotheses of the violations are met by a file that shrinks from 3 bytes to 2, and by one whose size is not known. -/
example : readFile ⟨true, true, 3, fun _ => true, [97, 98]⟩ = some ⟨none, 1, 0⟩ ∧ readFile ⟨true, true, -1, fun _ => true, [97, 98]⟩ = none :=
  ⟨C99_violation_open (a := ⟨true, true, 3, fun _ => true, [97, 98]⟩) (n := 3) rfl rfl rfl (by decide) (by decide) rfl,
    C99_violation_tell (a := ⟨true, true, -1, fun _ => true, [97, 98]⟩) rfl rfl rfl rfl (by decide)⟩

end Mjs.Props
