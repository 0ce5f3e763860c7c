import Verif.Model.Avprintf
import Verif.Props.Printf

/-!
# C94: printing into a buffer that grows
-/

namespace Mjs.Props
open Mjs.Avprintf

/-- A `vsnprintf` as the C standard has it, for a format and arguments whose text is `t`: as much of it as there is room for and a NUL; the result is the length of `t`. -/
def Standard (P : List UInt8 → Nat → List UInt8 × Int) (t : List UInt8) : Prop :=
  ∀ mem size, size ≤ mem.length → P mem size = (if size = 0 then mem else t.take (size - 1) ++ [0] ++ mem.drop (min (t.length + 1) size), (t.length : Int))

/-- A `vsnprintf` that answers -1 if the text is longer than the buffer, and writes a NUL only if there is room. -/
def Minus (P : List UInt8 → Nat → List UInt8 × Int) (t : List UInt8) : Prop :=
  ∀ mem size, size ≤ mem.length → P mem size =
    if t.length ≤ size then ((t ++ [0]).take size ++ mem.drop (min (t.length + 1) size), (t.length : Int)) else (t.take size ++ mem.drop size, -1)

/-- `malloc` gives memory of the right size, with anything in it. -/
def Mallocs (alloc : Nat → Nat → Option (List UInt8)) : Prop := ∀ i n, ∃ m, alloc i n = some m ∧ m.length = n

theorem int_size {size : Nat} (h : size < 2 ^ 31) : (BitVec.ofNat 32 size).toInt = size := by
  rw [BitVec.toInt_ofNat', Int.bmod]
  omega

/-- The formatter of the code itself is of the first kind. -/
theorem standard_own {fmt : List UInt8} {args : List Printf.Arg} {t : List UInt8} (h : Prints fmt args t) :
    Standard (fun mem size => match Printf.vsnprintf mem size fmt args with | some r => (r.1, r.2) | none => (mem, -1)) t := fun mem size hs => by
  simp only [h mem size hs]

/-- **C94.** With a standard library, a text shorter than the buffer is printed there; for others new memory of the right size is used, and the buffer holds the
beginning of the text. -/
theorem C94_standard {P : List UInt8 → Nat → List UInt8 × Int} {t : List UInt8} (hP : Standard P t) {alloc : Nat → Nat → Option (List UInt8)} (ha : Mallocs alloc) (fuel : Nat)
    {buf : List UInt8} {size : Nat} (hs : size ≤ buf.length) (h31 : size < 2 ^ 31) (ht : t.length + 1 < 2 ^ 31) :
    ∃ r, avprintf P alloc fuel buf size = some r ∧ r.len = t.length ∧ r.own.drop size = buf.drop size ∧
      (t.length < size → r.new = none ∧ r.own.take (t.length + 1) = t ++ [0]) ∧
      (size ≤ t.length → r.new = some (some (t ++ [0])) ∧ r.own.take size = if size = 0 then [] else t.take (size - 1) ++ [0]) := by
  have h1 := hP buf size hs
  have hown : (P buf size).1.drop size = buf.drop size := by
    rw [h1]
    dsimp only
    split
    · rfl
    · rename_i h0
      rw [List.drop_append, List.drop_drop]
      have e : (t.take (size - 1) ++ [0]).length = min (t.length + 1) size := by
        rw [List.length_append, List.length_take, List.length_singleton]; omega
      rw [e, List.drop_of_length_le (by rw [e]; omega), List.nil_append]
      congr 1
      omega
  have hlen : (P buf size).2 = t.length := by rw [h1]
  unfold avprintf
  dsimp only
  rw [if_neg (by rw [hlen]; omega), hlen, int_size h31]
  by_cases hlt : size ≤ t.length
  · rw [if_pos (by omega), if_neg (by omega), show ((t.length : Int) + 1).toNat = t.length + 1 by omega]
    obtain ⟨m, hm, hml⟩ := ha 0 (t.length + 1)
    rw [hm]
    have h2 := hP m (t.length + 1) (by omega)
    have e : P m (t.length + 1) = (t ++ [0], (t.length : Int)) := by
      rw [h2, if_neg (by omega), Nat.add_sub_cancel, List.take_length, Nat.min_self, List.drop_of_length_le (by omega), List.append_nil]
    refine ⟨_, rfl, by rw [e], hown, fun h => by omega, fun _ => ⟨by rw [e], ?_⟩⟩
    rw [h1]
    dsimp only
    split
    · rename_i h0; rw [h0]; rfl
    · rw [List.take_append_of_le_length (by rw [List.length_append, List.length_take, List.length_singleton]; omega), List.take_of_length_le]
      rw [List.length_append, List.length_take, List.length_singleton]; omega
  · rw [if_neg (by omega)]
    refine ⟨_, rfl, rfl, hown, fun _ => ⟨rfl, ?_⟩, fun h => by omega⟩
    rw [h1]
    dsimp only
    rw [if_neg (by omega), List.take_of_length_le (by omega : t.length ≤ size - 1), List.take_append_of_le_length (by simp), List.take_of_length_le (by simp)]

/-- **C94, no memory.** With a standard library, the answer is -1 and the pointer is null. -/
theorem C94_no_memory {P : List UInt8 → Nat → List UInt8 × Int} {t : List UInt8} (hP : Standard P t) {alloc : Nat → Nat → Option (List UInt8)} (fuel : Nat)
    {buf : List UInt8} {size : Nat} (hs : size ≤ buf.length) (hl : size ≤ t.length) (h31 : size < 2 ^ 31) (ht : t.length + 1 < 2 ^ 31) (ha : alloc 0 (t.length + 1) = none) :
    ∃ r, avprintf P alloc fuel buf size = some r ∧ r.len = -1 ∧ r.new = some none := by
  have hlen : (P buf size).2 = t.length := by rw [hP buf size hs]
  unfold avprintf
  dsimp only
  rw [if_neg (by rw [hlen]; omega), hlen, int_size h31, if_pos (by omega), if_neg (by omega), show ((t.length : Int) + 1).toNat = t.length + 1 by omega, ha]
  exact ⟨_, rfl, rfl, rfl⟩

theorem grow_minus {P : List UInt8 → Nat → List UInt8 × Int} {t : List UInt8} (hP : Minus P t) {alloc : Nat → Nat → Option (List UInt8)} (ha : Mallocs alloc) :
    ∀ (fuel i size : Nat), t.length < size + fuel → 0 < fuel → ∃ m, grow P alloc fuel i size = some (m, (t.length : Int)) ∧ m.take (t.length + 1) = t ++ [0]
  | 0, _, _, _, h => absurd h (by omega)
  | fuel + 1, i, size, hf, _ => by
    obtain ⟨size', hsz⟩ : ∃ s, s = (if size = 0 then 5 else size) * 2 := ⟨_, rfl⟩
    have hge : size' > size := by
      rw [hsz]; split <;> omega
    obtain ⟨m, hm, hml⟩ := ha i size'
    have h := hP m (size' - 1) (by omega)
    rw [grow]
    dsimp only
    rw [← hsz, hm]
    dsimp only
    rw [h]
    by_cases hle : t.length ≤ size' - 1
    · rw [if_pos hle]
      dsimp only
      have hlen : ((t ++ [0]).take (size' - 1) ++ m.drop (min (t.length + 1) (size' - 1))).length = size' := by
        simp only [List.length_append, List.length_take, List.length_drop, List.length_singleton, hml]
        omega
      rw [if_neg (by omega), if_pos (by rw [hlen]; simp only [Int.toNat_natCast]; omega)]
      refine ⟨_, rfl, ?_⟩
      rw [Int.toNat_natCast]
      apply List.ext_getElem?
      intro k
      rw [List.getElem?_take]
      by_cases hk : k < t.length
      · rw [if_pos (by omega), List.getElem?_set_ne (by omega), List.getElem?_append_left (by simp only [List.length_take, List.length_append, List.length_singleton]; omega),
          List.getElem?_take, if_pos (by omega)]
      · by_cases hk2 : k = t.length
        · rw [if_pos (by omega), hk2, List.getElem?_set_self (by rw [hlen]; omega), List.getElem?_append_right (by omega)]
          simp
        · rw [if_neg (by omega)]
          symm
          apply List.getElem?_eq_none
          simp only [List.length_append, List.length_singleton]
          omega
    · rw [if_neg hle]
      dsimp only
      rw [if_pos (by decide)]
      exact grow_minus hP ha fuel (i + 1) size' (by omega) (by omega)

/-- **C94, other libraries.** If `vsnprintf` answers -1 for a buffer that is too small, memory is taken until there is enough: the result is the length, and the buffer
or the new memory holds the text and a NUL. -/
theorem C94_minus {P : List UInt8 → Nat → List UInt8 × Int} {t : List UInt8} (hP : Minus P t) {alloc : Nat → Nat → Option (List UInt8)} (ha : Mallocs alloc) {fuel : Nat}
    (hf : t.length < fuel) {buf : List UInt8} {size : Nat} (hs : size ≤ buf.length) (h31 : size < 2 ^ 31) (ht : t.length + 1 < 2 ^ 31) :
    ∃ r, avprintf P alloc fuel buf size = some r ∧ r.len = t.length ∧
      (t.length < size → r.new = none ∧ r.own.take (t.length + 1) = t ++ [0]) ∧ (size ≤ t.length → ∃ m, r.new = some (some m) ∧ m.take (t.length + 1) = t ++ [0]) := by
  have h := hP buf size hs
  unfold avprintf
  dsimp only
  by_cases hle : t.length ≤ size
  · rw [if_pos hle] at h
    rw [h]
    dsimp only
    rw [if_neg (by omega), int_size h31]
    by_cases heq : size ≤ t.length
    · rw [if_pos (by omega), if_neg (by omega), show ((t.length : Int) + 1).toNat = t.length + 1 by omega]
      obtain ⟨m, hm, hml⟩ := ha 0 (t.length + 1)
      rw [hm]
      have h2 := hP m (t.length + 1) (by omega)
      rw [if_pos (by omega)] at h2
      refine ⟨_, rfl, by dsimp only; rw [h2], fun h => by omega, fun _ => ⟨_, rfl, ?_⟩⟩
      rw [h2]
      dsimp only
      rw [List.take_of_length_le (l := t ++ [0]) (i := t.length + 1) (by simp), List.take_append_of_le_length (by simp), List.take_of_length_le (by simp)]
    · rw [if_neg (by omega)]
      refine ⟨_, rfl, rfl, fun _ => ⟨rfl, ?_⟩, fun h => absurd h heq⟩
      dsimp only
      rw [List.take_of_length_le (l := t ++ [0]) (i := size) (by simp; omega), List.take_append_of_le_length (by simp), List.take_of_length_le (by simp)]
  · rw [if_neg hle] at h
    rw [h]
    dsimp only
    rw [if_pos (by decide)]
    obtain ⟨m, h1, h2⟩ := grow_minus hP ha fuel 0 size (by omega) (by omega)
    rw [h1]
    exact ⟨_, rfl, rfl, fun h => by omega, fun _ => ⟨m, rfl, h2⟩⟩

/-- **C94 is violated** for errors of `vsnprintf` that a larger buffer does not cure: there is no number of rounds after which the call ends well. -/
theorem C94_violation_error {P : List UInt8 → Nat → List UInt8 × Int} (hP : ∀ mem size, (P mem size).2 = -1) (alloc : Nat → Nat → Option (List UInt8)) (fuel : Nat)
    (buf : List UInt8) (size : Nat) : avprintf P alloc fuel buf size = none := by
  have h : ∀ fuel i size, grow P alloc fuel i size = none := by
    intro fuel
    induction fuel with
    | zero => intro i size; rfl
    | succ fuel ih =>
      intro i size
      rw [grow]
      dsimp only
      cases alloc i ((if size = 0 then 5 else size) * 2) with
      | none => rfl
      | some m =>
        dsimp only
        rw [if_pos (by rw [hP]; decide)]
        exact ih _ _
  unfold avprintf
  dsimp only
  rw [if_pos (by rw [hP]; decide), h]
  rfl

/-- **C94 is violated** where such a library finds no memory: a byte is written through the null pointer. -/
theorem C94_violation_null {P : List UInt8 → Nat → List UInt8 × Int} {t : List UInt8} (hP : Minus P t) (fuel : Nat) {buf : List UInt8} {size : Nat} (hs : size ≤ buf.length)
    (hl : size < t.length) : avprintf P (fun _ _ => none) fuel buf size = none := by
  have h := hP buf size hs
  rw [if_neg (by omega)] at h
  unfold avprintf
  dsimp only
  rw [h, if_pos (show (-1 : Int) < 0 by decide)]
  cases fuel <;> rfl

/-- The formatter of the code with `%s`, and a `malloc`. -/
example : (∃ P, Standard P [97, 98, 99]) ∧ Mallocs (fun i n => some (List.replicate n (UInt8.ofNat i))) :=
  ⟨⟨_, standard_own (C55_string [97, 98, 99] [] (by decide))⟩, fun i n => ⟨_, rfl, by simp⟩⟩

example : ∃ P, Minus P [97, 98, 99] :=
  ⟨fun mem size => if 3 ≤ size then (([97, 98, 99] ++ [0] : List UInt8).take size ++ mem.drop (min 4 size), 3) else (([97, 98, 99] : List UInt8).take size ++ mem.drop size, -1), fun _ _ _ => rfl⟩

end Mjs.Props
