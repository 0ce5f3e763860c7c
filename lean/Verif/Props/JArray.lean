import Verif.Model.JArray
import Verif.Props.JPrintf

/-!
# C93: printing arrays of C values as JSON
-/

namespace Mjs.Props
open Mjs Mjs.JPrintf Mjs.Spec Mjs.Spec.Json Mjs.Spec.JsonFmt

/-- The number that bytes are, the first one being the lowest. -/
def word (bs : List UInt8) : Nat := bs.foldr (fun b n => b.toNat + 256 * n) 0

/-- What is given to the format for an element whose bytes begin with `bs`: a `double` if the format has one of the letters `e`, `f`, `g`, else an integer. -/
def Given (fmt : List UInt8) (bs : List UInt8) : Arg :=
  if (101 : UInt8) ∈ fmt ∨ (102 : UInt8) ∈ fmt ∨ (103 : UInt8) ∈ fmt then .dbl (BitVec.ofNat 64 (word bs)) else .long (BitVec.ofNat 64 (word bs)).toInt

theorem little_word : ∀ bs : List UInt8, little bs = word bs
  | [] => rfl
  | b :: bs => by rw [little, little_word bs]; rfl

theorem elemArg_given (fmt bs : List UInt8) : elemArg fmt bs = Given fmt bs := by
  unfold elemArg Given hasEfg
  rw [little_word]
  have h : (fmt.any fun c => c == 101 || c == 102 || c == 103) = true ↔ ((101 : UInt8) ∈ fmt ∨ (102 : UInt8) ∈ fmt ∨ (103 : UInt8) ∈ fmt) := by
    rw [List.any_eq_true]
    constructor
    · rintro ⟨c, hc, h⟩
      simp only [Bool.or_eq_true, beq_iff_eq] at h
      rcases h with (rfl | rfl) | rfl
      · exact .inl hc
      · exact .inr (.inl hc)
      · exact .inr (.inr hc)
    · rintro (h | h | h)
      · exact ⟨_, h, by decide⟩
      · exact ⟨_, h, by decide⟩
      · exact ⟨_, h, by decide⟩
  by_cases hc : (101 : UInt8) ∈ fmt ∨ (102 : UInt8) ∈ fmt ∨ (103 : UInt8) ∈ fmt
  · rw [if_pos (h.2 hc), if_pos hc]
  · rw [if_neg (fun hh => hc (h.1 hh)), if_neg hc]

/-- An element of the array in memory, with the value it is to be printed as: whatever lies in the rest of the eight bytes, the format describes this value. -/
def PrintsElem (E : Env) (fmt : List UInt8) (e : List UInt8 × J) : Prop :=
  ∀ g : List UInt8, (e.1.take 8 ++ g).length = 8 → Describes E Base64 (Utf8Text Writable) e.2 fmt [Given fmt (e.1.take 8 ++ g)]

theorem elems_print {E : Env} {fmt : List UInt8} {esz : Nat} {fill : Nat → List UInt8} (hfill : ∀ i, (fill i).length = 8) {x : List UInt8} :
    ∀ (es : List (List UInt8 × J)) (pre : List UInt8) (i : Nat), pre.length = i * esz → (∀ e ∈ es, e.1.length = esz ∧ PrintsElem E fmt e) →
      ∃ ps t, JPrintf.elems E fill (pre ++ ((es.map (·.1)).flatten ++ x)) esz fmt es.length i = some ps ∧ Sep (Writes Chars) (es.map (·.2)) t ∧
        ps.flatten = (if i > 0 ∧ es ≠ [] then [44, 32] else []) ++ t ∧ (0 : UInt8) ∉ t
  | [], pre, i, _, _ => ⟨[], [], rfl, .none, by simp, by simp⟩
  | e :: es, pre, i, hp, h => by
    obtain ⟨he, hpr⟩ := h e (by simp)
    obtain ⟨qs, t', g1, g2, g3, g4⟩ := elems_print hfill (x := x) es (pre ++ e.1) (i + 1) (by rw [List.length_append, hp, he, Nat.succ_mul]) fun e' h' => h e' (List.mem_cons_of_mem _ h')
    have e8 : e.1.take (if esz > 8 then 8 else esz) = e.1.take 8 := by
      split
      · rfl
      · rw [List.take_of_length_le (by omega), List.take_of_length_le (by omega)]
    have hv : valBytes (pre ++ (((e :: es).map (·.1)).flatten ++ x)) esz i (fill i) = e.1.take 8 ++ (fill i).drop (if esz > 8 then 8 else esz) := by
      unfold valBytes
      have e1 : pre ++ (((e :: es).map (·.1)).flatten ++ x) = pre ++ (e.1 ++ ((es.map (·.1)).flatten ++ x)) := by simp
      rw [e1, ← hp, List.drop_left, List.take_append_of_le_length (by split <;> omega), e8]
    obtain ⟨ps, _, h2, h3, h4⟩ := C92_print_partial (hpr ((fill i).drop (if esz > 8 then 8 else esz)) (by
      simp only [List.length_append, List.length_take, List.length_drop, hfill, he]
      split <;> omega)) []
    rw [List.append_nil] at h2
    have e2 : pre ++ (((e :: es).map (·.1)).flatten ++ x) = pre ++ e.1 ++ ((es.map (·.1)).flatten ++ x) := by simp
    refine ⟨(if i > 0 then [[44], [32]] else []) ++ (ps ++ qs), ps.flatten ++ qs.flatten, ?_, ?_, ?_, ?_⟩
    · rw [List.length_cons, JPrintf.elems, if_neg, elemArg_given, hv, h2, Option.bind_some, e2, g1]
      · rfl
      · simp only [List.map_cons, List.flatten_cons, List.length_append, hp, he]
        split <;> omega
    · cases es with
      | nil =>
        cases g2
        rw [g3]
        simpa using Sep.last h3 (w := []) (by unfold Json.Blank; simp)
      | cons e' es =>
        rw [g3, if_pos ⟨by omega, by simp⟩]
        exact Sep.more h3 (w := []) (w' := [32]) (by unfold Json.Blank; simp) (by unfold Json.Blank; simp) g2
    · by_cases hi : i > 0
      · simp [hi]
      · simp [hi]
    · rw [g3, List.mem_append, List.mem_append, not_or, not_or]
      exact ⟨h4, by split <;> decide, g4⟩

/-- **C93.** If for each element the format describes a value whatever lies behind the element, the array is printed as the JSON array of these values, wherever it
is in memory; a rest that is too short for an element is left out. -/
theorem C93_array_partial {E : Env} {fmt : List UInt8} {esz : Nat} (hesz : esz ≠ 0) {fill : Nat → List UInt8} (hfill : ∀ i, (fill i).length = 8) {es : List (List UInt8 × J)}
    (h : ∀ e ∈ es, e.1.length = esz ∧ PrintsElem E fmt e) {s : Nat} (hs : s < esz) (x : List UInt8) :
    ∃ ps, array E fill (some ((es.map (·.1)).flatten ++ x)) (es.length * esz + s) esz fmt = some ps ∧ JsonText (.arr (es.map (·.2))) ps.flatten ∧
      (0 : UInt8) ∉ ps.flatten := by
  obtain ⟨ps, t, h1, h2, h3, h4⟩ := elems_print hfill (x := x) es [] 0 (by simp) h
  rw [List.nil_append] at h1
  have hq : (es.length * esz + s) / esz = es.length := by
    rw [Nat.mul_comm, Nat.mul_add_div (by omega), Nat.div_eq_of_lt hs, Nat.add_zero]
  have h3 : ps.flatten = t := by simpa using h3
  refine ⟨[91] :: (ps ++ [[93]]), ?_, ?_, ?_⟩
  · simp only [array]
    rw [if_neg hesz, hq, h1]
    rfl
  · rw [List.flatten_cons, List.flatten_append, h3]
    exact Writes.arr (w := []) (by unfold Json.Blank; simp) h2
  · rw [List.flatten_cons, List.flatten_append, h3]
    simpa using h4

/-- **C93, no array.** A null pointer is printed as the empty array. -/
theorem C93_null (E : Env) (fill : Nat → List UInt8) (size esz : Nat) (fmt : List UInt8) :
    ∃ ps, array E fill none size esz fmt = some ps ∧ JsonText (.arr []) ps.flatten :=
  ⟨[[91], [93]], rfl, Writes.arr (w := []) (by unfold Json.Blank; simp) .none⟩

/-- The bytes of a 64 bit integer in memory. -/
def bytes64 (n : Int) : List UInt8 := (List.range 8).map fun i => UInt8.ofNat ((n % 2 ^ 64).toNat / 256 ^ i)

theorem word_bytes64 {n : Int} (h1 : -2 ^ 63 ≤ n) (h2 : n < 2 ^ 63) : (BitVec.ofNat 64 (word (bytes64 n))).toInt = n := by
  have e : word (bytes64 n) = (n % 2 ^ 64).toNat := by
    have hlt : (n % 2 ^ 64).toNat < 2 ^ 64 := by omega
    unfold bytes64
    generalize (n % 2 ^ 64).toNat = k at hlt
    have e : ∀ k : Nat, word ((List.range 8).map fun i => UInt8.ofNat (k / 256 ^ i)) =
        k % 256 + 256 * (k / 256 % 256 + 256 * (k / 65536 % 256 + 256 * (k / 16777216 % 256 + 256 * (k / 4294967296 % 256 + 256 * (k / 1099511627776 % 256 + 256 *
          (k / 281474976710656 % 256 + 256 * (k / 72057594037927936 % 256))))))) := fun k => by
      simp [word, List.range_succ, List.range_zero, UInt8.toNat_ofNat']
    rw [e]
    omega
  rw [e]
  have h : BitVec.ofNat 64 (n % 2 ^ 64).toNat = BitVec.ofInt 64 n := by
    apply BitVec.eq_of_toNat_eq
    rw [BitVec.toNat_ofInt, BitVec.toNat_ofNat]
    omega
  rw [h, BitVec.toInt_ofInt, Int.bmod_eq_of_le (by omega) (by omega)]

/-- **C93 for 64 bit integers.** Every array of them is printed, with `%lld`, as the JSON array of their numerals. -/
theorem C93_integers {E : Env} {fill : Nat → List UInt8} (hfill : ∀ i, (fill i).length = 8) {ns : List (Int × List UInt8)}
    (h : ∀ n ∈ ns, -2 ^ 63 ≤ n.1 ∧ n.1 < 2 ^ 63 ∧ Numeral.Nat 10 n.1.natAbs n.2) (x : List UInt8) :
    ∃ ps, array E fill (some ((ns.map fun n => bytes64 n.1).flatten ++ x)) (ns.length * 8) 8 [37, 108, 108, 100] = some ps ∧
      JsonText (.arr (ns.map fun n => .num (decide (n.1 < 0)) n.2)) ps.flatten := by
  have H := C93_array_partial (E := E) (fmt := [37, 108, 108, 100]) (esz := 8) (by decide) hfill (es := ns.map fun n => (bytes64 n.1, .num (decide (n.1 < 0)) n.2)) (fun e he => by
    obtain ⟨n, hn, rfl⟩ := List.mem_map.1 he
    obtain ⟨h1, h2, h3⟩ := h n hn
    refine ⟨by simp [bytes64], fun g hg => ?_⟩
    have e8 : (bytes64 n.1).take 8 = bytes64 n.1 := List.take_of_length_le (by simp [bytes64])
    rw [e8] at hg ⊢
    have hg0 : g = [] := by
      cases g with
      | nil => rfl
      | cons a g => simp [bytes64] at hg
    rw [hg0, List.append_nil]
    unfold Given
    rw [if_neg (by decide), word_bytes64 h1 h2]
    exact .item (.lld h1 h2 h3)) (s := 0) (by decide) x
  obtain ⟨ps, h1, h2, _⟩ := H
  exact ⟨ps, by simpa [Function.comp_def] using h1, by simpa [Function.comp_def] using h2⟩

example : ∀ n ∈ ([(-5, [53]), (70, [55, 48])] : List (Int × List UInt8)), -2 ^ 63 ≤ n.1 ∧ n.1 < 2 ^ 63 := by decide

/-- What is outside, where callback `c` is `json_printf_array`: it takes the pointer, the two sizes and the format from the arguments.  Formats of elements that call
`json_printf_array` again are not covered. -/
def withArray (E : Env) (fill : Nat → List UInt8) (c : Nat) : Env where
  sys := E.sys
  call i a := if i = c then
      match a with
      | .ptr p :: .long size :: .long esz :: .ptr (some fmt) :: r => (array E fill p size.toNat esz.toNat (fmt.takeWhile (· ≠ 0))).map fun ps => (ps.flatten, r)
      | _ => none
    else E.call i a

/-- **C93, in a format.** `%M` with `json_printf_array`, the array, its size, the size of an element and a format describes the array of the values, so by
`C92_print_partial` this array is printed wherever the `%M` stands. -/
theorem C93_in_format {E : Env} {fmt : List UInt8} (h0 : (0 : UInt8) ∉ fmt) {esz : Nat} (hesz : esz ≠ 0) {fill : Nat → List UInt8} (hfill : ∀ i, (fill i).length = 8)
    {es : List (List UInt8 × J)} (h : ∀ e ∈ es, e.1.length = esz ∧ PrintsElem E fmt e) (x y : List UInt8) (c : Nat) :
    Describes (withArray E fill c) Base64 (Utf8Text Writable) (.arr (es.map (·.2))) [37, 77]
      [.fn c, .ptr (some ((es.map (·.1)).flatten ++ x)), .long (es.length * esz : Nat), .long esz, .ptr (some (fmt ++ 0 :: y))] := by
  obtain ⟨ps, h1, h2, h3⟩ := C93_array_partial hesz hfill h (s := 0) (by omega) x
  refine .item (.call h2 h3 fun r => ?_)
  have e : (fmt ++ 0 :: y).takeWhile (· ≠ 0) = fmt := by
    rw [List.takeWhile_append_of_pos (fun c hc => by simp only [ne_eq, decide_eq_true_eq]; rintro rfl; exact h0 hc), List.takeWhile_cons_of_neg (by simp), List.append_nil]
  simp only [withArray, if_true, List.cons_append, List.nil_append, Int.toNat_natCast]
  rw [e, ← Nat.add_zero (es.length * esz), h1]
  rfl

/-- A C library whose `%d` reads the lowest 32 bits. -/
def intEnv : Env where
  sys f a := match f, a with
    | [37, 100], .long n :: _ => some (signed (BitVec.ofInt 32 n).toInt)
    | _, _ => none
  call _ _ := none

/-- **C93 is violated** for elements shorter than an `int`: what `%d` prints for a 16 bit 1 depends on what was on the stack. -/
theorem C93_violation_short : (array intEnv (fun _ => [0, 0, 0, 0, 0, 0, 0, 0]) (some [1, 0]) 2 2 [37, 100]).map List.flatten = some [91, 49, 93] ∧
    (array intEnv (fun _ => [0, 0, 1, 0, 0, 0, 0, 0]) (some [1, 0]) 2 2 [37, 100]).map List.flatten = some [91, 54, 53, 53, 51, 55, 93] := by
  constructor <;> decide +kernel

/-- **C93 is violated** for formats with one of the letters `e`, `f`, `g` in a key: `{e: %d}` gets a `double`, and no integer is there for `%d`. -/
theorem C93_violation_letter (E : Env) (fill : Nat → List UInt8) : array E fill (some [5, 0, 0, 0]) 4 4 [123, 101, 58, 32, 37, 100, 125] = none := by
  have h : ∀ b, print E [123, 101, 58, 32, 37, 100, 125] [.dbl b] = none := fun b => by
    have h : conv E [100, 125] [.dbl b] = none := by
      unfold conv
      rw [if_neg (by simp), if_neg (by simp), if_neg (by simp), if_neg (by simp), if_neg (by simp), if_neg (by simp), if_neg (by simp), if_neg (by simp)]
      unfold system
      have h1 : ([100, 125] : List UInt8).takeWhile (fun c => specChars.contains c) = [100] := by decide
      have h2 : advance [100] [.dbl b] = none := by simp [advance, takeWord]
      simp only [h1, h2]
      simp
    rw [print, List.length_cons, printf, if_pos (by decide)]
    simp only [List.length_cons, List.length_nil]
    rw [printf, if_neg (by decide), if_neg (by decide), if_pos (by decide)]
    have e : ([101, 58, 32, 37, 100, 125] : List UInt8).dropWhile isKey = [58, 32, 37, 100, 125] := by decide
    rw [e, printf, if_pos (by decide), printf, if_pos (by decide), printf, if_neg (by decide), if_pos rfl, h]
    rfl
  simp only [array]
  rw [if_neg (by decide), show 4 / 4 = 0 + 1 from rfl, JPrintf.elems, if_neg (by decide)]
  have e : ∀ bs, elemArg [123, 101, 58, 32, 37, 100, 125] bs = .dbl (BitVec.ofNat 64 (little bs)) := fun bs => by unfold elemArg; rw [if_pos (by decide)]
  rw [e, h]
  rfl

end Mjs.Props
