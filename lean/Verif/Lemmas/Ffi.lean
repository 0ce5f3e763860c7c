import Verif.Spec.Ffi

/-!
# Lemmas about FFI signatures
-/

namespace Mjs.Ffi
open Mjs.FfiSpec Mjs.Spec

theorem isspace_iff (c : UInt8) : isspace c = true ↔ c = 32 ∨ (9 ≤ c.toNat ∧ c.toNat ≤ 13) := by
  simp [isspace, UInt8.le_iff_toNat_le]

theorem blank_isspace {s : List UInt8} (h : Blank s) : ∀ c ∈ s, isspace c = true := fun c hc => (isspace_iff c).2 (h c hc)

theorem isalnum_iff (c : UInt8) : isalnum c = true ↔ (48 ≤ c.toNat ∧ c.toNat ≤ 57) ∨ (65 ≤ c.toNat ∧ c.toNat ≤ 90) ∨
    (97 ≤ c.toNat ∧ c.toNat ≤ 122) := by
  simp [isalnum, UInt8.le_iff_toNat_le, or_assoc]

theorem nameChar_iff (c : UInt8) : (isalnum c || c == 95) = true ↔ NameChar c := by
  simp [NameChar, isalnum_iff, or_assoc]

theorem dropWhile_append_all {p : UInt8 → Bool} {a b : List UInt8} (h : ∀ c ∈ a, p c = true) :
    (a ++ b).dropWhile p = b.dropWhile p := by
  induction a with
  | nil => rfl
  | cons x a ih => simp [h x (by simp), ih fun c hc => h c (by simp [hc])]

theorem dropWhile_head {p : UInt8 → Bool} {x : UInt8} {l : List UInt8} (h : p x = false) : (x :: l).dropWhile p = x :: l := by
  simp [h]

/-- Trimming gives the middle part when it neither starts nor ends with blank space. -/
theorem trim_eq {a w b : List UInt8} (ha : Blank a) (hb : Blank b) (h0 : w.dropWhile isspace = w)
    (h1 : w.reverse.dropWhile isspace = w.reverse) (hne : w ≠ []) : trim (a ++ w ++ b) = w := by
  unfold trim
  rw [List.append_assoc, dropWhile_append_all (blank_isspace ha)]
  have e : (w ++ b).dropWhile isspace = w ++ b := by
    cases w with
    | nil => exact absurd rfl hne
    | cons x w =>
      have hx : isspace x = false := by
        cases h : isspace x with
        | false => rfl
        | true =>
          simp only [List.dropWhile_cons, h, ite_true] at h0
          have := congrArg List.length h0
          have := (List.dropWhile_suffix isspace (l := w)).length_le
          simp at *; omega
      simp [hx]
  rw [e, List.reverse_append, dropWhile_append_all, h1, List.reverse_reverse]
  exact fun c hc => blank_isspace hb c (by simpa using hc)

theorem spells_trim {t : CType} {w : List UInt8} (h : Spells t w) :
    w.dropWhile isspace = w ∧ w.reverse.dropWhile isspace = w.reverse ∧ w ≠ [] := by
  cases h <;> decide +kernel

theorem parseCval_type {t : CType} {s : List UInt8} (h : TypeText t s) : parseCval s = some t := by
  obtain ⟨a, w, b, ha, hw, hb, rfl⟩ := h
  have ⟨h0, h1, h2⟩ := spells_trim hw
  unfold parseCval
  rw [trim_eq ha hb h0 h1 h2]
  cases hw <;> decide +kernel

/-- A byte that is no parenthesis, comma or NUL. -/
def Plain (c : UInt8) : Prop := c ≠ 0 ∧ c ≠ 40 ∧ c ≠ 41 ∧ c ≠ 44

instance (c : UInt8) : Decidable (Plain c) := by unfold Plain; infer_instance

theorem blank_plain {s : List UInt8} (h : Blank s) : ∀ c ∈ s, Plain c := by
  intro c hc
  have := h c hc
  refine ⟨?_, ?_, ?_, ?_⟩ <;> rintro rfl <;> revert this <;> decide

theorem spells_plain {t : CType} {w : List UInt8} (h : Spells t w) : ∀ c ∈ w, Plain c := by
  cases h <;> decide +kernel

theorem type_plain {t : CType} {s : List UInt8} (h : TypeText t s) : ∀ c ∈ s, Plain c := by
  obtain ⟨a, w, b, ha, hw, hb, rfl⟩ := h
  intro c hc
  simp only [List.mem_append] at hc
  rcases hc with (hc | hc) | hc
  · exact blank_plain ha c hc
  · exact spells_plain hw c hc
  · exact blank_plain hb c hc

theorem type_nonempty {t : CType} {s : List UInt8} (h : TypeText t s) : 3 ≤ s.length := by
  obtain ⟨a, w, b, ha, hw, hb, rfl⟩ := h
  have : 3 ≤ w.length := by cases hw <;> decide +kernel
  simp; omega

/-! ## Finding parentheses -/

theorem findParen_append {a r : List UInt8} (h : 40 ∉ a) : findParen (a ++ 40 :: r) = some (a, r) := by
  induction a with
  | nil => simp [findParen]
  | cons x a ih =>
    have hx : x ≠ 40 := fun e => h (by simp [e])
    simp [findParen, hx, ih fun m => h (by simp [m])]

theorem findParen_none {a : List UInt8} (h : 40 ∉ a) : findParen a = none := by
  induction a with
  | nil => rfl
  | cons x a ih =>
    have hx : x ≠ 40 := fun e => h (by simp [e])
    simp [findParen, hx, ih fun m => h (by simp [m])]

theorem findParen_some {s a r : List UInt8} (h : findParen s = some (a, r)) : s = a ++ 40 :: r ∧ 40 ∉ a := by
  induction s generalizing a with
  | nil => simp [findParen] at h
  | cons x s ih =>
    simp only [findParen] at h
    split at h
    · simp at h; obtain ⟨rfl, rfl⟩ := h; simp_all
    · rename_i hx
      simp only [Option.map_eq_some_iff, Prod.mk.injEq] at h
      obtain ⟨⟨p, q⟩, e, rfl, rfl⟩ := h
      have ⟨e', hn⟩ := ih e
      refine ⟨by simp [e'], ?_⟩
      simp [hn]; exact fun e => hx e.symm

/-- Text whose parentheses match: the search for the closing parenthesis passes over it. -/
def Closed (s : List UInt8) : Prop :=
  ∀ k x, findClosing (k + 1) (s ++ x) = (findClosing (k + 1) x).map fun p => (s ++ p.1, p.2)

theorem closed_nil : Closed [] := by intro k x; simp

theorem closed_append {a b : List UInt8} (ha : Closed a) (hb : Closed b) : Closed (a ++ b) := by
  intro k x
  rw [List.append_assoc, ha, hb]
  simp [Option.map_map, Function.comp_def]

theorem closed_cons {c : UInt8} (h1 : c ≠ 40) (h2 : c ≠ 41) : Closed [c] := by
  intro k x; simp [findClosing, h1, h2]

theorem closed_plain {s : List UInt8} (h : ∀ c ∈ s, c ≠ 40 ∧ c ≠ 41) : Closed s := by
  induction s with
  | nil => exact closed_nil
  | cons x s ih =>
    exact closed_append (a := [x]) (closed_cons (h x (by simp)).1 (h x (by simp)).2) (ih fun c hc => h c (by simp [hc]))

theorem closed_paren {s : List UInt8} (h : Closed s) : Closed (40 :: s ++ [41]) := by
  intro k x
  have e : (40 :: s ++ [41]) ++ x = 40 :: (s ++ (41 :: x)) := by simp
  rw [e]
  simp only [findClosing, ite_true]
  rw [h (k + 1) (41 :: x)]
  simp [findClosing, Option.map_map, Function.comp_def]

theorem closed_find {s post : List UInt8} (h : Closed s) : findClosing 1 (s ++ 41 :: post) = some (s, post) := by
  rw [h 0]; simp [findClosing]

theorem findClosing_some {k : Nat} {r a post : List UInt8} (h : findClosing k r = some (a, post)) : r = a ++ 41 :: post := by
  induction r generalizing k a with
  | nil => simp [findClosing] at h
  | cons x r ih =>
    simp only [findClosing] at h
    split at h
    · simp only [Option.map_eq_some_iff, Prod.mk.injEq] at h
      obtain ⟨⟨p, q⟩, e, rfl, rfl⟩ := h
      simp [ih e]
    · split at h
      · split at h
        · simp at h; obtain ⟨rfl, rfl⟩ := h; simp_all
        · simp only [Option.map_eq_some_iff, Prod.mk.injEq] at h
          obtain ⟨⟨p, q⟩, e, rfl, rfl⟩ := h
          simp [ih e]
      · simp only [Option.map_eq_some_iff, Prod.mk.injEq] at h
        obtain ⟨⟨p, q⟩, e, rfl, rfl⟩ := h
        simp [ih e]

/-! ## Scanning one argument -/

/-- Text that a scan inside parentheses passes over. -/
def Inner (s : List UInt8) : Prop :=
  ∀ l fp x, scanArg (l + 1) fp (s ++ x) =
    match scanArg (l + 1) (fp || s.contains 40) x with
    | .error e => .error e
    | .ok (a, f, t) => .ok (s ++ a, f, t)

theorem inner_nil : Inner [] := by
  intro l fp x
  simp only [List.nil_append, List.contains_nil, Bool.or_false]
  split <;> simp_all

theorem inner_append {a b : List UInt8} (ha : Inner a) (hb : Inner b) : Inner (a ++ b) := by
  intro l fp x
  rw [List.append_assoc, ha, hb]
  have e : (fp || a.contains 40 || b.contains 40) = (fp || (a ++ b).contains 40) := by
    simp [Bool.or_assoc]
  rw [e]
  cases scanArg (l + 1) (fp || (a ++ b).contains 40) x with
  | error e => rfl
  | ok p => simp

theorem inner_cons {c : UInt8} (h0 : c ≠ 0) (h1 : c ≠ 40) (h2 : c ≠ 41) : Inner [c] := by
  intro l fp x
  simp only [List.singleton_append, scanArg, h1, h2, if_false]
  have e : [c].contains (40 : UInt8) = false := by simp [Ne.symm h1]
  simp only [e, Bool.or_false]
  simp [h0]
  cases scanArg (l + 1) fp x <;> rfl

theorem inner_plain {s : List UInt8} (h : ∀ c ∈ s, c ≠ 0 ∧ c ≠ 40 ∧ c ≠ 41) : Inner s := by
  induction s with
  | nil => exact inner_nil
  | cons x s ih =>
    have := h x (by simp)
    exact inner_append (a := [x]) (inner_cons this.1 this.2.1 this.2.2) (ih fun c hc => h c (by simp [hc]))

/-- A parenthesised text is passed over at any level. -/
theorem scan_paren {s : List UInt8} (h : Inner s) (l : Nat) (fp : Bool) (x : List UInt8) :
    scanArg l fp (40 :: s ++ 41 :: x) =
      match scanArg l true x with
      | .error e => .error e
      | .ok (a, f, t) => .ok (40 :: s ++ 41 :: a, f, t) := by
  have h1 : scanArg l fp (40 :: s ++ 41 :: x) =
      match scanArg (l + 1) true (s ++ 41 :: x) with
      | .error e => .error e
      | .ok (a, f, t) => .ok (40 :: a, f, t) := by
    simp [scanArg]
    cases scanArg (l + 1) true (s ++ 41 :: x) <;> rfl
  rw [h1, h l true]
  simp only [Bool.true_or]
  have h2 : scanArg (l + 1) true (41 :: x) =
      match scanArg l true x with
      | .error e => .error e
      | .ok (a, f, t) => .ok (41 :: a, f, t) := by
    simp [scanArg]
    cases scanArg l true x <;> rfl
  rw [h2]
  cases scanArg l true x with
  | error e => rfl
  | ok p => simp

theorem inner_paren {s : List UInt8} (h : Inner s) : Inner (40 :: s ++ [41]) := by
  intro l fp x
  have e : (40 :: s ++ [41]) ++ x = 40 :: s ++ 41 :: x := by simp
  rw [e, scan_paren h]
  have e' : (fp || (40 :: s ++ [41]).contains 40) = true := by simp
  rw [e']
  cases scanArg (l + 1) true x with
  | error e => rfl
  | ok p => simp

/-- Plain bytes are passed over at level 0. -/
theorem scan_plain {s : List UInt8} (h : ∀ c ∈ s, Plain c) (fp : Bool) (x : List UInt8) :
    scanArg 0 fp (s ++ x) =
      match scanArg 0 fp x with
      | .error e => .error e
      | .ok (a, f, t) => .ok (s ++ a, f, t) := by
  induction s with
  | nil => simp only [List.nil_append]; split <;> simp_all
  | cons c s ih =>
    obtain ⟨h0, h1, h2, h3⟩ := h c (by simp)
    simp only [List.cons_append, scanArg, h1, h2, if_false, h0, h3, ne_eq, not_false_iff, and_true, or_true, if_true]
    rw [ih fun c hc => h c (by simp [hc])]
    cases scanArg 0 fp x with
    | error e => rfl
    | ok p => simp

/-- The scan stops at a comma or a closing parenthesis. -/
theorem scan_stop {c : UInt8} (h : c = 44 ∨ c = 41) (fp : Bool) (r : List UInt8) :
    scanArg 0 fp (c :: r) = .ok ([], fp, c :: r) := by
  rcases h with rfl | rfl <;> simp [scanArg]

end Mjs.Ffi
