import Verif.Lemmas.Json

/-!
# C47: JSON parsing ends inside the text
-/

namespace Mjs.Props
open Mjs Mjs.Json

/-- Undefined behaviour. -/
def isUb {σ : Type} : Res σ → Bool
  | .ub => true
  | _ => false

theorem isUb_eq {σ : Type} {r : Res σ} (h : isUb r = true) : r = .ub := by cases r <;> first | rfl | cases h

theorem at_start {σ : Type} {B : Prop} {text : List UInt8} {c : σ} : At B text (⟨text, [], none, c⟩ : S σ) :=
  ⟨List.suffix_rfl, Nat.zero_le _, by simp⟩

/-- **C47**, for every text, without exception: with every callback, the loops of the parser end, the recursion is not deeper than
the text is long, and on success the parser has used up at least one byte and stopped inside the text or at its end.
What it left unread is the end of the text, unchanged. -/
theorem C47_ends {σ : Type} (cb : σ → Event → Option σ) (d : Nat) (text : List UInt8) (c : σ) (ht : text.length < 2 ^ 31) :
    walk cb d text c ≠ .endless ∧ (walk cb d text c = .deep → d ≤ text.length) ∧
      ∀ s, walk cb d text c = .ok s → ∃ used, used ≠ [] ∧ text = used ++ s.rest := by
  unfold walk
  split
  · exact ⟨(fun h => by cases h), (fun h => by cases h), fun s h => by cases h⟩
  have h := parseValue_good (cb := cb) (B := True) (fun _ => trivial) ht (fun _ => trivial) (fun _ => trivial) d
    ⟨text, [], none, c⟩ at_start
  generalize parseValue cb d ⟨text, [], none, c⟩ = r at h
  cases r with
  | ok s =>
    refine ⟨(fun h => by cases h), (fun h => by cases h), fun s' hs => ?_⟩
    cases hs
    obtain ⟨u, hu⟩ := h.1
    refine ⟨u, fun h0 => ?_, hu.symm⟩
    have := h.2.1
    subst h0
    rw [List.nil_append] at hu
    have hl : s.rest.length = text.length := by rw [hu]
    dsimp only at this
    omega
  | err => exact ⟨(fun h => by cases h), (fun h => by cases h), fun s h => by cases h⟩
  | ub => exact ⟨(fun h => by cases h), (fun h => by cases h), fun s h => by cases h⟩
  | deep => exact ⟨(fun h => by cases h), fun _ => h, fun s h => by cases h⟩
  | endless => exact h.elim

/-- **C47**, with the callback: the same of `JSON.parse`. -/
theorem C47_parse_ends (E : Exec.Env) (d : Nat) (h : Obj.Heap) (al : Nat → Obj.Allocs) (text : List UInt8) (ht : text.length < 2 ^ 31)
    (hd : text.length < d) : parse E d h al text = .ub ∨ ∃ rc v c, parse E d h al text = .done rc v c := by
  have ⟨h1, h2, _⟩ := C47_ends (frozenCb E) d text ⟨h, al, [], Mjs.mkUndefined, .ok⟩ ht
  unfold parse
  split
  · split
    · exact .inr ⟨_, _, _, rfl⟩
    · exact .inl rfl
  · exact .inr ⟨_, _, _, rfl⟩
  · exact .inl rfl
  · rename_i he; have := h2 he; omega
  · rename_i he; exact (h1 he).elim

/-- **C47**, partial: if the callback does not fail, there is no NUL in the text and the text does not end in a backslash, then
the parser reports success or an error, and reads nothing outside the text.

What is missing: `C47_backslash` reads the byte behind the text, `C47_nul` computes a pointer before the path, and
`C47_root_number` shows that the callback of `JSON.parse` can fail. -/
theorem C47_partial {σ : Type} (cb : σ → Event → Option σ) (d : Nat) (text : List UInt8) (c : σ) (ht : text.length < 2 ^ 31)
    (hd : text.length < d) (hcb : ∀ c e, cb c e ≠ none) (h0 : (0 : UInt8) ∉ text) (hl : text.getLast? ≠ some 92) :
    (∃ s, walk cb d text c = .ok s ∧ ∃ used, used ≠ [] ∧ text = used ++ s.rest) ∨ ∃ e c', walk cb d text c = .err e c' := by
  have ⟨h1, h2, h3⟩ := C47_ends cb d text c ht
  have h4 : walk cb d text c ≠ .ub := by
    unfold walk
    split
    · intro h; cases h
    have h := parseValue_good (cb := cb) (B := False) (fun ⟨c, e, h⟩ => hcb c e h) ht h0 hl d ⟨text, [], none, c⟩ at_start
    intro hu
    rw [hu] at h
    exact h
  generalize hr : walk cb d text c = r at h1 h2 h3 h4
  cases r with
  | ok s => exact .inl ⟨s, rfl, h3 s rfl⟩
  | err e c' => exact .inr ⟨e, c', rfl⟩
  | ub => exact (h4 rfl).elim
  | deep => have := h2 rfl; omega
  | endless => exact (h1 rfl).elim

/-- A callback that only counts. -/
def counting (n : Nat) (_ : Event) : Option Nat := some (n + 1)

/-- Non-vacuity: `[1,{"a":"\n"} ]x` is parsed with six callbacks and leaves `x`. -/
example : ∃ s, walk counting 20 [91, 49, 44, 123, 34, 97, 34, 58, 34, 92, 110, 34, 125, 32, 93, 120] 0 = .ok s ∧
    s.rest = [120] ∧ s.ctx = 6 := ⟨_, rfl, rfl, rfl⟩

/-- Non-vacuity: `[1` is incomplete, `[}` is invalid. -/
example : walk counting 20 [91, 49] 0 = .err .incomplete 2 ∧ walk counting 20 [91, 125] 0 = .err .invalid 1 := ⟨rfl, rfl⟩

/-- The code violates C47: of the text `"\` — a quote and a backslash — the byte behind the text is read
(frozen.c:243-245 tests the length of the character, not of the escape). -/
theorem C47_backslash {σ : Type} (cb : σ → Event → Option σ) (c : σ) : walk cb 3 [34, 92] c = .ub := by rfl

/-- The code violates C47: a NUL is accepted as the second byte of a two-byte character in a key; then the end of the path is
looked for at the wrong place (frozen.c:306), and for the eleventh element of the array the name begins before the
path. -/
theorem C47_nul : walk counting 20 ([123, 34, 194, 0, 34, 58, 91] ++ (List.replicate 11 [49, 44]).flatten ++ [93, 125]) 0 = .ub :=
  isUb_eq (by decide +kernel)

/-- The code violates C47: `JSON.parse("12")` reads behind its copy of the text, which has no terminating NUL
(mjs_json.c:352 calls `strtod`). -/
theorem C47_root_number (E : Exec.Env) (h : Obj.Heap) (al : Nat → Obj.Allocs) : parse E 3 h al [49, 50] = .ub := by rfl

end Mjs.Props
