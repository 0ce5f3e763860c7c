import Verif.Props.Parse

/-!
# C62: texts that the parser takes wrongly

Concrete source texts; each statement holds for every amount of room for nested C calls from 60 on.
-/

namespace Mjs.Props
open Mjs Mjs.Str Mjs.Obj Mjs.Core Mjs.Code Mjs.Sem Mjs.Exec Mjs.Tok Mjs.Grammar Mjs.Parse Mjs.Parser

/-- Two results that are the same code. -/
def sameCode : Parsed → Parsed → Bool
  | .code a, .code b => a == b
  | _, _ => false

theorem sameCode_eq : ∀ {p q : Parsed}, sameCode p q = true → ∃ c, p = .code c ∧ q = .code c
  | .code a, .code b, h => ⟨a, rfl, by rw [show a = b by simpa [sameCode] using h]⟩

theorem same_code {E : Env} {d : Nat} {path src src' : List UInt8} (h : sameCode (parseScript E 60 path src) (parseScript E 60 path src') = true)
    (hd : 60 ≤ d) : ∃ c, parseScript E d path src = .code c ∧ parseScript E d path src' = .code c := by
  obtain ⟨c, h1, h2⟩ := sameCode_eq h
  refine ⟨c, ?_, ?_⟩
  · rw [parseScript_mono hd (by rw [h1]; exact fun h => by cases h), h1]
  · rw [parseScript_mono hd (by rw [h2]; exact fun h => by cases h), h2]

/-- Two results that are code, the second of one byte more. -/
def oneMore : Parsed → Parsed → Bool
  | .code a, .code b => a.length + 1 == b.length
  | _, _ => false

theorem one_more {E : Env} {d : Nat} {path src src' : List UInt8} (h : oneMore (parseScript E 60 path src) (parseScript E 60 path src') = true)
    (hd : 60 ≤ d) : ∃ c c', parseScript E d path src = .code c ∧ parseScript E d path src' = .code c' ∧ c.length + 1 = c'.length := by
  cases h1 : parseScript E 60 path src with
  | code c =>
    cases h2 : parseScript E 60 path src' with
    | code c' =>
      rw [h1, h2] at h
      refine ⟨c, c', ?_, ?_, by simpa [oneMore] using h⟩
      · rw [parseScript_mono hd (by rw [h1]; exact fun h => by cases h), h1]
      · rw [parseScript_mono hd (by rw [h2]; exact fun h => by cases h), h2]
    | _ => rw [h1, h2] at h; cases h
  | _ => rw [h1] at h; cases h

variable {d : Nat} (hd : 60 ≤ d)
include hd

/-- **C62, negation.** `else` after a statement that ends in a semicolon is a syntax error. -/
theorem C62_else_rejected : parseScript numEnv d [] (txt "if (a) b; else c;") = .error := rejected (by decide +kernel) hd

/-- **C62, negation.** A `let` at the end of a block needs a semicolon. -/
theorem C62_let_needs_semicolon : parseScript numEnv d [] (txt "{ let x = 1 }") = .error := rejected (by decide +kernel) hd

/-- **C62, negation.** The parser decides by the second token whether a branch of `if` is a block, so an object cannot be
returned there. -/
theorem C62_return_object_rejected : parseScript numEnv d [] (txt "if (x) return {a: 1};") = .error := rejected (by decide +kernel) hd

/-- **C62, negation.** Arguments without a comma between them are taken as two arguments. -/
theorem C62_arguments_without_comma :
    ∃ c, parseScript numEnv d [] (txt "f(1 2);") = .code c ∧ parseScript numEnv d [] (txt "f(1, 2);") = .code c :=
  same_code (by decide +kernel) hd

/-- **C62, negation.** So are the elements of an array. -/
theorem C62_elements_without_comma :
    ∃ c, parseScript numEnv d [] (txt "[1 2];") = .code c ∧ parseScript numEnv d [] (txt "[1, 2];") = .code c :=
  same_code (by decide +kernel) hd

/-- **C62, negation.** The body of a loop need not be closed. -/
theorem C62_unclosed_loop :
    ∃ c, parseScript numEnv d [] (txt "while (a) { b;") = .code c ∧ parseScript numEnv d [] (txt "while (a) { b; }") = .code c :=
  same_code (by decide +kernel) hd

/-- **C62, negation.** Numerals from 2^63 on are taken as -2^63. -/
theorem C62_large_numerals :
    ∃ c, parseScript numEnv d [] (txt "9223372036854775808;") = .code c ∧ parseScript numEnv d [] (txt "18446744073709551616;") = .code c :=
  same_code (by decide +kernel) hd

/-- **C62, negation.** A variable at the start of the line after `a++` is not read: the instruction is missing that the same
lines with a semicolon have. -/
theorem C62_line_after_increment : ∃ c c', parseScript numEnv d [] (txt "a++\nb;") = .code c ∧
    parseScript numEnv d [] (txt "a++;\nb;") = .code c' ∧ c.length + 1 = c'.length := one_more (by decide +kernel) hd

end Mjs.Props
