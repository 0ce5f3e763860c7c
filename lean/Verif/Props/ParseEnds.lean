import Verif.Lemmas.ParseEnds
import Verif.Props.Parse

/-!
# C36: parsing ends, with code or an error

`parseScript E d path src` is the model of `mjs_parse`; `d` is how many nested C calls there is room for.
-/

namespace Mjs.Props
open Mjs Mjs.Str Mjs.Obj Mjs.Core Mjs.Code Mjs.Sem Mjs.Exec Mjs.Tok Mjs.Grammar Mjs.Parse Mjs.Parser Mjs.Spec.Tok

/-- **C36, parsing ends.** For every C string, with room for a number of nested calls that is linear in its length, parsing
comes to an end with code or with a syntax error.  The exception is a source whose last byte is a digit: there the behaviour may
be undefined (see `C36_digit_at_end`). -/
theorem C36_ends_partial (E : Env) (path src : List UInt8) (h0 : (0 : UInt8) ∉ src) (d : Nat) (hd : 21 * src.length + 43 ≤ d) :
    (∃ code, parseScript E d path src = .code code) ∨ parseScript E d path src = .error ∨
      (parseScript E d path src = .ub ∧ ∃ c, src.getLast? = some c ∧ 48 ≤ c.toNat ∧ c.toNat ≤ 57) := by
  rcases parseScript_ends (E := E) (path := path) h0 hd with h | h | ⟨h, hn⟩
  · exact .inl h
  · exact .inr (.inl h)
  · refine .inr (.inr ⟨h, ?_⟩)
    unfold NoDigitEnd at hn
    cases hl : src.getLast? with
    | none => rw [hl] at hn; exact absurd (fun c h => by cases h) hn
    | some c =>
      refine ⟨c, rfl, ?_⟩
      cases hc : isDigit c with
      | true => exact (isDigit_iff c).1 hc
      | false => rw [hl] at hn; exact absurd (fun c' h => by cases h; exact hc) hn

/-- **C36, the result is the same with more room.** With less room than needed parsing fails only by using up the stack. -/
theorem C36_result_unique (E : Env) (path src : List UInt8) (d d' : Nat) (h : d ≤ d') :
    parseScript E d path src = .deep ∨ parseScript E d' path src = parseScript E d path src := by
  cases hd : parseScript E d path src with
  | deep => exact .inl rfl
  | _ => exact .inr (by rw [parseScript_mono h (by rw [hd]; exact fun h => by cases h), hd])

/-- `;` after the digit: the hypotheses hold, and there is code. -/
example : ∃ code, parseScript numEnv 1000 [] (txt "1;") = .code code := by
  rcases C36_ends_partial numEnv [] (txt "1;") (by decide +kernel) 1000 (by decide +kernel) with h | h | ⟨_, c, h, _, h1⟩
  · exact h
  · have : isError (parseScript numEnv 1000 [] (txt "1;")) = false := by decide +kernel
    rw [h] at this; cases this
  · have h2 : (txt "1;").getLast? = some 59 := by decide +kernel
    rw [h2] at h
    cases h
    exact absurd h1 (by decide)

/-- A syntax error. -/
example (d : Nat) (hd : 60 ≤ d) : parseScript numEnv d [] (txt "if (a) b; else c;") = .error := rejected (by decide +kernel) hd

/-! ## Where it fails -/

/-- **C36, negation: a digit at the end.** A source that ends in a numeral of one digit makes the parser read behind the
terminating NUL. -/
theorem C36_digit_at_end (E : Env) (d : Nat) (hd : 30 ≤ d) : parseScript E d [] (txt "1") = .ub := by
  have h : parseScript E 30 [] (txt "1") = .ub := by rfl
  rw [parseScript_mono hd (by rw [h]; exact fun h => by cases h), h]

/-- **C36, negation: blocks in sequence.** A program of 513 empty blocks, one after the other, is a syntax error: the
parser counts the blocks it has seen, not the nesting. -/
theorem C36_blocks_rejected (d : Nat) (hd : 30 ≤ d) : parseScript numEnv d [] (List.replicate 513 (txt "{}")).flatten = .error :=
  rejected (by decide +kernel) hd

/-- `!!!…!` -/
def nots (n : Nat) : List UInt8 := List.replicate n 33

theorem nots_ops : ∀ o ∈ operators, (∀ c ∈ text o.1, c = 33) → o.2 = NOT ∧ (text o.1).length = 1 := by decide +kernel

theorem nots_nul (n : Nat) : (0 : UInt8) ∉ nots n := fun h => by have := List.eq_of_mem_replicate h; revert this; decide

theorem nots_next {n : Nat} {st : Tok.State} (hp : st.pos < n) :
    ∃ st', pnext (nots n) st = some st' ∧ st'.tok = NOT ∧ st'.pos = st.pos + 1 := by
  have hd : (nots n).drop st.pos = [] ++ nots (n - st.pos) := by simp [nots]
  have hl : (nots n).length = n := by simp [nots]
  have hr : nots (n - st.pos) = 33 :: nots (n - st.pos - 1) := by
    unfold nots
    rw [← List.replicate_succ]; congr 1; omega
  have hg : GapThen [] (nots (n - st.pos)) := by
    refine .done _ ?_
    rw [hr]
    refine ⟨fun c hc => ?_, ?_, ?_⟩
    · cases hc; unfold Blank; decide
    · rintro ⟨u, hu⟩; cases hu
    · rintro ⟨u, hu⟩; cases hu
  obtain ⟨st', h1, ⟨⟨o, ho, hpre, e1, e2⟩, _⟩, h3, h4⟩ := C29_longest_match_partial (nots n) (nots_nul n) st (by omega) [] _ hd hg
    ⟨("!", 22), by decide, by rw [hr]; exact ⟨nots (n - st.pos - 1), rfl⟩⟩ (by rw [hr]; rintro ⟨u, hu⟩; cases hu)
  have hall : ∀ c ∈ text o.1, c = 33 := fun c hc => List.eq_of_mem_replicate (hpre.subset hc)
  obtain ⟨h5, h6⟩ := nots_ops o ho hall
  refine ⟨st', h1, e1.symm.trans h5, ?_⟩
  rw [h4, h3, ← e2, h6]
  simp

theorem bind_deep {α β : Type} {m : M α} {f : α → M β} {s : PS} (h : m s = .deep) : (m >>= f) s = .deep := by
  show M.bind m f s = _
  unfold M.bind
  rw [h]

theorem attempt_deep {m : M Unit} {s : PS} (h : m s = .deep) : attempt m s = .deep := by
  unfold attempt
  rw [h]

/-- Before an operand of the last `d` or more. -/
structure AtNot (n d : Nat) (s : PS) : Prop where
  tok : s.tk.tok = NOT
  pos : s.tk.pos + d ≤ n

theorem deep_unary {E : Env} {n : Nat} : ∀ (d : Nat) (s : PS), AtNot n d s → parse E (nots n) d .unary s = .deep
  | 0, _, _ => rfl
  | d + 1, s, h => by
    obtain ⟨t', h1, h2, h3⟩ := nots_next (n := n) (st := s.tk) (by have := h.pos; omega)
    have ht : s.tok = NOT := h.tok
    show parseUnary (nots n) (parse E (nots n) d) s = _
    unfold parseUnary
    show (Parser.when (findtok unaryOps s.tok ≠ EOF) (next (nots n)) >>= _) s = _
    have hn : Parser.when (findtok unaryOps s.tok ≠ EOF) (next (nots n)) s = .ok () { s with tk := t' } := by
      rw [ht]
      show next (nots n) s = _
      unfold Parser.next
      rw [h1]
    rw [bind_ok hn]
    have hu := deep_unary (E := E) d { s with tk := t' } ⟨h2, by show t'.pos + d ≤ n; have := h.pos; omega⟩
    show (parse E (nots n) d (if findtok unaryOps t'.tok ≠ EOF then .unary else .postfix) >>= _) { s with tk := t' } = _
    rw [h2]
    exact bind_deep hu

theorem deep_binop {E : Env} {n : Nat} (p : Nat) : ∀ (l d : Nat) (s : PS), AtNot n d s → s.depth + l < 512 →
    parse E (nots n) d (.binop l p) s = .deep
  | _, 0, _, _, _ => rfl
  | l, d + 1, s, h, hdep => by
    show ltrBinop (nots n) (parse E (nots n) d (if l = 0 then .unary else .binop (l - 1) EOF)) (fun op => parse E (nots n) d (.binop l op)) (levelOps l) p s = _
    unfold ltrBinop
    show (attempt _ >>= _) { s with depth := s.depth + 1 } = _
    refine bind_deep (attempt_deep ?_)
    have htd : tooDeep { s with depth := s.depth + 1 } = false := by
      show decide (512 < s.depth + 1) = false
      exact decide_eq_false (by omega)
    rw [htd]
    refine bind_deep ?_
    have ha : AtNot n d { s with depth := s.depth + 1 } := ⟨h.tok, by show s.tk.pos + d ≤ n; have := h.pos; omega⟩
    cases l with
    | zero => exact deep_unary d _ ha
    | succ l => exact deep_binop EOF l d _ ha (by show s.depth + 1 + l < 512; omega)

theorem deep_expr {E : Env} {n : Nat} (d : Nat) (s : PS) (h : AtNot n d s) (hdep : s.depth ≤ 500) : parse E (nots n) d .expr s = .deep := by
  have key (d : Nat) (hle : d ≤ n - s.tk.pos) : parse E (nots n) d (.binop 9 EOF) s = .deep :=
    deep_binop EOF 9 d s ⟨h.tok, by have := h.pos; omega⟩ (by omega)
  have hp := h.pos
  match d, hp with
  | 0, _ => rfl
  | 1, _ => rfl
  | 2, _ => exact bind_deep rfl
  | d + 3, hp => exact bind_deep (bind_deep (key d (by omega)))

/-- **C36, negation: the C stack.** However much room there is for nested calls, there is a source text that uses it up:
prefix operators are not counted as nesting. -/
theorem C36_stack_exhausted (E : Env) (path : List UInt8) (d : Nat) : parseScript E d path (nots (d + 1)) = .deep := by
  have hp : ∀ d', d' ≤ d → parse E (nots (d + 1)) d' (.stmtList EOF) (initial path) = .deep := by
    intro d' hd
    cases d' with
    | zero => rfl
    | succ d' =>
      obtain ⟨t', h1, h2, h3⟩ := nots_next (n := d + 1) (st := (initial path).tk) (by show 0 < d + 1; omega)
      have h3 : t'.pos = 1 := h3
      have hn : next (nots (d + 1)) (initial path) = .ok () { initial path with tk := t' } := by
        unfold Parser.next
        rw [h1]
      show (Parser.next (nots (d + 1)) >>= fun _ => Parser.stmts (nots (d + 1)) (parse E (nots (d + 1)) d') EOF (rounds (nots (d + 1))) false) (initial path) = _
      rw [bind_ok hn]
      have ht : ({ initial path with tk := t' } : PS).tok = NOT := h2
      have hst : parse E (nots (d + 1)) d' .statement { initial path with tk := t' } = .deep := by
        cases d' with
        | zero => rfl
        | succ d' =>
          show parseStatement (nots (d + 1)) (parse E (nots (d + 1)) d') { initial path with tk := t' } = _
          unfold parseStatement
          show (if ({ initial path with tk := t' } : PS).tok = SEMICOLON then _ else _ : M Unit) { initial path with tk := t' } = _
          rw [ht]
          exact bind_deep (deep_expr d' _ ⟨h2, by show t'.pos + d' ≤ d + 1; omega⟩ (by show 0 ≤ 500; omega))
      show Parser.stmts (nots (d + 1)) (parse E (nots (d + 1)) d') EOF ((nots (d + 1)).length + 1 + 1) false { initial path with tk := t' } = _
      unfold Parser.stmts
      show (if ({ initial path with tk := t' } : PS).tok = EOF ∨ ({ initial path with tk := t' } : PS).tok = EOF then _ else _ : M Unit) { initial path with tk := t' } = _
      rw [ht]
      show (attempt (parse E (nots (d + 1)) d' .statement) >>= _) { initial path with tk := t' } = _
      exact bind_deep (attempt_deep hst)
  unfold parseScript
  have : (do parse E (nots (d + 1)) d (.stmtList EOF); emit EXIT) (initial path) = .deep := bind_deep (hp d (Nat.le_refl _))
  rw [this]

end Mjs.Props
