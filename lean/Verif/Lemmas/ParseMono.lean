import Verif.Model.Parser

/-!
# More C stack does not change what the parser does
-/

namespace Mjs.Parse
open Mjs Mjs.Tok Mjs.Exec Mjs.Code Mjs.Bcode Mjs.Parser

/-- `m` needs more stack, or does what `m'` does. -/
def Less {α : Type} (m m' : M α) : Prop := ∀ s, m s = .deep ∨ m s = m' s

theorem Less.rfl {α : Type} {m : M α} : Less m m := fun _ => .inr (Eq.refl _)

theorem Less.bind {α β : Type} {m m' : M α} {f f' : α → M β} (h : Less m m') (hf : ∀ a, Less (f a) (f' a)) : Less (m >>= f) (m' >>= f') := by
  intro s
  show M.bind m f s = .deep ∨ M.bind m f s = M.bind m' f' s
  unfold M.bind
  rcases h s with h | h
  · rw [h]; exact .inl (Eq.refl _)
  · rw [h]
    cases m' s with
    | ok a s' => exact hf a s'
    | err _ => exact .inr (Eq.refl _)
    | ub => exact .inr (Eq.refl _)
    | deep => exact .inr (Eq.refl _)
    | endless => exact .inr (Eq.refl _)

theorem Less.attempt {m m' : M Unit} (h : Less m m') : Less (attempt m) (attempt m') := by
  intro s
  unfold Parser.attempt
  rcases h s with h | h
  · rw [h]; exact .inl (Eq.refl _)
  · rw [h]; exact .inr (Eq.refl _)

theorem Less.when {c : Bool} {m m' : M Unit} (h : Less m m') : Less (Parser.when c m) (Parser.when c m') := by
  cases c
  · exact .rfl
  · exact h

theorem Less.ite {α : Type} {c : Prop} [Decidable c] {a a' b b' : M α} (ha : Less a a') (hb : Less b b') :
    Less (if c then a else b) (if c then a' else b') := by
  split
  · exact ha
  · exact hb

theorem Less.loop {c : PS → Bool} {m m' : M Unit} (h : Less m m') : ∀ n, Less (Parser.loop c m n) (Parser.loop c m' n)
  | 0 => .rfl
  | n + 1 => by
    intro s
    simp only [Parser.loop]
    cases c s
    · exact .inr (Eq.refl _)
    · exact Less.bind h (fun _ => Less.loop h n) s

theorem Less.trans {α : Type} {a b c : M α} (h : Less a b) (h' : Less b c) : Less a c := by
  intro s
  rcases h s with h | h
  · exact .inl h
  · rw [h]; exact h' s

section
variable {E : Env} {src : List UInt8} {r r' : NT → M Unit} (h : ∀ nt, Less (r nt) (r' nt))
include h

local macro "less" : tactic => `(tactic| with_reducible repeat (first
  | exact h _ | exact Less.rfl | exact Less.loop (by assumption) _
  | refine Less.bind ?_ (fun _ => ?_) | refine Less.attempt ?_ | refine Less.when ?_ | refine Less.ite ?_ ?_ | refine Less.loop ?_ _
  | (split)))

omit h in
theorem less_ltr {f1 f1' : M Unit} {f2 f2' : Nat → M Unit} (h1 : Less f1 f1') (h2 : ∀ p, Less (f2 p) (f2' p)) (ops : List Nat) (prev : Nat) :
    Less (ltrBinop src f1 f2 ops prev) (ltrBinop src f1' f2' ops prev) := by
  unfold ltrBinop
  with_reducible repeat (first | exact h1 | exact h2 _ | exact Less.rfl | refine Less.bind ?_ (fun _ => ?_) | refine Less.attempt ?_ | refine Less.when ?_ | refine Less.ite ?_ ?_)

theorem less_stmts (et : Nat) : ∀ n drop, Less (stmts src r et n drop) (stmts src r' et n drop)
  | 0, _ => by unfold stmts; exact .rfl
  | n + 1, drop => by
    have ih := less_stmts et n
    unfold stmts
    with_reducible repeat (first | exact ih _ | exact h _ | exact Less.rfl | refine Less.bind ?_ (fun _ => ?_) | refine Less.attempt ?_ | refine Less.when ?_ | refine Less.ite ?_ ?_)

theorem less_lets : ∀ n, Less (lets src r n) (lets src r' n)
  | 0 => by unfold lets; exact .rfl
  | n + 1 => by
    have ih := less_lets n
    unfold lets
    with_reducible repeat (first | exact ih | exact h _ | exact Less.rfl | refine Less.bind ?_ (fun _ => ?_) | refine Less.attempt ?_ | refine Less.when ?_ | refine Less.ite ?_ ?_)

theorem less_exprs : ∀ n, Less (exprs src r n) (exprs src r' n)
  | 0 => by unfold exprs; exact .rfl
  | n + 1 => by
    have ih := less_exprs n
    unfold exprs
    with_reducible repeat (first | exact ih | exact h _ | exact Less.rfl | refine Less.bind ?_ (fun _ => ?_) | refine Less.attempt ?_ | refine Less.when ?_ | refine Less.ite ?_ ?_)

theorem less_body : ∀ nt, Less (body E src r nt) (body E src r' nt)
  | .stmtList et => by simp only [body]; unfold parseStmtList; exact .bind .rfl fun _ => less_stmts h _ _ _
  | .block mk => by simp only [body]; unfold parseBlock; less
  | .function => by simp only [body]; unfold parseFunction; less
  | .object => by simp only [body]; unfold parseObject; less
  | .array => by simp only [body]; unfold parseArray; less
  | .literal => by simp only [body]; unfold parseLiteral; less
  | .callDotMem => by simp only [body]; unfold parseCallDotMem; less
  | .postfix => by simp only [body]; unfold parsePostfix; less
  | .unary => by simp only [body]; unfold parseUnary; less
  | .binop l prev => less_ltr (h _) (fun _ => h _) _ _
  | .ternary prev => by simp only [body]; unfold parseTernary; less
  | .assignment => by simp only [body]; unfold parseAssignment; less
  | .expr => h _
  | .let_ => by simp only [body]; unfold parseLet; exact .bind .rfl fun _ => less_lets h _
  | .blockOrStmt cs => by simp only [body]; unfold parseBlockOrStmt; less
  | .forIn => by simp only [body]; unfold parseForIn parseBody; less
  | .for_ => by simp only [body]; unfold parseFor parseBody; less
  | .while_ => by simp only [body]; unfold parseWhile parseBody; less
  | .if_ => by simp only [body]; unfold parseIf; less
  | .return_ => by simp only [body]; unfold parseReturn; less
  | .statement => by
    simp only [body]; unfold parseStatement
    with_reducible repeat (first | exact less_exprs h _ | exact h _ | exact Less.rfl | refine Less.bind ?_ (fun _ => ?_) | refine Less.ite ?_ ?_)
end

theorem less_step (E : Env) (src : List UInt8) : ∀ d nt, Less (parse E src d nt) (parse E src (d + 1) nt)
  | 0, _ => fun _ => .inl (Eq.refl _)
  | d + 1, nt => less_body (less_step E src d) nt

theorem less_parse (E : Env) (src : List UInt8) {d d' : Nat} (h : d ≤ d') (nt : NT) : Less (parse E src d nt) (parse E src d' nt) := by
  induction h with
  | refl => exact .rfl
  | step _ ih => exact ih.trans (less_step E src _ nt)

/-- If the C stack suffices, more of it makes no difference. -/
theorem parseScript_mono {E : Env} {path src : List UInt8} {d d' : Nat} (h : d ≤ d') (hd : parseScript E d path src ≠ .deep) :
    parseScript E d' path src = parseScript E d path src := by
  have hl : Less (do parse E src d (.stmtList EOF); emit EXIT) (do parse E src d' (.stmtList EOF); emit EXIT) :=
    .bind (less_parse E src h _) fun _ => .rfl
  unfold parseScript at hd ⊢
  rcases hl (initial path) with hl | hl
  · rw [hl] at hd; exact absurd (Eq.refl _) hd
  · rw [hl]

end Mjs.Parse
