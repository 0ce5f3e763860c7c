import Verif.Spec.Grammar

/-!
# How operators group

A sequence of operands with binary operators between them, `a * b + c - d && e`, has many trees.  The right one has, below each
arithmetic, comparing or bitwise operator, on the left only operators that bind as strongly or more, and on the right only
operators that bind more strongly.  `&&` binds more weakly than these and `||` more weakly than `&&`.  Several `&&` in a row, or several
`||`, mean the same with either grouping (`C31_and_either_way`, `C31_or_either_way`); the tree here has them from right to left.
-/

namespace Mjs.Grammar
open Mjs Mjs.Code Mjs.Tok

/-- A binary operator. -/
inductive Oper where
  | bin (op : BinOp)
  | and
  | or
deriving DecidableEq

/-- Its token. -/
def Oper.tok : Oper → Nat
  | .bin op => op.tok.toNat
  | .and => LOGICAL_AND
  | .or => LOGICAL_OR

/-- How weakly it binds: 3 to 10 (`opLevel`), then `&&`, then `||`. -/
def Oper.level : Oper → Nat
  | .bin op => opLevel op
  | .and => 11
  | .or => 12

/-- An operand and its text. -/
structure Operand where
  expr : Expr
  text : List Token

/-- A tree of binary operators. -/
inductive Tree where
  | leaf (o : Operand)
  | node (op : Oper) (l r : Tree)

/-- The operands and operators as they stand in the text. -/
def Tree.first : Tree → Operand
  | .leaf o => o
  | .node _ l _ => l.first
def Tree.rest : Tree → List (Oper × Operand)
  | .leaf _ => []
  | .node op l r => l.rest ++ (op, r.first) :: r.rest

/-- The operator of a tree binds at least as strongly as level `l` (lower levels bind more strongly). -/
def Tree.Within (l : Nat) : Tree → Prop
  | .leaf _ => True
  | .node op _ _ => op.level ≤ l

/-- The standard grouping: stronger operators first, equal ones from left to right (`&&` and `||`: from right to left). -/
def Tree.Grouped : Tree → Prop
  | .leaf _ => True
  | .node (.bin op) l r => l.Grouped ∧ r.Grouped ∧ l.Within (opLevel op) ∧ r.Within (opLevel op - 1)
  | .node .and l r => l.Grouped ∧ r.Grouped ∧ l.Within 10 ∧ r.Within 11
  | .node .or l r => l.Grouped ∧ r.Grouped ∧ l.Within 11 ∧ r.Within 12

/-- The tree as an expression. -/
def Tree.expr : Tree → Expr
  | .leaf o => o.expr
  | .node (.bin op) l r => .bin op l.expr r.expr
  | .node .and l r => .and l.expr r.expr
  | .node .or l r => .or l.expr r.expr

/-- The text of a sequence. -/
def chainText (o : Operand) (rest : List (Oper × Operand)) : List Token :=
  o.text ++ (rest.map fun x => Token.sym x.1.tok :: x.2.text).flatten

/-- The parser's nesting count goes up by one with each operator, besides what the operands need. -/
def chainDepth (o : Operand) (rest : List (Oper × Operand)) : Nat :=
  leakE o.expr + spine o.expr + (rest.map fun x => 1 + leakE x.2.expr + spine x.2.expr).sum

/-- A text of a unary expression, a call, a literal, or of anything in parentheses, at any count up to `B`. -/
def IsOperand (B : Nat) (o : Operand) : Prop := ∀ D ≤ B, Text (fun D => WriteE D o.expr) (level o.expr) D 2 o.text

end Mjs.Grammar
