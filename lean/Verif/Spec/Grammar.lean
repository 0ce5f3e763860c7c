import Verif.Model.Parser

/-!
# The grammar

Which token sequences are a text of an expression or statement.  `WriteE D e ts` says that `ts` writes the expression `e` (a
tree, `Model/Code.lean`), without parentheses around the whole of it.  Precedence and grouping are in the levels: `level e` is
how weakly `e` binds, and where a construct asks for an operand of level `l` and the operand binds more weakly, it must be in
parentheses (`Text`).

The parser counts nesting and gives up beyond 512.  `D` is this count where the text begins; `leakE e` and so on are by how much
it has grown where the text ends (it grows with every block and function body, and is never lowered again).

Some things the parser accepts beyond this grammar (missing commas in lists, for example) are left out.
-/

namespace Mjs.Grammar
open Mjs Mjs.Code Mjs.Tok Mjs.Exec

/-- Tokens. -/
inductive Token where
  /-- a keyword, an operator, a punctuation character, or the end (0) -/
  | sym (k : Nat)
  | ident (x : Name)
  /-- a string literal: the text between the quotes, and the bytes it stands for -/
  | str (raw bs : List UInt8)
  /-- a numeral with an integer value -/
  | int (n : Nat)
  /-- any other numeral -/
  | dbl (text : List UInt8)
deriving DecidableEq, Repr

/-- The number of the token. -/
def Token.kind : Token → Nat
  | .sym k => k
  | .ident _ => IDENT
  | .str _ _ => STR
  | .int _ => NUM
  | .dbl _ => NUM

/-- Levels of the binary operators: multiplicative 3, additive 4, shifts 5, comparisons 6, equality 7, `&` 8, `^` 9, `|` 10. -/
def opLevel : BinOp → Nat
  | .mul => 3 | .div => 3 | .rem => 3
  | .add => 4 | .sub => 4
  | .shl => 5 | .shr => 5 | .ushr => 5
  | .lt => 6 | .le => 6 | .gt => 6 | .ge => 6
  | .eq => 7 | .ne => 7 | .eqq => 7 | .nee => 7
  | .band => 8
  | .bxor => 9
  | .bor => 10

/-- How weakly an expression binds: 0 for literals, variables, members and calls; 1 for `x++`; 2 for prefix operators; then the
binary operators; 11 `&&`, 12 `||`, 13 `? :`, 14 assignments. -/
def level : Expr → Nat
  | .incr post _ _ => if post then 1 else 2
  | .un _ _ => 2
  | .bin op _ _ => opLevel op
  | .and _ _ => 11
  | .or _ _ => 12
  | .cond _ _ _ => 13
  | .assign _ _ _ => 14
  | _ => 0

/-- The number of binary operators down the left side. -/
def spine : Expr → Nat
  | .bin _ a _ => spine a + 1
  | _ => 0

mutual
/-- The blocks and function bodies in an expression. -/
def leakE : Expr → Nat
  | .get l => leakL l
  | .obj ps => leakProps ps
  | .arr es => leakEs es
  | .func _ _ _ body => 1 + leakSs body
  | .call f args => leakE f + leakEs args
  | .un _ e => leakE e
  | .incr _ _ l => leakL l
  | .bin _ a b => leakE a + leakE b
  | .and a b => leakE a + leakE b
  | .or a b => leakE a + leakE b
  | .cond c a b => leakE c + leakE a + leakE b
  | .assign _ l e => leakL l + leakE e
  | _ => 0
def leakL : Lval → Nat
  | .var _ => 0
  | .dot e _ => leakE e
  | .index e k => leakE e + leakE k
def leakEs : List Expr → Nat
  | [] => 0
  | e :: es => leakE e + leakEs es
def leakProps : List (Name × Expr) → Nat
  | [] => 0
  | (_, e) :: ps => leakE e + leakProps ps
def leakO : Option Expr → Nat
  | none => 0
  | some e => leakE e
def leakLets : List (Name × Option Expr) → Nat
  | [] => 0
  | (_, i) :: ds => leakO i + leakLets ds
def leakS : Stmt → Nat
  | .empty => 0
  | .exprs e es => leakE e + leakEs es
  | .lets _ i ds => leakO i + leakLets ds
  | .block ss => 1 + leakSs ss
  | .ite c s => leakE c + leakS s
  | .itee c s t => leakE c + leakS s + leakS t
  | .while c body => leakE c + leakSs body
  | .for init c inc body => leakS init + leakE c + leakE inc + leakSs body
  | .forIn _ _ e body => leakE e + leakSs body
  | .break => 0
  | .continue => 0
  | .ret i => leakO i
def leakSs : List Stmt → Nat
  | [] => 0
  | s :: ss => leakS s + leakSs ss
end

/-- A text at a place for expressions of level `l`, of an expression of level `lv` that `write` tells how to write: any number of
parentheses around, at least one if the expression binds more weakly.  Each pair, as each expression, takes ten levels of the
parser's 512. -/
def Text (write : Nat → List Token → Prop) (lv D l : Nat) (ts : List Token) : Prop :=
  ∃ k ts', write (D + 10 * k) ts' ∧ (l < lv → 0 < k) ∧ D + 10 * k ≤ 502 ∧
    ts = List.replicate k (.sym OPEN_PAREN) ++ ts' ++ List.replicate k (.sym CLOSE_PAREN)

/-- Tokens that would continue an expression: members, calls, operators of any kind. -/
def continues : List Nat :=
  [DOT, OPEN_PAREN, OPEN_BRACKET, PLUS_PLUS, MINUS_MINUS, MUL, DIV, REM, PLUS, MINUS, LSHIFT, RSHIFT, URSHIFT, Tok.LT, Tok.LE, GT, GE,
   EQ, NE, EQ_EQ, NE_NE, AND, XOR, OR, LOGICAL_AND, LOGICAL_OR, QUESTION, ASSIGN, PLUS_ASSIGN, MINUS_ASSIGN, MUL_ASSIGN,
   DIV_ASSIGN, REM_ASSIGN, LSHIFT_ASSIGN, RSHIFT_ASSIGN, URSHIFT_ASSIGN, AND_ASSIGN, XOR_ASSIGN, OR_ASSIGN]

/-- The number of the first token of `ts`, or `f` if there is none. -/
def firstKind (ts : List Token) (f : Nat) : Nat := (ts.head?.map Token.kind).getD f

/-- The number of the last token of `ts`, or `p` if there is none. -/
def lastKind (p : Nat) (ts : List Token) : Nat := (ts.getLast?.map Token.kind).getD p

/-- Names of parameters, separated by commas. -/
def WriteParams : List Name → List Token → Prop
  | [], ts => ts = []
  | [p], ts => ts = [.ident p]
  | p :: ps, ts => ∃ t1, WriteParams ps t1 ∧ ts = .ident p :: .sym COMMA :: t1

/-- What follows an item of a list: nothing or a comma at the end, a comma and the other items otherwise. -/
def Then (last : Prop) (rest : List Token → Prop) (ts : List Token) : Prop :=
  (last ∧ (ts = [] ∨ ts = [.sym COMMA])) ∨ (¬ last ∧ ∃ t, rest t ∧ ts = .sym COMMA :: t)

/-- The body of a loop: statements in braces, or one statement. -/
def Body (list one : List Token → Prop) (ts : List Token) : Prop :=
  (∃ t, list t ∧ ts = .sym OPEN_CURLY :: t ++ [.sym CLOSE_CURLY]) ∨ (one ts ∧ firstKind ts 0 ≠ OPEN_CURLY)

/-- The branches of `if`: the parser takes a branch whose second token is an opening brace for a block, so such a branch must be
one. -/
def Branch (f : Nat) (ts : List Token) : Prop := firstKind ts f = OPEN_CURLY ∨ firstKind (ts.drop 1) f ≠ OPEN_CURLY

mutual
/-- `ts` writes the expression, where the parser's count is `D`. -/
def WriteE (D : Nat) : Expr → List Token → Prop
  | .int n, ts => ts = [.int n]
  | .dbl x, ts => ts = [.dbl x]
  | .str bs, ts => ∃ raw, ts = [.str raw bs]
  | .tru, ts => ts = [.sym KW_TRUE]
  | .fls, ts => ts = [.sym KW_FALSE]
  | .null, ts => ts = [.sym KW_NULL]
  | .undef, ts => ts = [.sym KW_UNDEFINED]
  | .this, ts => ts = [.sym KW_THIS]
  | .get l, ts => WriteL D l ts
  | .obj ps, ts => ∃ t, WriteProps (D + 10) ps t ∧ ts = .sym OPEN_CURLY :: t ++ [.sym CLOSE_CURLY]
  | .arr es, ts => ∃ t, WriteEs (D + 10) es t ∧ ts = .sym OPEN_BRACKET :: t ++ [.sym CLOSE_BRACKET]
  | .func _ name ps body, ts =>
    ∃ tp tb, WriteParams ps tp ∧ WriteSs (D + 11) CLOSE_CURLY body tb ∧ D + 11 ≤ 512 ∧
      ts = .sym KW_FUNCTION :: (match name with | none => [] | some x => [.ident x]) ++ .sym OPEN_PAREN :: tp ++
        .sym CLOSE_PAREN :: .sym OPEN_CURLY :: tb ++ [.sym CLOSE_CURLY]
  | .call f args, ts =>
    ∃ tf ta, Text (fun D => WriteE D f) (level f) D 0 tf ∧ WriteEs (D + 10 + leakE f) args ta ∧
      ts = tf ++ .sym OPEN_PAREN :: ta ++ [.sym CLOSE_PAREN]
  | .un op e, ts =>
    ∃ t, Text (fun D => WriteE D e) (level e) D 2 t ∧
      ts = .sym (match op with | .not => NOT | .tilda => TILDA | .typeof => KW_TYPEOF | .minus => MINUS | .plus => PLUS) :: t
  -- the parser does not handle `++` and `--` before anything but a variable
  | .incr post plus l, ts =>
    ∃ t, WriteL D l t ∧
      if post then ts = t ++ [.sym (if plus then PLUS_PLUS else MINUS_MINUS)]
      else (∃ x, l = .var x) ∧ ts = .sym (if plus then PLUS_PLUS else MINUS_MINUS) :: t
  -- left to right
  | .bin op a b, ts =>
    ∃ ta tb, Text (fun D => WriteE D a) (level a) D (opLevel op) ta ∧
      Text (fun D => WriteE D b) (level b) (D + spine a + 1 + leakE a) (opLevel op - 1) tb ∧ ts = ta ++ .sym op.tok.toNat :: tb
  | .and a b, ts =>
    ∃ ta tb, Text (fun D => WriteE D a) (level a) D 10 ta ∧
      Text (fun D => WriteE D b) (level b) (D + 1 + leakE a) 11 tb ∧ ts = ta ++ .sym LOGICAL_AND :: tb
  | .or a b, ts =>
    ∃ ta tb, Text (fun D => WriteE D a) (level a) D 11 ta ∧
      Text (fun D => WriteE D b) (level b) (D + 1 + leakE a) 12 tb ∧ ts = ta ++ .sym LOGICAL_OR :: tb
  | .cond c a b, ts =>
    ∃ tc ta tb, Text (fun D => WriteE D c) (level c) D 12 tc ∧ Text (fun D => WriteE D a) (level a) (D + leakE c) 13 ta ∧
      Text (fun D => WriteE D b) (level b) (D + leakE c + leakE a) 13 tb ∧
      ts = tc ++ .sym QUESTION :: ta ++ .sym COLON :: tb
  | .assign op l e, ts =>
    ∃ tl te, WriteL D l tl ∧ Text (fun D => WriteE D e) (level e) (D + leakL l) 14 te ∧ assignTok op ≠ 0 ∧
      ts = tl ++ .sym (assignTok op).toNat :: te
/-- What can be assigned to. -/
def WriteL (D : Nat) : Lval → List Token → Prop
  | .var x, ts => ts = [.ident x]
  | .dot e x, ts => ∃ t, Text (fun D => WriteE D e) (level e) D 0 t ∧ ts = t ++ [.sym DOT, .ident x]
  | .index e k, ts =>
    ∃ te tk, Text (fun D => WriteE D e) (level e) D 0 te ∧
      Text (fun D => WriteE D k) (level k) (D + 10 + leakE e) 14 tk ∧ ts = te ++ .sym OPEN_BRACKET :: tk ++ [.sym CLOSE_BRACKET]
/-- Arguments, or items of an array: separated by commas; one more may follow. -/
def WriteEs (D : Nat) : List Expr → List Token → Prop
  | [], ts => ts = []
  | e :: es, ts =>
    ∃ t1 t2, Text (fun D => WriteE D e) (level e) D 14 t1 ∧ Then (es = []) (WriteEs (D + leakE e) es) t2 ∧ ts = t1 ++ t2
/-- Members of an object.  A name may be in quotes; escape sequences in it are not decoded. -/
def WriteProps (D : Nat) : List (Name × Expr) → List Token → Prop
  | [], ts => ts = []
  | (x, e) :: ps, ts =>
    ∃ key t1 t2, (key = .ident x ∨ ∃ bs, key = .str x bs) ∧ Text (fun D => WriteE D e) (level e) D 14 t1 ∧
      Then (ps = []) (WriteProps (D + leakE e) ps) t2 ∧ ts = key :: .sym COLON :: t1 ++ t2
/-- Expressions after a comma. -/
def WriteMore (D : Nat) : List Expr → List Token → Prop
  | [], ts => ts = []
  | e :: es, ts =>
    ∃ t1 t2, Text (fun D => WriteE D e) (level e) D 14 t1 ∧ WriteMore (D + leakE e) es t2 ∧ ts = .sym COMMA :: t1 ++ t2
/-- The value of a declaration. -/
def WriteInit (D : Nat) : Option Expr → List Token → Prop
  | none, ts => ts = []
  | some e, ts => ∃ t, Text (fun D => WriteE D e) (level e) D 14 t ∧ ts = .sym ASSIGN :: t
/-- Declarations after a comma. -/
def WriteLets (D : Nat) : List (Name × Option Expr) → List Token → Prop
  | [], ts => ts = []
  | (x, i) :: ds, ts =>
    ∃ t1 t2, WriteInit D i t1 ∧ WriteLets (D + leakO i) ds t2 ∧ ts = .sym COMMA :: .ident x :: t1 ++ t2
/-- `ts`, followed by a token of number `f`, writes the statement. -/
def WriteS (D f : Nat) : Stmt → List Token → Prop
  | .empty, ts => ts = [.sym SEMICOLON]
  -- an expression that begins with a brace is not a statement, it would be a block
  | .exprs e es, ts =>
    ∃ t1 t2, Text (fun D => WriteE D e) (level e) D 14 t1 ∧ WriteMore (D + leakE e) es t2 ∧ ts = t1 ++ t2 ∧
      firstKind ts 0 ≠ OPEN_CURLY ∧ f ∉ continues ∧ f ≠ COMMA
  -- a declaration needs its semicolon
  | .lets x i ds, ts =>
    ∃ t1 t2, WriteInit D i t1 ∧ WriteLets (D + leakO i) ds t2 ∧ ts = .sym KW_LET :: .ident x :: t1 ++ t2 ∧
      (f = SEMICOLON ∨ f = EOF)
  | .block ss, ts =>
    ∃ t, WriteSs (D + 1) CLOSE_CURLY ss t ∧ D + 1 ≤ 512 ∧ ts = .sym OPEN_CURLY :: t ++ [.sym CLOSE_CURLY]
  | .ite c s, ts =>
    ∃ tc t, Text (fun D => WriteE D c) (level c) D 14 tc ∧ WriteS (D + leakE c) f s t ∧ Branch f t ∧ f ≠ KW_ELSE ∧
      ts = .sym KW_IF :: .sym OPEN_PAREN :: tc ++ .sym CLOSE_PAREN :: t
  -- no semicolon before `else`
  | .itee c s t, ts =>
    ∃ tc t1 t2, Text (fun D => WriteE D c) (level c) D 14 tc ∧ WriteS (D + leakE c) KW_ELSE s t1 ∧ Branch KW_ELSE t1 ∧
      WriteS (D + leakE c + leakS s) f t t2 ∧ Branch f t2 ∧
      ts = .sym KW_IF :: .sym OPEN_PAREN :: tc ++ .sym CLOSE_PAREN :: t1 ++ .sym KW_ELSE :: t2
  | .while c body, ts =>
    ∃ tc tb, Text (fun D => WriteE D c) (level c) D 14 tc ∧ Body (WriteSs (D + leakE c) CLOSE_CURLY body) (WriteOne (D + leakE c) f body) tb ∧
      ts = .sym KW_WHILE :: .sym OPEN_PAREN :: tc ++ .sym CLOSE_PAREN :: tb
  -- all three parts must be there; the first is a declaration or one expression
  | .for init c inc body, ts =>
    ∃ ti tc tn tb, WriteS D SEMICOLON init ti ∧ ((∃ x i ds, init = .lets x i ds) ∨ (∃ e, init = .exprs e [])) ∧
      (ti.drop 1).head? ≠ some (.sym KW_IN) ∧
      Text (fun D => WriteE D c) (level c) (D + leakS init) 14 tc ∧
      Text (fun D => WriteE D inc) (level inc) (D + leakS init + leakE c) 14 tn ∧
      Body (WriteSs (D + leakS init + leakE c + leakE inc) CLOSE_CURLY body) (WriteOne (D + leakS init + leakE c + leakE inc) f body) tb ∧
      ts = .sym KW_FOR :: .sym OPEN_PAREN :: ti ++ .sym SEMICOLON :: tc ++ .sym SEMICOLON :: tn ++ .sym CLOSE_PAREN :: tb
  | .forIn isLet x e body, ts =>
    ∃ te tb, Text (fun D => WriteE D e) (level e) D 14 te ∧ Body (WriteSs (D + leakE e) CLOSE_CURLY body) (WriteOne (D + leakE e) f body) tb ∧
      ts = .sym KW_FOR :: .sym OPEN_PAREN :: (if isLet then [.sym KW_LET] else []) ++ .ident x :: .sym KW_IN :: te ++
        .sym CLOSE_PAREN :: tb
  | .break, ts => ts = [.sym KW_BREAK]
  | .continue, ts => ts = [.sym KW_CONTINUE]
  | .ret none, ts => ts = [.sym KW_RETURN] ∧ (f = SEMICOLON ∨ f = CLOSE_CURLY ∨ f = EOF)
  | .ret (some e), ts => ∃ t, Text (fun D => WriteE D e) (level e) D 14 t ∧ ts = .sym KW_RETURN :: t ∧ f ∉ continues
/-- One statement. -/
def WriteOne (D f : Nat) : List Stmt → List Token → Prop
  | [s], ts => WriteS D f s ts
  | _, _ => False
/-- Statements up to a token of number `et`.  Semicolons follow a statement as needed. -/
def WriteSs (D et : Nat) : List Stmt → List Token → Prop
  | [], ts => ts = []
  | s :: ss, ts =>
    ∃ t1 k t2, WriteS D (if 0 < k then SEMICOLON else firstKind t2 et) s t1 ∧ WriteSs (D + leakS s) et ss t2 ∧
      firstKind t2 et ≠ SEMICOLON ∧ (k = 0 → ss ≠ [] → lastKind 0 t1 ≠ PLUS_PLUS ∧ lastKind 0 t1 ≠ MINUS_MINUS) ∧
      ts = t1 ++ List.replicate k (.sym SEMICOLON) ++ t2
end

/-! ## Token sequences of source texts -/

/-- The tokenizer is at this token. -/
def Is (E : Env) (src : List UInt8) (st : Tok.State) : Token → Prop
  | .sym k => st.tok = k ∧ k ≠ IDENT ∧ k ≠ STR ∧ k ≠ NUM
  | .ident x => st.tok = IDENT ∧ (src.drop st.ptr).take st.len = x
  | .str raw bs => st.tok = STR ∧ (src.drop st.ptr).take st.len = raw ∧ Str.unescape (src.drop st.ptr ++ [0]) st.len = some bs
  | .int n => st.tok = NUM ∧ ∃ d, Parser.numeral E src st.ptr = some d ∧ Parser.integral d = true ∧ Parser.literalInt d = n
  | .dbl t =>
    st.tok = NUM ∧ (src.drop st.ptr).take st.len = t ∧ strtodLen t = t.length ∧
      ∃ d, Parser.numeral E src st.ptr = some d ∧ Parser.integral d = false

/-- The tokenizer is at the first of these tokens, and the others follow; the last is the end. -/
def Reads (E : Env) (src : List UInt8) : Tok.State → List Token → Prop
  | _, [] => False
  | st, t :: ts =>
    Is E src st t ∧ if ts = [] then t = .sym EOF else t.kind ≠ EOF ∧ ∃ st', pnext src st = some st' ∧ Reads E src st' ts

/-- The tokens of a source text. -/
def Tokens (E : Env) (src : List UInt8) (ts : List Token) : Prop :=
  ∃ st, pnext src {} = some st ∧ Reads E src st (ts ++ [.sym EOF])

end Mjs.Grammar
