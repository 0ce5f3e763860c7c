import Verif.Model.Exec

/-!
# The code the parser generates, as a function of the syntax tree

`src/mjs_parser.c` has no syntax tree: it emits code while it reads tokens.  This is the code it has emitted at the end of
each construct, with all jump distances filled in; `Props/Parse*.lean` proves that of the model of the parser.
-/

namespace Mjs.Code
open Mjs.Exec

abbrev Name := List UInt8

/-- Unary operators (`s_unary_ops`, mjs_parser.c:50-51, without `++` and `--`). -/
inductive UnOp where
  | not | tilda | typeof | minus | plus
deriving DecidableEq, Repr

/-- Binary operators with two evaluated operands, mjs_parser.c:403-446. -/
inductive BinOp where
  | mul | div | rem | add | sub | shl | shr | ushr | lt | le | gt | ge | eq | ne | eqq | nee | band | bxor | bor
deriving DecidableEq, Repr

/-- `=` or a compound assignment with an arithmetic operator (`s_assign_ops`, mjs_parser.c:55-60). -/
abbrev AssignOp := Option BinOp

mutual
/-- Expressions. -/
inductive Expr where
  | int (n : Nat)                                   -- a numeral with an integer value
  | dbl (text : List UInt8)                         -- any other numeral
  | str (bs : List UInt8)                           -- a string literal, unescaped
  | tru | fls | null | undef | this
  | get (l : Lval)
  | obj (props : List (Name × Expr))
  | arr (items : List Expr)
  /-- `label` is the address of the code; `function name(params) { body }` -/
  | func (label : Nat) (name : Option Name) (params : List Name) (body : List Stmt)
  | call (f : Expr) (args : List Expr)
  | un (op : UnOp) (e : Expr)
  | incr (post plus : Bool) (l : Lval)
  | bin (op : BinOp) (a b : Expr)
  | and (a b : Expr)
  | or (a b : Expr)
  | cond (c a b : Expr)
  | assign (op : AssignOp) (l : Lval) (e : Expr)
/-- What can be assigned to. -/
inductive Lval where
  | var (x : Name)
  | dot (e : Expr) (x : Name)
  | index (e k : Expr)
/-- Statements. -/
inductive Stmt where
  | empty
  | exprs (e : Expr) (es : List Expr)               -- `e, e1, e2`
  | lets (x : Name) (init : Option Expr) (ds : List (Name × Option Expr))
  | block (ss : List Stmt)
  | ite (c : Expr) (s : Stmt)
  | itee (c : Expr) (s t : Stmt)
  | while (c : Expr) (body : List Stmt)
  | for (init : Stmt) (c inc : Expr) (body : List Stmt)
  | forIn (isLet : Bool) (x : Name) (e : Expr) (body : List Stmt)
  | break
  | continue
  | ret (e : Option Expr)
end

/-- The operand of `OP_EXPR` for a binary operator: its token number (mjs_parser.c:68-72, 91). -/
def BinOp.tok : BinOp → UInt8
  | .mul => 12 | .div => 15 | .rem => 16 | .add => 13 | .sub => 14 | .shl => 26 | .shr => 27 | .ushr => 48
  | .lt => 24 | .le => 40 | .gt => 25 | .ge => 41 | .eq => 38 | .ne => 39 | .eqq => 44 | .nee => 45
  | .band => 17 | .bxor => 19 | .bor => 18

/-- The operand of `OP_EXPR` for a unary operator, mjs_parser.c:395-399. -/
def UnOp.tok : UnOp → UInt8
  | .not => 22 | .tilda => 23 | .typeof => 227 | .minus => 51 | .plus => 50

/-- The operand of `OP_EXPR` for an assignment, mjs_parser.c:117-130. -/
def assignTok : AssignOp → UInt8
  | none => 5
  | some .add => 30 | some .sub => 31 | some .mul => 32 | some .div => 33 | some .rem => 36
  | some .shl => 46 | some .shr => 47 | some .ushr => 49 | some .band => 34 | some .bxor => 37 | some .bor => 35
  | some _ => 0

/-- The operand of `OP_EXPR` for `++` and `--`, mjs_parser.c:373-377, 381-399. -/
def incrTok (post plus : Bool) : UInt8 :=
  if post then (if plus then 52 else 53) else (if plus then 29 else 28)

/-- A number as `emit_int` and `mjs_bcode_insert_offset` write it, mjs_bcode.c:44-51, 63-89. -/
def vint (n : Nat) : List UInt8 := Varint.encodeBytes n

/-- `emit_str`, mjs_bcode.c:53-61. -/
def strB (s : List UInt8) : List UInt8 := vint s.length ++ s

/-- `OP_PUSH_STR` of a name or string. -/
def pushStr (s : List UInt8) : List UInt8 := PUSH_STR :: strB s

/-- The names of the arguments, mjs_parser.c:209-218, from number `i`. -/
def codeParams (i : Nat) : List Name → List UInt8
  | [] => []
  | p :: ps => SET_ARG :: (vint i ++ strB p) ++ codeParams (i + 1) ps

/-- `OP_PUSH_STR x OP_PUSH_SCOPE OP_CREATE`, mjs_parser.c:518-521 and 191-195. -/
def create (x : Name) : List UInt8 := pushStr x ++ [PUSH_SCOPE, CREATE]

mutual
/-- The code of an expression: mjs_parser.c:235-508. -/
def code : Expr → List UInt8
  | .int n => PUSH_INT :: vint n                                                      -- lines 308-310
  | .dbl t => PUSH_DBL :: strB t                                                      -- lines 311-314
  | .str bs => pushStr bs                                                             -- lines 317-323
  | .tru => [PUSH_TRUE]
  | .fls => [PUSH_FALSE]
  | .null => [PUSH_NULL]
  | .undef => [PUSH_UNDEF]
  | .this => [PUSH_THIS]
  | .get l => codeL l ++ [GET]                                                        -- lines 290-303, 354-363
  | .obj ps => PUSH_OBJ :: codeProps ps                                               -- lines 235-258
  | .arr es => PUSH_ARRAY :: codeItems es                                             -- lines 260-271
  | .func _ name ps body =>                                                           -- lines 181-233
    let f := NEW_SCOPE :: codeParams 0 ps ++ codeSs body ++ [RETURN]
    let lit := JMP :: vint f.length ++ f ++ PUSH_FUNC :: vint f.length
    match name with
    | none => lit
    | some x => create x ++ pushStr x ++ [FIND_SCOPE] ++ lit ++ [EXPR, 5]
  | .call f args => code f ++ [ARGS] ++ codes args ++ [CALL]                          -- lines 364-371
  | .un op e => code e ++ [EXPR, op.tok]                                              -- lines 380-401
  | .incr post plus l => codeL l ++ [EXPR, incrTok post plus]
  | .bin op a b => code a ++ code b ++ [EXPR, op.tok]                                 -- lines 78-115
  | .and a b =>
    let r := DROP :: code b
    code a ++ JMP_NEUTRAL_FALSE :: vint r.length ++ r
  | .or a b =>
    let r := DROP :: code b
    code a ++ JMP_NEUTRAL_TRUE :: vint r.length ++ r
  | .cond c a b =>                                                                    -- lines 463-500
    let rb := DROP :: code b
    let ra := code a ++ JMP :: vint rb.length
    code c ++ JMP_FALSE :: vint ra.length ++ ra ++ rb
  | .assign op l e => codeL l ++ code e ++ [EXPR, assignTok op]                       -- lines 117-130
/-- The code that leaves key and object on the stack. -/
def codeL : Lval → List UInt8
  | .var x => pushStr x ++ [FIND_SCOPE]
  | .dot e x => code e ++ pushStr x ++ [SWAP]
  | .index e k => code e ++ code k ++ [SWAP]
/-- Arguments. -/
def codes : List Expr → List UInt8
  | [] => []
  | e :: es => code e ++ codes es
/-- Items of an array literal. -/
def codeItems : List Expr → List UInt8
  | [] => []
  | e :: es => DUP :: code e ++ APPEND :: codeItems es
/-- Members of an object literal. -/
def codeProps : List (Name × Expr) → List UInt8
  | [] => []
  | (k, e) :: ps => DUP :: pushStr k ++ [SWAP] ++ code e ++ [EXPR, 5, DROP] ++ codeProps ps
/-- Expressions after a comma, mjs_parser.c:943-949. -/
def codeMore : List Expr → List UInt8
  | [] => []
  | e :: es => DROP :: code e ++ codeMore es
/-- One declaration of `let`, mjs_parser.c:514-532. -/
def codeLet (x : Name) : Option Expr → List UInt8
  | some e => create x ++ pushStr x ++ [FIND_SCOPE] ++ code e ++ [EXPR, 5]
  | none => create x ++ [PUSH_UNDEF]
/-- Declarations after a comma. -/
def codeLets : List (Name × Option Expr) → List UInt8
  | [] => []
  | (x, i) :: ds => DROP :: codeLet x i ++ codeLets ds
/-- The code of a statement: mjs_parser.c:510-953. -/
def codeS : Stmt → List UInt8
  | .empty => [PUSH_UNDEF]
  | .exprs e es => code e ++ codeMore es
  | .lets x i ds => codeLet x i ++ codeLets ds
  | .block ss => NEW_SCOPE :: codeSs ss ++ [DEL_SCOPE]                                -- lines 165-179
  | .ite c s =>                                                                       -- lines 817-865
    let rs := codeS s
    code c ++ JMP_FALSE :: vint rs.length ++ rs
  | .itee c s t =>
    let rt := DROP :: codeS t
    let rs := codeS s ++ JMP :: vint rt.length
    code c ++ JMP_FALSE :: vint rs.length ++ rs ++ rt
  | .while c body =>                                                                  -- lines 751-815
    let rb := codeSs body ++ [DROP, CONTINUE]
    let r := 0 :: code c ++ JMP_FALSE :: vint rb.length ++ rb ++ [BREAK]
    NEW_SCOPE :: LOOP :: vint r.length ++ r ++ [DEL_SCOPE]
  | .for init c inc body =>                                                           -- lines 630-749
    let ri := code inc ++ [DROP]
    let rb := codeSs body ++ [DROP, CONTINUE]
    let rj := codeS init ++ DROP :: JMP :: vint ri.length
    let r := vint rj.length ++ rj ++ ri ++ code c ++ JMP_FALSE :: vint rb.length ++ rb ++ [BREAK]
    NEW_SCOPE :: LOOP :: vint r.length ++ r ++ [DEL_SCOPE]
  | .forIn isLet x e body =>                                                          -- lines 550-616
    let rb := codeSs body ++ [DROP, CONTINUE]
    let r := 0 :: FOR_IN_NEXT :: DUP :: JMP_FALSE :: vint rb.length ++ rb ++ [BREAK]
    NEW_SCOPE :: (if isLet then create x else []) ++ pushStr x ++ code e ++ PUSH_UNDEF :: LOOP :: vint r.length ++ r ++
      [DROP, DROP, DROP, DEL_SCOPE]
  | .break => [PUSH_UNDEF, BREAK]
  | .continue => [CONTINUE]
  | .ret none => [PUSH_UNDEF, SETRETVAL, RETURN]                                      -- lines 880-897
  | .ret (some e) => code e ++ [SETRETVAL, RETURN]
/-- The code of a list of statements: mjs_parser.c:144-163. -/
def codeSs : List Stmt → List UInt8
  | [] => [PUSH_UNDEF]
  | s :: ss => codeS s ++ codeRest ss
/-- Statements after the first. -/
def codeRest : List Stmt → List UInt8
  | [] => []
  | s :: ss => DROP :: codeS s ++ codeRest ss
end

/-- The code of a function's body, from its first instruction to `OP_RETURN`. -/
def codeFun (params : List Name) (body : List Stmt) : List UInt8 :=
  NEW_SCOPE :: codeParams 0 params ++ codeSs body ++ [RETURN]

/-- A script: the code after the header, mjs_parser.c:990-991. -/
def codeScript (ss : List Stmt) : List UInt8 := codeSs ss ++ [EXIT]

end Mjs.Code
