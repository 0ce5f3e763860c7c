import Verif.Model.Tok
import Verif.Model.Bcode
import Verif.Model.Unescape

/-!
# Model of the parser: `src/mjs_parser.c`

Function by function.  `parse d` is the parser with room for `d` nested C calls on the C stack; `Out.deep` says that they did
not suffice.  A loop that is still going after more rounds than the source has bytes is `Out.endless`; `Props/Parse.lean` proves
that this does not happen.  `Out.ub` is undefined behaviour.

Not modelled: the texts of error messages (only whether there is an error), and failing allocations.
-/

namespace Mjs.Parser
open Mjs Mjs.Core Mjs.Tok Mjs.Exec Mjs.Code Mjs.Bcode

/-- `struct pstate`, mjs_tok.h:23-39, and `mjs->bcode_gen`. -/
structure PS where
  /-- the tokenizer's part -/
  tk : Tok.State := {}
  /-- the emitter's part -/
  gen : Gen := {}
  /-- `depth` -/
  depth : Nat := 0

/-- What a function of the parser may do: return a value; return an error code; undefined behaviour; need more C stack; go on
for ever. -/
inductive Out (α : Type) where
  | ok (a : α) (s : PS)
  | err (s : PS)
  | ub
  | deep
  | endless

/-- Code of the parser. -/
def M (α : Type) := PS → Out α

def M.pure {α : Type} (a : α) : M α := fun s => .ok a s

/-- `if ((res = m(p)) != MJS_OK) return res;` -/
def M.bind {α β : Type} (m : M α) (f : α → M β) : M β := fun s =>
  match m s with
  | .ok a s => f a s
  | .err s => .err s
  | .ub => .ub
  | .deep => .deep
  | .endless => .endless

instance : Monad M where
  pure := M.pure
  bind := M.bind

/-- `*p` -/
def get : M PS := fun s => .ok s s
def modify (f : PS → PS) : M Unit := fun s => .ok () (f s)
def ub {α : Type} : M α := fun _ => .ub
def endless {α : Type} : M α := fun _ => .endless
/-- `SYNTAX_ERROR(p)`, mjs_parser.c:19-24, 32. -/
def fail {α : Type} : M α := fun s => .err s
/-- `if (c) m;` -/
def when (c : Bool) (m : M Unit) : M Unit := if c then m else M.pure ()
/-- `res = m(p)`, without returning yet: whether it is `MJS_OK`. -/
def attempt (m : M Unit) : M Bool := fun s =>
  match m s with
  | .ok _ s => .ok true s
  | .err s => .ok false s
  | .ub => .ub
  | .deep => .deep
  | .endless => .endless
/-- `while (c) m`, at most `n` rounds. -/
def loop (c : PS → Bool) (m : M Unit) : Nat → M Unit
  | 0 => endless
  | n + 1 => fun s => if c s then M.bind m (fun _ => loop c m n) s else .ok () s

/-! ## Tokens -/

/-- `p->tok.tok` -/
def PS.tok (s : PS) : Nat := s.tk.tok

/-- `pnext1`, mjs_parser.c:26-30. -/
def next (src : List UInt8) : M Unit := fun s =>
  match pnext src s.tk with
  | some t => .ok () { s with tk := t }
  | none => .ub

/-- `EXPECT`, mjs_parser.c:33-38. -/
def expect (src : List UInt8) (t : Nat) : M Unit := fun s => if s.tok ≠ t then .err s else next src s

/-- `ptest`, mjs_parser.c:43-48. -/
def ptest (src : List UInt8) : M Nat := fun s =>
  match pnext src s.tk with
  | some t => .ok t.tok s
  | none => .ub

/-- `s_unary_ops`, mjs_parser.c:50-51. -/
def unaryOps : List Nat := [NOT, TILDA, PLUS_PLUS, MINUS_MINUS, KW_TYPEOF, MINUS, PLUS]
/-- `s_comparison_ops`, mjs_parser.c:52. -/
def comparisonOps : List Nat := [LT, LE, GT, GE]
/-- `s_postfix_ops`, mjs_parser.c:53. -/
def postfixOps : List Nat := [PLUS_PLUS, MINUS_MINUS]
/-- `s_equality_ops`, mjs_parser.c:54. -/
def equalityOps : List Nat := [EQ, NE, EQ_EQ, NE_NE]
/-- `s_assign_ops`, mjs_parser.c:55-59. -/
def assignOps : List Nat :=
  [ASSIGN, PLUS_ASSIGN, MINUS_ASSIGN, MUL_ASSIGN, DIV_ASSIGN, REM_ASSIGN, LSHIFT_ASSIGN, RSHIFT_ASSIGN, URSHIFT_ASSIGN,
   AND_ASSIGN, XOR_ASSIGN, OR_ASSIGN]

/-- `findtok`, mjs_parser.c:61-65, on a table without its final `TOK_EOF`; the result is 0 (`TOK_EOF`) if `tok` is not there. -/
def findtok : List Nat → Nat → Nat
  | [], _ => EOF
  | t :: ts, tok => if tok = t then t else findtok ts tok

/-- The text of the current token: `p->tok.ptr`, `p->tok.len`. -/
def tokText (src : List UInt8) (s : PS) : List UInt8 := (src.drop s.tk.ptr).take s.tk.len

/-! ## Emitting -/

/-- `emit_byte` -/
def emit (b : UInt8) : M Unit := modify fun s => { s with gen := emitByte s.gen s.tk.lineNo b }
/-- `emit_int` of a number that is not negative -/
def emitN (n : Nat) : M Unit := modify fun s => { s with gen := emitInt s.gen s.tk.lineNo n }
/-- `emit_str` -/
def emitS (t : List UInt8) : M Unit := modify fun s => { s with gen := emitStr s.gen s.tk.lineNo t }
/-- `emit_op`, mjs_parser.c:67-71; tokens above 255 fail the assert. -/
def emitOp (tok : Nat) : M Unit := if tok ≤ 255 then do emit EXPR; emit (UInt8.ofNat tok) else ub
/-- `emit_init_offset`, mjs_parser.c:131-137, with `MJS_INIT_OFFSET_SIZE` 1. -/
def emitInit : M Unit := emit 0
/-- `p->cur_idx` -/
def curIdx : M Nat := fun s => .ok s.gen.cur s
/-- `mjs_bcode_insert_offset`, mjs_bcode.c:63-89: by how much the code after it has moved. -/
def patch (offset v : Nat) : M Nat := fun s =>
  match insertOffset s.gen offset v with
  | some g => .ok ((vint v).length - initOffsetSize) { s with gen := g }
  | none => .ub

/-! ## Numerals -/

/-- The value of a hexadecimal digit. -/
def hexDigit (c : UInt8) : Nat :=
  if isDigit c then c.toNat - 48 else if c < 97 then c.toNat - 65 + 10 else c.toNat - 97 + 10

/-- `strtoul(s, NULL, 16)` (C11 7.22.1.4): white space, sign, prefix, digits; `ULONG_MAX` if it does not fit. -/
def strtoul16 (s : List UInt8) : Nat :=
  let w := span isSpace s
  let g := signLen (s.drop w)
  let x := hexPrefixLen (s.drop (w + g))
  let n := ((s.drop (w + g + x)).takeWhile isXDigit).foldl (fun n c => 16 * n + hexDigit c) 0
  if n ≥ 2 ^ 64 then 2 ^ 64 - 1
  else if (s.drop w).head? = some 45 then (2 ^ 64 - n) % 2 ^ 64 else n

/-- `d`, mjs_parser.c:305-307.  `none`: line 306 reads behind the NUL. -/
def numeral (E : Env) (src : List UInt8) (ptr : Nat) : Option Val :=
  if ptr + 2 ≤ src.length then
    let t := src.drop ptr
    some (if t.head? = some 48 ∧ (t.drop 1).head? = some 120 then ofIntD (strtoul16 (t.drop 2))
      else E.numVal (t.take (strtodLen t)))
  else none

/-- `modf(d, &iv) == 0`, mjs_parser.c:308: no fraction.  (The fraction of an infinity is 0.) -/
def integral (d : Val) : Bool :=
  decide (Spec.Double.IsInf d) || (decide (Spec.Double.Finite d) && Spec.Double.scaled d % 2 ^ 1074 == 0)

/-- `(int64_t) d`, as the `uint64_t` that `emit_int` encodes, mjs_parser.c:310. -/
def literalInt (d : Val) : Nat := (BitVec.ofInt 64 (toI64 d)).toNat

/-! ## The functions of the parser -/

/-- The functions, with their arguments. -/
inductive NT where
  | stmtList (et : Nat)
  | block (mkscope : Bool)
  | function
  | object
  | array
  | literal
  | callDotMem
  | postfix
  | unary
  /-- `parse_mul_div_rem` (0) ... `parse_logical_or` (9), with `prev_op` -/
  | binop (level prev : Nat)
  | ternary (prev : Nat)
  | assignment
  | expr
  | let_
  | blockOrStmt (cs : Bool)
  | forIn
  | for_
  | while_
  | if_
  | return_
  | statement

/-- The operators of each level, mjs_parser.c:415-461. -/
def levelOps : Nat → List Nat
  | 0 => [MUL, DIV, REM]
  | 1 => [PLUS, MINUS]
  | 2 => [LSHIFT, RSHIFT, URSHIFT]
  | 3 => comparisonOps
  | 4 => equalityOps
  | 5 => [AND]
  | 6 => [XOR]
  | 7 => [OR]
  | 8 => [LOGICAL_AND]
  | _ => [LOGICAL_OR]

/-- `p->depth > STACK_LIMIT / BINOP_STACK_FRAME_SIZE`, mjs_parser.c:73-74, 82 and 168. -/
def tooDeep (s : PS) : Bool := 512 < s.depth

section
variable (E : Env) (src : List UInt8) (rec : NT → M Unit)

/-- Rounds no loop can need more of. -/
def rounds : Nat := src.length + 2

/-- `PARSE_LTR_BINOP`, mjs_parser.c:76-115, with `f1` and `f2`. -/
def ltrBinop (f1 : M Unit) (f2 : Nat → M Unit) (ops : List Nat) (prev : Nat) : M Unit := do
  modify fun s => { s with depth := s.depth + 1 }
  let s ← get
  let ok ← attempt (if tooDeep s then fail else do
    f1
    when (prev ≠ EOF) (emitOp prev)
    let s ← get
    when (findtok ops s.tok ≠ EOF) (do
      if ops.head? = some LOGICAL_AND ∨ ops.head? = some LOGICAL_OR then
        emit (if ops.head? = some LOGICAL_AND then JMP_NEUTRAL_FALSE else JMP_NEUTRAL_TRUE)
        let offIf ← curIdx
        emitInit
        emit DROP
        next src
        f2 EOF
        let cur ← curIdx
        let _ ← patch offIf (cur - offIf - initOffsetSize)
      else
        next src
        f2 s.tok))
  modify fun s => { s with depth := s.depth - 1 }
  if ok then M.pure () else fail

/-- The loop of `parse_statement_list`, mjs_parser.c:148-153, with the pushing of `undefined` after it. -/
def stmts (et : Nat) : Nat → Bool → M Unit
  | 0, _ => endless
  | n + 1, drop => do
    let s ← get
    if s.tok = EOF ∨ s.tok = et then when (!drop) (emit PUSH_UNDEF)
    else do
      when drop (emit DROP)
      let ok ← attempt (rec .statement)
      loop (fun s => s.tok == SEMICOLON) (next src) (rounds src)
      if ok then stmts et n true else fail

/-- `parse_statement_list`, mjs_parser.c:144-163. -/
def parseStmtList (et : Nat) : M Unit := do
  next src
  stmts src rec et (rounds src) false

/-- `parse_block`, mjs_parser.c:165-179. -/
def parseBlock (mkscope : Bool) : M Unit := do
  modify fun s => { s with depth := s.depth + 1 }
  let s ← get
  if tooDeep s then fail
  else do
    when mkscope (emit NEW_SCOPE)
    let ok ← attempt (rec (.stmtList CLOSE_CURLY))
    expect src CLOSE_CURLY
    when mkscope (emit DEL_SCOPE)
    if ok then M.pure () else fail

/-- The names of the arguments, mjs_parser.c:212-220, from number `i`. -/
def params : Nat → Nat → M Unit
  | 0, _ => endless
  | n + 1, i => do
    let s ← get
    if s.tok ≠ CLOSE_PAREN then
      if s.tok ≠ IDENT then fail
      else do
        emit SET_ARG
        emitN i
        emitS (tokText src s)
        let t ← ptest src
        when (t = COMMA) (next src)
        next src
        params n (i + 1)
    else M.pure ()

/-- `parse_function`, mjs_parser.c:181-233. -/
def parseFunction : M Unit := do
  expect src KW_FUNCTION
  let s ← get
  when (s.tok = IDENT) (do
    emit PUSH_STR
    emitS (tokText src s)
    emit PUSH_SCOPE
    emit CREATE
    emit PUSH_STR
    emitS (tokText src s)
    emit FIND_SCOPE
    next src)
  emit JMP
  let off ← curIdx
  emitInit
  let prologue ← curIdx
  expect src OPEN_PAREN
  emit NEW_SCOPE
  params src (rounds src) 0
  expect src CLOSE_PAREN
  rec (.block false)
  emit RETURN
  let cur ← curIdx
  let diff ← patch off (cur - off - initOffsetSize)
  emit PUSH_FUNC
  let cur ← curIdx
  emitN (cur - 1 - (prologue + diff))
  when (s.tok = IDENT) (emitOp ASSIGN)

/-- `parse_object_literal`, mjs_parser.c:235-257. -/
def parseObject : M Unit := do
  expect src OPEN_CURLY
  emit PUSH_OBJ
  loop (fun s => s.tok != CLOSE_CURLY) (do
    let s ← get
    if s.tok ≠ IDENT ∧ s.tok ≠ STR then fail
    else do
      emit DUP
      emit PUSH_STR
      emitS (tokText src s)
      emit SWAP
      next src
      expect src COLON
      rec .expr
      emitOp ASSIGN
      emit DROP
      let s ← get
      if s.tok = COMMA then next src
      else if s.tok ≠ CLOSE_CURLY then fail
      else M.pure ()) (rounds src)

/-- `parse_array_literal`, mjs_parser.c:259-270. -/
def parseArray : M Unit := do
  expect src OPEN_BRACKET
  emit PUSH_ARRAY
  loop (fun s => s.tok != CLOSE_BRACKET) (do
    emit DUP
    rec .expr
    emit APPEND
    let s ← get
    when (s.tok = COMMA) (next src)) (rounds src)

/-- `TOK_NUM`, mjs_parser.c:304-316. -/
def parseNum : M Unit := do
  let s ← get
  match numeral E src s.tk.ptr with
  | none => ub
  | some d =>
    if integral d then do
      emit PUSH_INT
      emitN (literalInt d)
    else do
      emit PUSH_DBL
      emitS (tokText src s)

/-- `TOK_STR`, mjs_parser.c:317-323; `embed_string` writes length and bytes (`Model/Unescape.lean`). -/
def parseStr : M Unit := do
  emit PUSH_STR
  let s ← get
  match Str.unescape (src.drop s.tk.ptr ++ [0]) s.tk.len with
  | none => ub
  | some bs => modify fun s => { s with gen := Bcode.insert s.gen (vint bs.length ++ bs) }

/-- `TOK_IDENT`, mjs_parser.c:290-303. -/
def parseIdent : M Unit := do
  let s ← get
  let nextTok ← ptest src
  emit PUSH_STR
  emitS (tokText src s)
  emit (if s.tk.prevTok = DOT then SWAP else FIND_SCOPE)
  when (findtok assignOps nextTok = 0 ∧ findtok postfixOps nextTok = 0 ∧ findtok postfixOps s.tk.prevTok = 0) (emit GET)

/-- `parse_literal`, mjs_parser.c:272-346.  (`t` is `&p->tok`.) -/
def parseLiteral : M Unit := do
  let s ← get
  if s.tok = KW_FALSE then do emit PUSH_FALSE; next src
  else if s.tok = KW_TRUE then do emit PUSH_TRUE; next src
  else if s.tok = KW_UNDEFINED then do emit PUSH_UNDEF; next src
  else if s.tok = KW_NULL then do emit PUSH_NULL; next src
  else if s.tok = IDENT then do parseIdent src; next src
  else if s.tok = NUM then do parseNum E src; next src
  else if s.tok = STR then do parseStr src; next src
  -- an error of `parse_array_literal`, `parse_object_literal` or `parse_expr` is returned only after line 344 or 333
  else if s.tok = OPEN_BRACKET then do
    let ok ← attempt (rec .array)
    next src
    if ok then M.pure () else fail
  else if s.tok = OPEN_CURLY then do
    let ok ← attempt (rec .object)
    next src
    if ok then M.pure () else fail
  else if s.tok = OPEN_PAREN then do
    next src
    let ok ← attempt (rec .expr)
    let s ← get
    if s.tok ≠ CLOSE_PAREN then fail
    else do
      next src
      if ok then M.pure () else fail
  else if s.tok = KW_FUNCTION then rec .function
  else if s.tok = KW_THIS then do emit PUSH_THIS; next src
  else fail

/-- `parse_call_dot_mem`, mjs_parser.c:348-381. -/
def parseCallDotMem : M Unit := do
  rec .literal
  loop (fun s => findtok [DOT, OPEN_PAREN, OPEN_BRACKET] s.tok != EOF) (do
    let s ← get
    if s.tok = OPEN_BRACKET then do
      expect src OPEN_BRACKET
      rec .expr
      emit SWAP
      expect src CLOSE_BRACKET
      let s' ← get
      when (findtok assignOps s'.tok = 0 ∧ findtok postfixOps s'.tok = 0 ∧ findtok postfixOps s.tk.prevTok = 0) (emit GET)
    else if s.tok = OPEN_PAREN then do
      expect src OPEN_PAREN
      emit ARGS
      loop (fun s => s.tok != CLOSE_PAREN) (do
        rec .expr
        let s ← get
        when (s.tok = COMMA) (next src)) (rounds src)
      emit CALL
      expect src CLOSE_PAREN
    else do
      expect src DOT
      rec .callDotMem) (rounds src)

/-- `parse_postfix`, mjs_parser.c:383-392. -/
def parsePostfix : M Unit := do
  rec .callDotMem
  let s ← get
  when (s.tok = PLUS_PLUS ∨ s.tok = MINUS_MINUS) (do
    emitOp (if s.tok = PLUS_PLUS then POSTFIX_PLUS else POSTFIX_MINUS)
    next src)

/-- `parse_unary`, mjs_parser.c:394-413. -/
def parseUnary : M Unit := do
  let s ← get
  when (findtok unaryOps s.tok ≠ EOF) (next src)
  let s' ← get
  rec (if findtok unaryOps s'.tok ≠ EOF then .unary else .postfix)
  when (findtok unaryOps s.tok ≠ EOF)
    (emitOp (if s.tok = MINUS then UNARY_MINUS else if s.tok = PLUS then UNARY_PLUS else s.tok))

/-- `parse_ternary`, mjs_parser.c:463-500. -/
def parseTernary (prev : Nat) : M Unit := do
  rec (.binop 9 EOF)
  when (prev ≠ EOF) (emitOp prev)
  let s ← get
  when (s.tok = QUESTION) (do
    expect src QUESTION
    emit JMP_FALSE
    let offIf ← curIdx
    emitInit
    rec (.ternary EOF)
    emit JMP
    let offElse ← curIdx
    emitInit
    let offEndif ← curIdx
    emit DROP
    expect src COLON
    rec (.ternary EOF)
    let cur ← curIdx
    let diff ← patch offElse (cur - offElse - initOffsetSize)
    let _ ← patch offIf (offEndif + diff - offIf - initOffsetSize))

/-- `parse_assignment`, mjs_parser.c:502-504, with `PARSE_RTL_BINOP`, 117-129. -/
def parseAssignment : M Unit := do
  rec (.ternary EOF)
  let s ← get
  when (findtok assignOps s.tok ≠ EOF) (do
    next src
    rec .assignment
    emitOp s.tok)

/-- The loop of `parse_let`, mjs_parser.c:514-538. -/
def lets : Nat → M Unit
  | 0 => endless
  | n + 1 => do
    let s ← get
    expect src IDENT
    emit PUSH_STR
    emitS (tokText src s)
    emit PUSH_SCOPE
    emit CREATE
    let s1 ← get
    if s1.tok = ASSIGN then do
      next src
      emit PUSH_STR
      emitS (tokText src s)
      emit FIND_SCOPE
      rec .expr
      emitOp ASSIGN
    else emit PUSH_UNDEF
    let s2 ← get
    when (s2.tok = COMMA) (do
      emit DROP
      next src)
    let s3 ← get
    if s3.tok = SEMICOLON ∨ s3.tok = EOF then M.pure () else lets n

/-- `parse_let`, mjs_parser.c:510-540. -/
def parseLet : M Unit := do
  expect src KW_LET
  lets src rec (rounds src)

/-- `parse_block_or_stmt`, mjs_parser.c:542-548. -/
def parseBlockOrStmt (cs : Bool) : M Unit := do
  let t ← ptest src
  if t = OPEN_CURLY then rec (.block cs) else rec .statement

/-- The body of a loop, mjs_parser.c:589-594, 716-721, 792-797. -/
def parseBody : M Unit := do
  let s ← get
  if s.tok = OPEN_CURLY then do
    rec (.stmtList CLOSE_CURLY)
    next src
  else rec .statement

/-- `parse_for_in`, mjs_parser.c:550-616. -/
def parseForIn : M Unit := do
  emit NEW_SCOPE
  let s ← get
  when (s.tok = KW_LET) (do
    expect src KW_LET
    let s ← get
    emit PUSH_STR
    emitS (tokText src s)
    emit PUSH_SCOPE
    emit CREATE)
  let s ← get
  emit PUSH_STR
  emitS (tokText src s)
  expect src IDENT
  expect src KW_IN
  let _ ← attempt (rec .expr)
  expect src CLOSE_PAREN
  emit PUSH_UNDEF
  emit LOOP
  let offB ← curIdx
  emitInit
  emit 0
  emit FOR_IN_NEXT
  emit DUP
  emit JMP_FALSE
  let offCheckEnd ← curIdx
  emitInit
  parseBody src rec
  emit DROP
  emit CONTINUE
  let cur ← curIdx
  let _ ← patch offCheckEnd (cur - offCheckEnd - initOffsetSize)
  emit BREAK
  let cur ← curIdx
  let _ ← patch offB (cur - offB - initOffsetSize)
  emit DROP
  emit DROP
  emit DROP
  emit DEL_SCOPE

/-- `check_for_in`, mjs_parser.c:618-628. -/
def checkForIn : M Bool := fun s =>
  match (if s.tok = KW_LET then pnext src s.tk else some s.tk) with
  | none => .ub
  | some t =>
    if t.tok = IDENT then
      match pnext src t with
      | none => .ub
      | some t => .ok (t.tok == KW_IN) s
    else .ok false s

/-- `parse_for`, mjs_parser.c:630-749. -/
def parseFor : M Unit := do
  expect src KW_FOR
  expect src OPEN_PAREN
  let forin ← checkForIn src
  if forin then rec .forIn
  else do
    emit NEW_SCOPE
    emit LOOP
    let offB ← curIdx
    emitInit
    let offC ← curIdx
    emitInit
    let s ← get
    rec (if s.tok = KW_LET then .let_ else .expr)
    expect src SEMICOLON
    emit DROP
    emit JMP
    let offInitEnd ← curIdx
    emitInit
    let offIncrBegin ← curIdx
    rec .expr                                                       -- the condition
    expect src SEMICOLON
    let bufCur ← curIdx
    modify fun s => { s with gen := { s.gen with cur := offIncrBegin } }
    rec .expr                                                       -- the increment
    expect src CLOSE_PAREN
    emit DROP
    let cur ← curIdx
    let incrSize := cur - offIncrBegin
    modify fun s => { s with gen := { s.gen with cur := bufCur + incrSize } }
    emit JMP_FALSE
    let offCondEnd ← curIdx
    emitInit
    parseBody src rec
    emit DROP
    emit CONTINUE
    let cur ← curIdx
    let _ ← patch offCondEnd (cur - offCondEnd - initOffsetSize)
    let diff ← patch offInitEnd (offIncrBegin + incrSize - offInitEnd - initOffsetSize)
    let _ ← patch offC (offIncrBegin + diff - offC - initOffsetSize)
    emit BREAK
    let cur ← curIdx
    let _ ← patch offB (cur - offB - initOffsetSize)
    emit DEL_SCOPE

/-- `parse_while`, mjs_parser.c:751-815. -/
def parseWhile : M Unit := do
  expect src KW_WHILE
  expect src OPEN_PAREN
  emit NEW_SCOPE
  emit LOOP
  let offB ← curIdx
  emitInit
  emit 0
  rec .expr
  expect src CLOSE_PAREN
  emit JMP_FALSE
  let offCondEnd ← curIdx
  emitInit
  parseBody src rec
  emit DROP
  emit CONTINUE
  let cur ← curIdx
  let _ ← patch offCondEnd (cur - offCondEnd - initOffsetSize)
  emit BREAK
  let cur ← curIdx
  let _ ← patch offB (cur - offB - initOffsetSize)
  emit DEL_SCOPE

/-- `parse_if`, mjs_parser.c:817-865. -/
def parseIf : M Unit := do
  expect src KW_IF
  expect src OPEN_PAREN
  rec .expr
  emit JMP_FALSE
  let offIf ← curIdx
  emitInit
  expect src CLOSE_PAREN
  rec (.blockOrStmt true)
  let s ← get
  let offEndif ← (if s.tok = KW_ELSE then do
    next src
    emit JMP
    let offElse ← curIdx
    emitInit
    let offEndif ← curIdx
    emit DROP
    rec (.blockOrStmt true)
    let offEndelse ← curIdx
    let diff ← patch offElse (offEndelse - offElse - initOffsetSize)
    M.pure (offEndif + diff)
  else curIdx)
  let _ ← patch offIf (offEndif - offIf - initOffsetSize)

/-- `pstate_revert`, mjs_parser.c:867-878. -/
def revert (old : PS) (s : PS) : PS :=
  { tk := old.tk
    gen := { s.gen with
      buf := s.gen.buf.take old.gen.buf.length, cur := old.gen.cur, lastLine := old.gen.lastLine
      map := s.gen.map.take old.gen.map.length }
    depth := old.depth }

/-- `parse_return`, mjs_parser.c:880-897. -/
def parseReturn : M Unit := do
  expect src KW_RETURN
  let saved ← get
  let ok ← attempt (rec .expr)
  when (!ok) (do
    modify (revert saved)
    emit PUSH_UNDEF)
  emit SETRETVAL
  emit RETURN

/-- The loop of expressions separated by commas, mjs_parser.c:944-949. -/
def exprs : Nat → M Unit
  | 0 => endless
  | n + 1 => do
    rec .expr
    let s ← get
    if s.tok ≠ COMMA then M.pure ()
    else do
      emit DROP
      next src
      exprs n

/-- The statements that are not implemented, mjs_parser.c:927-938. -/
def notImplemented : List Nat :=
  [KW_CASE, KW_CATCH, KW_DELETE, KW_DO, KW_INSTANCEOF, KW_NEW, KW_SWITCH, KW_THROW, KW_TRY, KW_VAR, KW_VOID, KW_WITH]

/-- `parse_statement`, mjs_parser.c:899-953. -/
def parseStatement : M Unit := do
  let s ← get
  if s.tok = SEMICOLON then do emit PUSH_UNDEF; next src
  else if s.tok = KW_LET then rec .let_
  else if s.tok = OPEN_CURLY then rec (.block true)
  else if s.tok = KW_RETURN then rec .return_
  else if s.tok = KW_FOR then rec .for_
  else if s.tok = KW_WHILE then rec .while_
  else if s.tok = KW_BREAK then do emit PUSH_UNDEF; emit BREAK; next src
  else if s.tok = KW_CONTINUE then do emit CONTINUE; next src
  else if s.tok = KW_IF then rec .if_
  else if s.tok ∈ notImplemented then fail
  else exprs src rec (rounds src)

/-- The body of each function. -/
def body : NT → M Unit
  | .stmtList et => parseStmtList src rec et
  | .block mk => parseBlock src rec mk
  | .function => parseFunction src rec
  | .object => parseObject src rec
  | .array => parseArray src rec
  | .literal => parseLiteral E src rec
  | .callDotMem => parseCallDotMem src rec
  | .postfix => parsePostfix src rec
  | .unary => parseUnary src rec
  | .binop l prev =>                                                -- mjs_parser.c:415-461
    ltrBinop src (rec (if l = 0 then .unary else .binop (l - 1) EOF)) (fun op => rec (.binop l op)) (levelOps l) prev
  | .ternary prev => parseTernary src rec prev
  | .assignment => parseAssignment src rec
  | .expr => rec .assignment                                        -- mjs_parser.c:506-508
  | .let_ => parseLet src rec
  | .blockOrStmt cs => parseBlockOrStmt src rec cs
  | .forIn => parseForIn src rec
  | .for_ => parseFor src rec
  | .while_ => parseWhile src rec
  | .if_ => parseIf src rec
  | .return_ => parseReturn src rec
  | .statement => parseStatement src rec
end

/-- The parser with room for `d` nested calls. -/
def parse (E : Env) (src : List UInt8) : Nat → NT → M Unit
  | 0, _ => fun _ => .deep
  | d + 1, nt => body E src (parse E src d) nt

/-- The state before the first statement, mjs_parser.c:962-988: `pinit` (mjs_tok.c:12-20) and the header, whose items are
filled in at the end. -/
def initial (path : List UInt8) : PS :=
  let hdr := header path 0 0
  { gen := { buf := hdr, cur := hdr.length, start := hdr.length } }

/-- `mjs_parse`, mjs_parser.c:955-1028: the committed bytes, or that there was an error. -/
inductive Parsed where
  | code (bytes : List UInt8)
  | error
  | ub
  | deep
  | endless

def parseScript (E : Env) (d : Nat) (path src : List UInt8) : Parsed :=
  match (do parse E src d (.stmtList EOF); emit EXIT) (initial path) with
  | .ok _ s => .code (assemble path (s.gen.buf.drop s.gen.start) s.gen.map)
  | .err _ => .error
  | .ub => .ub
  | .deep => .deep
  | .endless => .endless

/-- `mjs_exec`, mjs_exec.c:995-1077 and 1079-1081 (`path` is `<stdin>`), and `mjs_exec_file` after reading the file
(1083-1103), without the `.jsc` files: the value of `*res`; the result code is the error of the engine. -/
def exec (E : Env) (d : Nat) (vm : Vm) (path src : List UInt8) : Option (Vm × Val) :=
  match parseScript E d path src with
  | .code bytes => execute E (commit { vm with error := .ok } bytes) vm.bcodeLen
  | .error => some ({ vm with error := .syntax }, mkUndefined)
  | _ => none

end Mjs.Parser
