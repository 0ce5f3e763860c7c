/-!
# Model of the tokenizer: `src/mjs_tok.c`

The source is the list of its bytes without the terminating NUL; positions are indices.  Reading beyond the NUL is
`none`.  Loops that need not end are partial: on them the model has no result, as the C code has none.
-/

namespace Mjs.Tok

/-- `p->buf[i]`: a byte of the source, or the terminating NUL. -/
def peek (src : List UInt8) (i : Nat) : Option UInt8 :=
  if i < src.length then src[i]? else if i = src.length then some 0 else none

/-! The token numbers of `enum`, mjs_tok.h:41-140. -/
abbrev EOF : Nat := 0
abbrev INVALID : Nat := 1
abbrev COLON : Nat := 2
abbrev SEMICOLON : Nat := 3
abbrev COMMA : Nat := 4
abbrev ASSIGN : Nat := 5
abbrev OPEN_CURLY : Nat := 6
abbrev CLOSE_CURLY : Nat := 7
abbrev OPEN_PAREN : Nat := 8
abbrev CLOSE_PAREN : Nat := 9
abbrev OPEN_BRACKET : Nat := 10
abbrev CLOSE_BRACKET : Nat := 11
abbrev MUL : Nat := 12
abbrev PLUS : Nat := 13
abbrev MINUS : Nat := 14
abbrev DIV : Nat := 15
abbrev REM : Nat := 16
abbrev AND : Nat := 17
abbrev OR : Nat := 18
abbrev XOR : Nat := 19
abbrev DOT : Nat := 20
abbrev QUESTION : Nat := 21
abbrev NOT : Nat := 22
abbrev TILDA : Nat := 23
abbrev LT : Nat := 24
abbrev GT : Nat := 25
abbrev LSHIFT : Nat := 26
abbrev RSHIFT : Nat := 27
abbrev MINUS_MINUS : Nat := 28
abbrev PLUS_PLUS : Nat := 29
abbrev PLUS_ASSIGN : Nat := 30
abbrev MINUS_ASSIGN : Nat := 31
abbrev MUL_ASSIGN : Nat := 32
abbrev DIV_ASSIGN : Nat := 33
abbrev AND_ASSIGN : Nat := 34
abbrev OR_ASSIGN : Nat := 35
abbrev REM_ASSIGN : Nat := 36
abbrev XOR_ASSIGN : Nat := 37
abbrev EQ : Nat := 38
abbrev NE : Nat := 39
abbrev LE : Nat := 40
abbrev GE : Nat := 41
abbrev LOGICAL_AND : Nat := 42
abbrev LOGICAL_OR : Nat := 43
abbrev EQ_EQ : Nat := 44
abbrev NE_NE : Nat := 45
abbrev LSHIFT_ASSIGN : Nat := 46
abbrev RSHIFT_ASSIGN : Nat := 47
abbrev URSHIFT : Nat := 48
abbrev URSHIFT_ASSIGN : Nat := 49
abbrev UNARY_PLUS : Nat := 50
abbrev UNARY_MINUS : Nat := 51
abbrev POSTFIX_PLUS : Nat := 52
abbrev POSTFIX_MINUS : Nat := 53
abbrev NUM : Nat := 200
abbrev STR : Nat := 201
abbrev IDENT : Nat := 202
abbrev KW_BREAK : Nat := 203
abbrev KW_CASE : Nat := 204
abbrev KW_CATCH : Nat := 205
abbrev KW_CONTINUE : Nat := 206
abbrev KW_DEBUGGER : Nat := 207
abbrev KW_DEFAULT : Nat := 208
abbrev KW_DELETE : Nat := 209
abbrev KW_DO : Nat := 210
abbrev KW_ELSE : Nat := 211
abbrev KW_FALSE : Nat := 212
abbrev KW_FINALLY : Nat := 213
abbrev KW_FOR : Nat := 214
abbrev KW_FUNCTION : Nat := 215
abbrev KW_IF : Nat := 216
abbrev KW_IN : Nat := 217
abbrev KW_INSTANCEOF : Nat := 218
abbrev KW_NEW : Nat := 219
abbrev KW_NULL : Nat := 220
abbrev KW_RETURN : Nat := 221
abbrev KW_SWITCH : Nat := 222
abbrev KW_THIS : Nat := 223
abbrev KW_THROW : Nat := 224
abbrev KW_TRUE : Nat := 225
abbrev KW_TRY : Nat := 226
abbrev KW_TYPEOF : Nat := 227
abbrev KW_VAR : Nat := 228
abbrev KW_VOID : Nat := 229
abbrev KW_WHILE : Nat := 230
abbrev KW_WITH : Nat := 231
abbrev KW_LET : Nat := 232
abbrev KW_UNDEFINED : Nat := 233

/-- `mjs_is_space`, mjs_tok.c:24-27. -/
def isSpace (c : UInt8) : Bool := c == 32 || c == 13 || c == 10 || c == 9 || c == 12 || c == 11
/-- `mjs_is_digit`, mjs_tok.c:29-31. -/
def isDigit (c : UInt8) : Bool := 48 ≤ c && c ≤ 57
/-- `mjs_is_alpha`, mjs_tok.c:33-35.  (Bytes above 127 are negative `char`s in C, and fall out of both ranges.) -/
def isAlpha (c : UInt8) : Bool := (97 ≤ c && c ≤ 122) || (65 ≤ c && c ≤ 90)
/-- `mjs_is_ident`, mjs_tok.c:37-39. -/
def isIdent (c : UInt8) : Bool := c == 95 || c == 36 || isAlpha c

/-- `strchr(s, c) != NULL`: the NUL at the end of `s` counts. -/
def strchr (s : List UInt8) (c : UInt8) : Bool := s.contains c || c == 0

/-- `p->pos[0] == a && p->pos[1] == b`, as in mjs_tok.c:74, 132, 135 and 139. -/
def starts (src : List UInt8) (pos : Nat) (a b : UInt8) : Option Bool := do
  let c ← peek src pos
  if c = a then (peek src (pos + 1)).map (fun c1 => c1 == b) else some false

/-- `longtok`, mjs_tok.c:42-51: the token (0 is `TOK_EOF`) and the number of characters after the first. -/
def longtok (src : List UInt8) (pos : Nat) (first second : List UInt8) : Option (Nat × Nat) := do
  let c0 ← peek src pos
  if ¬ strchr first c0 then some (EOF, 0)
  else do
    let c1 ← peek src (pos + 1)
    if c1 ≠ 0 ∧ strchr second c1 then some (c0.toNat * 256 + c1.toNat, 1) else some (c0.toNat, 0)

/-- `longtok3`, mjs_tok.c:54-61. -/
def longtok3 (src : List UInt8) (pos : Nat) (a b c : UInt8) : Option (Nat × Nat) := do
  let c0 ← peek src pos
  if c0 ≠ a then some (EOF, 0)
  else do
    let c1 ← peek src (pos + 1)
    if c1 ≠ b then some (EOF, 0)
    else do
      let c2 ← peek src (pos + 2)
      if c2 ≠ c then some (EOF, 0) else some ((c0.toNat * 256 + c1.toNat) * 256 + c2.toNat, 2)

/-- `longtok4`, mjs_tok.c:64-71. -/
def longtok4 (src : List UInt8) (pos : Nat) (a b c d : UInt8) : Option (Nat × Nat) := do
  let c0 ← peek src pos
  if c0 ≠ a then some (EOF, 0)
  else do
    let c1 ← peek src (pos + 1)
    if c1 ≠ b then some (EOF, 0)
    else do
      let c2 ← peek src (pos + 2)
      if c2 ≠ c then some (EOF, 0)
      else do
        let c3 ← peek src (pos + 3)
        if c3 ≠ d then some (EOF, 0)
        else some (((c0.toNat * 256 + c1.toNat) * 256 + c2.toNat) * 256 + c3.toNat, 3)

/-! ### Numbers: the extent of what `strtoul` and `strtod` of the C library accept -/

/-- A hexadecimal digit. -/
def isXDigit (c : UInt8) : Bool := isDigit c || (97 ≤ c && c ≤ 102) || (65 ≤ c && c ≤ 70)

/-- How many bytes of the text satisfy `f` from the start on. -/
def span (f : UInt8 → Bool) (s : List UInt8) : Nat := (s.takeWhile f).length

/-- An optional sign. -/
def signLen (s : List UInt8) : Nat :=
  match s with
  | c :: _ => if c = 43 ∨ c = 45 then 1 else 0
  | [] => 0

/-- The prefix `0x` or `0X`, if a hexadecimal digit follows. -/
def hexPrefixLen : List UInt8 → Nat
  | 48 :: x :: d :: _ => if (x = 120 ∨ x = 88) ∧ isXDigit d then 2 else 0
  | _ => 0

/-- `strtoul(s, &end, 16)`: `end - s` (C11 7.22.1.4): white space, sign, prefix, digits; 0 if there are no digits.
White space is that of the "C" locale. -/
def strtoulLen (s : List UInt8) : Nat :=
  let w := span isSpace s
  let g := signLen (s.drop w)
  let x := hexPrefixLen (s.drop (w + g))
  let d := span isXDigit (s.drop (w + g + x))
  if d = 0 then 0 else w + g + x + d

/-- An exponent: the letter, an optional sign and at least one digit. -/
def exponentLen (e1 e2 : UInt8) (s : List UInt8) : Nat :=
  match s with
  | c :: s' =>
    if c = e1 ∨ c = e2 then
      let g := signLen s'
      let d := span isDigit (s'.drop g)
      if d = 0 then 0 else 1 + g + d
    else 0
  | [] => 0

/-- A point and digits; `some point` is needed only if it is there. -/
def fractionLen (f : UInt8 → Bool) (s : List UInt8) : Nat :=
  match s with
  | c :: s' => if c = 46 then 1 + span f s' else 0
  | [] => 0

/-- `strtod(s, &end)` for a text that begins with a decimal digit: `end - s` (C11 7.22.1.3). -/
def strtodLen (s : List UInt8) : Nat :=
  let x := hexPrefixLen s
  if x ≠ 0 then
    let d := x + span isXDigit (s.drop x)
    let f := d + fractionLen isXDigit (s.drop d)
    f + exponentLen 112 80 (s.drop f)
  else
    let d := span isDigit s
    let f := d + fractionLen isDigit (s.drop d)
    f + exponentLen 101 69 (s.drop f)

/-- `getnum`, mjs_tok.c:73-83: the end of the number. -/
def getnum (src : List UInt8) (pos : Nat) : Option Nat := do
  let hex ← starts src pos 48 120
  if hex then some (pos + 2 + strtoulLen (src.drop (pos + 2)))
  else some (pos + strtodLen (src.drop pos))

/-- The table of `is_reserved_word_token`, mjs_tok.c:86-92. -/
def reserved : List (List UInt8) :=
  [[98, 114, 101, 97, 107],                                 -- break
   [99, 97, 115, 101],                                      -- case
   [99, 97, 116, 99, 104],                                  -- catch
   [99, 111, 110, 116, 105, 110, 117, 101],                 -- continue
   [100, 101, 98, 117, 103, 103, 101, 114],                 -- debugger
   [100, 101, 102, 97, 117, 108, 116],                      -- default
   [100, 101, 108, 101, 116, 101],                          -- delete
   [100, 111],                                              -- do
   [101, 108, 115, 101],                                    -- else
   [102, 97, 108, 115, 101],                                -- false
   [102, 105, 110, 97, 108, 108, 121],                      -- finally
   [102, 111, 114],                                         -- for
   [102, 117, 110, 99, 116, 105, 111, 110],                 -- function
   [105, 102],                                              -- if
   [105, 110],                                              -- in
   [105, 110, 115, 116, 97, 110, 99, 101, 111, 102],        -- instanceof
   [110, 101, 119],                                         -- new
   [110, 117, 108, 108],                                    -- null
   [114, 101, 116, 117, 114, 110],                          -- return
   [115, 119, 105, 116, 99, 104],                           -- switch
   [116, 104, 105, 115],                                    -- this
   [116, 104, 114, 111, 119],                               -- throw
   [116, 114, 117, 101],                                    -- true
   [116, 114, 121],                                         -- try
   [116, 121, 112, 101, 111, 102],                          -- typeof
   [118, 97, 114],                                          -- var
   [118, 111, 105, 100],                                    -- void
   [119, 104, 105, 108, 101],                               -- while
   [119, 105, 116, 104],                                    -- with
   [108, 101, 116],                                         -- let
   [117, 110, 100, 101, 102, 105, 110, 101, 100]]           -- undefined

/-- The loop of `is_reserved_word_token`, mjs_tok.c:95-98, from entry `i` on; `s` is the lexeme. -/
def reservedLoop (s : List UInt8) : List (List UInt8) → Nat → Nat
  | [], _ => 0
  | w :: ws, i => if s.length = w.length ∧ s = w then i + 1 else reservedLoop s ws (i + 1)

/-- `is_reserved_word_token`, mjs_tok.c:85-100, on the lexeme. -/
def isReservedWordToken (s : List UInt8) : Nat :=
  if ¬ isAlpha (s.headD 0) then 0 else reservedLoop s reserved 0

/-! The loops below stop at the NUL at the latest, or at a position behind it, where `peek` has no result.  So `loopRounds src` rounds
are as good as any number, from any position; the lemmas in Lemmas/TokLoops.lean say so. -/

/-- Rounds no loop of the tokenizer can need more of. -/
def loopRounds (src : List UInt8) : Nat := src.length + 2

def getidentN (src : List UInt8) : Nat → Nat → Option Nat
  | 0, _ => none
  | n + 1, pos => do
    let c ← peek src pos
    if isIdent c ∨ isDigit c then getidentN src n (pos + 1) else some pos

/-- `getident`, mjs_tok.c:102-107: the end of the identifier. -/
def getident (src : List UInt8) (pos : Nat) : Option Nat := getidentN src (loopRounds src) pos

def getstrLoopN (src : List UInt8) (quote : UInt8) : Nat → Nat → Option Nat
  | 0, _ => none
  | n + 1, pos => do
    let c ← peek src pos
    if c = 0 ∨ c = quote then some pos
    else if c = 92 then do
      let c1 ← peek src (pos + 1)
      if c1 ≠ 0 ∧ (c1 = quote ∨ strchr [98, 102, 110, 114, 116, 118, 92] c1) then getstrLoopN src quote n (pos + 2)
      else getstrLoopN src quote n (pos + 1)
    else getstrLoopN src quote n (pos + 1)

/-- The loop of `getstr`, mjs_tok.c:112-119: the position of the closing quote or of the NUL. -/
def getstrLoop (src : List UInt8) (quote : UInt8) (pos : Nat) : Option Nat := getstrLoopN src quote (loopRounds src) pos

def skipSpacesN (src : List UInt8) : Nat → Nat → Nat → Option (Nat × Nat)
  | 0, _, _ => none
  | n + 1, pos, line => do
    let c ← peek src pos
    if isSpace c then skipSpacesN src n (pos + 1) (if c = 10 then line + 1 else line) else some (pos, line)

/-- White space, mjs_tok.c:128-131: position and line number. -/
def skipSpaces (src : List UInt8) (pos line : Nat) : Option (Nat × Nat) := skipSpacesN src (loopRounds src) pos line

def skipLineN (src : List UInt8) : Nat → Nat → Option Nat
  | 0, _ => none
  | n + 1, pos => do
    let c ← peek src pos
    if c ≠ 0 ∧ c ≠ 10 then skipLineN src n (pos + 1) else some pos

/-- A line comment, mjs_tok.c:133. -/
def skipLine (src : List UInt8) (pos : Nat) : Option Nat := skipLineN src (loopRounds src) pos

def skipBlockN (src : List UInt8) : Nat → Nat → Nat → Option (Nat × Nat)
  | 0, _, _ => none
  | n + 1, pos, line => do
    let c ← peek src pos
    if c = 0 then some (pos, line)
    else
      let line := if c = 10 then line + 1 else line
      let close ← starts src pos 42 47
      if close then some (pos + 2, line) else skipBlockN src n (pos + 1) line

/-- The inside of a block comment, mjs_tok.c:137-144. -/
def skipBlock (src : List UInt8) (pos line : Nat) : Option (Nat × Nat) := skipBlockN src (loopRounds src) pos line

/-- One round of the loop of `skip_spaces_and_comments`, mjs_tok.c:127-146. -/
def skipRound (src : List UInt8) (pos line : Nat) : Option (Nat × Nat) := do
  let (p1, l1) ← skipSpaces src pos line
  let isLine ← starts src p1 47 47
  let p2 ← (if isLine then skipLine src p1 else some p1)
  let isBlock ← starts src p2 47 42
  if isBlock then skipBlock src (p2 + 2) l1 else some (p2, l1)

def skipN (src : List UInt8) : Nat → Nat → Nat → Option (Nat × Nat)
  | 0, _, _ => none
  | n + 1, pos, line => do
    let (p, l) ← skipRound src pos line
    if pos < p then skipN src n p l else some (p, l)

/-- `skip_spaces_and_comments`, mjs_tok.c:124-147. -/
def skip (src : List UInt8) (pos line : Nat) : Option (Nat × Nat) := skipN src (loopRounds src) pos line

/-- `DT`, `TT`, `QT`, mjs_tok.c:150-152: characters packed into a number. -/
def pack (s : List UInt8) : Nat := s.foldl (fun n c => n * 256 + c.toNat) 0

/-- The cases of `ptranslate`, mjs_tok.c:157-204. -/
def translations : List (List UInt8 × Nat) :=
  [([58], COLON), ([59], SEMICOLON), ([44], COMMA), ([61], ASSIGN), ([123], OPEN_CURLY), ([125], CLOSE_CURLY),
   ([40], OPEN_PAREN), ([41], CLOSE_PAREN), ([91], OPEN_BRACKET), ([93], CLOSE_BRACKET), ([42], MUL), ([43], PLUS),
   ([45], MINUS), ([47], DIV), ([37], REM), ([38], AND), ([124], OR), ([94], XOR), ([46], DOT), ([63], QUESTION),
   ([33], NOT), ([126], TILDA), ([60], LT), ([62], GT),
   ([60, 60], LSHIFT), ([62, 62], RSHIFT), ([45, 45], MINUS_MINUS), ([43, 43], PLUS_PLUS), ([43, 61], PLUS_ASSIGN),
   ([45, 61], MINUS_ASSIGN), ([42, 61], MUL_ASSIGN), ([47, 61], DIV_ASSIGN), ([38, 61], AND_ASSIGN),
   ([124, 61], OR_ASSIGN), ([37, 61], REM_ASSIGN), ([94, 61], XOR_ASSIGN), ([61, 61], EQ), ([33, 61], NE), ([60, 61], LE),
   ([62, 61], GE), ([38, 38], LOGICAL_AND), ([124, 124], LOGICAL_OR),
   ([61, 61, 61], EQ_EQ), ([33, 61, 61], NE_NE), ([60, 60, 61], LSHIFT_ASSIGN), ([62, 62, 61], RSHIFT_ASSIGN),
   ([62, 62, 62], URSHIFT), ([62, 62, 62, 61], URSHIFT_ASSIGN)]

/-- `ptranslate`, mjs_tok.c:149-207. -/
def ptranslate (tok : Nat) : Nat :=
  match translations.find? fun e => pack e.1 == tok with
  | some e => e.2
  | none => tok

/-- `struct tok` and the parts of `struct pstate` that the tokenizer uses, mjs_tok.h:16-39; `tok` is zeroed by `pinit`. -/
structure State where
  pos : Nat := 0
  lineNo : Nat := 1
  prevTok : Nat := 0
  tok : Nat := 0
  ptr : Nat := 0
  len : Nat := 0

/-- `a != TOK_EOF || (tmp = b) != TOK_EOF`. -/
def orElse (a : Option (Nat × Nat)) (b : Unit → Option (Nat × Nat)) : Option (Nat × Nat) := do
  let r ← a
  if r.1 ≠ EOF then some r else b ()

/-- The operators, mjs_tok.c:233-248: token before translation and number of characters after the first. -/
def operator (src : List UInt8) (pos : Nat) : Option (Nat × Nat) :=
  orElse (longtok3 src pos 60 60 61) fun _ =>
  orElse (longtok3 src pos 62 62 61) fun _ =>
  orElse (longtok4 src pos 62 62 62 61) fun _ =>
  orElse (longtok3 src pos 62 62 62) fun _ =>
  orElse (longtok3 src pos 61 61 61) fun _ =>
  orElse (longtok3 src pos 33 61 61) fun _ =>
  orElse (longtok src pos [38] [38, 61]) fun _ =>
  orElse (longtok src pos [124] [124, 61]) fun _ =>
  orElse (longtok src pos [60] [60, 61]) fun _ =>
  orElse (longtok src pos [62] [62, 61]) fun _ =>
  orElse (longtok src pos [45] [45, 61]) fun _ =>
  orElse (longtok src pos [43] [43, 61]) fun _ =>
  orElse (longtok src pos [94, 126, 43, 45, 37, 47, 42, 60, 62, 61, 33, 124, 38] [61]) fun _ =>
  some (INVALID, 0)

/-- What `pnext` finds at a position that is not skipped, mjs_tok.c:213-248: the token before translation, its text
(start and length) and the position before the final increment. -/
def lexeme (src : List UInt8) (pos : Nat) : Option (Nat × Nat × Nat × Nat) := do
  let c ← peek src pos
  if c = 0 then some (EOF, pos, 1, pos)
  else if isDigit c then do
    let e ← getnum src pos
    some (NUM, pos, e - pos, e - 1)
  else if c = 39 ∨ c = 34 then do
    let e ← getstrLoop src c (pos + 1)
    some (STR, pos + 1, e - (pos + 1), e)
  else if isIdent c then do
    let e ← getident src pos
    some (IDENT + isReservedWordToken ((src.drop pos).take (e - pos)), pos, e - pos, e - 1)
  else if strchr [44, 46, 58, 59, 123, 125, 91, 93, 40, 41, 63] c then some (c.toNat, pos, 1, pos)
  else do
    let (t, n) ← operator src pos
    some (t, pos, 1 + n, pos + n)

/-- `pnext`, mjs_tok.c:209-254. -/
def pnext (src : List UInt8) (st : State) : Option State := do
  let (p, line) ← skip src st.pos st.lineNo
  let (tok, ptr, len, p') ← lexeme src p
  let c ← peek src p'
  some { pos := if c ≠ 0 then p' + 1 else p', lineNo := line, prevTok := st.tok, tok := ptranslate tok, ptr := ptr,
         len := len }

end Mjs.Tok
