/-!
# Specification of the lexical structure

Operators, keywords and identifiers of the language, as texts.  Written without reference to the tokenizer's model.
-/

namespace Mjs.Spec.Tok

/-- The bytes of an ASCII text. -/
def text (s : String) : List UInt8 := s.toList.map fun c => UInt8.ofNat c.toNat

/-- The operators and punctuators of the language with the numbers of their tokens (mjs_tok.h). -/
def operators : List (String × Nat) :=
  [(":", 2), (";", 3), (",", 4), ("=", 5), ("{", 6), ("}", 7), ("(", 8), (")", 9), ("[", 10), ("]", 11), ("*", 12),
   ("+", 13), ("-", 14), ("/", 15), ("%", 16), ("&", 17), ("|", 18), ("^", 19), (".", 20), ("?", 21), ("!", 22), ("~", 23),
   ("<", 24), (">", 25), ("<<", 26), (">>", 27), ("--", 28), ("++", 29), ("+=", 30), ("-=", 31), ("*=", 32), ("/=", 33),
   ("&=", 34), ("|=", 35), ("%=", 36), ("^=", 37), ("==", 38), ("!=", 39), ("<=", 40), (">=", 41), ("&&", 42), ("||", 43),
   ("===", 44), ("!==", 45), ("<<=", 46), (">>=", 47), (">>>", 48), (">>>=", 49)]

/-- The text `rest` starts with the operator of number `tok`, of `len` characters, and with no longer one. -/
def LongestOp (rest : List UInt8) (tok len : Nat) : Prop :=
  (∃ o ∈ operators, text o.1 <+: rest ∧ o.2 = tok ∧ (text o.1).length = len) ∧
  ∀ o ∈ operators, text o.1 <+: rest → (text o.1).length ≤ len

/-- The reserved words with the numbers of their tokens. -/
def keywords : List (String × Nat) :=
  [("break", 203), ("case", 204), ("catch", 205), ("continue", 206), ("debugger", 207), ("default", 208), ("delete", 209),
   ("do", 210), ("else", 211), ("false", 212), ("finally", 213), ("for", 214), ("function", 215), ("if", 216), ("in", 217),
   ("instanceof", 218), ("new", 219), ("null", 220), ("return", 221), ("switch", 222), ("this", 223), ("throw", 224),
   ("true", 225), ("try", 226), ("typeof", 227), ("var", 228), ("void", 229), ("while", 230), ("with", 231), ("let", 232),
   ("undefined", 233)]

/-- The token number of an identifier that is no keyword. -/
def identifier : Nat := 202

/-- Letters, `_` and `$`. -/
def Letter (c : UInt8) : Prop :=
  (65 ≤ c.toNat ∧ c.toNat ≤ 90) ∨ (97 ≤ c.toNat ∧ c.toNat ≤ 122) ∨ c.toNat = 95 ∨ c.toNat = 36

def Digit (c : UInt8) : Prop := 48 ≤ c.toNat ∧ c.toNat ≤ 57

/-- `word` is the identifier at the start of `rest`: a letter, then letters and digits, as many as there are. -/
def WordAt (rest word : List UInt8) : Prop :=
  ∃ c w after, word = c :: w ∧ rest = word ++ after ∧ Letter c ∧ (∀ x ∈ w, Letter x ∨ Digit x) ∧
    ∀ x, after.head? = some x → ¬ (Letter x ∨ Digit x)

/-- Characters between tokens: white space. -/
def Blank (c : UInt8) : Prop :=
  c.toNat = 32 ∨ (9 ≤ c.toNat ∧ c.toNat ≤ 13)

/-- The text starts a token: it does not begin with white space or a comment. -/
def Solid (rest : List UInt8) : Prop :=
  (∀ c, rest.head? = some c → ¬ Blank c) ∧ ¬ (text "//" <+: rest) ∧ ¬ (text "/*" <+: rest)

/-- `GapThen gap rest`: of the text `gap ++ rest`, `gap` is the white space and the comments up to the next token.  A line
comment goes up to the end of the line or of the text, a block comment up to the next `*/`, or to the end of the text if
there is none. -/
inductive GapThen : List UInt8 → List UInt8 → Prop
  | done (rest) : Solid rest → GapThen [] rest
  | blank (c s rest) : Blank c → GapThen s rest → GapThen (c :: s) rest
  | line (t s rest) : 10 ∉ t → (∀ c, (s ++ rest).head? = some c → c = 10) → GapThen s rest →
      GapThen (text "//" ++ t ++ s) rest
  | block (t s rest) : ¬ (text "*/" <:+: t) → GapThen s rest → GapThen (text "/*" ++ t ++ text "*/" ++ s) rest
  | openBlock (t) : ¬ (text "*/" <:+: t) → GapThen (text "/*" ++ t) []

/-- `StrThen q body rest`: after an opening quote `q`, the text `body ++ rest` is read as the string `body`, which ends at
the quote at the start of `rest` or at the end of the text.  A backslash followed by the quote or by one of `bfnrtv\`
protects that character. -/
inductive StrThen (q : UInt8) : List UInt8 → List UInt8 → Prop
  | close (rest) : StrThen q [] (q :: rest)
  | unclosed : StrThen q [] []
  | escape (c t rest) : (c = q ∨ c ∈ text "bfnrtv\\") → StrThen q t rest → StrThen q (92 :: c :: t) rest
  | char (c t rest) : c ≠ q → (c = 92 → ∀ d, (t ++ rest).head? = some d → ¬ (d = q ∨ d ∈ text "bfnrtv\\")) →
      StrThen q t rest → StrThen q (c :: t) rest

end Mjs.Spec.Tok
