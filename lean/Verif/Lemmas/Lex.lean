import Verif.Spec.Grammar

/-!
# Computing the tokens of a source text

Used only to show that concrete source texts meet the hypotheses of theorems about the parser.
-/

namespace Mjs.Grammar
open Mjs Mjs.Code Mjs.Tok Mjs.Exec Mjs.Spec.Double

/-- The token the tokenizer is at. -/
def tokenAt (E : Env) (src : List UInt8) (st : Tok.State) : Option Token :=
  let text := (src.drop st.ptr).take st.len
  if st.tok = IDENT then some (.ident text)
  else if st.tok = STR then (Str.unescape (src.drop st.ptr ++ [0]) st.len).map (.str text)
  else if st.tok = NUM then
    (Parser.numeral E src st.ptr).bind fun d =>
      if Parser.integral d then some (.int (Parser.literalInt d))
      else if strtodLen text = text.length then some (.dbl text) else none
  else some (.sym st.tok)

/-- The tokens from here on, without the end. -/
def lexFrom (E : Env) (src : List UInt8) : Nat → Tok.State → Option (List Token)
  | 0, _ => none
  | n + 1, st =>
    if st.tok = EOF then some []
    else (tokenAt E src st).bind fun t => (pnext src st).bind fun st' => (lexFrom E src n st').map (t :: ·)

/-- The tokens of a text. -/
def lex (E : Env) (src : List UInt8) : Option (List Token) := (pnext src {}).bind (lexFrom E src (src.length + 2))

theorem tokenAt_is {E : Env} {src : List UInt8} {st : Tok.State} {t : Token} (h : tokenAt E src st = some t) :
    Is E src st t ∧ t.kind = st.tok := by
  unfold tokenAt at h
  dsimp only at h
  split at h
  · cases h; rename_i h1; exact ⟨⟨h1, rfl⟩, h1.symm⟩
  rename_i h1
  split at h
  · rename_i h2
    obtain ⟨bs, hb, rfl⟩ := Option.map_eq_some_iff.1 h
    exact ⟨⟨h2, rfl, hb⟩, h2.symm⟩
  rename_i h2
  split at h
  · rename_i h3
    obtain ⟨d, hd, h⟩ := Option.bind_eq_some_iff.1 h
    cases hi : Parser.integral d with
    | true => rw [hi] at h; cases h; exact ⟨⟨h3, d, hd, hi, rfl⟩, h3.symm⟩
    | false =>
      rw [hi] at h
      split at h
      · cases ‹false = true›
      split at h
      · rename_i h4; cases h; exact ⟨⟨h3, rfl, h4, d, hd, hi⟩, h3.symm⟩
      · cases h
  · rename_i h3
    cases h
    exact ⟨⟨rfl, h1, h2, h3⟩, rfl⟩

theorem lexFrom_reads {E : Env} {src : List UInt8} : ∀ {n : Nat} {st : Tok.State} {ts : List Token},
    lexFrom E src n st = some ts → Reads E src st (ts ++ [.sym EOF])
  | 0, _, _, h => by cases h
  | n + 1, st, ts, h => by
    rw [lexFrom] at h
    split at h
    · rename_i h0
      cases h
      exact ⟨⟨h0, by decide, by decide, by decide⟩, by simp⟩
    · rename_i h0
      obtain ⟨t, ht, h⟩ := Option.bind_eq_some_iff.1 h
      obtain ⟨st', hn, h⟩ := Option.bind_eq_some_iff.1 h
      obtain ⟨ts', hl, rfl⟩ := Option.map_eq_some_iff.1 h
      obtain ⟨hi, hk⟩ := tokenAt_is ht
      refine ⟨hi, ?_⟩
      rw [if_neg (by simp)]
      exact ⟨by rw [hk]; exact h0, st', hn, lexFrom_reads hl⟩

theorem lex_tokens {E : Env} {src : List UInt8} {ts : List Token} (h : lex E src = some ts) : Tokens E src ts := by
  obtain ⟨st, hn, h⟩ := Option.bind_eq_some_iff.1 h
  exact ⟨st, hn, lexFrom_reads h⟩

end Mjs.Grammar
