import Verif.Lemmas.TokNext

/-!
# The tokenizer: C28, C29, C30, C59, C60

A source is a list of bytes without NUL (C strings).  `GapThen`, `LongestOp`, `WordAt`, `StrThen` are in `Spec/Tok.lean`.
-/

namespace Mjs.Props
open Mjs.Tok Mjs.Spec.Tok

/-- A source used in the examples: `a >>>= 0x1f; /* c */ // d`, a line break and `"x\"y" ~ if`. -/
def demoSrc : List UInt8 := text "a >>>= 0x1f; /* c */ // d\n\"x\\\"y\" ~ if"

/-- C59: what is skipped before a token is exactly the white space and the comments there, and the line number grows by
the number of line breaks in it; the token starts right after (its text one later for a string, after the quote). -/
theorem C59_gap (src : List UInt8) (h0 : (0 : UInt8) ∉ src) (st : State) (hp : st.pos ≤ src.length) :
    ∃ gap rest st', src.drop st.pos = gap ++ rest ∧ GapThen gap rest ∧ pnext src st = some st' ∧
      st'.lineNo = st.lineNo + gap.count 10 ∧
      st'.ptr = st.pos + gap.length + (if st'.tok = 201 then 1 else 0) := by
  obtain ⟨gap, rest, tok, ptr, len, pos', hd, hg, ht, hn⟩ := pnext_spec h0 st hp
  refine ⟨gap, rest, _, hd, hg, hn, rfl, ?_⟩
  show ptr = st.pos + gap.length + (if tok = 201 then 1 else 0)
  cases ht with
  | eof => rfl
  | num => rfl
  | str => rfl
  | word w =>
    have hne : IDENT + isReservedWordToken w ≠ 201 := by show 202 + _ ≠ 201; omega
    rw [if_neg hne]; rfl
  | op t n hl =>
    obtain ⟨⟨o, ho, _, he, _⟩, _⟩ := hl
    have : ∀ o ∈ operators, o.2 ≠ 201 := by decide
    rw [if_neg (by rw [← he]; exact this o ho)]; rfl
  | tildeEq => rfl
  | invalid => rfl

/-- The specification of gaps leaves no choice. -/
theorem C59_gap_unique {g r : List UInt8} (h : GapThen g r) : ∀ {g' r' : List UInt8}, GapThen g' r' → g ++ r = g' ++ r' →
    g = g' ∧ r = r' := by
  have hb47 : ¬ Blank 47 := by unfold Blank; decide
  have hsuf : ∀ {t t' : List UInt8} {s s' : List UInt8}, ¬ (text "*/" <:+: t) → ¬ (text "*/" <:+: t') →
      t ++ text "*/" ++ s = t' ++ text "*/" ++ s' → t = t' := by
    intro t
    rw [text_close]
    induction t with
    | nil =>
      intro t' s s' _ h' he
      cases t' with
      | nil => rfl
      | cons a t' =>
        cases t' with
        | nil =>
          simp at he
        | cons b t' =>
          simp at he
          exfalso; apply h'
          rw [← he.1, ← he.2.1]
          exact ⟨[], t', by simp⟩
    | cons a t ih =>
      intro t' s s' h h' he
      cases t' with
      | nil =>
        cases t with
        | nil =>
          simp at he
        | cons b t =>
          simp at he
          exfalso; apply h
          rw [he.1, he.2.1]
          exact ⟨[], t, by simp⟩
      | cons b t' =>
        simp at he
        have := ih (t' := t') (s := s) (s' := s') (fun hx => h (List.infix_cons_iff.2 (.inr hx)))
          (fun hx => h' (List.infix_cons_iff.2 (.inr hx))) (by simpa using he.2)
        rw [he.1, this]
  have hline : ∀ {t t' u u' : List UInt8}, 10 ∉ t → 10 ∉ t' → (∀ c, u.head? = some c → c = 10) →
      (∀ c, u'.head? = some c → c = 10) → t ++ u = t' ++ u' → t = t' := by
    intro t
    induction t with
    | nil =>
      intro t' u u' _ h' hu _ he
      cases t' with
      | nil => rfl
      | cons a t' =>
        simp at he
        have := hu a (by rw [he]; rfl)
        exact absurd (by simp [this]) h'
    | cons a t ih =>
      intro t' u u' h h' hu hu' he
      cases t' with
      | nil =>
        simp at he
        have := hu' a (by rw [← he]; rfl)
        exact absurd (by simp [this]) h
      | cons b t' =>
        simp at he
        rw [he.1, ih (fun hx => h (by simp [hx])) (fun hx => h' (by simp [hx])) hu hu' he.2]
  induction h with
  | done rest hs =>
    intro g' r' h' he
    simp only [List.nil_append] at he
    cases h' with
    | done => exact ⟨rfl, he⟩
    | blank c s _ hc =>
      exact absurd hc (hs.1 c (by rw [he]; rfl))
    | line t s _ _ _ _ =>
      exact absurd ⟨t ++ s ++ r', by rw [he]; simp⟩ hs.2.1
    | block t s _ _ _ =>
      exact absurd ⟨t ++ text "*/" ++ s ++ r', by rw [he]; simp⟩ hs.2.2
    | openBlock t _ =>
      exact absurd ⟨t, by rw [he]; simp⟩ hs.2.2
  | blank c s rest hc hg ih =>
    intro g' r' h' he
    cases h' with
    | done hs =>
      simp only [List.nil_append] at he
      rename_i hs'
      exact absurd hc (hs'.1 c (by rw [← he]; rfl))
    | blank c' s' _ hc' hg' =>
      simp at he
      obtain ⟨h1, h2⟩ := ih hg' he.2
      exact ⟨by rw [he.1, h1], h2⟩
    | line t s _ _ _ _ => rw [text_line] at he; simp at he; rw [he.1] at hc; exact absurd hc hb47
    | block t s _ _ _ => rw [text_open] at he; simp at he; rw [he.1] at hc; exact absurd hc hb47
    | openBlock t _ => rw [text_open] at he; simp at he; rw [he.1] at hc; exact absurd hc hb47
  | line t s rest ht hh hg ih =>
    intro g' r' h' he
    cases h' with
    | done _ hs' => exact absurd ⟨t ++ s ++ rest, by rw [List.nil_append] at he; rw [← he]; simp⟩ hs'.2.1
    | blank c s _ hc => rw [text_line] at he; simp at he; rw [← he.1] at hc; exact absurd hc hb47
    | line t' s' _ ht' hh' hg' =>
      have he' : t ++ (s ++ rest) = t' ++ (s' ++ r') := by simpa using he
      have := hline ht ht' hh hh' he'
      subst this
      obtain ⟨h1, h2⟩ := ih hg' (List.append_cancel_left he')
      exact ⟨by rw [h1], h2⟩
    | block t s _ _ _ => rw [text_line, text_open] at he; simp at he
    | openBlock t _ => rw [text_line, text_open] at he; simp at he
  | block t s rest ht hg ih =>
    intro g' r' h' he
    cases h' with
    | done _ hs' =>
      exact absurd ⟨t ++ text "*/" ++ s ++ rest, by rw [List.nil_append] at he; rw [← he]; simp⟩ hs'.2.2
    | blank c s _ hc => rw [text_open] at he; simp at he; rw [← he.1] at hc; exact absurd hc hb47
    | line t' s' _ ht' hh' hg' => rw [text_line, text_open] at he; simp at he
    | block t' s' _ ht' hg' =>
      have he' : t ++ text "*/" ++ (s ++ rest) = t' ++ text "*/" ++ (s' ++ r') := by simpa using he
      have := hsuf ht ht' he'
      subst this
      obtain ⟨h1, h2⟩ := ih hg' (List.append_cancel_left he')
      exact ⟨by rw [h1], h2⟩
    | openBlock t' ht' =>
      exfalso; apply ht'
      have he' : t ++ text "*/" ++ (s ++ rest) = t' := by simpa using he
      exact ⟨t, s ++ rest, he'⟩
  | openBlock t ht =>
    intro g' r' h' he
    cases h' with
    | done _ hs' => exact absurd ⟨t, by rw [List.nil_append] at he; rw [← he]; simp⟩ hs'.2.2
    | blank c s _ hc => rw [text_open] at he; simp at he; rw [← he.1] at hc; exact absurd hc hb47
    | line t' s' _ ht' hh' hg' => rw [text_line, text_open] at he; simp at he
    | block t' s' _ ht' hg' =>
      exfalso; apply ht
      have he' : t = t' ++ text "*/" ++ (s' ++ r') := by simpa using he
      exact ⟨t', s' ++ r', he'.symm⟩
    | openBlock t' ht' =>
      simp at he
      exact ⟨by rw [he], rfl⟩

/-- C28: each request succeeds without reading past the NUL; it reports the end of input (token 0) exactly when nothing but
white space and comments is left, and otherwise consumes at least one character.  The text of a token lies in the source. -/
theorem C28_progress (src : List UInt8) (h0 : (0 : UInt8) ∉ src) (st : State) (hp : st.pos ≤ src.length) :
    ∃ st', pnext src st = some st' ∧ st'.pos ≤ src.length ∧
      (if st'.tok = 0 then st'.pos = src.length ∧ GapThen (src.drop st.pos) []
       else st.pos < st'.pos ∧ st.pos ≤ st'.ptr ∧ st'.ptr + st'.len ≤ st'.pos ∧ ¬ GapThen (src.drop st.pos) []) := by
  obtain ⟨gap, rest, tok, ptr, len, pos', hd, hg, ht, hn⟩ := pnext_spec h0 st hp
  obtain ⟨h1, hp1⟩ := drop_app hd hp
  have hlen : st.pos + gap.length + rest.length = src.length := by
    have := congrArg List.length hd
    simp at this; omega
  refine ⟨_, hn, ?_⟩
  show pos' ≤ src.length ∧ if tok = 0 then pos' = src.length ∧ _
    else st.pos < pos' ∧ st.pos ≤ ptr ∧ ptr + len ≤ pos' ∧ _
  have hne : rest ≠ [] → ¬ GapThen (src.drop st.pos) [] := by
    intro hr hx
    exact hr (C59_gap_unique hg hx (by rw [hd]; simp)).2
  have hopne : ∀ o ∈ operators, o.2 ≠ 0 ∧ 1 ≤ (text o.1).length := by decide
  cases ht with
  | eof he =>
    subst he
    rw [if_pos rfl]
    simp only [List.length_nil, Nat.add_zero] at hlen
    refine ⟨hp1, hlen, ?_⟩
    rw [hd, List.append_nil]; exact hg
  | num c r e he _ h3 h4 =>
    rw [if_neg (by decide)]
    exact ⟨by omega, by omega, by omega, by omega, hne (by rw [he]; simp)⟩
  | str q body after he _ hs =>
    rw [if_neg (by decide)]
    have : rest.length = 1 + body.length + after.length := by rw [he]; simp; omega
    have : (after.take 1).length ≤ after.length := by simp; omega
    exact ⟨by omega, by omega, by omega, by omega, hne (by rw [he]; simp)⟩
  | word w hw =>
    have hz : IDENT + isReservedWordToken w ≠ 0 := by show 202 + _ ≠ 0; omega
    rw [if_neg hz]
    obtain ⟨c, w', after, rfl, he, _⟩ := hw
    have : rest.length = (c :: w').length + after.length := by rw [he]; simp; omega
    have : (c :: w').length = w'.length + 1 := rfl
    exact ⟨by omega, by omega, by omega, by omega, hne (by rw [he]; simp)⟩
  | op t n hl hnt =>
    obtain ⟨⟨o, ho, hpre, he, hln⟩, _⟩ := hl
    obtain ⟨hz, h1⟩ := hopne o ho
    rw [if_neg (by rw [← he]; exact hz)]
    have := hpre.length_le
    refine ⟨by omega, by omega, by omega, by omega, hne ?_⟩
    intro hr; rw [hr, List.length_nil] at this; omega
  | tildeEq hpre =>
    rw [if_neg (by decide)]
    have h2 := hpre.length_le
    have : (text "~=").length = 2 := by decide
    refine ⟨by omega, by omega, by omega, by omega, hne ?_⟩
    intro hr; rw [hr, List.length_nil] at h2; omega
  | invalid c r he =>
    rw [if_neg (by decide)]
    have : 1 ≤ rest.length := by rw [he]; simp
    exact ⟨by omega, by omega, by omega, by omega, hne (by rw [he]; simp)⟩

example : (0 : UInt8) ∉ demoSrc ∧ (0 : Nat) ≤ demoSrc.length := by decide

/-- `n` requests. -/
def pnextN (src : List UInt8) : Nat → State → Option State
  | 0, st => some st
  | n + 1, st => (pnext src st).bind (pnextN src n)

/-- C28: repeated requests reach the end of the text, after at most as many requests as there are characters left, plus
one. -/
theorem C28_reaches_end (src : List UInt8) (h0 : (0 : UInt8) ∉ src) : ∀ (st : State), st.pos ≤ src.length →
    ∃ n st', 1 ≤ n ∧ n ≤ src.length - st.pos + 1 ∧ pnextN src n st = some st' ∧ st'.tok = 0 ∧ st'.pos = src.length := by
  have main : ∀ (k : Nat) (st : State), src.length - st.pos = k → st.pos ≤ src.length →
      ∃ n st', 1 ≤ n ∧ n ≤ k + 1 ∧ pnextN src n st = some st' ∧ st'.tok = 0 ∧ st'.pos = src.length := by
    intro k
    induction k using Nat.strongRecOn with
    | _ k ih =>
      intro st hk hp
      obtain ⟨st1, hn, hp1, hx⟩ := C28_progress src h0 st hp
      by_cases hz : st1.tok = 0
      · rw [if_pos hz] at hx
        exact ⟨1, st1, by omega, by omega, by simp [pnextN, hn], hz, hx.1⟩
      · rw [if_neg hz] at hx
        obtain ⟨n, st2, h1, h2, h3, h4⟩ := ih (src.length - st1.pos) (by omega) st1 rfl hp1
        exact ⟨n + 1, st2, by omega, by omega, by simp [pnextN, hn, h3], h4⟩
  intro st hp
  exact main _ st rfl hp

/-- C29, for texts that do not start with `~=`: at an operator the token is the longest operator there, and the position
moves behind it.  Missing: `~=`, see `C29_tilde`. -/
theorem C29_longest_match_partial (src : List UInt8) (h0 : (0 : UInt8) ∉ src) (st : State) (hp : st.pos ≤ src.length)
    (gap rest : List UInt8) (hd : src.drop st.pos = gap ++ rest) (hg : GapThen gap rest)
    (hop : ∃ o ∈ operators, text o.1 <+: rest) (hnt : ¬ (text "~=" <+: rest)) :
    ∃ st', pnext src st = some st' ∧ LongestOp rest st'.tok st'.len ∧ st'.ptr = st.pos + gap.length ∧
      st'.pos = st'.ptr + st'.len := by
  obtain ⟨gap', rest', tok, ptr, len, pos', hd', hg', ht, hn⟩ := pnext_spec h0 st hp
  obtain ⟨rfl, rfl⟩ := C59_gap_unique hg' hg (by rw [← hd', hd])
  refine ⟨_, hn, ?_⟩
  obtain ⟨o, ho, hpre⟩ := hop
  have hfirst : ∀ o ∈ operators, ∃ a s, text o.1 = a :: s ∧ ¬ Letter a ∧ ¬ Digit a ∧ a ≠ 39 ∧ a ≠ 34 := by
    have hx : ∀ o ∈ operators, text o.1 ≠ [] ∧ ((text o.1).headD 0 ∈ punct ∨ (text o.1).headD 0 ∈ opChars) := by decide
    have hy : ∀ a, a ∈ punct ∨ a ∈ opChars → isIdent a = false ∧ isDigit a = false ∧ a ≠ 39 ∧ a ≠ 34 := by
      have h1 : ∀ a ∈ punct, isIdent a = false ∧ isDigit a = false ∧ a ≠ 39 ∧ a ≠ 34 := by decide
      have h2 : ∀ a ∈ opChars, isIdent a = false ∧ isDigit a = false ∧ a ≠ 39 ∧ a ≠ 34 := by decide
      intro a ha; rcases ha with ha | ha
      · exact h1 a ha
      · exact h2 a ha
    intro o ho
    obtain ⟨h1, h2⟩ := hx o ho
    cases ht : text o.1 with
    | nil => exact absurd ht h1
    | cons a s =>
      rw [ht] at h2
      obtain ⟨h3, h4, h5⟩ := hy a h2
      refine ⟨a, s, rfl, ?_, ?_, h5⟩
      · rw [← isIdent_iff, h3]; simp
      · rw [← isDigit_iff, h4]; simp
  obtain ⟨a, s, hta, hl, hdg, hq1, hq2⟩ := hfirst o ho
  have hhd : ∃ r, rest' = a :: r := by
    obtain ⟨u, hu⟩ := hpre
    rw [hta] at hu
    exact ⟨s ++ u, by rw [← hu]; rfl⟩
  obtain ⟨r, hr⟩ := hhd
  cases ht with
  | eof he => rw [hr] at he; cases he
  | num c r' e he hc =>
    rw [hr] at he; injection he with h1 h2; rw [← h1] at hc; exact absurd hc hdg
  | str q body after he hq =>
    rw [hr] at he; injection he with h1 h2
    rcases hq with hq | hq
    · exact absurd (h1.trans hq) hq1
    · exact absurd (h1.trans hq) hq2
  | word w hw =>
    obtain ⟨c, w', after, rfl, he, hc, _⟩ := hw
    rw [hr] at he; injection he with h1 h2; rw [← h1] at hc; exact absurd hc hl
  | op t n hlo => exact ⟨hlo, rfl, rfl⟩
  | tildeEq hx => exact absurd hx hnt
  | invalid c r' he _ _ _ _ hno => exact absurd hpre (hno o ho)

/-- A demo: ` >>>= 0x1f` after the identifier. -/
example : ∃ gap rest, demoSrc.drop 1 = gap ++ rest ∧ GapThen gap rest ∧ (∃ o ∈ operators, text o.1 <+: rest) ∧
    ¬ (text "~=" <+: rest) ∧ LongestOp rest 49 4 := by
  refine ⟨[32], demoSrc.drop 2, by decide, .blank _ _ _ (by unfold Blank; decide) (.done _ ⟨?_, by decide, by decide⟩),
    by decide, by decide, ?_, ?_⟩
  · intro c hc
    have : c = 62 := by
      have h : (demoSrc.drop 2).head? = some 62 := by decide
      rw [h] at hc; injection hc with hc; exact hc.symm
    rw [this]; unfold Blank; decide
  · exact ⟨(">>>=", 49), by decide, by decide, by decide, by decide⟩
  · decide

/-- The violation of C29: `~=` is read as one token of a number that belongs to no operator, where the longest operator is
`~`. -/
theorem C29_tilde (src : List UInt8) (h0 : (0 : UInt8) ∉ src) (st : State) (hp : st.pos ≤ src.length)
    (gap rest : List UInt8) (hd : src.drop st.pos = gap ++ rest) (hg : GapThen gap rest) (ht : text "~=" <+: rest) :
    ∃ st', pnext src st = some st' ∧ st'.len = 2 ∧ (∀ o ∈ operators, st'.tok ≠ o.2) ∧ LongestOp rest 23 1 := by
  obtain ⟨gap', rest', tok, ptr, len, pos', hd', hg', htk, hn⟩ := pnext_spec h0 st hp
  obtain ⟨rfl, rfl⟩ := C59_gap_unique hg' hg (by rw [← hd', hd])
  refine ⟨_, hn, ?_⟩
  have hte : text "~=" = [126, 61] := by decide
  obtain ⟨u, hu⟩ := ht
  rw [hte] at hu
  have hr : rest' = 126 :: 61 :: u := hu.symm
  have hlo : LongestOp rest' 23 1 := by
    rw [longest_iff]
    refine ⟨⟨([126], 23), by decide, ⟨61 :: u, by rw [hr]; rfl⟩, rfl, rfl⟩, ?_⟩
    intro o ho hpre
    have hx : ∀ o ∈ translations, o.1 ≠ [] ∧ (o.1.headD 0 = 126 → o.1.length ≤ 1) := by decide
    obtain ⟨h1, h2⟩ := hx o ho
    apply h2
    cases h3 : o.1 with
    | nil => exact absurd h3 h1
    | cons a s =>
      obtain ⟨v, hv⟩ := hpre
      rw [h3, hr] at hv
      injection hv
  cases htk with
  | eof he => rw [hr] at he; cases he
  | num c r' e he hc =>
    rw [hr] at he; injection he with h1 h2; rw [← h1] at hc; exact absurd hc (by unfold Digit; decide)
  | str q body after he hq =>
    rw [hr] at he; injection he with h1 h2
    rcases hq with hq | hq <;> rw [hq] at h1 <;> exact absurd h1 (by decide)
  | word w hw =>
    obtain ⟨c, w', after, rfl, he, hc, _⟩ := hw
    rw [hr] at he; injection he with h1 h2; rw [← h1] at hc; exact absurd hc (by unfold Letter; decide)
  | op t n hlo hnt => exact absurd ⟨u, by rw [hte, hr]; rfl⟩ hnt
  | tildeEq hx =>
    have hno : ∀ o ∈ operators, 32317 ≠ o.2 := by decide
    exact ⟨rfl, hno, hlo⟩
  | invalid c r' he _ _ _ _ hno =>
    exact absurd ⟨61 :: u, by rw [hr]; rfl⟩ (hno ("~", 23) (by decide))

/-- C30: an identifier-shaped lexeme becomes the token of a reserved word exactly if it spells that word, and the token
"identifier" exactly if it spells none; the token's text is the whole lexeme and the position moves behind it. -/
theorem C30_words (src : List UInt8) (h0 : (0 : UInt8) ∉ src) (st : State) (hp : st.pos ≤ src.length)
    (gap rest : List UInt8) (hd : src.drop st.pos = gap ++ rest) (hg : GapThen gap rest) (word : List UInt8)
    (hw : WordAt rest word) :
    ∃ st', pnext src st = some st' ∧ (∀ k ∈ keywords, st'.tok = k.2 ↔ word = text k.1) ∧
      (st'.tok = identifier ↔ ∀ k ∈ keywords, word ≠ text k.1) ∧
      (src.drop st'.ptr).take st'.len = word ∧ st'.pos = st'.ptr + word.length := by
  obtain ⟨gap', rest', tok, ptr, len, pos', hd', hg', ht, hn⟩ := pnext_spec h0 st hp
  obtain ⟨rfl, rfl⟩ := C59_gap_unique hg' hg (by rw [← hd', hd])
  refine ⟨_, hn, ?_⟩
  obtain ⟨c, w, after, hwc, hr, hc, hww, haf⟩ := hw
  have hr' : rest' = c :: (w ++ after) := by rw [hr, hwc]; rfl
  have hci : isIdent c = true := (isIdent_iff c).2 hc
  have hcd : ¬ Digit c := by
    intro hx; unfold Letter at hc; unfold Digit at hx; omega
  cases ht with
  | eof he => rw [hr'] at he; cases he
  | num d r' e he hx => rw [hr'] at he; injection he with h1 h2; rw [← h1] at hx; exact absurd hx hcd
  | str q body after he hq =>
    rw [hr'] at he; injection he with h1 h2
    rcases hq with hq | hq <;> rw [h1, hq] at hc <;> exact absurd hc (by unfold Letter; decide)
  | op t n hlo _ =>
    exfalso
    obtain ⟨⟨o, ho, hpre, _⟩, _⟩ := hlo
    have hx : ∀ o ∈ operators, text o.1 ≠ [] ∧ isIdent ((text o.1).headD 0) = false := by decide
    obtain ⟨h1, h2⟩ := hx o ho
    cases h3 : text o.1 with
    | nil => exact h1 h3
    | cons a s =>
      obtain ⟨v, hv⟩ := hpre
      rw [h3, hr'] at hv
      injection hv with h4
      rw [h3] at h2
      have h5 : isIdent c = false := h4 ▸ h2
      rw [hci] at h5; cases h5
  | tildeEq hx =>
    exfalso
    obtain ⟨v, hv⟩ := hx
    rw [show text "~=" = [126, 61] by decide, hr'] at hv
    injection hv with h4
    rw [← h4] at hci
    exact absurd hci (by decide)
  | invalid d r' he hx => rw [hr'] at he; injection he with h1 h2; rw [← h1] at hx; exact absurd hc hx
  | word w' hw' =>
    have hww' : w' = word := by
      obtain ⟨c', w1, after', rfl, hr2, hc', hww', haf'⟩ := hw'
      have hcut : ∀ (w w1 after after' : List UInt8), (∀ x ∈ w, Letter x ∨ Digit x) → (∀ x ∈ w1, Letter x ∨ Digit x) →
          (∀ x, after.head? = some x → ¬ (Letter x ∨ Digit x)) → (∀ x, after'.head? = some x → ¬ (Letter x ∨ Digit x)) →
          w ++ after = w1 ++ after' → w = w1 := by
        intro w
        induction w with
        | nil =>
          intro w1 after after' _ h1 h2 _ he
          cases w1 with
          | nil => rfl
          | cons a w1 => exact absurd (h1 a (by simp)) (h2 a (by rw [List.nil_append] at he; rw [he]; rfl))
        | cons a w ih =>
          intro w1 after after' h h1 h2 h3 he
          cases w1 with
          | nil => exact absurd (h a (by simp)) (h3 a (by rw [List.nil_append] at he; rw [← he]; rfl))
          | cons b w1 =>
            injection he with h4 h5
            rw [h4, ih w1 after after' (fun x hx => h x (by simp [hx])) (fun x hx => h1 x (by simp [hx])) h2 h3 h5]
      have he : c' :: (w1 ++ after') = c :: (w ++ after) := by rw [← hr']; exact hr2.symm
      injection he with h1 h2
      rw [hwc, h1, hcut w1 w after' after hww' hww haf' haf h2]
    subst hww'
    show (∀ k ∈ keywords, IDENT + isReservedWordToken w' = k.2 ↔ w' = text k.1) ∧
      (IDENT + isReservedWordToken w' = identifier ↔ ∀ k ∈ keywords, w' ≠ text k.1) ∧ _
    have htab : ∀ k ∈ keywords, IDENT + isReservedWordToken (text k.1) = k.2 := by decide
    have hinj : ∀ k ∈ keywords, ∀ k' ∈ keywords, k.2 = k'.2 → text k.1 = text k'.1 := by decide
    have hge : ∀ k ∈ keywords, k.2 ≠ 202 := by decide
    have hnone : (∀ k ∈ keywords, w' ≠ text k.1) → isReservedWordToken w' = 0 := by
      intro hx
      unfold isReservedWordToken
      split
      · rfl
      · apply reservedLoop_none
        have hres : reserved = keywords.map (fun k => text k.1) := by decide
        rw [hres]
        intro hm
        obtain ⟨k, hk, he⟩ := List.mem_map.1 hm
        exact hx k hk he.symm
    refine ⟨?_, ?_, ?_, rfl⟩
    · intro k hk
      constructor
      · intro he
        by_cases hx : ∀ k ∈ keywords, w' ≠ text k.1
        · rw [hnone hx] at he
          exact absurd he.symm (hge k hk)
        · have hx' : ∃ k' ∈ keywords, w' = text k'.1 := by
            apply Classical.byContradiction
            intro hno
            apply hx
            intro k' hk' he'
            exact hno ⟨k', hk', he'⟩
          obtain ⟨k', hk', he'⟩ := hx'
          rw [he', htab k' hk'] at he
          rw [he', hinj k' hk' k hk he]
      · intro he; rw [he, htab k hk]
    · constructor
      · intro he k hk hx
        rw [hx, htab k hk] at he
        exact hge k hk he
      · intro hx; rw [hnone hx]; rfl
    · rw [(drop_app hd' hp).1, hr, List.take_left']
      rfl

example : ∃ gap rest, demoSrc.drop 0 = gap ++ rest ∧ GapThen gap rest ∧ WordAt rest (text "a") := by
  refine ⟨[], demoSrc, rfl, .done _ ⟨?_, by decide, by decide⟩, 97, [], demoSrc.drop 1, by decide, by decide, ?_, by simp, ?_⟩
  · intro c hc
    have : c = 97 := by
      have h : demoSrc.head? = some 97 := by decide
      rw [h] at hc; injection hc with hc; exact hc.symm
    rw [this]; unfold Blank; decide
  · unfold Letter; decide
  · intro x hx
    have : x = 32 := by
      have h : (demoSrc.drop 1).head? = some 32 := by decide
      rw [h] at hx; injection hx with hx; exact hx.symm
    rw [this]; unfold Letter Digit; decide

/-- C60: a string literal is read up to the first quote of its kind that is not protected by a backslash, or to the end of
the text; the token's text is what stands between the quotes, and the position moves behind the closing quote. -/
theorem C60_strings (src : List UInt8) (h0 : (0 : UInt8) ∉ src) (st : State) (hp : st.pos ≤ src.length)
    (gap rest : List UInt8) (q : UInt8) (hd : src.drop st.pos = gap ++ q :: rest) (hg : GapThen gap (q :: rest))
    (hq : q = 39 ∨ q = 34) :
    ∃ st' body after, pnext src st = some st' ∧ st'.tok = 201 ∧ rest = body ++ after ∧ StrThen q body after ∧
      (src.drop st'.ptr).take st'.len = body ∧ st'.pos = st'.ptr + body.length + (if after = [] then 0 else 1) := by
  obtain ⟨gap', rest', tok, ptr, len, pos', hd', hg', ht, hn⟩ := pnext_spec h0 st hp
  obtain ⟨h1, h2⟩ := C59_gap_unique hg' hg (by rw [← hd', hd])
  subst h1 h2
  have hqi : isIdent q = false ∧ isDigit q = false := by rcases hq with h | h <;> rw [h] <;> decide
  have hqo : ∀ o ∈ operators, ¬ (text o.1 <+: q :: rest) := by
    intro o ho hpre
    have hx : ∀ o ∈ operators, text o.1 ≠ [] ∧ (text o.1).headD 0 ≠ 39 ∧ (text o.1).headD 0 ≠ 34 := by decide
    obtain ⟨h1, h2⟩ := hx o ho
    cases h3 : text o.1 with
    | nil => exact h1 h3
    | cons a s =>
      obtain ⟨v, hv⟩ := hpre
      rw [h3] at hv h2
      injection hv with h4
      simp only [List.headD_cons] at h2
      rw [h4] at h2
      rcases hq with hq | hq
      · exact h2.1 hq
      · exact h2.2 hq
  cases ht with
  | eof he => cases he
  | num d r' e he hx =>
    injection he with h1 h2; rw [← h1, ← isDigit_iff, hqi.2] at hx; cases hx
  | word w hw =>
    obtain ⟨c, w', after, rfl, he, hc, _⟩ := hw
    injection he with h1 h2; rw [← h1, ← isIdent_iff, hqi.1] at hc; cases hc
  | op t n hlo _ =>
    obtain ⟨⟨o, ho, hpre, _⟩, _⟩ := hlo
    exact absurd hpre (hqo o ho)
  | tildeEq hx =>
    exfalso
    obtain ⟨v, hv⟩ := hx
    rw [show text "~=" = [126, 61] by decide] at hv
    injection hv with h4
    rcases hq with hq | hq <;> rw [hq] at h4 <;> exact absurd h4 (by decide)
  | invalid d r' he _ _ h39 h34 =>
    injection he with h1 h2
    rcases hq with hq | hq
    · exact absurd (h1.symm.trans hq) h39
    · exact absurd (h1.symm.trans hq) h34
  | str q' body after he hq' hs =>
    have h1 : q = q' := by injection he
    have h2 : rest = body ++ after := by injection he
    subst h1
    refine ⟨_, body, after, hn, rfl, h2, hs, ?_, ?_⟩
    · show (src.drop (st.pos + gap'.length + 1)).take body.length = body
      rw [← List.drop_drop, (drop_app hd' hp).1, List.drop_one, List.tail_cons, h2, List.take_left]
    · show st.pos + gap'.length + 1 + body.length + (after.take 1).length = _
      cases after <;> simp

/-- The string of the demo source. -/
example : ∃ body after, (text "x\\\"y\" ~ if") = body ++ after ∧ StrThen 34 body after ∧ body = text "x\\\"y" :=
  ⟨text "x\\\"y", text "\" ~ if", by decide, by
    have h : text "x\\\"y" = [120, 92, 34, 121] := by decide
    have h2 : text "\" ~ if" = [34, 32, 126, 32, 105, 102] := by decide
    rw [h, h2]
    exact .char _ _ _ (by decide) (fun e => absurd e (by decide)) (.escape _ _ _ (.inl rfl)
      (.char _ _ _ (by decide) (fun e => absurd e (by decide)) (.close _))), rfl⟩

end Mjs.Props
