import Verif.Lemmas.TokOp

/-! What `pnext` returns. -/

namespace Mjs.Tok
open Mjs.Spec.Tok

theorem isIdent_iff (c : UInt8) : isIdent c = true ↔ Letter c := by
  simp only [isIdent, isAlpha, Letter, Bool.or_eq_true, Bool.and_eq_true, beq_iff_eq, decide_eq_true_eq, ← UInt8.toNat_inj,
    UInt8.le_iff_toNat_le]
  simp
  omega

theorem isDigit_iff (c : UInt8) : isDigit c = true ↔ Digit c := by
  simp only [isDigit, Digit, Bool.and_eq_true, decide_eq_true_eq, UInt8.le_iff_toNat_le]
  simp

/-- The characters that are tokens by themselves. -/
def punct : List UInt8 := [44, 46, 58, 59, 123, 125, 91, 93, 40, 41, 63]

theorem ptranslate_ne (t : Nat) (h : t ≠ 0) : ptranslate t ≠ 0 := by
  unfold ptranslate
  have hz : ∀ e ∈ translations, e.2 ≠ 0 := by decide
  split
  · rename_i e he; exact hz e (List.mem_of_find?_eq_some he)
  · exact h

theorem firstTok_induct (P : Nat × Nat → Prop) (l : List (Nat × Nat)) (h : ∀ e ∈ l, e.1 ≠ EOF → P e)
    (h1 : P (INVALID, 0)) : P (firstTok l) := by
  induction l with
  | nil => exact h1
  | cons e l ih =>
    unfold firstTok
    split
    · rename_i hn; exact h e (by simp) hn
    · exact ih (fun e' he' => h e' (by simp [he']))

theorem opF_tail (r : List UInt8) (h0 : r.getD 0 0 ≠ 0) :
    r.getD (opF (r.getD 0 0) (r.getD 1 0) (r.getD 2 0) (r.getD 3 0)).2 0 ≠ 0 ∧
    (opF (r.getD 0 0) (r.getD 1 0) (r.getD 2 0) (r.getD 3 0)).1 ≠ 0 := by
  unfold opF
  refine firstTok_induct (fun e => r.getD e.2 0 ≠ 0 ∧ e.1 ≠ 0) _ ?_ ⟨h0, by decide⟩
  have hl : ∀ f s : List UInt8, ∀ e : Nat × Nat, e = (if r.getD 0 0 ∈ f then
        (if r.getD 1 0 ≠ 0 ∧ r.getD 1 0 ∈ s then (pack [r.getD 0 0, r.getD 1 0], 1) else ((r.getD 0 0).toNat, 0))
      else (EOF, 0)) → e.1 ≠ EOF → r.getD e.2 0 ≠ 0 ∧ e.1 ≠ 0 := by
    intro f s e he hn
    refine ⟨?_, hn⟩
    rw [he]
    split
    · split
      · rename_i hx; exact hx.1
      · exact h0
    · exact h0
  have h3 : ∀ a b c : UInt8, c ≠ 0 → ∀ e : Nat × Nat,
      e = (if r.getD 0 0 = a ∧ r.getD 1 0 = b ∧ r.getD 2 0 = c then (pack [a, b, c], 2) else (EOF, 0)) → e.1 ≠ EOF →
      r.getD e.2 0 ≠ 0 ∧ e.1 ≠ 0 := by
    intro a b c hc e he hn
    refine ⟨?_, hn⟩
    rw [he]
    split
    · rename_i hx; rw [hx.2.2]; exact hc
    · exact h0
  have h4 : ∀ a b c d : UInt8, d ≠ 0 → ∀ e : Nat × Nat,
      e = (if r.getD 0 0 = a ∧ r.getD 1 0 = b ∧ r.getD 2 0 = c ∧ r.getD 3 0 = d then (pack [a, b, c, d], 3)
           else (EOF, 0)) → e.1 ≠ EOF → r.getD e.2 0 ≠ 0 ∧ e.1 ≠ 0 := by
    intro a b c d hd e he hn
    refine ⟨?_, hn⟩
    rw [he]
    split
    · rename_i hx; rw [hx.2.2.2]; exact hd
    · exact h0
  intro e he
  simp only [List.mem_cons (a := e), List.not_mem_nil (a := e), or_false] at he
  rcases he with h | h | h | h | h | h | h | h | h | h | h | h | h
  · exact h3 _ _ _ (by decide) e h
  · exact h3 _ _ _ (by decide) e h
  · exact h4 _ _ _ _ (by decide) e h
  · exact h3 _ _ _ (by decide) e h
  · exact h3 _ _ _ (by decide) e h
  · exact h3 _ _ _ (by decide) e h
  all_goals exact hl _ _ e h

/-- What the next token is, given the text `rest` at which it starts (position `p`). -/
inductive TokAt (rest : List UInt8) (p : Nat) : Nat → Nat → Nat → Nat → Prop
  | eof : rest = [] → TokAt rest p EOF p 1 p
  | num (c r e) : rest = c :: r → Digit c → p + 1 ≤ e → e ≤ p + rest.length → TokAt rest p NUM p (e - p) e
  | str (q body after) : rest = q :: body ++ after → (q = 39 ∨ q = 34) → StrThen q body after →
      TokAt rest p STR (p + 1) body.length (p + 1 + body.length + (after.take 1).length)
  | word (w) : WordAt rest w → TokAt rest p (IDENT + isReservedWordToken w) p w.length (p + w.length)
  | op (t n) : LongestOp rest t n → ¬ (text "~=" <+: rest) → TokAt rest p t p n (p + n)
  | tildeEq : text "~=" <+: rest → TokAt rest p 32317 p 2 (p + 2)
  | invalid (c r) : rest = c :: r → ¬ Letter c → ¬ Digit c → c ≠ 39 → c ≠ 34 →
      (∀ o ∈ operators, ¬ (text o.1 <+: rest)) → TokAt rest p INVALID p 1 (p + 1)

theorem wordAt_take (c : UInt8) (r : List UInt8) (h : isIdent c = true) :
    WordAt (c :: r) ((c :: r).takeWhile fun c => isIdent c || isDigit c) := by
  rw [List.takeWhile_cons_of_pos (by simp [h])]
  refine ⟨c, _, r.dropWhile fun c => isIdent c || isDigit c, rfl, ?_, (isIdent_iff c).1 h, ?_, ?_⟩
  · rw [List.cons_append, List.takeWhile_append_dropWhile]
  · intro x hx
    have := List.all_eq_true.1 List.all_takeWhile _ hx
    rw [Bool.or_eq_true, isIdent_iff, isDigit_iff] at this
    exact this
  · intro x hx hl
    have := dropWhile_head r x hx
    rw [← isIdent_iff, ← isDigit_iff, ← Bool.or_eq_true, this] at hl
    cases hl

theorem reservedLoop_none (s : List UInt8) : ∀ (l : List (List UInt8)) (i : Nat), s ∉ l → reservedLoop s l i = 0 := by
  intro l
  induction l with
  | nil => intro i _; rfl
  | cons w l ih =>
    intro i h
    unfold reservedLoop
    rw [if_neg (by rintro ⟨_, e⟩; exact h (by simp [e]))]
    exact ih (i + 1) (fun hm => h (by simp [hm]))

theorem reservedLoop_le (s : List UInt8) : ∀ (l : List (List UInt8)) (i : Nat), reservedLoop s l i ≤ i + l.length := by
  intro l
  induction l with
  | nil => intro i; simp [reservedLoop]
  | cons w l ih =>
    intro i
    unfold reservedLoop
    split
    · simp
    · have := ih (i + 1); simp; omega

theorem reserved_le (s : List UInt8) : isReservedWordToken s ≤ 31 := by
  unfold isReservedWordToken
  split
  · omega
  · have := reservedLoop_le s reserved 0
    have h : reserved.length = 31 := by decide
    omega

theorem ptranslate_word : ∀ k, k ≤ 31 → ptranslate (IDENT + k) = IDENT + k := by
  intro k hk
  have : ∀ k < 32, ptranslate (IDENT + k) = IDENT + k := by decide
  exact this k (by omega)

theorem lexeme_next {src : List UInt8} (st : State) {p line tok ptr len p' : Nat}
    (hs : skip src st.pos st.lineNo = some (p, line)) (hl : lexeme src p = some (tok, ptr, len, p')) {c : UInt8}
    (hc : peek src p' = some c) :
    pnext src st = some { pos := if c ≠ 0 then p' + 1 else p', lineNo := line, prevTok := st.tok, tok := ptranslate tok,
                          ptr := ptr, len := len } := by
  rw [pnext, hs]
  simp only [Option.bind_eq_bind, Option.bind_some]
  rw [hl]
  simp only [Option.bind_some]
  rw [hc]
  rfl

/-- Everything about one call. -/
theorem pnext_spec {src : List UInt8} (h0 : (0 : UInt8) ∉ src) (st : State) (hp : st.pos ≤ src.length) :
    ∃ gap rest tok ptr len pos', src.drop st.pos = gap ++ rest ∧ GapThen gap rest ∧
      TokAt rest (st.pos + gap.length) tok ptr len pos' ∧
      pnext src st = some { pos := pos', lineNo := st.lineNo + gap.count 10, prevTok := st.tok, tok := tok, ptr := ptr,
                            len := len } := by
  obtain ⟨gap, rest, hd, hg, hsk⟩ := skip_spec h0 _ st.pos st.lineNo rfl hp
  obtain ⟨h1, hp1⟩ := drop_app hd hp
  refine ⟨gap, rest, ?_⟩
  generalize hP : st.pos + gap.length = p at *
  cases rest with
  | nil =>
    have hpk := (drop_nil h1 hp1).2
    refine ⟨_, _, _, _, hd, hg, .eof rfl, ?_⟩
    refine (lexeme_next st hsk (tok := EOF) (ptr := p) (len := 1) (p' := p) ?_ hpk).trans ?_
    · rw [lexeme, hpk]; rfl
    · rfl
  | cons c r =>
    obtain ⟨hlt, hpk, h2, hm⟩ := drop_cons h1
    have hc0 : c ≠ 0 := fun e => h0 (e ▸ hm)
    have hlen : p + (c :: r).length = src.length := by
      have := congrArg List.length h1
      simp at this ⊢; omega
    have nz : ∀ q, q < src.length → ∃ d, peek src q = some d ∧ d ≠ 0 := by
      intro q hq
      refine ⟨src[q], by rw [peek, if_pos hq, List.getElem?_eq_getElem hq], ?_⟩
      intro e; exact h0 (e ▸ List.getElem_mem hq)
    have hlex : ∀ X, lexeme src p = X ↔ (if isDigit c = true then (do
          let e ← getnum src p
          some (NUM, p, e - p, e - 1))
        else if c = 39 ∨ c = 34 then (do
          let e ← getstrLoop src c (p + 1)
          some (STR, p + 1, e - (p + 1), e))
        else if isIdent c = true then (do
          let e ← getident src p
          some (IDENT + isReservedWordToken ((src.drop p).take (e - p)), p, e - p, e - 1))
        else if strchr [44, 46, 58, 59, 123, 125, 91, 93, 40, 41, 63] c = true then some (c.toNat, p, 1, p)
        else (do
          let (t, n) ← operator src p
          some (t, p, 1 + n, p + n))) = X := by
      intro X
      rw [lexeme, hpk]
      simp only [Option.bind_eq_bind, Option.bind_some]
      rw [if_neg hc0]
    by_cases hdig : isDigit c = true
    · obtain ⟨e, he, h3, h4⟩ := getnum_spec h1 hdig
      obtain ⟨d, hd1, hd2⟩ := nz (e - 1) (by omega)
      refine ⟨_, _, _, _, hd, hg, .num c r e rfl ((isDigit_iff c).1 hdig) h3 (by omega), ?_⟩
      refine (lexeme_next st hsk (tok := NUM) (ptr := p) (len := e - p) (p' := e - 1) ?_ hd1).trans ?_
      · rw [hlex, if_pos hdig, he]; rfl
      · rw [if_pos hd2, Nat.sub_add_cancel (by omega)]; rfl
    by_cases hq : c = 39 ∨ c = 34
    · obtain ⟨body, rest, hr, hs, he⟩ := getstr_spec h0 c (by rcases hq with h | h <;> rw [h] <;> decide) _ r (p + 1)
        rfl h2 hlt
      have hre : src.drop (p + 1 + body.length) = rest ∧ p + 1 + body.length ≤ src.length :=
        drop_app (h2.trans hr) hlt
      refine ⟨_, _, _, _, hd, hg, .str c body rest (by rw [hr]; rfl) hq hs, ?_⟩
      have key : ∃ d, peek src (p + 1 + body.length) = some d ∧
          (if d ≠ 0 then p + 1 + body.length + 1 else p + 1 + body.length)
            = p + 1 + body.length + (rest.take 1).length := by
        cases rest with
        | nil => exact ⟨0, (drop_nil hre.1 hre.2).2, by simp⟩
        | cons d rest =>
          obtain ⟨_, h5, _, h6⟩ := drop_cons hre.1
          refine ⟨d, h5, ?_⟩
          rw [if_pos (show d ≠ 0 from fun e => h0 (e ▸ h6))]; simp
      obtain ⟨d, hd1, hd2⟩ := key
      refine (lexeme_next st hsk (tok := STR) (ptr := p + 1) (len := body.length) (p' := p + 1 + body.length) ?_
        hd1).trans ?_
      · rw [hlex, if_neg hdig, if_pos hq, he]
        simp only [Option.bind_eq_bind, Option.bind_some]
        congr 4; omega
      · rw [hd2]; rfl
    by_cases hid : isIdent c = true
    · have hge := getident_eq _ p h1 hp1
      generalize hw : (c :: r).takeWhile (fun c => isIdent c || isDigit c) = w at hge
      have hwa := wordAt_take c r hid
      rw [hw] at hwa
      have hwl : 1 ≤ w.length := by
        rw [← hw, List.takeWhile_cons_of_pos (by simp [hid])]; simp
      have hwt : (src.drop p).take (p + w.length - p) = w := by
        rw [h1, Nat.add_sub_cancel_left, ← hw]
        conv => lhs; rw [← List.takeWhile_append_dropWhile (p := fun c => isIdent c || isDigit c) (l := c :: r)]
        rw [List.take_left']
        simp [List.takeWhile_append_dropWhile]
      have hwle : p + w.length ≤ src.length := by
        have : w.length ≤ (c :: r).length := by rw [← hw]; exact (List.takeWhile_sublist _).length_le
        omega
      obtain ⟨d, hd1, hd2⟩ := nz (p + w.length - 1) (by omega)
      refine ⟨_, _, _, _, hd, hg, .word w hwa, ?_⟩
      refine (lexeme_next st hsk (tok := IDENT + isReservedWordToken w) (ptr := p) (len := w.length)
        (p' := p + w.length - 1) ?_ hd1).trans ?_
      · rw [hlex, if_neg hdig, if_neg hq, if_pos hid, hge]
        simp only [Option.bind_eq_bind, Option.bind_some]
        rw [hwt, Nat.add_sub_cancel_left]
      · rw [if_pos hd2, ptranslate_word _ (reserved_le w), Nat.sub_add_cancel (by omega)]
    have hch : (c :: r).getD 0 0 = c := rfl
    by_cases hpu : c ∈ punct
    · have hlo : LongestOp (c :: r) (ptranslate c.toNat) 1 := by
        rw [longest_iff]
        have ht : ∀ c ∈ punct, (∃ o ∈ translations, o.1 = [c] ∧ o.2 = ptranslate c.toNat) ∧
            ∀ o ∈ translations, o.1.head? = some c → o.1 = [c] := by decide
        obtain ⟨⟨o, ho1, ho2, ho3⟩, hall⟩ := ht c hpu
        refine ⟨⟨o, ho1, by rw [ho2]; exact ⟨r, rfl⟩, ho3, by rw [ho2]; rfl⟩, ?_⟩
        intro o' ho' hpre
        have hz := (op_shape o' ho').1
        have : o'.1.head? = some c := by
          obtain ⟨u, hu⟩ := hpre
          cases h : o'.1 with
          | nil => exact absurd h hz
          | cons a s => rw [h] at hu; simp at hu; simp [hu.1]
        rw [hall o' ho' this]; simp
      refine ⟨_, _, _, _, hd, hg, .op (ptranslate c.toNat) 1 hlo ?_, ?_⟩
      · rintro ⟨u, hu⟩
        have : c = 126 := by
          have ht : text "~=" = [126, 61] := by decide
          rw [ht] at hu; simp at hu; exact hu.1.symm
        rw [this] at hpu; exact absurd hpu (by decide)
      · refine (lexeme_next st hsk (tok := c.toNat) (ptr := p) (len := 1) (p' := p) ?_ hpk).trans ?_
        · rw [hlex, if_neg hdig, if_neg hq, if_neg hid, if_pos (show strchr [44, 46, 58, 59, 123, 125, 91, 93, 40, 41, 63] c = true from
            (strchr_iff _ _ hc0).2 hpu)]
        · rw [if_pos hc0]
    -- operators
    have hopE := operator_eq h1 hp1 (by rw [hch]; exact hc0)
    have htail := opF_tail (c :: r) (by rw [hch]; exact hc0)
    generalize hE : opF ((c :: r).getD 0 0) ((c :: r).getD 1 0) ((c :: r).getD 2 0) ((c :: r).getD 3 0) = E at *
    have hpkE := peek_ahead h1 hp1 E.2 (by have := getD_pos rfl htail.1; omega)
    have hpn : pnext src st = some { pos := p + (1 + E.2), lineNo := st.lineNo + gap.count 10, prevTok := st.tok,
                                     tok := ptranslate E.1, ptr := p, len := 1 + E.2 } := by
      refine (lexeme_next st hsk (tok := E.1) (ptr := p) (len := 1 + E.2) (p' := p + E.2) ?_ hpkE).trans ?_
      · rw [hlex, if_neg hdig, if_neg hq, if_neg hid, if_neg (show ¬ strchr [44, 46, 58, 59, 123, 125, 91, 93, 40, 41, 63] c = true from
          fun hn => hpu ((strchr_iff _ _ hc0).1 hn)), hopE]
        rfl
      · rw [if_pos htail.1]
        congr 2; omega
    by_cases hop : c ∈ opChars
    · by_cases hte : c = 126 ∧ (c :: r).getD 1 0 = 61
      · have hE2 : E = (32317, 1) := by
          have : ∀ c2 c3, opF 126 61 c2 c3 = (32317, 1) := by
            intro c2 c3
            simp [opF, firstTok, pack]
          rw [← hE, hte.2, hch, hte.1, this]
        have hpre : text "~=" <+: c :: r := by
          rw [show text "~=" = [126, 61] by decide, pre2 _ _ _ (by decide) (by decide)]
          exact ⟨by rw [hch]; exact hte.1, hte.2⟩
        refine ⟨_, _, _, _, hd, hg, .tildeEq hpre, ?_⟩
        rw [hpn, hE2]
        rfl
      · have hlo := opF_longest (c :: r) (by rw [hch]; exact hop) (by rw [hch]; exact hte)
        rw [hE] at hlo
        refine ⟨_, _, _, _, hd, hg, .op (ptranslate E.1) (1 + E.2) hlo ?_, hpn⟩
        rw [show text "~=" = [126, 61] by decide, pre2 _ _ _ (by decide) (by decide)]
        exact hte
    · have hE2 : E = (INVALID, 0) := by
        rw [← hE, hch]
        generalize (c :: r).getD 1 0 = c1
        generalize (c :: r).getD 2 0 = c2
        generalize (c :: r).getD 3 0 = c3
        simp only [opChars, List.mem_cons, List.not_mem_nil, or_false, not_or] at hop
        simp [opF, firstTok, hop]
      refine ⟨_, _, _, _, hd, hg, .invalid c r rfl (fun h => hid ((isIdent_iff c).2 h))
        (fun h => hdig ((isDigit_iff c).2 h)) (fun h => hq (.inl h)) (fun h => hq (.inr h)) ?_, ?_⟩
      · intro o ho hpre
        have hmem : (text o.1, o.2) ∈ translations := by
          rw [← ops_eq]; exact List.mem_map.2 ⟨o, ho, rfl⟩
        have ht : ∀ o ∈ translations, ∃ a s, o.1 = a :: s ∧ (a ∈ punct ∨ a ∈ opChars) := by
          intro o ho
          have h5 : ∀ o ∈ translations, o.1 ≠ [] ∧ (o.1.headD 0 ∈ punct ∨ o.1.headD 0 ∈ opChars) := by decide
          obtain ⟨h6, h7⟩ := h5 o ho
          cases h8 : o.1 with
          | nil => exact absurd h8 h6
          | cons a s => rw [h8] at h7; exact ⟨a, s, rfl, h7⟩
        obtain ⟨a, s, ha, hx⟩ := ht _ hmem
        simp only at ha
        rw [ha] at hpre
        obtain ⟨u, hu⟩ := hpre
        have : a = c := by simp at hu; exact hu.1
        rw [this] at hx
        rcases hx with hx | hx
        · exact hpu hx
        · exact hop hx
      · rw [hpn, hE2]; rfl

end Mjs.Tok
