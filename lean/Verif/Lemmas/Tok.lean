import Verif.Lemmas.TokLoops
import Verif.Spec.Tok

/-! Helper lemmas about the tokenizer. -/

namespace Mjs.Tok
open Mjs.Spec.Tok

theorem drop_cons {src r : List UInt8} {pos : Nat} {c : UInt8} (h : src.drop pos = c :: r) :
    pos < src.length ∧ peek src pos = some c ∧ src.drop (pos + 1) = r ∧ c ∈ src := by
  have hl : pos < src.length := by
    rcases Nat.lt_or_ge pos src.length with h1 | h1
    · exact h1
    · rw [List.drop_of_length_le (l := src) h1] at h; cases h
  rw [List.drop_eq_getElem_cons hl] at h
  injection h with h1 h2
  refine ⟨hl, ?_, h2, h1 ▸ List.getElem_mem hl⟩
  rw [peek, if_pos hl, List.getElem?_eq_getElem hl, h1]

theorem drop_nil {src : List UInt8} {pos : Nat} (h : src.drop pos = []) (hp : pos ≤ src.length) :
    pos = src.length ∧ peek src pos = some 0 := by
  have : src.length ≤ pos := by simpa using h
  have : pos = src.length := by omega
  refine ⟨this, ?_⟩
  rw [peek, if_neg (by omega), if_pos this]

/-- The bytes ahead, 0 beyond the end. -/
theorem peek_ahead {src r : List UInt8} {pos : Nat} (h : src.drop pos = r) (hp : pos ≤ src.length) (i : Nat)
    (hi : i ≤ r.length) : peek src (pos + i) = some (r.getD i 0) := by
  have hl : r.length = src.length - pos := by rw [← h]; simp
  subst h
  by_cases h1 : pos + i < src.length
  · rw [peek, if_pos h1, List.getElem?_eq_getElem h1]
    simp [List.getD_eq_getElem?_getD, List.getElem?_drop, List.getElem?_eq_getElem h1]
  · rw [peek, if_neg h1, if_pos (by omega)]
    simp [List.getD_eq_getElem?_getD, List.getElem?_drop]
    rw [List.getElem?_eq_none (by omega)]; rfl

theorem skipSpaces_eq {src : List UInt8} : ∀ (r : List UInt8) (pos line : Nat), src.drop pos = r → pos ≤ src.length →
    skipSpaces src pos line
      = some (pos + (r.takeWhile isSpace).length, line + (r.takeWhile isSpace).count 10) := by
  intro r
  induction r with
  | nil =>
    intro pos line h hp
    rw [skipSpaces_step, (drop_nil h hp).2]
    rfl
  | cons c r ih =>
    intro pos line h hp
    obtain ⟨h1, h2, h3, _⟩ := drop_cons h
    rw [skipSpaces_step, h2]
    show (if isSpace c = true then _ else _) = _
    by_cases hc : isSpace c = true
    · rw [if_pos hc, ih _ _ h3 h1, List.takeWhile_cons_of_pos hc]
      by_cases h10 : c = 10
      · subst h10; simp; omega
      · simp [h10]; omega
    · rw [if_neg hc, List.takeWhile_cons_of_neg hc]; simp

theorem skipLine_eq {src : List UInt8} : ∀ (r : List UInt8) (pos : Nat), src.drop pos = r → pos ≤ src.length →
    skipLine src pos = some (pos + (r.takeWhile (fun c => c != 0 && c != 10)).length) := by
  intro r
  induction r with
  | nil =>
    intro pos h hp
    rw [skipLine_step, (drop_nil h hp).2]
    rfl
  | cons c r ih =>
    intro pos h hp
    obtain ⟨h1, h2, h3, _⟩ := drop_cons h
    rw [skipLine_step, h2]
    show (if c ≠ 0 ∧ c ≠ 10 then _ else _) = _
    by_cases hc : c ≠ 0 ∧ c ≠ 10
    · rw [if_pos hc, ih _ h3 h1, List.takeWhile_cons_of_pos (by simp [hc.1, hc.2])]
      simp; omega
    · rw [if_neg hc, List.takeWhile_cons_of_neg (by simpa [Classical.not_and_iff_not_or_not] using hc)]; simp

theorem getident_eq {src : List UInt8} : ∀ (r : List UInt8) (pos : Nat), src.drop pos = r → pos ≤ src.length →
    getident src pos = some (pos + (r.takeWhile (fun c => isIdent c || isDigit c)).length) := by
  intro r
  induction r with
  | nil =>
    intro pos h hp
    rw [getident_step, (drop_nil h hp).2]
    rfl
  | cons c r ih =>
    intro pos h hp
    obtain ⟨h1, h2, h3, _⟩ := drop_cons h
    rw [getident_step, h2]
    show (if isIdent c = true ∨ isDigit c = true then _ else _) = _
    by_cases hc : isIdent c = true ∨ isDigit c = true
    · rw [if_pos hc, ih _ h3 h1, List.takeWhile_cons_of_pos (by simpa using hc)]
      simp; omega
    · rw [if_neg hc, List.takeWhile_cons_of_neg (by simpa using hc)]; simp

theorem starts_eq {src r : List UInt8} {pos : Nat} (a b : UInt8) (ha : a ≠ 0) (hb : b ≠ 0) (h : src.drop pos = r)
    (hp : pos ≤ src.length) : starts src pos a b = some (decide ([a, b] <+: r)) := by
  unfold starts
  cases r with
  | nil =>
    rw [(drop_nil h hp).2]
    show (if (0 : UInt8) = a then _ else _) = _
    rw [if_neg (fun h => ha h.symm)]; simp
  | cons c r =>
    obtain ⟨h1, h2, h3, _⟩ := drop_cons h
    rw [h2]
    show (if c = a then _ else _) = _
    by_cases hc : c = a
    · rw [if_pos hc]
      cases r with
      | nil => rw [(drop_nil h3 h1).2]; simp [hc, Ne.symm hb]
      | cons d r =>
        rw [(drop_cons h3).2.1]
        subst hc
        by_cases hd : d = b
        · simp [hd]
        · simp [hd, Ne.symm hd]
    · rw [if_neg hc]; simp [Ne.symm hc]

theorem isSpace_iff (c : UInt8) : isSpace c = true ↔ Blank c := by
  simp only [isSpace, Blank, Bool.or_eq_true, beq_iff_eq, ← UInt8.toNat_inj]
  simp
  omega

/-- Inside a block comment. -/
theorem skipBlock_eq {src : List UInt8} (h0 : (0 : UInt8) ∉ src) : ∀ (r : List UInt8) (pos line : Nat), src.drop pos = r →
    pos ≤ src.length →
    (∃ t s, r = t ++ 42 :: 47 :: s ∧ ¬ ([42, 47] <:+: t) ∧ skipBlock src pos line
        = some (pos + t.length + 2, line + t.count 10)) ∨
    (¬ ([42, 47] <:+: r) ∧ skipBlock src pos line = some (pos + r.length, line + r.count 10)) := by
  intro r
  induction r with
  | nil =>
    intro pos line h hp
    refine .inr ⟨by simp, ?_⟩
    rw [skipBlock_step, (drop_nil h hp).2]
    rfl
  | cons c r ih =>
    intro pos line h hp
    obtain ⟨h1, h2, h3, hm⟩ := drop_cons h
    have hc0 : c ≠ 0 := fun e => h0 (e ▸ hm)
    have hstep : skipBlock src pos line
        = if [42, 47] <+: c :: r then some (pos + 2, if c = 10 then line + 1 else line)
          else skipBlock src (pos + 1) (if c = 10 then line + 1 else line) := by
      rw [skipBlock_step, h2]
      show (if c = 0 then _ else _) = _
      rw [if_neg hc0, starts_eq 42 47 (by decide) (by decide) h hp]
      show (if decide ([42, 47] <+: c :: r) = true then _ else _) = _
      by_cases hx : [42, 47] <+: c :: r
      · rw [if_pos (by simpa using hx), if_pos hx]
      · rw [if_neg (by simpa using hx), if_neg hx]
    rw [hstep]
    by_cases hx : [42, 47] <+: c :: r
    · rw [if_pos hx]
      obtain ⟨s, hs⟩ := hx
      refine .inl ⟨[], s, by simpa using hs.symm, by simp, ?_⟩
      have : c = 42 := by simp at hs; exact hs.1.symm
      subst this; simp
    · rw [if_neg hx]
      have hline : (if c = 10 then line + 1 else line) = line + [c].count 10 := by
        by_cases h10 : c = 10 <;> simp [h10]
      rw [hline]
      rcases ih (pos + 1) (line + [c].count 10) h3 h1 with ⟨t, s, hr, ht, he⟩ | ⟨ht, he⟩
      · refine .inl ⟨c :: t, s, by simp [hr], ?_, ?_⟩
        · intro hi
          rcases List.infix_cons_iff.1 hi with hi | hi
          · apply hx
            rw [hr]
            exact hi.trans ⟨42 :: 47 :: s, by simp⟩
          · exact ht hi
        · rw [he]; simp [List.count_cons]; omega
      · refine .inr ⟨?_, ?_⟩
        · intro hi
          rcases List.infix_cons_iff.1 hi with hi | hi
          · exact hx hi
          · exact ht hi
        · rw [he]; simp [List.count_cons]; omega

theorem text_line : text "//" = [47, 47] := by decide
theorem text_open : text "/*" = [47, 42] := by decide
theorem text_close : text "*/" = [42, 47] := by decide

theorem takeWhile_blank : ∀ (r : List UInt8) (s rest : List UInt8), GapThen s rest → r.dropWhile isSpace = s ++ rest →
    GapThen (r.takeWhile isSpace ++ s) rest := by
  intro r
  induction r with
  | nil => intro s rest h _; simpa using h
  | cons c r ih =>
    intro s rest h hd
    by_cases hc : isSpace c = true
    · rw [List.takeWhile_cons_of_pos hc]
      rw [List.dropWhile_cons_of_pos hc] at hd
      exact .blank _ _ _ ((isSpace_iff c).1 hc) (ih s rest h hd)
    · rw [List.takeWhile_cons_of_neg hc]; simpa using h

theorem drop_app {src g r : List UInt8} {pos : Nat} (h : src.drop pos = g ++ r) (hp : pos ≤ src.length) :
    src.drop (pos + g.length) = r ∧ pos + g.length ≤ src.length := by
  constructor
  · rw [← List.drop_drop, h, List.drop_left]
  · have := congrArg List.length h
    simp at this; omega

theorem dropWhile_head {f : UInt8 → Bool} : ∀ (r : List UInt8) (c : UInt8), (r.dropWhile f).head? = some c → f c = false := by
  intro r
  induction r with
  | nil => intro c h; simp at h
  | cons d r ih =>
    intro c h
    by_cases hd : f d = true
    · rw [List.dropWhile_cons_of_pos hd] at h; exact ih c h
    · rw [List.dropWhile_cons_of_neg hd] at h
      simp at h; subst h; simpa using hd

/-- One round: what is skipped and what that means for the gap. -/
theorem skipRound_spec {src : List UInt8} (h0 : (0 : UInt8) ∉ src) {r : List UInt8} {pos : Nat} (line : Nat)
    (h : src.drop pos = r) (hp : pos ≤ src.length) :
    ∃ g r', r = g ++ r' ∧ skipRound src pos line = some (pos + g.length, line + g.count 10) ∧ (g = [] → Solid r) ∧
      ∀ s rest, r' = s ++ rest → GapThen s rest → GapThen (g ++ s) rest := by
  have hr0 : (0 : UInt8) ∉ r := fun hm => h0 (List.mem_of_mem_drop (h ▸ hm))
  have hsp := List.takeWhile_append_dropWhile (p := isSpace) (l := r)
  generalize ha : r.takeWhile isSpace = a at hsp
  generalize hb : r.dropWhile isSpace = r1 at hsp
  obtain ⟨h1, hp1⟩ := drop_app (g := a) (r := r1) (h.trans hsp.symm) hp
  have hblank : ∀ s rest, r1 = s ++ rest → GapThen s rest → GapThen (a ++ s) rest := by
    intro s rest hs hg
    rw [← ha]
    exact takeWhile_blank r s rest hg (hb.trans hs)
  have hhead : ∀ c, r1.head? = some c → ¬ Blank c := by
    intro c hc
    have := dropWhile_head r c (hb ▸ hc)
    intro hbl
    rw [(isSpace_iff c).2 hbl] at this
    cases this
  have hround : skipRound src pos line = (do
      let p2 ← (if decide ([47, 47] <+: r1) = true then skipLine src (pos + a.length) else some (pos + a.length))
      let isBlock ← starts src p2 47 42
      if isBlock then skipBlock src (p2 + 2) (line + a.count 10) else some (p2, line + a.count 10)) := by
    rw [skipRound, skipSpaces_eq r pos line h hp, ha]
    show (do
      let isLine ← starts src (pos + a.length) 47 47
      let p2 ← (if isLine then skipLine src (pos + a.length) else some (pos + a.length))
      let isBlock ← starts src p2 47 42
      if isBlock then skipBlock src (p2 + 2) (line + a.count 10) else some (p2, line + a.count 10)) = _
    rw [starts_eq 47 47 (by decide) (by decide) h1 hp1]
    rfl
  rw [hround]
  by_cases hl : [47, 47] <+: r1
  · rw [if_pos (by simpa using hl), skipLine_eq r1 _ h1 hp1]
    have hsp2 := List.takeWhile_append_dropWhile (p := fun c : UInt8 => c != 0 && c != 10) (l := r1)
    generalize hb1 : r1.takeWhile (fun c : UInt8 => c != 0 && c != 10) = b at hsp2
    generalize hb2 : r1.dropWhile (fun c : UInt8 => c != 0 && c != 10) = r2 at hsp2
    obtain ⟨h2, hp2⟩ := drop_app (g := b) (r := r2) (h1.trans hsp2.symm) hp1
    have hhd : ∀ c, r2.head? = some c → c = 10 := by
      intro c hc
      have hx := dropWhile_head r1 c (hb2 ▸ hc)
      have hm : c ∈ r := by
        rw [← hsp, ← hsp2]
        cases r2 with
        | nil => cases hc
        | cons d r2 => simp at hc; subst hc; simp
      have hc0 : c ≠ 0 := fun e => hr0 (e ▸ hm)
      simpa [hc0] using hx
    have hb0 : b.count 10 = 0 := by
      apply List.count_eq_zero.2
      intro hm
      rw [← hb1] at hm
      have := List.all_eq_true.1 List.all_takeWhile _ hm
      simp at this
    obtain ⟨t, ht⟩ : ∃ t, b = 47 :: 47 :: t := by
      obtain ⟨u, hu⟩ := hl
      rw [← hb1, ← hu]
      exact ⟨_, rfl⟩
    refine ⟨a ++ b, r2, by rw [List.append_assoc, hsp2, hsp], ?_, ?_, ?_⟩
    · show (do
        let isBlock ← starts src (pos + a.length + b.length) 47 42
        if isBlock then skipBlock src (pos + a.length + b.length + 2) (line + a.count 10)
        else some (pos + a.length + b.length, line + a.count 10)) = _
      rw [starts_eq 47 42 (by decide) (by decide) h2 hp2]
      have hn : ¬ ([47, 42] <+: r2) := by
        rintro ⟨u, hu⟩
        have := hhd 47 (by rw [← hu]; rfl)
        exact absurd this (by decide)
      show (if decide ([47, 42] <+: r2) = true then _ else _) = _
      rw [if_neg (by simpa using hn)]
      simp [hb0]; omega
    · intro he
      rw [ht] at he; simp at he
    · intro s rest hs hg
      rw [List.append_assoc]
      refine hblank (b ++ s) rest (by rw [List.append_assoc, ← hs, hsp2]) ?_
      rw [ht]
      have : 10 ∉ t := by
        intro hm
        have : 10 ∈ b := by rw [ht]; simp [hm]
        exact absurd hb0 (by rw [List.count_eq_zero]; simpa using this)
      have h3 := GapThen.line t s rest this (by rw [← hs]; exact hhd) hg
      rw [text_line] at h3
      exact h3
  · rw [if_neg (by simpa using hl)]
    have hr1 : starts src (pos + a.length) 47 42 = some (decide ([47, 42] <+: r1)) :=
      starts_eq 47 42 (by decide) (by decide) h1 hp1
    have hred : (do
        let p2 ← some (pos + a.length)
        let isBlock ← starts src p2 47 42
        if isBlock then skipBlock src (p2 + 2) (line + a.count 10) else some (p2, line + a.count 10))
        = if decide ([47, 42] <+: r1) = true then skipBlock src (pos + a.length + 2) (line + a.count 10)
          else some (pos + a.length, line + a.count 10) := by
      show (do
        let isBlock ← starts src (pos + a.length) 47 42
        if isBlock then skipBlock src (pos + a.length + 2) (line + a.count 10)
        else some (pos + a.length, line + a.count 10)) = _
      rw [hr1]; rfl
    rw [hred]
    by_cases hbk : [47, 42] <+: r1
    · rw [if_pos (by simpa using hbk)]
      obtain ⟨r2, hr2⟩ := hbk
      obtain ⟨h2, hp2⟩ := drop_app (g := [47, 42]) (r := r2) (h1.trans hr2.symm) hp1
      rcases skipBlock_eq h0 r2 (pos + a.length + 2) (line + a.count 10) h2 hp2 with ⟨t, s', hr, ht, he⟩ | ⟨ht, he⟩
      · refine ⟨a ++ (47 :: 42 :: t ++ [42, 47]), s', ?_, ?_, ?_, ?_⟩
        · rw [← hsp, ← hr2, hr]; simp
        · rw [he]; simp [List.count_append]; omega
        · intro hx; simp at hx
        · intro s rest hs hg
          rw [List.append_assoc]
          refine hblank _ rest ?_ ?_
          · rw [← hr2, hr, hs]; simp
          · have := GapThen.block t s rest (by rw [text_close]; exact ht) hg
            rw [text_open, text_close] at this
            simpa using this
      · refine ⟨a ++ (47 :: 42 :: r2), [], ?_, ?_, ?_, ?_⟩
        · rw [← hsp, ← hr2]; simp
        · rw [he]; simp [List.count_append]; omega
        · intro hx; simp at hx
        · intro s rest hs hg
          have hs' : s = [] ∧ rest = [] := by simpa using hs.symm
          rw [hs'.1, hs'.2, List.append_nil]
          refine hblank _ [] (by rw [← hr2]; simp) ?_
          have := GapThen.openBlock r2 (by rw [text_close]; exact ht)
          rw [text_open] at this
          exact this
    · rw [if_neg (by simpa using hbk)]
      refine ⟨a, r1, hsp.symm, rfl, ?_, hblank⟩
      intro he
      rw [he, List.nil_append] at hsp
      rw [← hsp]
      exact ⟨hhead, by rw [text_line]; exact hl, by rw [text_open]; exact hbk⟩

/-- Skipping ends at the next token. -/
theorem skip_spec {src : List UInt8} (h0 : (0 : UInt8) ∉ src) : ∀ (n : Nat) (pos line : Nat), src.length - pos = n →
    pos ≤ src.length →
    ∃ gap rest, src.drop pos = gap ++ rest ∧ GapThen gap rest ∧
      skip src pos line = some (pos + gap.length, line + gap.count 10) := by
  intro n
  induction n using Nat.strongRecOn with
  | _ n ih =>
    intro pos line hn hp
    obtain ⟨g, r', hr, he, hnil, hcomp⟩ := skipRound_spec h0 line (r := src.drop pos) rfl hp
    obtain ⟨h1, hp1⟩ := drop_app hr hp
    have hstep : skip src pos line
        = if pos < pos + g.length then skip src (pos + g.length) (line + g.count 10)
          else some (pos + g.length, line + g.count 10) := by
      rw [skip_step, he]; rfl
    rw [hstep]
    cases g with
    | nil =>
      refine ⟨[], src.drop pos, rfl, .done _ (hnil rfl), ?_⟩
      rw [if_neg (by simp)]
    | cons c g =>
      rw [if_pos (by simp)]
      have hlt : src.length - (pos + (c :: g).length) < n := by simp at hp1 ⊢; omega
      obtain ⟨gap, rest, hd, hg, hs⟩ := ih _ hlt (pos + (c :: g).length) (line + (c :: g).count 10) rfl hp1
      refine ⟨c :: g ++ gap, rest, ?_, hcomp gap rest (h1.symm.trans hd) hg, ?_⟩
      · rw [hr, List.append_assoc, ← hd, h1]
      · rw [hs, List.length_append, List.count_append]; congr 2 <;> omega

/-! ### Strings -/

theorem text_esc : text "bfnrtv\\" = [98, 102, 110, 114, 116, 118, 92] := by decide

theorem getstr_spec {src : List UInt8} (h0 : (0 : UInt8) ∉ src) (q : UInt8) (hq : q ≠ 92) : ∀ (n : Nat) (r : List UInt8)
    (pos : Nat), r.length = n → src.drop pos = r → pos ≤ src.length →
    ∃ body rest, r = body ++ rest ∧ StrThen q body rest ∧ getstrLoop src q pos = some (pos + body.length) := by
  intro n
  induction n using Nat.strongRecOn with
  | _ n ih =>
    intro r pos hn h hp
    cases r with
    | nil =>
      refine ⟨[], [], rfl, .unclosed, ?_⟩
      rw [getstrLoop_step, (drop_nil h hp).2]; rfl
    | cons c r =>
      obtain ⟨h1, h2, h3, hm⟩ := drop_cons h
      have hc0 : c ≠ 0 := fun e => h0 (e ▸ hm)
      rw [getstrLoop_step, h2]
      show ∃ body rest, _ ∧ _ ∧ (if c = 0 ∨ c = q then some pos else if c = 92 then _ else _) = _
      by_cases hcq : c = q
      · subst hcq
        exact ⟨[], c :: r, rfl, .close _, by rw [if_pos (.inr rfl)]; rfl⟩
      · rw [if_neg (by simp [hc0, hcq])]
        have hplain : (c = 92 → ∀ d, r.head? = some d → ¬ (d = q ∨ d ∈ text "bfnrtv\\")) →
            ∃ body rest, c :: r = body ++ rest ∧ StrThen q body rest ∧
              getstrLoop src q (pos + 1) = some (pos + body.length) := by
          intro hx
          obtain ⟨body, rest, hr, hs, he⟩ := ih r.length (by simp at hn; omega) r (pos + 1) rfl h3 h1
          refine ⟨c :: body, rest, by rw [hr]; rfl, .char _ _ _ hcq (by rw [← hr]; exact hx) hs, ?_⟩
          rw [he]; simp; omega
        by_cases h92 : c = 92
        · rw [if_pos h92]
          cases r with
          | nil =>
            rw [(drop_nil h3 h1).2]
            simp only [Option.bind_eq_bind, Option.bind_some, ne_eq, not_true, false_and, if_false]
            exact hplain (by intro _ d hd; cases hd)
          | cons d r =>
            obtain ⟨h4, h5, h6, hm2⟩ := drop_cons h3
            have hd0 : d ≠ 0 := fun e => h0 (e ▸ hm2)
            rw [h5]
            show ∃ body rest, _ ∧ _ ∧ (if d ≠ 0 ∧ (d = q ∨ strchr [98, 102, 110, 114, 116, 118, 92] d = true) then _
              else _) = _
            have hiff : (d ≠ 0 ∧ (d = q ∨ strchr [98, 102, 110, 114, 116, 118, 92] d = true))
                ↔ (d = q ∨ d ∈ text "bfnrtv\\") := by
              rw [text_esc, strchr]
              simp [hd0]
            by_cases hx : d = q ∨ d ∈ text "bfnrtv\\"
            · rw [if_pos (hiff.2 hx)]
              obtain ⟨body, rest, hr, hs, he⟩ := ih r.length (by simp at hn; omega) r (pos + 2) rfl h6 h4
              refine ⟨92 :: d :: body, rest, by rw [hr, h92]; rfl, .escape _ _ _ hx hs, ?_⟩
              rw [he]; simp; omega
            · rw [if_neg (fun hy => hx (hiff.1 hy))]
              refine hplain ?_
              intro _ d' hd'
              simp at hd'; subst hd'; exact hx
        · rw [if_neg h92]
          exact hplain (fun e => absurd e h92)

/-! ### Numbers -/

theorem span_le (f : UInt8 → Bool) (s : List UInt8) : span f s ≤ s.length := by
  unfold span
  exact (List.takeWhile_sublist f).length_le

theorem span_drop_le (f : UInt8 → Bool) (s : List UInt8) (n : Nat) (h : n ≤ s.length) :
    n + span f (s.drop n) ≤ s.length := by
  have := span_le f (s.drop n)
  simp at this; omega

theorem signLen_le (s : List UInt8) : signLen s ≤ s.length := by
  cases s with
  | nil => simp [signLen]
  | cons c s => simp only [signLen]; split <;> simp

theorem hexPrefixLen_le (s : List UInt8) : hexPrefixLen s ≤ s.length := by
  unfold hexPrefixLen
  split
  · split <;> simp
  · omega

theorem strtoulLen_le (s : List UInt8) : strtoulLen s ≤ s.length := by
  unfold strtoulLen
  have h1 := span_le isSpace s
  have h2 := signLen_le (s.drop (span isSpace s))
  have h3 := hexPrefixLen_le (s.drop (span isSpace s + signLen (s.drop (span isSpace s))))
  simp only [List.length_drop] at h2 h3
  have h4 := span_drop_le isXDigit s (span isSpace s + signLen (s.drop (span isSpace s)) +
    hexPrefixLen (s.drop (span isSpace s + signLen (s.drop (span isSpace s))))) (by omega)
  simp only
  split
  · omega
  · exact h4

theorem exponentLen_le (a b : UInt8) (s : List UInt8) : exponentLen a b s ≤ s.length := by
  cases s with
  | nil => simp [exponentLen]
  | cons c s =>
    simp only [exponentLen]
    have h2 := signLen_le s
    have h4 := span_drop_le isDigit s (signLen s) h2
    split
    · split <;> simp; omega
    · simp

theorem fractionLen_le (f : UInt8 → Bool) (s : List UInt8) : fractionLen f s ≤ s.length := by
  cases s with
  | nil => simp [fractionLen]
  | cons c s =>
    simp only [fractionLen]
    have := span_le f s
    split <;> simp; omega

theorem strtodLen_le (s : List UInt8) : strtodLen s ≤ s.length := by
  have tail : ∀ (f : UInt8 → Bool) (a b : UInt8) (x : Nat), x ≤ s.length →
      x + span f (s.drop x) + fractionLen f (s.drop (x + span f (s.drop x)))
        + exponentLen a b (s.drop (x + span f (s.drop x) + fractionLen f (s.drop (x + span f (s.drop x))))) ≤ s.length := by
    intro f a b x hx
    have h1 := span_drop_le f s x hx
    have h2 := fractionLen_le f (s.drop (x + span f (s.drop x)))
    have h3 := exponentLen_le a b (s.drop (x + span f (s.drop x) + fractionLen f (s.drop (x + span f (s.drop x)))))
    simp only [List.length_drop] at h2 h3
    omega
  unfold strtodLen
  simp only
  split
  · exact tail isXDigit 112 80 _ (hexPrefixLen_le s)
  · have := tail isDigit 101 69 0 (by omega)
    simpa using this

theorem strtodLen_pos (c : UInt8) (s : List UInt8) (h : isDigit c = true) : 1 ≤ strtodLen (c :: s) := by
  unfold strtodLen
  simp only
  split
  · omega
  · have : 1 ≤ span isDigit (c :: s) := by
      unfold span
      rw [List.takeWhile_cons_of_pos h]; simp
    omega

theorem getnum_spec {src r : List UInt8} {pos : Nat} {c : UInt8} (h : src.drop pos = c :: r) (hc : isDigit c = true) :
    ∃ e, getnum src pos = some e ∧ pos + 1 ≤ e ∧ e ≤ src.length := by
  have hp := (drop_cons h).1
  unfold getnum
  rw [starts_eq 48 120 (by decide) (by decide) h (by omega)]
  show ∃ e, (if decide ([48, 120] <+: c :: r) = true then _ else _) = some e ∧ _
  by_cases hx : [48, 120] <+: c :: r
  · rw [if_pos (by simpa using hx)]
    refine ⟨_, rfl, by omega, ?_⟩
    have := strtoulLen_le (src.drop (pos + 2))
    have h2 : 2 ≤ (c :: r).length := by
      obtain ⟨u, hu⟩ := hx
      rw [← hu]; simp
    rw [← h] at h2
    simp only [List.length_drop] at this h2
    omega
  · rw [if_neg (by simpa using hx)]
    refine ⟨_, rfl, ?_, ?_⟩
    · rw [h]; have := strtodLen_pos c r hc; omega
    · have := strtodLen_le (src.drop pos)
      simp only [List.length_drop] at this
      omega

/-! ### Operators -/

theorem getD_pos {r : List UInt8} {i : Nat} {a : UInt8} (h : r.getD i 0 = a) (ha : a ≠ 0) : i + 1 ≤ r.length := by
  rcases Nat.lt_or_ge i r.length with h1 | h1
  · exact h1
  · rw [List.getD_eq_getElem?_getD, List.getElem?_eq_none h1] at h
    exact absurd h.symm ha

theorem longtok3_eq {src r : List UInt8} {pos : Nat} (h : src.drop pos = r) (hp : pos ≤ src.length) {a b c : UInt8}
    (ha : a ≠ 0) (hb : b ≠ 0) :
    longtok3 src pos a b c
      = some (if r.getD 0 0 = a ∧ r.getD 1 0 = b ∧ r.getD 2 0 = c then (pack [a, b, c], 2) else (EOF, 0)) := by
  have p0 := peek_ahead h hp 0 (Nat.zero_le _)
  rw [Nat.add_zero] at p0
  unfold longtok3
  rw [p0]
  show (if r.getD 0 0 ≠ a then _ else _) = _
  by_cases h0 : r.getD 0 0 = a
  · rw [if_neg (fun hn => hn h0), peek_ahead h hp 1 (getD_pos h0 ha)]
    show (if r.getD 1 0 ≠ b then _ else _) = _
    by_cases h1 : r.getD 1 0 = b
    · rw [if_neg (fun hn => hn h1), peek_ahead h hp 2 (getD_pos h1 hb)]
      show (if r.getD 2 0 ≠ c then _ else _) = _
      by_cases h2 : r.getD 2 0 = c
      · rw [if_neg (fun hn => hn h2), if_pos ⟨h0, h1, h2⟩, h0, h1, h2]; simp [pack]
      · rw [if_pos h2, if_neg (fun hn => h2 hn.2.2)]
    · rw [if_pos h1, if_neg (fun hn => h1 hn.2.1)]
  · rw [if_pos h0, if_neg (fun hn => h0 hn.1)]

theorem longtok4_eq {src r : List UInt8} {pos : Nat} (h : src.drop pos = r) (hp : pos ≤ src.length) {a b c d : UInt8}
    (ha : a ≠ 0) (hb : b ≠ 0) (hc : c ≠ 0) :
    longtok4 src pos a b c d
      = some (if r.getD 0 0 = a ∧ r.getD 1 0 = b ∧ r.getD 2 0 = c ∧ r.getD 3 0 = d then (pack [a, b, c, d], 3)
              else (EOF, 0)) := by
  have p0 := peek_ahead h hp 0 (Nat.zero_le _)
  rw [Nat.add_zero] at p0
  unfold longtok4
  rw [p0]
  show (if r.getD 0 0 ≠ a then _ else _) = _
  by_cases h0 : r.getD 0 0 = a
  · rw [if_neg (fun hn => hn h0), peek_ahead h hp 1 (getD_pos h0 ha)]
    show (if r.getD 1 0 ≠ b then _ else _) = _
    by_cases h1 : r.getD 1 0 = b
    · rw [if_neg (fun hn => hn h1), peek_ahead h hp 2 (getD_pos h1 hb)]
      show (if r.getD 2 0 ≠ c then _ else _) = _
      by_cases h2 : r.getD 2 0 = c
      · rw [if_neg (fun hn => hn h2), peek_ahead h hp 3 (getD_pos h2 hc)]
        show (if r.getD 3 0 ≠ d then _ else _) = _
        by_cases h3 : r.getD 3 0 = d
        · rw [if_neg (fun hn => hn h3), if_pos ⟨h0, h1, h2, h3⟩, h0, h1, h2, h3]; simp [pack]
        · rw [if_pos h3, if_neg (fun hn => h3 hn.2.2.2)]
      · rw [if_pos h2, if_neg (fun hn => h2 hn.2.2.1)]
    · rw [if_pos h1, if_neg (fun hn => h1 hn.2.1)]
  · rw [if_pos h0, if_neg (fun hn => h0 hn.1)]

theorem strchr_iff (s : List UInt8) (c : UInt8) (h : c ≠ 0) : strchr s c = true ↔ c ∈ s := by
  rw [strchr]; simp [h]

theorem longtok_eq {src r : List UInt8} {pos : Nat} (h : src.drop pos = r) (hp : pos ≤ src.length) {f s : List UInt8}
    (h0 : r.getD 0 0 ≠ 0) :
    longtok src pos f s
      = some (if r.getD 0 0 ∈ f then
                (if r.getD 1 0 ≠ 0 ∧ r.getD 1 0 ∈ s then (pack [r.getD 0 0, r.getD 1 0], 1) else ((r.getD 0 0).toNat, 0))
              else (EOF, 0)) := by
  have p0 := peek_ahead h hp 0 (Nat.zero_le _)
  rw [Nat.add_zero] at p0
  unfold longtok
  rw [p0]
  show (if ¬ strchr f (r.getD 0 0) = true then _ else _) = _
  have hf : strchr f (r.getD 0 0) = true ↔ r.getD 0 0 ∈ f := strchr_iff _ _ h0
  by_cases h1 : r.getD 0 0 ∈ f
  · rw [if_neg (fun hn => hn (hf.2 h1)), if_pos h1, peek_ahead h hp 1 (getD_pos rfl h0)]
    show (if r.getD 1 0 ≠ 0 ∧ strchr s (r.getD 1 0) = true then _ else _) = _
    by_cases h2 : r.getD 1 0 ≠ 0 ∧ r.getD 1 0 ∈ s
    · rw [if_pos ⟨h2.1, (strchr_iff _ _ h2.1).2 h2.2⟩, if_pos h2]; simp [pack]
    · rw [if_neg, if_neg h2]
      rintro ⟨h3, h4⟩
      apply h2
      exact ⟨h3, (strchr_iff _ _ h3).1 h4⟩
  · rw [if_pos (fun hn => h1 (hf.1 hn)), if_neg h1]

/-- The first answer that is a token. -/
def firstTok : List (Nat × Nat) → Nat × Nat
  | [] => (INVALID, 0)
  | r :: rs => if r.1 ≠ EOF then r else firstTok rs

theorem orElse_some (r : Nat × Nat) (rs : List (Nat × Nat)) :
    orElse (some r) (fun _ => some (firstTok rs)) = some (firstTok (r :: rs)) := by
  simp only [orElse, firstTok, Option.bind_eq_bind, Option.bind_some]
  split <;> rfl

/-- The operator tokens, on the four bytes ahead. -/
def opF (c0 c1 c2 c3 : UInt8) : Nat × Nat :=
  let lt (f s : List UInt8) : Nat × Nat :=
    if c0 ∈ f then (if c1 ≠ 0 ∧ c1 ∈ s then (pack [c0, c1], 1) else (c0.toNat, 0)) else (EOF, 0)
  let l3 (a b c : UInt8) : Nat × Nat := if c0 = a ∧ c1 = b ∧ c2 = c then (pack [a, b, c], 2) else (EOF, 0)
  let l4 (a b c d : UInt8) : Nat × Nat :=
    if c0 = a ∧ c1 = b ∧ c2 = c ∧ c3 = d then (pack [a, b, c, d], 3) else (EOF, 0)
  firstTok [l3 60 60 61, l3 62 62 61, l4 62 62 62 61, l3 62 62 62, l3 61 61 61, l3 33 61 61,
    lt [38] [38, 61], lt [124] [124, 61], lt [60] [60, 61], lt [62] [62, 61], lt [45] [45, 61], lt [43] [43, 61],
    lt [94, 126, 43, 45, 37, 47, 42, 60, 62, 61, 33, 124, 38] [61]]

theorem operator_eq {src r : List UInt8} {pos : Nat} (h : src.drop pos = r) (hp : pos ≤ src.length)
    (h0 : r.getD 0 0 ≠ 0) :
    operator src pos = some (opF (r.getD 0 0) (r.getD 1 0) (r.getD 2 0) (r.getD 3 0)) := by
  unfold operator opF
  rw [longtok_eq h hp h0, longtok_eq h hp h0, longtok_eq h hp h0, longtok_eq h hp h0, longtok_eq h hp h0,
    longtok_eq h hp h0, longtok_eq h hp h0,
    longtok3_eq h hp (by decide) (by decide), longtok3_eq h hp (by decide) (by decide),
    longtok3_eq h hp (by decide) (by decide), longtok3_eq h hp (by decide) (by decide),
    longtok3_eq h hp (by decide) (by decide), longtok4_eq h hp (by decide) (by decide) (by decide)]
  rw [show some (INVALID, 0) = some (firstTok []) from rfl]
  simp only [orElse_some]

end Mjs.Tok
