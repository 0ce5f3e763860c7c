import Verif.Spec.Grammar
import Verif.Spec.Json
import Verif.Lemmas.IntOps
import Verif.Props.Tok

/-!
# C64: hexadecimal literals

`Spec.Json.Hex c n`: `c` is a hexadecimal digit, small or capital, of value `n`.  `Grammar.Is E src st (.int n)` is what C61
takes for an integer literal of value `n`.
-/

namespace Mjs.Spec

/-- The number that hexadecimal digits write, the most significant first. -/
inductive HexNumber : List UInt8 → Nat → Prop
  | nil : HexNumber [] 0
  | snoc {t n c d} : HexNumber t n → Json.Hex c d → HexNumber (t ++ [c]) (16 * n + d)

end Mjs.Spec

namespace Mjs.Props
open Mjs Mjs.Tok Mjs.Exec Mjs.Spec Mjs.Spec.Json

theorem hex_digit {c : UInt8} {d : Nat} (h : Hex c d) : isXDigit c = true ∧ Parser.hexDigit c = d ∧ isSpace c = false ∧ c ≠ 43 ∧ c ≠ 45 := by
  have key : ∀ c : UInt8, (48 ≤ c.toNat ∧ c.toNat ≤ 57 → isXDigit c = true ∧ Parser.hexDigit c = c.toNat - 48 ∧ isSpace c = false ∧ c ≠ 43 ∧ c ≠ 45) ∧
      (97 ≤ c.toNat ∧ c.toNat ≤ 102 → isXDigit c = true ∧ Parser.hexDigit c = c.toNat - 87 ∧ isSpace c = false ∧ c ≠ 43 ∧ c ≠ 45) ∧
      (65 ≤ c.toNat ∧ c.toNat ≤ 70 → isXDigit c = true ∧ Parser.hexDigit c = c.toNat - 55 ∧ isSpace c = false ∧ c ≠ 43 ∧ c ≠ 45) := by
    intro c
    obtain ⟨⟨c⟩⟩ := c
    revert c
    decide +kernel
  cases h with
  | dec h1 h2 => exact (key c).1 ⟨h1, h2⟩
  | small h1 h2 => exact (key c).2.1 ⟨h1, h2⟩
  | capital h1 h2 => exact (key c).2.2 ⟨h1, h2⟩

theorem hexNumber_fold {t : List UInt8} {n : Nat} (h : HexNumber t n) :
    t.foldl (fun n c => 16 * n + Parser.hexDigit c) 0 = n ∧ ∀ c ∈ t, ∃ d, Hex c d := by
  induction h with
  | nil => exact ⟨rfl, by simp⟩
  | snoc _ hd ih =>
    refine ⟨?_, ?_⟩
    · rw [List.foldl_append, ih.1]; simp [(hex_digit hd).2.1]
    · intro c hc
      rcases List.mem_append.1 hc with hc | hc
      · exact ih.2 c hc
      · rw [List.mem_singleton] at hc; exact ⟨_, hc ▸ hd⟩

/-- What follows a hexadecimal literal: not a letter or a digit. -/
def EndsLiteral (rest : List UInt8) : Prop := ∀ c r, rest = c :: r → isXDigit c = false ∧ c ≠ 120 ∧ c ≠ 88

theorem strtoul16_hex {t rest : List UInt8} {n : Nat} (h : HexNumber t n) (h0 : t ≠ []) (hr : EndsLiteral rest) (hn : n < 2 ^ 64) :
    Parser.strtoul16 (t ++ rest) = n ∧ strtoulLen (t ++ rest) = t.length := by
  obtain ⟨hf, hd⟩ := hexNumber_fold h
  obtain ⟨c, u, rfl⟩ := List.exists_cons_of_ne_nil h0
  obtain ⟨d, hc⟩ := hd c (by simp)
  obtain ⟨x1, x2, x3, x4, x5⟩ := hex_digit hc
  have hw : span isSpace (c :: u ++ rest) = 0 := by simp [span, x3]
  have hg : signLen (c :: u ++ rest) = 0 := by simp [signLen, x4, x5]
  have hx : hexPrefixLen (c :: u ++ rest) = 0 := by
    unfold hexPrefixLen
    split
    · rename_i x y _ heq
      rw [if_neg]
      rintro ⟨hxx, _⟩
      cases u with
      | nil =>
        simp only [List.cons_append, List.nil_append, List.cons.injEq] at heq
        have := (hr x _ heq.2).2
        rcases hxx with rfl | rfl
        · exact this.1 rfl
        · exact this.2 rfl
      | cons v u =>
        simp only [List.cons_append, List.cons.injEq] at heq
        obtain ⟨d, hv⟩ := hd v (by simp)
        have := (hex_digit hv).1
        rw [heq.2.1] at this
        rcases hxx with rfl | rfl <;> exact absurd this (by decide)
    · rfl
  have ht : (c :: u ++ rest).takeWhile isXDigit = c :: u := by
    rw [List.takeWhile_append_of_pos (fun c hc => (hex_digit (hd c hc).choose_spec).1)]
    cases rest with
    | nil => simp
    | cons a r => rw [List.takeWhile_cons_of_neg (by simp [(hr a r rfl).1])]; simp
  constructor
  · unfold Parser.strtoul16
    simp only [hw, hg, hx, List.drop_zero, Nat.add_zero, ht, hf]
    rw [if_neg (by omega), if_neg (by simpa using x5)]
  · unfold strtoulLen
    simp only [hw, hg, hx, List.drop_zero, Nat.add_zero]
    unfold span
    rw [ht]
    simp

/-- **C64**: wherever `0x` and hexadecimal digits that write `n` come next in a text — after blanks and comments, and before
something that is no letter or digit — the next token is the integer `n`, and it ends behind the digits. -/
theorem C64_hex_literal (E : Env) (src : List UInt8) (hnul : (0 : UInt8) ∉ src) (st : State) (hp : st.pos ≤ src.length)
    {gap t rest : List UInt8} (hd : src.drop st.pos = gap ++ (48 :: 120 :: (t ++ rest))) (hg : Spec.Tok.GapThen gap (48 :: 120 :: (t ++ rest)))
    {n : Nat} (h : HexNumber t n) (h0 : t ≠ []) (hr : EndsLiteral rest) (hn : n < 2 ^ 53) :
    ∃ st', pnext src st = some st' ∧ Grammar.Is E src st' (.int n) ∧ src.drop st'.pos = rest := by
  obtain ⟨gap', rest', hd', hg', hsk⟩ := skip_spec hnul _ st.pos st.lineNo rfl hp
  obtain ⟨rfl, rfl⟩ := C59_gap_unique hg' hg (by rw [← hd', hd])
  obtain ⟨h1, hp1⟩ := drop_app hd hp
  generalize hP : st.pos + gap'.length = p at *
  obtain ⟨hlt, hpk, h2, hm⟩ := drop_cons h1
  obtain ⟨_, _, h3, _⟩ := drop_cons h2
  obtain ⟨hv, hl⟩ := strtoul16_hex h h0 hr (by omega)
  have hlen : p + (2 + t.length + rest.length) = src.length := by
    have := congrArg List.length h1
    simp at this ⊢; omega
  have hlt0 : 0 < t.length := List.length_pos_iff.2 h0
  have hge : getnum src p = some (p + 2 + t.length) := by
    unfold getnum
    rw [starts_eq 48 120 (by decide) (by decide) h1 (by omega)]
    show (if decide ([48, 120] <+: 48 :: 120 :: (t ++ rest)) = true then some (p + 2 + strtoulLen (src.drop (p + 2))) else some (p + strtodLen (src.drop p))) = _
    rw [if_pos (by simp), h3, hl]
  have hlex : lexeme src p = some (NUM, p, 2 + t.length, p + 1 + t.length) := by
    rw [lexeme, hpk]
    simp only [Option.bind_eq_bind, Option.bind_some]
    rw [if_neg (by decide), if_pos (by decide), hge]
    simp only [Option.bind_some]
    congr 4 <;> omega
  have hq : p + 1 + t.length < src.length := by omega
  have hpq : peek src (p + 1 + t.length) = some src[p + 1 + t.length] := by rw [peek, if_pos hq, List.getElem?_eq_getElem hq]
  have hq0 : src[p + 1 + t.length] ≠ 0 := fun e => hnul (e ▸ List.getElem_mem hq)
  refine ⟨_, lexeme_next st hsk hlex hpq, ⟨rfl, ofIntD n, ?_⟩, ?_⟩
  · have hi : Double.IsInt (ofIntD n) n := ofIntD_isInt n (by simpa using hn)
    refine ⟨?_, ?_, ?_⟩
    · unfold Parser.numeral
      simp only
      rw [if_pos (by omega), h1]
      simp only [List.head?_cons, List.drop_succ_cons, List.drop_zero]
      rw [if_pos ⟨trivial, trivial⟩, hv]
    · unfold Parser.integral
      have : (Double.scaled (ofIntD (n : Int)) % 2 ^ 1074 == 0) = true := by
        rw [hi.2, Int.mul_emod_left]; rfl
      rw [this, decide_eq_true hi.1]
      simp
    · unfold Parser.literalInt
      rw [toI64_isInt hi (by omega) (by omega)]
      rw [BitVec.toNat_ofInt]
      omega
  · simp only [if_pos hq0]
    rw [show p + 1 + t.length + 1 = (p + 1 + 1) + t.length from by omega, ← List.drop_drop, h3, List.drop_left]

/-- Non-vacuity: in ` 0xfA;` the first token is 250. -/
example (E : Env) : ∃ st', pnext [32, 48, 120, 102, 65, 59] {} = some st' ∧ Grammar.Is E [32, 48, 120, 102, 65, 59] st' (.int 250) ∧ st'.pos = 5 := by
  have hx : HexNumber [102, 65] 250 := .snoc (t := [102]) (n := 15) (c := 65) (d := 10) (.snoc (t := []) (n := 0) (c := 102) (d := 15) .nil (.small (by decide) (by decide)))
    (.capital (by decide) (by decide))
  obtain ⟨st', h1, h2, h3⟩ := C64_hex_literal E [32, 48, 120, 102, 65, 59] (by decide) {} (by decide) (gap := [32]) (t := [102, 65]) (rest := [59]) rfl
    (.blank _ _ _ (by unfold Spec.Tok.Blank; decide) (.done _ ⟨fun c hc => by cases hc; unfold Spec.Tok.Blank; decide, by decide, by decide⟩)) hx (by decide)
    (fun c r h => by cases h; decide) (by decide)
  refine ⟨st', h1, h2, ?_⟩
  have := congrArg List.length h3
  simp at this
  omega

end Mjs.Props
