import Verif.Model.JPrintf
import Verif.Spec.JsonFmt
import Verif.Props.JsonEsc
import Verif.Lemmas.Json
import Verif.Lemmas.JsonText

/-!
# C92: printing JSON with a format
-/

namespace Mjs.Props
open Mjs Mjs.JPrintf Mjs.Spec Mjs.Spec.Json Mjs.Spec.JsonFmt

/-- Printing the format goes on with `f'` and `a'` after these pieces. -/
def PRuns (E : Env) (f : List UInt8) (a : List Arg) (ps : List (List UInt8)) (f' : List UInt8) (a' : List Arg) : Prop :=
  ∀ n, f.length < n → ∃ m, f'.length < m ∧ printf E n f a = (printf E m f' a').map fun x => (ps ++ x.1, x.2)

theorem PRuns.refl {E : Env} {f : List UInt8} {a : List Arg} : PRuns E f a [] f a := fun n hn => ⟨n, hn, by simp⟩

theorem PRuns.trans {E : Env} {f f' f'' : List UInt8} {a a' a'' : List Arg} {ps qs : List (List UInt8)} (h1 : PRuns E f a ps f' a') (h2 : PRuns E f' a' qs f'' a'') :
    PRuns E f a (ps ++ qs) f'' a'' := fun n hn => by
  obtain ⟨m, hm, e⟩ := h1 n hn
  obtain ⟨k, hk, e'⟩ := h2 m hm
  refine ⟨k, hk, ?_⟩
  rw [e, e', Option.map_map]
  congr 1
  funext x
  simp

/-- Bytes that are printed as they are. -/
def Loose (c : UInt8) : Prop := c ∈ marks ∨ (c ≠ 37 ∧ c ≠ 95 ∧ Json.isAlpha c = false)

theorem run_each {E : Env} {a : List Arg} {f : List UInt8} : ∀ w : List UInt8, (∀ c ∈ w, Loose c) → PRuns E (w ++ f) a (w.map ([·])) f a
  | [], _ => PRuns.refl
  | c :: w, h => by
    have h1 : PRuns E (c :: (w ++ f)) a [[c]] (w ++ f) a := fun n hn => by
      obtain ⟨n, rfl⟩ : ∃ m, n = m + 1 := ⟨n - 1, by omega⟩
      refine ⟨n, by simp only [List.length_cons] at hn; omega, ?_⟩
      rw [printf]
      rcases h c (by simp) with hc | ⟨h1, h2, h3⟩
      · rw [if_pos hc]; rfl
      · by_cases hc : c ∈ marks
        · rw [if_pos hc]; rfl
        · rw [if_neg hc, if_neg h1, if_neg (by simp [h2, h3])]; rfl
    exact h1.trans (run_each w fun c hc => h c (List.mem_cons_of_mem _ hc))

theorem blank_loose {w : List UInt8} (h : Json.Blank w) : ∀ c ∈ w, Loose c := fun c hc => by
  left
  rcases h c hc with rfl | rfl | rfl | rfl <;> decide

/-- The end of the format, or a byte that is printed as it is. -/
def Stop (r : List UInt8) : Prop := r = [] ∨ ∃ c t, r = c :: t ∧ c ∈ marks

theorem stop_blank {w r : List UInt8} (hw : Json.Blank w) (hr : Stop r) : Stop (w ++ r) := by
  cases w with
  | nil => exact hr
  | cons c w =>
    refine .inr ⟨c, w ++ r, rfl, ?_⟩
    rcases hw c (by simp) with rfl | rfl | rfl | rfl <;> decide

theorem marks_key {c : UInt8} (h : c ∈ marks) : isKey c = false := by
  simp only [marks, List.mem_cons, List.not_mem_nil, or_false] at h
  rcases h with rfl | rfl | rfl | rfl | rfl | rfl | rfl | rfl | rfl | rfl | rfl <;> decide

theorem marks_spec {c : UInt8} (h : c ∈ marks) : specChars.contains c = false := by
  simp only [marks, List.mem_cons, List.not_mem_nil, or_false] at h
  rcases h with rfl | rfl | rfl | rfl | rfl | rfl | rfl | rfl | rfl | rfl | rfl <;> decide

theorem span_stop {P : UInt8 → Bool} (hP : ∀ c ∈ marks, P c = false) {s r : List UInt8} (hs : ∀ c ∈ s, P c = true) (hr : Stop r) :
    (s ++ r).takeWhile P = s ∧ (s ++ r).dropWhile P = r := by
  rw [List.takeWhile_append_of_pos hs, List.dropWhile_append_of_pos hs]
  rcases hr with rfl | ⟨c, t, rfl, hc⟩
  · simp
  · rw [List.takeWhile_cons_of_neg (by simp [hP c hc]), List.dropWhile_cons_of_neg (by simp [hP c hc])]
    simp

theorem run_key {E : Env} {a : List Arg} {k r : List UInt8} (hk : Ident k) (hr : Stop r) : PRuns E (k ++ r) a ([34] :: (k.map ([·]) ++ [[34]])) r a := fun n hn => by
  obtain ⟨hall, c, t, rfl, hc⟩ := hk
  obtain ⟨n, rfl⟩ : ∃ m, n = m + 1 := ⟨n - 1, by omega⟩
  have hkey : ∀ x ∈ c :: t, isKey x = true := fun x hx => by
    rcases hall x hx with rfl | h
    · decide
    · have : Json.isAlpha x = true ∨ Json.isDigit x = true := by
        simp only [Json.isAlpha, Json.isDigit, Bool.or_eq_true, Bool.and_eq_true, decide_eq_true_eq]
        omega
      rcases this with h | h <;> simp [isKey, h]
  have hm : c ∉ marks := fun h => by
    have := marks_key h
    rw [hkey c (by simp)] at this
    exact absurd this (by simp)
  have h37 : c ≠ 37 := fun h => by
    have := hkey c (by simp)
    rw [h] at this
    exact absurd this (by decide)
  have halpha : c = 95 ∨ Json.isAlpha c = true := by
    rcases hall c (by simp) with h | h
    · exact .inl h
    · right
      simp only [Json.isAlpha, Bool.or_eq_true, Bool.and_eq_true, decide_eq_true_eq]
      omega
  obtain ⟨e1, e2⟩ := span_stop (fun c h => marks_key h) hkey hr
  refine ⟨n, by simp only [List.length_cons, List.length_append] at hn; omega, ?_⟩
  rw [List.cons_append, printf, if_neg hm, if_neg h37, if_pos halpha, ← List.cons_append, e1, e2]
  congr 1
  funext x
  simp

theorem run_conv {E : Env} {a a' : List Arg} {f r : List UInt8} {ps : List (List UInt8)} (h : conv E f a = some (ps, r, a')) (hl : r.length ≤ f.length) :
    PRuns E (37 :: f) a ps r a' := fun n hn => by
  obtain ⟨n, rfl⟩ : ∃ m, n = m + 1 := ⟨n - 1, by omega⟩
  refine ⟨n, by simp only [List.length_cons] at hn; omega, ?_⟩
  rw [printf, if_neg (by decide), if_pos rfl, h]
  rfl

/-- Base64: the bits in groups of six, and marks to make the length a multiple of four. -/
def Base64 (bs t : List UInt8) : Prop :=
  t = (sextets (bs.flatMap byteBits)).map (fun n => base64Alphabet.getD n 0) ++ List.replicate ((3 - bs.length % 3) % 3) 61

theorem chars_plain : ∀ {t : List UInt8}, (∀ c ∈ t, Plain c) → Chars t t
  | [], _ => .nil
  | c :: t, h => .plain (h c (by simp)) (chars_plain fun c hc => h c (List.mem_cons_of_mem _ hc))

theorem idx_plain (n : Nat) : Plain (JsonEsc.b64idx n) := by
  have h : ∀ n, n < 64 → Plain (JsonEsc.b64idx n) := by
    unfold Plain
    decide +kernel
  by_cases hn : n < 64
  · exact h n hn
  · unfold JsonEsc.b64idx
    rw [if_neg (by omega), if_neg (by omega), if_neg (by omega), if_neg (by omega)]
    unfold Plain
    decide

theorem round_plain (a : UInt8) (b c : Option UInt8) : ∀ x ∈ JsonEsc.encRound a b c, Plain x := by
  have h61 : Plain 61 := by unfold Plain; decide
  intro x hx
  simp only [JsonEsc.encRound, List.mem_cons, List.not_mem_nil, or_false] at hx
  rcases hx with rfl | rfl | rfl | rfl
  · exact idx_plain _
  · exact idx_plain _
  · split
    · exact h61
    · exact idx_plain _
  · split
    · exact h61
    · exact idx_plain _

theorem enc_plain : ∀ s : List UInt8, ∀ x ∈ JsonEsc.b64enc s, Plain x
  | [], x, hx => by simp [JsonEsc.b64enc] at hx
  | [a], x, hx => round_plain _ _ _ x hx
  | [a, b], x, hx => round_plain _ _ _ x hx
  | a :: b :: c :: t, x, hx => by
    rw [JsonEsc.b64enc] at hx
    rcases List.mem_append.1 hx with hx | hx
    · exact round_plain _ _ _ x hx
    · exact enc_plain t x hx

theorem hexDigit_eq (n : Fin 16) : JsonEsc.hexDigits.getD n.val 0 = hexDigit n.val ∧ Plain (hexDigit n.val) := by
  revert n
  unfold Plain
  decide +kernel

theorem hex_flat : ∀ bs : List UInt8, (bs.flatMap hexByte).flatten = hexText bs ∧ ∀ c ∈ hexText bs, Plain c
  | [] => by simp [hexText]
  | b :: bs => by
    obtain ⟨h1, h2⟩ := hex_flat bs
    have hb := b.toNat_lt
    obtain ⟨e1, p1⟩ := hexDigit_eq ⟨b.toNat / 16, by omega⟩
    obtain ⟨e2, p2⟩ := hexDigit_eq ⟨b.toNat % 16, by omega⟩
    have e : hexText (b :: bs) = hexDigit (b.toNat / 16) :: hexDigit (b.toNat % 16) :: hexText bs := rfl
    rw [e, List.flatMap_cons, List.flatten_append, h1, hexByte, Nat.shiftRight_eq_div_pow]
    simp only at e1 e2
    refine ⟨by rw [e1, e2]; rfl, fun c hc => ?_⟩
    simp only [List.mem_cons] at hc
    rcases hc with rfl | rfl | hc
    · exact p1
    · exact p2
    · exact h2 c hc

theorem numeral_text {n : Nat} {t : List UInt8} (h : Numeral.Nat 10 n t) : t = JPrintf.dec n ∧ IsNumeral t ∧ (0 : UInt8) ∉ t := by
  refine ⟨Arr.numeral_unique h (Json.dec_numeral n), ⟨t, [], [], by simp, ⟨h.2.1, fun c hc => ?_⟩, h.2.2, .inl rfl, .inl rfl⟩, Arr.numeral_noNul h⟩
  have := Arr.numeral_decimal h c hc
  simp only [isDecimal, Bool.and_eq_true, decide_eq_true_eq] at this
  exact this

theorem plain_noNul {t : List UInt8} (h : ∀ c ∈ t, Plain c) : (0 : UInt8) ∉ t := fun h0 => absurd (h 0 h0).1 (by decide)

theorem prefix_spec {s r L : List UInt8} (hs : ∀ c ∈ s, c ∈ specChars) (hr : Stop r) (hL : ∀ c ∈ L, c ∈ specChars) (h : (s ++ r).take L.length = L) : s.take L.length = L := by
  have hs' : ∀ c ∈ s, specChars.contains c = true := fun c hc => by simpa using hs c hc
  have hL' : ∀ c ∈ L, specChars.contains c = true := fun c hc => by simpa using hL c hc
  obtain ⟨e1, _⟩ := span_stop (fun c h => marks_spec h) hs' hr
  have hz : s ++ r = L ++ (s ++ r).drop L.length := by
    have e := List.take_append_drop L.length (s ++ r)
    rw [h] at e
    exact e.symm
  rw [hz, List.takeWhile_append_of_pos hL'] at e1
  rw [← e1, List.take_left]

theorem uses_advance {s : List UInt8} {a a' : List Arg} (h : Uses s a) : advance s (a ++ a') = some a' := by
  have word : ∀ {x : Arg} {r : List Arg}, Word x → takeWord (x :: r) = some r := fun {x r} hx => by
    cases x <;> first | rfl | exact hx.elim
  unfold advance
  rcases h with ⟨rfl, x, y, rfl, hx, hy⟩ | ⟨hl, b, rfl⟩ | ⟨hne, h1, h2, x, rfl, hx⟩
  · rw [if_neg (by decide), if_pos rfl]
    show (takeWord (x :: y :: a')).bind takeWord = _
    rw [word hx, Option.bind_some, word hy]
  · rw [if_neg, if_neg, if_pos hl.symm]
    · rfl
    · rintro rfl; simp at hl
    · rintro (rfl | rfl) <;> simp at hl
  · have e : takeWord ([x] ++ a') = some a' := word hx
    by_cases h0 : s = [108, 100] ∨ s = [108, 117]
    · rw [if_pos h0, e]
    · rw [if_neg h0, if_neg hne, if_neg (by rintro (h | h); exact h2 h; exact h1 h), e]

/-- A conversion prints the text of what it describes. -/
theorem item_conv {E : Env} {j : J} {f : List UInt8} {a : List Arg} (h : Item E Base64 (Utf8Text Writable) j f a) {r : List UInt8} (hr : Stop r) (a' : List Arg) :
    ∃ ps, conv E (f ++ r) (a ++ a') = some (ps, r, a') ∧ JsonText j ps.flatten ∧ (0 : UInt8) ∉ ps.flatten := by
  cases h with
  | @lld n t h1 h2 ht =>
    obtain ⟨rfl, hn, h0⟩ := numeral_text ht
    refine ⟨[signed n], by simp [conv], ?_, ?_⟩
    · have := Writes.num (K := Chars) (neg := decide (n < 0)) hn
      simp only [decide_eq_true_eq] at this
      simpa [signed] using this
    · simp only [List.flatten_cons, List.flatten_nil, List.append_nil, signed, List.mem_append, not_or]
      exact ⟨by split <;> simp, h0⟩
  | @llu n t h1 h2 ht =>
    obtain ⟨rfl, hn, h0⟩ := numeral_text ht
    have e : n % 2 ^ 64 = n := Int.emod_eq_of_lt h1 h2
    refine ⟨[JPrintf.dec n.toNat], ?_, ?_, by simpa using h0⟩
    · simp only [conv, List.cons_append, List.nil_append, List.take_succ_cons, List.take_zero, List.drop_succ_cons, List.drop_zero, e, or_true, if_true]
    · simpa using Writes.num (K := Chars) (neg := false) hn
  | @zu n t h1 h2 ht =>
    obtain ⟨rfl, hn, h0⟩ := numeral_text ht
    have e : n % 2 ^ 64 = n := Int.emod_eq_of_lt h1 h2
    refine ⟨[JPrintf.dec n.toNat], ?_, ?_, by simpa using h0⟩
    · unfold conv
      rw [if_neg (by simp), if_pos (by simp)]
      simp only [List.cons_append, List.nil_append, List.drop_succ_cons, List.drop_zero, e]
    · simpa using Writes.num (K := Chars) (neg := false) hn
  | @bool n =>
    refine ⟨[if n ≠ 0 then [116, 114, 117, 101] else [102, 97, 108, 115, 101]], by simp [conv], ?_, ?_⟩
    · by_cases hn : n = 0
      · simpa [hn] using Writes.false
      · simpa [hn] using Writes.true
    · by_cases hn : n = 0 <;> simp [hn]
  | @hex bs x =>
    obtain ⟨h1, h2⟩ := hex_flat bs
    refine ⟨[34] :: (bs.flatMap hexByte ++ [[34]]), by simp [conv], ?_, ?_⟩
    · rw [List.flatten_cons, List.flatten_append, h1]
      exact .str (chars_plain h2)
    · rw [List.flatten_cons, List.flatten_append, h1]
      simpa using plain_noNul h2
  | @base64 bs t x ht =>
    have ht : t = JsonEsc.b64enc bs := ht.trans (C85_base64_form bs).symm
    subst ht
    refine ⟨[[34], JsonEsc.b64enc bs, [34]], by simp [conv], .str (chars_plain (enc_plain bs)), ?_⟩
    simpa using plain_noNul (enc_plain bs)
  | nullptr => exact ⟨[[110, 117, 108, 108]], by simp [conv], .null, by decide⟩
  | @str s x hU h0 =>
    obtain ⟨body, h1, h2⟩ := C85_escape_partial (rest := 0 :: x) hU
    have e : (s ++ 0 :: x).takeWhile (· ≠ 0) = s := by
      rw [List.takeWhile_append_of_pos (fun c hc => by simp only [ne_eq, decide_eq_true_eq]; rintro rfl; exact h0 hc), List.takeWhile_cons_of_neg (by simp), List.append_nil]
    refine ⟨[[34], body, [34]], ?_, .str h2, by simpa using Json.chars_noNul h2⟩
    unfold conv
    rw [if_neg (by simp), if_neg (by simp), if_neg (by simp), if_neg (by simp), if_neg (by simp), if_neg (by simp), if_pos (by simp)]
    simp only [List.cons_append, List.nil_append]
    rw [if_pos (by simp), e, h1]
    rfl
  | nullcount => exact ⟨[[110, 117, 108, 108]], by simp [conv], .null, by decide⟩
  | @count s x hU hl =>
    obtain ⟨body, h1, h2⟩ := C85_escape_partial (rest := x) hU
    have e : ((s.length : Int) % 2 ^ 64).toNat = s.length := by omega
    refine ⟨[[34], body, [34]], ?_, .str h2, by simpa using Json.chars_noNul h2⟩
    unfold conv
    rw [if_neg (by simp), if_neg (by simp), if_neg (by simp), if_neg (by simp), if_neg (by simp), if_neg (by simp), if_neg (by simp), if_pos (by simp)]
    simp only [List.cons_append, List.nil_append]
    rw [e, h1]
    rfl
  | @call _ t i as hw h0 hc =>
    refine ⟨[t], ?_, by simpa using hw, by simpa using h0⟩
    unfold conv
    rw [if_neg (by simp), if_neg (by simp), if_pos (by simp)]
    simp only [List.cons_append, List.nil_append]
    rw [hc]
    rfl
  | @sys _ t s as hs hu hw h0 hc =>
    obtain ⟨hne, hlen, hsp, n1, n2⟩ := hs
    have hs' : ∀ c ∈ f, specChars.contains c = true := fun c hc => by simpa using hsp c hc
    obtain ⟨e1, e2⟩ := span_stop (fun c h => marks_spec h) hs' hr
    obtain ⟨c, s', hcs⟩ := List.exists_cons_of_ne_nil hne
    have hc0 := hsp c (by rw [hcs]; simp)
    have hhead : (f ++ r).head? = some c := by rw [hcs]; rfl
    have hnot : c ≠ 122 ∧ c ≠ 77 ∧ c ≠ 66 ∧ c ≠ 72 ∧ c ≠ 86 ∧ c ≠ 81 := by
      simp only [specChars, List.mem_cons, List.not_mem_nil, or_false] at hc0
      refine ⟨?_, ?_, ?_, ?_, ?_, ?_⟩ <;> (rintro rfl; revert hc0; decide)
    refine ⟨[t], ?_, by simpa using hw, by simpa using h0⟩
    unfold conv
    rw [if_neg, if_neg, if_neg, if_neg, if_neg, if_neg, if_neg, if_neg]
    · unfold system
      simp only [e1, e2]
      rw [if_neg (by omega), hc, Option.bind_some, uses_advance hu]
      rfl
    · intro h
      have h2 : (f ++ r).take 2 = [46, 42] := by
        have := congrArg (List.take 2) h
        rwa [List.take_take] at this
      have h3 := prefix_spec hsp hr (L := [46, 42]) (by decide) h2
      have h4 : (f ++ r)[2]? = some 81 := by
        have := congrArg (fun l : List UInt8 => l[2]?) h
        simpa using this
      rcases Nat.lt_or_ge 2 f.length with hl | hl
      · rw [List.getElem?_append_left hl] at h4
        have := hsp 81 (List.mem_of_getElem? h4)
        revert this
        decide
      · rw [List.getElem?_append_right hl] at h4
        have hl2 : f.length = 2 := by
          have := congrArg List.length h3
          simp only [List.length_take, List.length_cons, List.length_nil] at this
          omega
        rw [hl2] at h4
        rcases hr with rfl | ⟨x, y, rfl, hx⟩
        · simp at h4
        · simp only [Nat.sub_self, List.getElem?_cons_zero, Option.some.injEq] at h4
          rw [h4] at hx
          revert hx
          decide
    · rw [hhead]; simp [hnot]
    · rw [hhead]; simp [hnot]
    · rw [hhead]; simp [hnot]
    · rw [hhead]; simp [hnot]
    · rw [hhead]; simp [hnot]
    · intro h
      have := congrArg List.head? h
      rw [hcs] at this
      simp at this
      exact hnot.1 this
    · rintro (h | h)
      · exact n1 (prefix_spec hsp hr (L := [108, 108, 100]) (by decide) h)
      · exact n2 (prefix_spec hsp hr (L := [108, 108, 117]) (by decide) h)

theorem flat_map (w : List UInt8) : (w.map ([·])).flatten = w := by
  induction w with
  | nil => rfl
  | cons c w ih => rw [List.map_cons, List.flatten_cons, ih]; rfl

theorem blanks_noNul {w : List UInt8} (h : Json.Blank w) : (0 : UInt8) ∉ w := fun h0 => by
  rcases h 0 h0 with h | h | h | h <;> exact absurd h (by decide)

theorem ident_plain {k : Key} (h : Ident k) : Chars k k ∧ (0 : UInt8) ∉ k := by
  obtain ⟨hall, _⟩ := h
  have hp : ∀ x ∈ k, Plain x := fun x hx => by
    rcases hall x hx with rfl | hx
    · unfold Plain; decide
    · refine ⟨by omega, by omega, ?_, ?_⟩ <;> (rintro rfl; revert hx; decide)
  exact ⟨chars_plain hp, plain_noNul hp⟩

/-- Printing a key. -/
theorem key_runs {E : Env} {k : Key} {f : List UInt8} {a : List Arg} (h : KeyFmt (Utf8Text Writable) k f a) {r : List UInt8} (hr : Stop r) (a' : List Arg) :
    ∃ ps body, PRuns E (f ++ r) (a ++ a') ps r a' ∧ ps.flatten = 34 :: (body ++ [34]) ∧ Chars body k ∧ (0 : UInt8) ∉ body := by
  cases h with
  | ident h =>
    obtain ⟨k1, k2⟩ := ident_plain h
    exact ⟨_, k, run_key h hr, by rw [List.flatten_cons, List.flatten_append, flat_map]; rfl, k1, k2⟩
  | @quoted x hU h0 =>
    obtain ⟨body, h1, h2⟩ := C85_escape_partial (rest := 0 :: x) hU
    have e : (k ++ 0 :: x).takeWhile (· ≠ 0) = k := by
      rw [List.takeWhile_append_of_pos (fun c hc => by simp only [ne_eq, decide_eq_true_eq]; rintro rfl; exact h0 hc), List.takeWhile_cons_of_neg (by simp), List.append_nil]
    refine ⟨[[34], body, [34]], body, run_conv (f := 81 :: r) ?_ (by simp), by simp, h2, Json.chars_noNul h2⟩
    unfold conv
    rw [if_neg (by simp), if_neg (by simp), if_neg (by simp), if_neg (by simp), if_neg (by simp), if_neg (by simp), if_pos (by simp)]
    simp only [List.cons_append, List.nil_append]
    rw [if_pos (by simp), e, h1]
    rfl

theorem numeral_loose {t : List UInt8} (h : IsNumeral t) (he : ∀ c ∈ t, c ≠ 101 ∧ c ≠ 69) : ∀ c ∈ t, Loose c ∧ c ≠ 0 := by
  have dg : ∀ ds : List UInt8, Digits ds → ∀ c ∈ ds, Loose c ∧ c ≠ 0 := fun ds hd c hc => by
    have hd := hd.2 c hc
    unfold Digit at hd
    refine ⟨.inr ⟨?_, ?_, ?_⟩, ?_⟩
    · rintro rfl; revert hd; decide
    · rintro rfl; revert hd; decide
    · simp only [Json.isAlpha, Bool.or_eq_false_iff, Bool.and_eq_false_iff, decide_eq_false_iff_not]; omega
    · rintro rfl; revert hd; decide
  obtain ⟨i, f, e, rfl, hi, _, hf, hee⟩ := h
  have hee : e = [] := by
    rcases hee with h | ⟨x, s, ds, rfl, hx, _⟩
    · exact h
    · have := he x (by simp)
      rcases hx with rfl | rfl <;> simp at this
  subst hee
  intro c hc
  simp only [List.append_nil, List.mem_append] at hc
  rcases hc with hc | hc
  · exact dg i hi c hc
  · rcases hf with rfl | ⟨ds, rfl, hds⟩
    · simp at hc
    · rcases List.mem_cons.1 hc with rfl | hc
      · exact ⟨.inr (by decide), by decide⟩
      · exact dg ds hds c hc

theorem mark_stop {c : UInt8} {r : List UInt8} (h : c ∈ marks) : Stop (c :: r) := .inr ⟨c, r, rfl, h⟩

theorem run_mark {E : Env} {a : List Arg} {c : UInt8} {r : List UInt8} (h : c ∈ marks) : PRuns E (c :: r) a [[c]] r a :=
  run_each [c] fun x hx => by rw [List.mem_singleton.1 hx]; exact .inl h

mutual
/-- Printing a format that describes a value. -/
theorem describes_runs {E : Env} : ∀ {j : J} {f : List UInt8} {a : List Arg}, Describes E Base64 (Utf8Text Writable) j f a → ∀ {r : List UInt8}, Stop r → ∀ a' : List Arg,
    ∃ ps, PRuns E (f ++ r) (a ++ a') ps r a' ∧ JsonText j ps.flatten ∧ (0 : UInt8) ∉ ps.flatten
  | _, _, _, .item h, r, hr, a' => by
    obtain ⟨ps, h1, h2, h3⟩ := item_conv h hr a'
    exact ⟨ps, run_conv h1 (by simp), h2, h3⟩
  | _, _, _, @Describes.num _ _ _ neg t h he, r, hr, a' => by
    have hl := numeral_loose h he
    refine ⟨_, run_each ((if neg then [45] else []) ++ t) (f := r) fun c hc => ?_, ?_, ?_⟩
    · rcases List.mem_append.1 hc with hc | hc
      · cases neg
        · simp at hc
        · rw [List.mem_singleton.1 hc]; exact .inr (by decide)
      · exact (hl c hc).1
    · rw [flat_map]; exact .num h
    · rw [flat_map]
      intro h0
      rcases List.mem_append.1 h0 with hc | hc
      · cases neg <;> simp at hc
      · exact (hl 0 hc).2 rfl
  | _, _, _, @Describes.arr _ _ _ l w t a hw h, r, hr, a' => by
    obtain ⟨ps, h1, h2, h3⟩ := elements_runs h (r := 93 :: r) (mark_stop (by decide)) a'
    refine ⟨[[91]] ++ (w.map ([·]) ++ (ps ++ [[93]])), ?_, ?_, ?_⟩
    · have e : 91 :: (w ++ (t ++ [93])) ++ r = 91 :: (w ++ (t ++ 93 :: r)) := by simp
      rw [e]
      exact (run_mark (by decide)).trans ((run_each w (blank_loose hw)).trans (h1.trans (run_mark (by decide))))
    · simp only [List.flatten_append, flat_map, List.flatten_cons, List.flatten_nil, List.append_nil]
      exact .arr hw h2
    · simp only [List.flatten_append, flat_map, List.flatten_cons, List.flatten_nil, List.append_nil, List.mem_append, not_or]
      exact ⟨by decide, blanks_noNul hw, h3, by decide⟩
  | _, _, _, @Describes.obj _ _ _ ms w t a hw h, r, hr, a' => by
    obtain ⟨ps, h1, h2, h3⟩ := fields_runs h (r := 125 :: r) (mark_stop (by decide)) a'
    refine ⟨[[123]] ++ (w.map ([·]) ++ (ps ++ [[125]])), ?_, ?_, ?_⟩
    · have e : 123 :: (w ++ (t ++ [125])) ++ r = 123 :: (w ++ (t ++ 125 :: r)) := by simp
      rw [e]
      exact (run_mark (by decide)).trans ((run_each w (blank_loose hw)).trans (h1.trans (run_mark (by decide))))
    · simp only [List.flatten_append, flat_map, List.flatten_cons, List.flatten_nil, List.append_nil]
      exact .obj hw h2
    · simp only [List.flatten_append, flat_map, List.flatten_cons, List.flatten_nil, List.append_nil, List.mem_append, not_or]
      exact ⟨by decide, blanks_noNul hw, h3, by decide⟩
theorem elements_runs {E : Env} : ∀ {l : List J} {f : List UInt8} {a : List Arg}, Elements E Base64 (Utf8Text Writable) l f a → ∀ {r : List UInt8}, Stop r → ∀ a' : List Arg,
    ∃ ps, PRuns E (f ++ r) (a ++ a') ps r a' ∧ Sep (Writes Chars) l ps.flatten ∧ (0 : UInt8) ∉ ps.flatten
  | _, _, _, .none, r, hr, a' => ⟨[], PRuns.refl, .none, by simp⟩
  | _, _, _, @Elements.last _ _ _ j t a w h hw, r, hr, a' => by
    obtain ⟨ps, h1, h2, h3⟩ := describes_runs h (stop_blank hw hr) a'
    refine ⟨ps ++ w.map ([·]), ?_, ?_, ?_⟩
    · rw [List.append_assoc]
      exact h1.trans (run_each w (blank_loose hw))
    · rw [List.flatten_append, flat_map]
      exact .last h2 hw
    · rw [List.flatten_append, flat_map, List.mem_append, not_or]
      exact ⟨h3, blanks_noNul hw⟩
  | _, _, _, @Elements.more _ _ _ j j' l t a w w' t' a1 h hw hw' hl, r, hr, a' => by
    obtain ⟨qs, g1, g2, g3⟩ := elements_runs hl hr a'
    obtain ⟨ps, h1, h2, h3⟩ := describes_runs h (stop_blank hw (r := 44 :: (w' ++ (t' ++ r))) (mark_stop (by decide))) (a1 ++ a')
    refine ⟨ps ++ (w.map ([·]) ++ ([[44]] ++ (w'.map ([·]) ++ qs))), ?_, ?_, ?_⟩
    · have e : t ++ (w ++ 44 :: (w' ++ t')) ++ r = t ++ (w ++ 44 :: (w' ++ (t' ++ r))) := by simp
      rw [e, List.append_assoc]
      exact h1.trans ((run_each w (blank_loose hw)).trans ((run_mark (by decide)).trans ((run_each w' (blank_loose hw')).trans g1)))
    · simp only [List.flatten_append, flat_map, List.flatten_cons, List.flatten_nil, List.append_nil]
      simpa using Sep.more h2 hw hw' g2
    · simp only [List.flatten_append, flat_map, List.flatten_cons, List.flatten_nil, List.append_nil, List.mem_append, not_or]
      exact ⟨h3, blanks_noNul hw, by decide, blanks_noNul hw', g3⟩
theorem fields_runs {E : Env} : ∀ {ms : List (Key × J)} {f : List UInt8} {a : List Arg}, Fields E Base64 (Utf8Text Writable) ms f a → ∀ {r : List UInt8}, Stop r → ∀ a' : List Arg,
    ∃ ps, PRuns E (f ++ r) (a ++ a') ps r a' ∧ Sep (Member Chars (Writes Chars)) ms ps.flatten ∧ (0 : UInt8) ∉ ps.flatten
  | _, _, _, .none, r, hr, a' => ⟨[], PRuns.refl, .none, by simp⟩
  | _, _, _, @Fields.last _ _ _ k kf ka u u' j t a w hk hu hu' h hw, r, hr, a' => by
    obtain ⟨ps, h1, h2, h3⟩ := describes_runs h (stop_blank hw hr) a'
    obtain ⟨qs, body, k0, k1, k2, k3⟩ := key_runs (E := E) hk (stop_blank hu (r := 58 :: (u' ++ (t ++ (w ++ r)))) (mark_stop (by decide))) (a ++ a')
    refine ⟨qs ++ (u.map ([·]) ++ ([[58]] ++ (u'.map ([·]) ++ (ps ++ w.map ([·]))))), ?_, ?_, ?_⟩
    · have e : kf ++ (u ++ 58 :: (u' ++ (t ++ w))) ++ r = kf ++ (u ++ 58 :: (u' ++ (t ++ (w ++ r)))) := by simp
      rw [e, List.append_assoc]
      exact k0.trans ((run_each u (blank_loose hu)).trans ((run_mark (by decide)).trans ((run_each u' (blank_loose hu')).trans (h1.trans (run_each w (blank_loose hw))))))
    · have := Sep.last (Member.mk (W := Writes Chars) k2 hu hu' h2) hw
      simp only [List.flatten_append, flat_map, List.flatten_cons, List.flatten_nil, List.append_nil, k1]
      simpa using this
    · simp only [List.flatten_append, flat_map, List.flatten_cons, List.flatten_nil, List.append_nil, List.mem_append, not_or, k1]
      exact ⟨by simpa using k3, blanks_noNul hu, by decide, blanks_noNul hu', h3, blanks_noNul hw⟩
  | _, _, _, @Fields.more _ _ _ k kf ka u u' j m l t a w w' t' a1 hk hu hu' h hw hw' hl, r, hr, a' => by
    obtain ⟨qs, g1, g2, g3⟩ := fields_runs hl hr a'
    obtain ⟨ps, h1, h2, h3⟩ := describes_runs h (stop_blank hw (r := 44 :: (w' ++ (t' ++ r))) (mark_stop (by decide))) (a1 ++ a')
    obtain ⟨ks, body, k0, k1, k2, k3⟩ :=
      key_runs (E := E) hk (stop_blank hu (r := 58 :: (u' ++ (t ++ (w ++ 44 :: (w' ++ (t' ++ r)))))) (mark_stop (by decide))) (a ++ (a1 ++ a'))
    refine ⟨ks ++ (u.map ([·]) ++ ([[58]] ++ (u'.map ([·]) ++ (ps ++ (w.map ([·]) ++ ([[44]] ++ (w'.map ([·]) ++ qs))))))), ?_, ?_, ?_⟩
    · have e : kf ++ (u ++ 58 :: (u' ++ (t ++ (w ++ 44 :: (w' ++ t'))))) ++ r = kf ++ (u ++ 58 :: (u' ++ (t ++ (w ++ 44 :: (w' ++ (t' ++ r)))))) := by simp
      rw [e, List.append_assoc, List.append_assoc]
      exact k0.trans ((run_each u (blank_loose hu)).trans ((run_mark (by decide)).trans ((run_each u' (blank_loose hu')).trans
        (h1.trans ((run_each w (blank_loose hw)).trans ((run_mark (by decide)).trans ((run_each w' (blank_loose hw')).trans g1)))))))
    · have := Sep.more (Member.mk (W := Writes Chars) k2 hu hu' h2) hw hw' g2
      simp only [List.flatten_append, flat_map, List.flatten_cons, List.flatten_nil, List.append_nil, k1]
      simpa using this
    · simp only [List.flatten_append, flat_map, List.flatten_cons, List.flatten_nil, List.append_nil, List.mem_append, not_or, k1]
      exact ⟨by simpa using k3, blanks_noNul hu, by decide, blanks_noNul hu', h3, blanks_noNul hw, by decide, blanks_noNul hw', g3⟩
end

/-- **C92.** For every format and arguments that describe a value, what is printed is a JSON text of that value, and the arguments behind them are not used. -/
theorem C92_print_partial {E : Env} {j : J} {f : List UInt8} {a : List Arg} (h : Describes E Base64 (Utf8Text Writable) j f a) (a' : List Arg) :
    ∃ ps, printf E (f.length + 1) f (a ++ a') = some (ps, a') ∧ print E f (a ++ a') = some ps ∧ JsonText j ps.flatten ∧ (0 : UInt8) ∉ ps.flatten := by
  obtain ⟨ps, h1, h2, h3⟩ := describes_runs h (r := []) (.inl rfl) a'
  rw [List.append_nil] at h1
  obtain ⟨m, hm, e⟩ := h1 (f.length + 1) (by omega)
  obtain ⟨m, rfl⟩ : ∃ k, m = k + 1 := ⟨m - 1, by simp at hm; omega⟩
  have e' : printf E (f.length + 1) f (a ++ a') = some (ps, a') := by
    rw [e, printf]
    simp
  exact ⟨ps, e', by rw [print, e']; rfl, h2, h3⟩

/-- The pieces are put one behind the other. -/
theorem sprinter_fold : ∀ (ps : List (List UInt8 × Nat)) (buf : Option (List UInt8)), (0 : UInt8) ∉ buf.getD [] → (∀ p ∈ ps, (0 : UInt8) ∉ p.1) →
    (ps.foldl (fun buf p => sprinter ((fun _ : Nat => true) p.2) buf p.1) buf).getD [] = buf.getD [] ++ (ps.map (·.1)).flatten ∧
      (buf.isSome ∨ ps ≠ [] → (ps.foldl (fun buf p => sprinter ((fun _ : Nat => true) p.2) buf p.1) buf).isSome)
  | [], buf, h, _ => by simp
  | p :: ps, buf, h, hp => by
    have e : sprinter true buf p.1 = some (buf.getD [] ++ p.1) := by
      rw [sprinter, if_pos rfl, Json.takeWhile_noNul h]
    obtain ⟨h1, h2⟩ := sprinter_fold ps (some (buf.getD [] ++ p.1)) (by simp [h, hp p (by simp)]) fun q hq => hp q (List.mem_cons_of_mem _ hq)
    simp only [List.foldl_cons, e]
    exact ⟨by rw [h1]; simp, fun _ => h2 (.inl rfl)⟩

/-- **C92, into new memory.** If there is memory, `json_asprintf` returns a JSON text of the value. -/
theorem C92_asprintf_partial {E : Env} {j : J} {f : List UInt8} {a : List Arg} (h : Describes E Base64 (Utf8Text Writable) j f a) (a' : List Arg) :
    ∃ t, asprintf E (fun _ => true) f (a ++ a') = some (some t) ∧ JsonText j t := by
  obtain ⟨ps, _, h1, h2, h3⟩ := C92_print_partial h a'
  refine ⟨ps.flatten, ?_, h2⟩
  have hne : ps ≠ [] := by
    rintro rfl
    cases h2' : ([] : List (List UInt8)).flatten with
    | cons => simp at h2'
    | nil =>
      rw [h2'] at h2
      have : ∀ {j t}, JsonText j t → t ≠ [] := fun {j t} h => by
        cases h with
        | num h =>
          obtain ⟨i, f, e, rfl, hi, _⟩ := h
          simp [hi.1]
        | _ => simp
      exact this h2 rfl
  obtain ⟨g1, g2⟩ := sprinter_fold ps.zipIdx none (by simp) fun p hp h0 => h3 (List.mem_flatten.2 ⟨p.1, by
    have := List.mem_zipIdx' hp
    rw [this.2]
    exact List.getElem_mem _, h0⟩)
  have g2 := g2 (.inr (by simpa using hne))
  rw [asprintf, h1, Option.map_some]
  obtain ⟨t, ht⟩ := Option.isSome_iff_exists.1 g2
  rw [ht] at g1 ⊢
  simp only [Option.getD_some, Option.getD_none, List.nil_append] at g1
  rw [g1]
  simp

/-- A C library that knows `%d`, and a callback that prints `[]`. -/
def printEnv : Env where
  sys f a := match f, a with
    | [37, 100], .int n :: _ => some (signed n)
    | _, _ => none
  call i a := if i = 0 then some ([91, 93], a) else none

/-- `{a: %d, %Q: [%Q, %B, %M, 2.5]}` with -5, `b`, `x"`, 1 and the callback. -/
example : Describes printEnv Base64 (Utf8Text Writable)
    (.obj [([97], .num true [53]), ([98], .arr [.str [120, 34], .bool true, .arr [], .num false [50, 46, 53]])])
    [123, 97, 58, 32, 37, 100, 44, 32, 37, 81, 58, 32, 91, 37, 81, 44, 32, 37, 66, 44, 37, 77, 44, 50, 46, 53, 93, 125]
    [.int (-5), .ptr (some [98, 0]), .ptr (some [120, 34, 0, 7]), .int 1, .fn 0] := by
  have b0 : Json.Blank [] := by unfold Json.Blank; decide
  have b1 : Json.Blank [32] := by unfold Json.Blank; decide
  have num5 : IsNumeral [53] := ⟨[53], [], [], rfl, ⟨by decide, by unfold Digit; decide⟩, by decide, .inl rfl, .inl rfl⟩
  have num25 : IsNumeral [50, 46, 53] :=
    ⟨[50], [46, 53], [], rfl, ⟨by decide, by unfold Digit; decide⟩, by decide, .inr ⟨[53], rfl, by decide, by unfold Digit; decide⟩, .inl rfl⟩
  have d1 : Describes printEnv Base64 (Utf8Text Writable) (.num true [53]) [37, 100] [.int (-5)] :=
    .item (.sys (t := [45, 53]) ⟨by decide, by decide, by decide, by decide, by decide⟩
      (.inr (.inr ⟨by decide, by decide, by decide, _, rfl, trivial⟩)) (Writes.num (neg := true) num5) (by decide) fun _ => rfl)
  have d2 : Describes printEnv Base64 (Utf8Text Writable) (.str [120, 34]) [37, 81] [.ptr (some [120, 34, 0, 7])] :=
    .item (.str (s := [120, 34]) (x := [7]) (.one (by decide) (by unfold Writable; decide) (.one (by decide) (by unfold Writable; decide) .nil)) (by decide))
  have d3 : Describes printEnv Base64 (Utf8Text Writable) (.bool true) [37, 66] [.int 1] := .item (.bool (n := 1))
  have d4 : Describes printEnv Base64 (Utf8Text Writable) (.arr []) [37, 77] [.fn 0] := .item (.call (t := [91, 93]) (a := []) (Writes.arr b0 .none) (by decide) fun _ => rfl)
  have d5 : Describes printEnv Base64 (Utf8Text Writable) (.num false [50, 46, 53]) [50, 46, 53] [] := .num (neg := false) num25 (by decide)
  have d6 := Describes.arr b0 (.more d2 b0 b1 (.more d3 b0 b0 (.more d4 b0 b0 (.last d5 b0))))
  have k1 : KeyFmt (Utf8Text Writable) [97] [97] [] := .ident ⟨by decide, 97, [], rfl, by decide⟩
  have k2 : KeyFmt (Utf8Text Writable) [98] [37, 81] [.ptr (some [98, 0])] := .quoted (k := [98]) (x := []) (.one (by decide) (by unfold Writable; decide) .nil) (by decide)
  have := Describes.obj b0 (.more k1 b0 b1 d1 b0 b1 (.last k2 b0 b1 d6 b0))
  simpa using this

/-- **C92 is violated** for keys that have their quotes in the format: `{"a": %lld}` with 5 prints `{""a"": 5}`. -/
theorem C92_violation_quoted (E : Env) : (print E [123, 34, 97, 34, 58, 32, 37, 108, 108, 100, 125] [.long 5]).map List.flatten =
    some [123, 34, 34, 97, 34, 34, 58, 32, 53, 125] := rfl

/-- **C92 is violated** for words: `[null]` prints `["null"]`. -/
theorem C92_violation_word (E : Env) : (print E [91, 110, 117, 108, 108, 93] []).map List.flatten = some [91, 34, 110, 117, 108, 108, 34, 93] := rfl

/-- **C92 is violated** for exponents: `1e5` prints `1"e5"`. -/
theorem C92_violation_exponent (E : Env) : (print E [49, 101, 53] []).map List.flatten = some [49, 34, 101, 53, 34] := rfl

/-- **C92 is violated** for `%e`: whatever the C library prints, the `double` is then taken from the place of an `int`. -/
theorem C92_violation_e (E : Env) (b : BitVec 64) (a : List Arg) : print E [37, 101] (.dbl b :: a) = none := by
  have h : conv E [101] (.dbl b :: a) = none := by
    unfold conv
    rw [if_neg (by simp), if_neg (by simp), if_neg (by simp), if_neg (by simp), if_neg (by simp), if_neg (by simp), if_neg (by simp), if_neg (by simp)]
    unfold system
    have h1 : ([101] : List UInt8).takeWhile (fun c => specChars.contains c) = [101] := by decide
    have h2 : advance [101] (.dbl b :: a) = none := by simp [advance, takeWord]
    simp only [h1, h2]
    simp
  rw [print, List.length_cons, printf, if_neg (by decide), if_pos rfl, h]
  rfl

/-- **C92 is violated** for long conversions: whatever the arguments, with 19 or more digits behind the `%` the NUL goes behind the array. -/
theorem C92_violation_long (E : Env) (a : List Arg) (n : Nat) : print E (37 :: List.replicate (n + 19) 48) a = none := by
  have h1 : (List.replicate (n + 19) (48 : UInt8)).takeWhile (fun c => specChars.contains c) = List.replicate (n + 19) 48 := by
    have := List.takeWhile_append_of_pos (p := fun c => specChars.contains c) (l₁ := List.replicate (n + 19) (48 : UInt8)) (l₂ := [])
      fun c hc => by rw [List.eq_of_mem_replicate hc]; decide
    simpa using this
  have h : conv E (List.replicate (n + 19) 48) a = none := by
    unfold conv
    rw [List.replicate_succ, List.replicate_succ, List.replicate_succ]
    rw [if_neg (by simp), if_neg (by simp), if_neg (by simp), if_neg (by simp), if_neg (by simp), if_neg (by simp), if_neg (by simp), if_neg (by simp)]
    rw [← List.replicate_succ, ← List.replicate_succ, ← List.replicate_succ]
    unfold system
    simp only [h1, List.length_replicate]
    rw [if_pos (by omega)]
  rw [print, List.length_cons, printf, if_neg (by decide), if_pos rfl, h]
  rfl

/-- **C92 is violated** where memory runs out: the piece is left out and nothing tells so; here `[%B]` gives `[]`. -/
theorem C92_violation_memory (E : Env) : asprintf E (fun i => i ≠ 1) [91, 37, 66, 93] [.int 1] = some (some [91, 93]) := rfl

end Mjs.Props
