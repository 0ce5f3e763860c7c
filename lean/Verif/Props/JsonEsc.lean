import Verif.Model.JsonEsc
import Verif.Spec.Json

/-!
# C85: JSON string literals and Base64 written for an embedder
-/

namespace Mjs.Props

open Mjs Mjs.Spec Mjs.Spec.Json Mjs.JsonEsc

/-- A text in UTF-8: bytes below 128, and lead bytes with as many continuation bytes as they announce; `ok` says which of the
bytes below 128 may occur. -/
inductive Utf8Text (ok : UInt8 → Prop) : List UInt8 → Prop
  | nil : Utf8Text ok []
  | one {c t} : c.toNat < 128 → ok c → Utf8Text ok t → Utf8Text ok (c :: t)
  | two {c x t} : 192 ≤ c.toNat → c.toNat < 224 → Cont x → Utf8Text ok t → Utf8Text ok (c :: x :: t)
  | three {c x y t} : 224 ≤ c.toNat → c.toNat < 240 → Cont x → Cont y → Utf8Text ok t → Utf8Text ok (c :: x :: y :: t)
  | four {c x y z t} : 240 ≤ c.toNat → Cont x → Cont y → Cont z → Utf8Text ok t → Utf8Text ok (c :: x :: y :: z :: t)

/-- The bytes below 128 that `json_escape` writes right: not the vertical tab, not 15 to 31, not 127. -/
def Writable (c : UInt8) : Prop := c.toNat ≠ 11 ∧ ¬ (15 ≤ c.toNat ∧ c.toNat ≤ 31) ∧ c.toNat ≠ 127

theorem charLen_spec (c : UInt8) : (c.toNat < 128 → Json.charLen c = 1) ∧ (192 ≤ c.toNat → c.toNat < 224 → Json.charLen c = 2) ∧
    (224 ≤ c.toNat → c.toNat < 240 → Json.charLen c = 3) ∧ (240 ≤ c.toNat → Json.charLen c = 4) := by
  have : ∀ n, n < 256 → ((UInt8.ofNat n).toNat < 128 → Json.charLen (UInt8.ofNat n) = 1) ∧
      (192 ≤ (UInt8.ofNat n).toNat → (UInt8.ofNat n).toNat < 224 → Json.charLen (UInt8.ofNat n) = 2) ∧
      (224 ≤ (UInt8.ofNat n).toNat → (UInt8.ofNat n).toNat < 240 → Json.charLen (UInt8.ofNat n) = 3) ∧
      (240 ≤ (UInt8.ofNat n).toNat → Json.charLen (UInt8.ofNat n) = 4) := by decide +kernel
  have h := this c.toNat c.toNat_lt
  rwa [UInt8.ofNat_toNat] at h

/-- What is written for a byte below 128. -/
def asciiOut (c : UInt8) : List UInt8 :=
  if c = 34 ∨ c = 92 then [92, c]
  else if 8 ≤ c.toNat ∧ c.toNat ≤ 13 then [92, specials.getD (c.toNat - 8) 0]
  else if isPrint c then [c]
  else [92, 117, 48, 48, hexDigits.getD ((c.toNat >>> 4) % 15) 0, hexDigits.getD (c.toNat % 15) 0]

theorem escapeFrom_ascii {mem : List UInt8} {len i : Nat} {c : UInt8} (hi : i < len) (hm : mem[i]? = some c) (hc : c.toNat < 128) :
    escapeFrom mem len i = (escapeFrom mem len (i + 1)).map (asciiOut c ++ ·) := by
  rw [escapeFrom, if_pos hi, hm, Option.bind_some]
  unfold asciiOut
  by_cases h1 : c = 34 ∨ c = 92
  · rw [if_pos h1, if_pos h1]
  rw [if_neg h1, if_neg h1]
  by_cases h2 : 8 ≤ c.toNat ∧ c.toNat ≤ 13
  · have hl : c.toNat - 8 < specials.length := by simp [specials]; omega
    rw [if_pos h2, if_pos h2, List.getElem?_eq_getElem hl, Option.bind_some, List.getD_eq_getElem?_getD, List.getElem?_eq_getElem hl]
    rfl
  rw [if_neg h2, if_neg h2]
  by_cases h3 : isPrint c = true
  · rw [if_pos h3, if_pos h3]
  have hx : (c.toNat >>> 4) % 15 < hexDigits.length := Nat.lt_of_lt_of_le (Nat.mod_lt _ (by decide)) (by decide)
  have hy : c.toNat % 15 < hexDigits.length := Nat.lt_of_lt_of_le (Nat.mod_lt _ (by decide)) (by decide)
  rw [if_neg h3, if_neg h3, if_pos ((charLen_spec c).1 hc), List.getElem?_eq_getElem hx, Option.bind_some, List.getElem?_eq_getElem hy, Option.bind_some,
    List.getD_eq_getElem?_getD, List.getElem?_eq_getElem hx, List.getD_eq_getElem?_getD, List.getElem?_eq_getElem hy]
  rfl

theorem escapeFrom_multi {mem : List UInt8} {len i k : Nat} {c : UInt8} (hi : i < len) (hm : mem[i]? = some c) (hc : 192 ≤ c.toNat)
    (hk : Json.charLen c = k) (hr : i + k ≤ mem.length) :
    escapeFrom mem len i = (escapeFrom mem len (i + k)).map ((mem.drop i).take k ++ ·) := by
  have n1 : ¬ (c = 34 ∨ c = 92) := by
    rintro (rfl | rfl) <;> exact absurd hc (by decide)
  have n3 : ¬ isPrint c = true := by unfold isPrint; simp; omega
  have n4 : ¬ Json.charLen c = 1 := by
    have := charLen_spec c
    have hlt := c.toNat_lt
    intro h
    rcases Nat.lt_or_ge c.toNat 224 with h1 | h1
    · have := this.2.1 hc h1; omega
    rcases Nat.lt_or_ge c.toNat 240 with h2 | h2
    · have := this.2.2.1 h1 h2; omega
    · have := this.2.2.2 h2; omega
  rw [escapeFrom, if_pos hi, hm, Option.bind_some, if_neg n1, if_neg (by omega), if_neg n3, if_neg n4, hk, if_pos hr]

theorem escape_hex_digit (n : Nat) (h : n < 16) : Hex (hexDigits.getD n 0) n := by
  have key : ∀ n, n < 16 → (48 ≤ (hexDigits.getD n 0).toNat ∧ (hexDigits.getD n 0).toNat ≤ 57 ∧ (hexDigits.getD n 0).toNat - 48 = n) ∨
      (97 ≤ (hexDigits.getD n 0).toNat ∧ (hexDigits.getD n 0).toNat ≤ 102 ∧ (hexDigits.getD n 0).toNat - 87 = n) := by decide
  rcases key n h with ⟨h1, h2, h3⟩ | ⟨h1, h2, h3⟩
  · have := Hex.dec h1 h2
    rwa [h3] at this
  · have := Hex.small h1 h2
    rwa [h3] at this

theorem byte_of {c : UInt8} {n : Nat} (h : c.toNat = n) (hn : n < 256) : c = UInt8.ofNat n := by
  rw [← UInt8.toNat_inj, h]
  simp; omega

/-- What is written for a byte stands for the byte. -/
theorem asciiOut_chars {c : UInt8} (hc : c.toNat < 128) (hw : Writable c) {t b : List UInt8} (h : Chars t b) : Chars (asciiOut c ++ t) (c :: b) := by
  obtain ⟨w1, w2, w3⟩ := hw
  unfold asciiOut
  by_cases h1 : c = 34 ∨ c = 92
  · rw [if_pos h1]
    rcases h1 with rfl | rfl
    · exact .esc .quote h
    · exact .esc .backslash h
  rw [if_neg h1]
  by_cases h2 : 8 ≤ c.toNat ∧ c.toNat ≤ 13
  · rw [if_pos h2]
    have : c.toNat = 8 ∨ c.toNat = 9 ∨ c.toNat = 10 ∨ c.toNat = 12 ∨ c.toNat = 13 := by omega
    rcases this with e | e | e | e | e
    · rw [byte_of e (by decide)]; exact .esc .b h
    · rw [byte_of e (by decide)]; exact .esc .t h
    · rw [byte_of e (by decide)]; exact .esc .n h
    · rw [byte_of e (by decide)]; exact .esc .f h
    · rw [byte_of e (by decide)]; exact .esc .r h
  rw [if_neg h2]
  by_cases h3 : isPrint c = true
  · rw [if_pos h3]
    unfold isPrint at h3
    simp at h3
    exact .plain ⟨by omega, hc, fun h => h1 (.inl h), fun h => h1 (.inr h)⟩ h
  · rw [if_neg h3]
    have hlow : c.toNat < 15 := by unfold isPrint at h3; simp at h3; omega
    have e0 : (c.toNat >>> 4) % 15 = 0 := by rw [Nat.shiftRight_eq_div_pow]; omega
    have e1 : c.toNat % 15 = c.toNat := by omega
    rw [e0, e1]
    have := Chars.ascii (escape_hex_digit 0 (by decide)) (escape_hex_digit c.toNat (by omega)) (by decide) h
    rw [show 0 * 16 + c.toNat = c.toNat by omega, UInt8.ofNat_toNat] at this
    exact this

/-- **C85, string literals.** For a UTF-8 text without the vertical tab, the control characters 15 to 31 and 127, whatever
comes behind it in memory, `json_escape` prints what stands for the text between the quotes of a JSON string. -/
theorem C85_escape_partial {s rest : List UInt8} (h : Utf8Text Writable s) :
    ∃ body, escape (s ++ rest) s.length = some body ∧ Chars body s := by
  have key : ∀ {s : List UInt8}, Utf8Text Writable s → ∀ pre : List UInt8,
      ∃ body, escapeFrom (pre ++ (s ++ rest)) (pre.length + s.length) pre.length = some body ∧ Chars body s := by
    intro s h
    induction h with
    | nil =>
      intro pre
      refine ⟨[], ?_, .nil⟩
      rw [escapeFrom, if_neg (by simp)]
    | @one c t hc ok _ ih =>
      intro pre
      obtain ⟨body, g1, g2⟩ := ih (pre ++ [c])
      refine ⟨_, ?_, asciiOut_chars hc ok g2⟩
      rw [escapeFrom_ascii (c := c) (by simp) (by simp) hc]
      simp only [List.append_assoc, List.length_append, List.length_nil, List.cons_append, List.nil_append, List.length_cons] at g1 ⊢
      rw [show pre.length + (t.length + 1) = pre.length + (0 + 1) + t.length by omega, g1]
      rfl
    | @two c x t h1 h2 hx _ ih =>
      intro pre
      obtain ⟨body, g1, g2⟩ := ih (pre ++ [c, x])
      refine ⟨_, ?_, .two h1 h2 hx g2⟩
      rw [escapeFrom_multi (c := c) (k := 2) (by simp) (by simp) h1 ((charLen_spec c).2.1 h1 h2) (by simp)]
      simp only [List.append_assoc, List.length_append, List.length_cons, List.length_nil, List.cons_append, List.nil_append] at g1 ⊢
      rw [show pre.length + (t.length + 1 + 1) = pre.length + (0 + 1 + 1) + t.length by omega, g1]
      simp
    | @three c x y t h1 h2 hx hy _ ih =>
      intro pre
      obtain ⟨body, g1, g2⟩ := ih (pre ++ [c, x, y])
      refine ⟨_, ?_, .three h1 h2 hx hy g2⟩
      rw [escapeFrom_multi (c := c) (k := 3) (by simp) (by simp) (by omega) ((charLen_spec c).2.2.1 h1 h2) (by simp)]
      simp only [List.append_assoc, List.length_append, List.length_cons, List.length_nil, List.cons_append, List.nil_append] at g1 ⊢
      rw [show pre.length + (t.length + 1 + 1 + 1) = pre.length + (0 + 1 + 1 + 1) + t.length by omega, g1]
      simp
    | @four c x y z t h1 hx hy hz _ ih =>
      intro pre
      obtain ⟨body, g1, g2⟩ := ih (pre ++ [c, x, y, z])
      refine ⟨_, ?_, .four h1 hx hy hz g2⟩
      rw [escapeFrom_multi (c := c) (k := 4) (by simp) (by simp) (by omega) ((charLen_spec c).2.2.2 h1) (by simp)]
      simp only [List.append_assoc, List.length_append, List.length_cons, List.length_nil, List.cons_append, List.nil_append] at g1 ⊢
      rw [show pre.length + (t.length + 1 + 1 + 1 + 1) = pre.length + (0 + 1 + 1 + 1 + 1) + t.length by omega, g1]
      simp
  obtain ⟨body, g1, g2⟩ := key h []
  exact ⟨body, by simpa [escape] using g1, g2⟩

theorem escape_one {c : UInt8} (hc : c.toNat < 128) : escape [c] 1 = some (asciiOut c) := by
  unfold escape
  rw [escapeFrom_ascii (c := c) (by decide) rfl hc, escapeFrom, if_neg (by decide)]
  simp

/-- **C85, violation: control characters.** What `json_escape` prints for each of the characters 15 to 31 and for 127 stands
for another character. -/
theorem C85_violation_control {c : UInt8} (hc : (15 ≤ c.toNat ∧ c.toNat ≤ 31) ∨ c.toNat = 127) :
    ∃ body c', escape [c] 1 = some body ∧ Chars body [c'] ∧ c' ≠ c := by
  have hw : ¬ (c = 34 ∨ c = 92) := by
    rintro (rfl | rfl) <;> revert hc <;> decide
  have hp : ¬ isPrint c = true := by unfold isPrint; simp; omega
  refine ⟨_, UInt8.ofNat ((c.toNat >>> 4) % 15 * 16 + c.toNat % 15), escape_one (by omega), ?_, ?_⟩
  · unfold asciiOut
    rw [if_neg hw, if_neg (by omega), if_neg hp]
    exact .ascii (escape_hex_digit _ (by omega)) (escape_hex_digit _ (by omega)) (by rw [Nat.shiftRight_eq_div_pow]; omega) .nil
  · intro h
    have := congrArg UInt8.toNat h
    rw [Nat.shiftRight_eq_div_pow] at this
    simp at this
    omega

/-- **C85, violation: the vertical tab.** What is printed for it stands for nothing in JSON. -/
theorem C85_violation_tab : escape [11] 1 = some [92, 118] ∧ ∀ b, ¬ Chars [92, 118] b := by
  refine ⟨(escape_one (by decide)).trans (by decide), fun b h => ?_⟩
  cases h with
  | plain h => exact h.2.2.2 rfl
  | two h => exact absurd h (by decide)
  | esc h => cases h

/-- **C85, violation: a text cut within a character.** A byte from 128 on at the end of the text makes `json_escape` read
behind the text. -/
theorem C85_violation_overread {c : UInt8} (hc : 128 ≤ c.toNat) : escape [c] 1 = none := by
  have n1 : ¬ (c = 34 ∨ c = 92) := by
    rintro (rfl | rfl) <;> exact absurd hc (by decide)
  have n3 : ¬ isPrint c = true := by unfold isPrint; simp; omega
  have hl : ∀ n, n < 256 → 128 ≤ n → 2 ≤ Json.charLen (UInt8.ofNat n) := by decide +kernel
  have hl' := hl c.toNat c.toNat_lt hc
  rw [UInt8.ofNat_toNat] at hl'
  unfold escape
  rw [escapeFrom, if_pos (by decide)]
  simp only [List.getElem?_cons_zero, Option.bind_some]
  rw [if_neg n1, if_neg (by omega), if_neg n3, if_neg (by omega), if_neg (by simp; omega)]

/-- The hypotheses can be met: `a"`, a line feed, byte 1, an umlaut. -/
example : ∃ body, escape ([97, 34, 10, 1, 195, 164] ++ [0]) 6 = some body ∧ Chars body [97, 34, 10, 1, 195, 164] :=
  C85_escape_partial (.one (by decide) (by unfold Writable; decide) (.one (by decide) (by unfold Writable; decide)
    (.one (by decide) (by unfold Writable; decide) (.one (by decide) (by unfold Writable; decide)
      (.two (by decide) (by decide) (by unfold Cont; decide) .nil)))))

/-! ## Base64 -/

theorem rev_idx {n : Nat} (h : n < 64) : b64rev (b64idx n) = n ∧ b64idx n ≠ 61 := by
  have : ∀ n, n < 64 → b64rev (b64idx n) = n ∧ b64idx n ≠ 61 := by decide +kernel
  exact this n h

theorem first_byte {a b : Nat} (ha : a < 256) (hb : b < 256) :
    a >>> 2 < 64 ∧ ((a &&& 3) <<< 4 ||| b >>> 4) < 64 ∧ (a >>> 2) <<< 2 ||| ((a &&& 3) <<< 4 ||| b >>> 4) >>> 4 = a := by
  have key : ∀ a, a < 256 → ∀ b, b < 16 → a >>> 2 < 64 ∧ ((a &&& 3) <<< 4 ||| b) < 64 ∧
      (a >>> 2) <<< 2 ||| ((a &&& 3) <<< 4 ||| b) >>> 4 = a := by decide +kernel
  exact key a ha _ (by rw [Nat.shiftRight_eq_div_pow]; omega)

theorem second_byte {a b c : Nat} (hb : b < 256) (hc : c < 256) :
    ((b &&& 15) <<< 2 ||| c >>> 6) < 64 ∧
      (((a &&& 3) <<< 4 ||| b >>> 4) <<< 4 ||| ((b &&& 15) <<< 2 ||| c >>> 6) >>> 2) % 256 = b := by
  have key : ∀ a, a < 4 → ∀ b, b < 256 → ∀ c, c < 4 → ((b &&& 15) <<< 2 ||| c) < 64 ∧
      ((a <<< 4 ||| b >>> 4) <<< 4 ||| ((b &&& 15) <<< 2 ||| c) >>> 2) % 256 = b := by decide +kernel
  exact key _ (Nat.lt_of_le_of_lt Nat.and_le_right (by decide)) b hb _ (by rw [Nat.shiftRight_eq_div_pow]; omega)

theorem third_byte {b c : Nat} (hc : c < 256) : (c &&& 63) < 64 ∧ (((b &&& 15) <<< 2 ||| c >>> 6) <<< 6 ||| (c &&& 63)) % 256 = c := by
  have key : ∀ b, b < 16 → ∀ c, c < 256 → (c &&& 63) < 64 ∧ ((b <<< 2 ||| c >>> 6) <<< 6 ||| (c &&& 63)) % 256 = c := by decide +kernel
  exact key _ (Nat.lt_of_le_of_lt Nat.and_le_right (by decide)) c hc

theorem ofNat_mod {n : Nat} {c : UInt8} (h : n % 256 = c.toNat) : UInt8.ofNat n = c := by
  rw [← UInt8.toNat_inj, UInt8.toNat_ofNat']
  exact h

theorem dec_round {a : UInt8} {b c : Option UInt8} (hbc : b = none → c = none) (t : List UInt8) :
    b64dec (encRound a b c ++ t) = a :: (b.toList ++ (c.toList ++ b64dec t)) := by
  cases b with
  | none =>
    cases hbc rfl
    obtain ⟨f1, f2, f3⟩ := first_byte (b := 0) a.toNat_lt (by decide)
    simp only [encRound, List.cons_append, List.nil_append, b64dec, rev_idx f1, rev_idx f2, f3]
    simp [ofNat_mod (Nat.mod_eq_of_lt a.toNat_lt)]
  | some b =>
    obtain ⟨f1, f2, f3⟩ := first_byte a.toNat_lt b.toNat_lt
    cases c with
    | none =>
      obtain ⟨s1, s2⟩ := second_byte (a := a.toNat) (c := 0) b.toNat_lt (by decide)
      simp only [encRound, List.cons_append, List.nil_append, b64dec, rev_idx f1, rev_idx f2, f3, Option.isNone_some, Bool.false_eq_true, if_false,
        rev_idx s1, ofNat_mod s2]
      rw [if_pos (rev_idx s1).2]
      simp [ofNat_mod (Nat.mod_eq_of_lt a.toNat_lt)]
    | some c =>
      obtain ⟨s1, s2⟩ := second_byte (a := a.toNat) b.toNat_lt c.toNat_lt
      obtain ⟨t1, t2⟩ := third_byte (b := b.toNat) c.toNat_lt
      simp only [encRound, List.cons_append, List.nil_append, b64dec, rev_idx f1, rev_idx f2, f3, Option.isNone_some, Bool.false_eq_true, if_false,
        rev_idx s1, ofNat_mod s2, rev_idx t1, ofNat_mod t2]
      simp [ofNat_mod (Nat.mod_eq_of_lt a.toNat_lt), (rev_idx s1).2, (rev_idx t1).2]

/-- **C85, Base64.** Decoding what was encoded gives the bytes back. -/
theorem C85_base64 : ∀ s : List UInt8, b64dec (b64enc s) = s
  | [] => rfl
  | [a] => by
    have := dec_round (a := a) (b := none) (c := none) (fun _ => rfl) []
    rw [List.append_nil] at this
    rw [b64enc, this]; rfl
  | [a, b] => by
    have := dec_round (a := a) (b := some b) (c := none) (by simp) []
    rw [List.append_nil] at this
    rw [b64enc, this]; rfl
  | a :: b :: c :: t => by
    rw [b64enc, dec_round (by simp), C85_base64 t]; rfl

/-- The characters of Base64, in the order of RFC 4648. -/
def base64Alphabet : List UInt8 := "ABCDEFGHIJKLMNOPQRSTUVWXYZabcdefghijklmnopqrstuvwxyz0123456789+/".toUTF8.toList

/-- The number with these bits, most significant first. -/
def ofBits (l : List Bool) : Nat := l.foldl (fun n b => 2 * n + b.toNat) 0

/-- The eight bits of a byte, most significant first. -/
def byteBits (b : UInt8) : List Bool := [7, 6, 5, 4, 3, 2, 1, 0].map b.toNat.testBit

/-- The numbers with six bits each; the last one is filled with zeros. -/
def sextets : List Bool → List Nat
  | b1 :: b2 :: b3 :: b4 :: b5 :: b6 :: t => ofBits [b1, b2, b3, b4, b5, b6] :: sextets t
  | [] => []
  | l => [ofBits (l ++ List.replicate (6 - l.length) false)]

theorem idx_alphabet {n : Nat} (h : n < 64) : b64idx n = base64Alphabet.getD n 0 := by
  have : ∀ n, n < 64 → b64idx n = base64Alphabet.getD n 0 := by decide +kernel
  exact this n h

theorem sextet_bits {a b c : Nat} (ha : a < 256) (hb : b < 256) (hc : c < 256) :
    a >>> 2 = ofBits [a.testBit 7, a.testBit 6, a.testBit 5, a.testBit 4, a.testBit 3, a.testBit 2] ∧
    ((a &&& 3) <<< 4 ||| b >>> 4) = ofBits [a.testBit 1, a.testBit 0, b.testBit 7, b.testBit 6, b.testBit 5, b.testBit 4] ∧
    ((b &&& 15) <<< 2 ||| c >>> 6) = ofBits [b.testBit 3, b.testBit 2, b.testBit 1, b.testBit 0, c.testBit 7, c.testBit 6] ∧
    (c &&& 63) = ofBits [c.testBit 5, c.testBit 4, c.testBit 3, c.testBit 2, c.testBit 1, c.testBit 0] := by
  have k1 : ∀ a, a < 256 → a >>> 2 = ofBits [a.testBit 7, a.testBit 6, a.testBit 5, a.testBit 4, a.testBit 3, a.testBit 2] := by decide +kernel
  have k2 : ∀ a, a < 256 → ∀ b, b < 16 →
      ((a &&& 3) <<< 4 ||| b) = ofBits [a.testBit 1, a.testBit 0, b.testBit 3, b.testBit 2, b.testBit 1, b.testBit 0] := by decide +kernel
  have k3 : ∀ b, b < 256 → ∀ c, c < 4 →
      ((b &&& 15) <<< 2 ||| c) = ofBits [b.testBit 3, b.testBit 2, b.testBit 1, b.testBit 0, c.testBit 1, c.testBit 0] := by decide +kernel
  have k4 : ∀ c, c < 256 → (c &&& 63) = ofBits [c.testBit 5, c.testBit 4, c.testBit 3, c.testBit 2, c.testBit 1, c.testBit 0] := by decide +kernel
  have h2 := k2 a ha (b >>> 4) (by rw [Nat.shiftRight_eq_div_pow]; omega)
  have h3 := k3 b hb (c >>> 6) (by rw [Nat.shiftRight_eq_div_pow]; omega)
  simp only [Nat.testBit_shiftRight] at h2 h3
  exact ⟨k1 a ha, h2, h3, k4 c hc⟩

/-- **C85, Base64 as in RFC 4648.** The bits of the text six at a time, the last ones filled with zeros, each as a character of the
alphabet, and equal signs up to a multiple of four characters. -/
theorem C85_base64_form : ∀ s : List UInt8, b64enc s =
    (sextets (s.flatMap byteBits)).map (fun n => base64Alphabet.getD n 0) ++ List.replicate ((3 - s.length % 3) % 3) 61
  | [] => rfl
  | [a] => by
    obtain ⟨e1, e2, _, _⟩ := sextet_bits (b := 0) (c := 0) a.toNat_lt (by decide) (by decide)
    obtain ⟨f1, f2, _⟩ := first_byte (b := 0) a.toNat_lt (by decide)
    simp only [b64enc, encRound, idx_alphabet f1, idx_alphabet f2]
    rw [e1, e2]
    simp [byteBits, sextets, List.replicate]
  | [a, b] => by
    obtain ⟨e1, e2, e3, _⟩ := sextet_bits (c := 0) a.toNat_lt b.toNat_lt (by decide)
    obtain ⟨f1, f2, _⟩ := first_byte a.toNat_lt b.toNat_lt
    obtain ⟨s1, _⟩ := second_byte (a := a.toNat) (c := 0) b.toNat_lt (by decide)
    simp only [b64enc, encRound, idx_alphabet f1, idx_alphabet f2, idx_alphabet s1]
    rw [e1, e2, e3]
    simp [byteBits, sextets, List.replicate]
  | a :: b :: c :: t => by
    obtain ⟨e1, e2, e3, e4⟩ := sextet_bits a.toNat_lt b.toNat_lt c.toNat_lt
    obtain ⟨f1, f2, _⟩ := first_byte a.toNat_lt b.toNat_lt
    obtain ⟨s1, _⟩ := second_byte (a := a.toNat) b.toNat_lt c.toNat_lt
    obtain ⟨t1, _⟩ := third_byte (b := b.toNat) c.toNat_lt
    rw [b64enc, C85_base64_form t]
    simp only [encRound, idx_alphabet f1, idx_alphabet f2, idx_alphabet s1, idx_alphabet t1]
    rw [e1, e2, e3, e4]
    have hl : (a :: b :: c :: t).length % 3 = t.length % 3 := by simp only [List.length_cons]; omega
    rw [hl]
    simp [byteBits, sextets]

/-- The hypotheses are none; what is shown is what one expects. -/
example : b64enc [77, 97] = [84, 87, 69, 61] ∧ b64dec [84, 87, 69, 61] = [77, 97] := by decide +kernel

end Mjs.Props
