import Verif.Model.CaseCmp
import Verif.Spec.CaseCmp
import Verif.Spec.Numeral

/-!
# C86: comparing without regard to case, searching in counted text, and reading integers
-/

namespace Mjs.Props
open Mjs Mjs.CaseCmp Mjs.Spec
open Mjs.Glob (lower)

theorem lower_code (c : UInt8) : (lower c).toNat = smallCode c := by
  have : ∀ n : Fin 256, (lower (UInt8.ofNat n)).toNat = smallCode (UInt8.ofNat n) := by decide +kernel
  have := this ⟨c.toNat, c.toNat_lt⟩
  simpa using this

theorem sameLetter_code (c d : UInt8) : SameLetter c d ↔ smallCode c = smallCode d := by
  have hc := c.toNat_lt
  have hd := d.toNat_lt
  unfold SameLetter smallCode
  simp only [UInt8.le_iff_toNat_le, ← UInt8.toNat_inj, UInt8.toNat_add, show (65 : UInt8).toNat = 65 from rfl, show (90 : UInt8).toNat = 90 from rfl,
    show (32 : UInt8).toNat = 32 from rfl]
  split <;> split <;> omega

theorem code_zero {c : UInt8} : smallCode c = 0 ↔ c = 0 := by
  unfold smallCode
  rw [← UInt8.toNat_inj, show (0 : UInt8).toNat = 0 from rfl]
  split <;> omega

/-- `r` is what a comparison of the two texts answers: nothing but equality and order counts. -/
def Compares (a b : List UInt8) (r : Int) : Prop := (r = 0 ↔ SameText a b) ∧ (r < 0 ↔ Precedes a b) ∧ (0 < r ↔ Precedes b a)

theorem compares_nil : Compares [] [] 0 :=
  ⟨⟨fun _ => .nil, fun _ => rfl⟩, ⟨fun h => absurd h (by decide), nofun⟩, ⟨fun h => absurd h (by decide), nofun⟩⟩

theorem compares_short {d : UInt8} {t : List UInt8} {r : Int} (h : r < 0) : Compares [] (d :: t) r :=
  ⟨⟨fun e => by omega, nofun⟩, ⟨fun _ => .shorter, fun _ => h⟩, ⟨fun e => by omega, nofun⟩⟩

theorem compares_long {d : UInt8} {t : List UInt8} {r : Int} (h : 0 < r) : Compares (d :: t) [] r :=
  ⟨⟨fun e => by omega, nofun⟩, ⟨fun e => by omega, nofun⟩, ⟨fun _ => .shorter, fun _ => h⟩⟩

theorem compares_same {c d : UInt8} {s t : List UInt8} {r : Int} (h : smallCode c = smallCode d) (hr : Compares s t r) : Compares (c :: s) (d :: t) r := by
  obtain ⟨h1, h2, h3⟩ := hr
  refine ⟨⟨fun e => .cons ((sameLetter_code c d).2 h) (h1.1 e), fun e => ?_⟩, ⟨fun e => .same ((sameLetter_code c d).2 h) (h2.1 e), fun e => ?_⟩,
    ⟨fun e => .same ((sameLetter_code d c).2 h.symm) (h3.1 e), fun e => ?_⟩⟩
  · cases e with | cons _ e => exact h1.2 e
  · cases e with
    | less e => omega
    | same _ e => exact h2.2 e
  · cases e with
    | less e => omega
    | same _ e => exact h3.2 e

theorem compares_less {c d : UInt8} {s t : List UInt8} {r : Int} (h : smallCode c < smallCode d) (hr : r < 0) : Compares (c :: s) (d :: t) r := by
  refine ⟨⟨fun e => by omega, fun e => ?_⟩, ⟨fun _ => .less h, fun _ => hr⟩, ⟨fun e => by omega, fun e => ?_⟩⟩
  · cases e with | cons e _ => rw [sameLetter_code] at e; omega
  · cases e with
    | less e => omega
    | same e _ => rw [sameLetter_code] at e; omega

theorem compares_greater {c d : UInt8} {s t : List UInt8} {r : Int} (h : smallCode d < smallCode c) (hr : 0 < r) : Compares (c :: s) (d :: t) r := by
  refine ⟨⟨fun e => by omega, fun e => ?_⟩, ⟨fun e => by omega, fun e => ?_⟩, ⟨fun _ => .less h, fun _ => hr⟩⟩
  · cases e with | cons e _ => rw [sameLetter_code] at e; omega
  · cases e with
    | less e => omega
    | same e _ => rw [sameLetter_code] at e; omega

theorem compares_diff {c d : UInt8} {s t : List UInt8} (h : smallCode c ≠ smallCode d) :
    Compares (c :: s) (d :: t) ((smallCode c : Int) - smallCode d) := by
  by_cases hl : smallCode c < smallCode d
  · exact compares_less hl (by omega)
  · exact compares_greater (by omega) (by omega)

/-- Two C strings, of which at most `n` bytes count: what is behind them, or behind their NULs, need not be readable. -/
theorem ncasecmp_spec {n : Nat} {a b ra rb : List UInt8} (ha : 0 ∉ a) (hb : 0 ∉ b) (ha' : n ≤ a.length ∨ ra.head? = some 0)
    (hb' : n ≤ b.length ∨ rb.head? = some 0) : ∃ r, ncasecmp (a ++ ra) (b ++ rb) n = some r ∧ Compares (a.take n) (b.take n) r := by
  induction n generalizing a b with
  | zero => exact ⟨0, by rw [ncasecmp], by simpa using compares_nil⟩
  | succ n ih =>
    cases a with
    | nil =>
      cases ra with
      | nil => simp at ha'
      | cons x ra =>
        have hx : x = 0 := by simpa using ha'
        subst hx
        cases b with
        | nil =>
          cases rb with
          | nil => simp at hb'
          | cons y rb =>
            have hy : y = 0 := by simpa using hb'
            subst hy
            exact ⟨0, by simp [ncasecmp], by simpa using compares_nil⟩
        | cons y b =>
          have hy : y ≠ 0 := by rintro rfl; simp at hb
          have hp : 0 < smallCode y := Nat.pos_of_ne_zero fun h => hy (code_zero.1 h)
          have h0 : smallCode 0 = 0 := by decide
          refine ⟨(smallCode 0 : Int) - smallCode y, ?_, compares_short (by omega)⟩
          simp only [List.nil_append, List.cons_append, ncasecmp, lower_code]
          rw [if_neg (by omega)]
    | cons x a =>
      have hx : x ≠ 0 := by rintro rfl; simp at ha
      have hpx : 0 < smallCode x := Nat.pos_of_ne_zero fun h => hx (code_zero.1 h)
      cases b with
      | nil =>
        cases rb with
        | nil => simp at hb'
        | cons y rb =>
          have hy : y = 0 := by simpa using hb'
          subst hy
          have h0 : smallCode 0 = 0 := by decide
          refine ⟨(smallCode x : Int) - smallCode 0, ?_, compares_long (by omega)⟩
          simp only [List.nil_append, List.cons_append, ncasecmp, lower_code]
          rw [if_neg (by omega)]
      | cons y b =>
        simp only [List.cons_append, ncasecmp, lower_code, List.take_succ_cons]
        by_cases hd : smallCode x = smallCode y
        · by_cases hn : n > 0
          · rw [if_pos ⟨by omega, hx, hn⟩]
            obtain ⟨r, e, hr⟩ := ih (a := a) (b := b) (fun h => ha (by simp [h])) (fun h => hb (by simp [h]))
              (ha'.imp_left (by simp)) (hb'.imp_left (by simp))
            exact ⟨r, e, compares_same hd hr⟩
          · have : n = 0 := by omega
            subst this
            rw [if_neg (by omega)]
            refine ⟨_, rfl, compares_same hd ?_⟩
            rw [hd, Int.sub_self]
            simpa using compares_nil
        · rw [if_neg (by omega)]
          exact ⟨_, rfl, compares_diff hd⟩

/-- **C86, C strings.** `mg_ncasecmp` compares at most `n` bytes of two C strings without regard to case, and reads nothing behind them. -/
theorem C86_ncasecmp {n : Nat} {a b ra rb : List UInt8} (ha : 0 ∉ a) (hb : 0 ∉ b) (ha' : n ≤ a.length ∨ ra.head? = some 0)
    (hb' : n ≤ b.length ∨ rb.head? = some 0) : ∃ r, ncasecmp (a ++ ra) (b ++ rb) n = some r ∧ Compares (a.take n) (b.take n) r :=
  ncasecmp_spec ha hb ha' hb'

/-- **C86, whole C strings.** `mg_casecmp`. -/
theorem C86_casecmp {a b ra rb : List UInt8} (ha : 0 ∉ a) (hb : 0 ∉ b) (hla : a.length < 2 ^ 64) (hlb : b.length < 2 ^ 64) :
    ∃ r, casecmp (a ++ 0 :: ra) (b ++ 0 :: rb) = some r ∧ Compares a b r := by
  obtain ⟨r, e, hr⟩ := ncasecmp_spec (n := 2 ^ 64 - 1) ha hb (.inr (show (0 :: ra).head? = some 0 from rfl)) (.inr (show (0 :: rb).head? = some 0 from rfl))
  refine ⟨r, e, ?_⟩
  rwa [List.take_of_length_le (by omega), List.take_of_length_le (by omega)] at hr

/-- Its answers are the ones of a total order: the texts are the same or one comes before the other. -/
theorem C86_total (a b : List UInt8) : SameText a b ∨ Precedes a b ∨ Precedes b a := by
  induction a generalizing b with
  | nil => cases b with
    | nil => exact .inl .nil
    | cons d t => exact .inr (.inl .shorter)
  | cons c s ih => cases b with
    | nil => exact .inr (.inr .shorter)
    | cons d t =>
      by_cases h : smallCode c = smallCode d
      · rcases ih t with g | g | g
        · exact .inl (.cons ((sameLetter_code _ _).2 h) g)
        · exact .inr (.inl (.same ((sameLetter_code _ _).2 h) g))
        · exact .inr (.inr (.same ((sameLetter_code _ _).2 h.symm) g))
      · by_cases hl : smallCode c < smallCode d
        · exact .inr (.inl (.less hl))
        · exact .inr (.inr (.less (by omega)))

/-- `ABC` and `abd`: the hypotheses are met, and the answer is not trivial. -/
example : ∃ r, casecmp ([65, 66, 67] ++ 0 :: []) ([97, 98, 100] ++ 0 :: []) = some r ∧ r < 0 := by
  obtain ⟨r, e, h⟩ := C86_casecmp (a := [65, 66, 67]) (b := [97, 98, 100]) (ra := []) (rb := []) (by decide) (by decide) (by decide) (by decide)
  exact ⟨r, e, h.2.1.2 (.same (.inr (.inl ⟨by decide, by decide, by decide⟩)) (.same (.inr (.inl ⟨by decide, by decide, by decide⟩)) (.less (by decide))))⟩

/-! ## Counted text -/

theorem strlen_spec {b rb : List UInt8} (hb : 0 ∉ b) : strlen (b ++ 0 :: rb) = some b.length := by
  induction b with
  | nil => rfl
  | cons c b ih =>
    have hc : c ≠ 0 := by rintro rfl; simp at hb
    rw [List.cons_append, strlen, if_neg hc, ih fun h => hb (by simp [h])]
    rfl

/-- Counted text with a C string, as far as the shorter of them goes. -/
theorem ncasecmp_counted {n : Nat} {a b rb : List UInt8} (hb : 0 ∉ b) (ha' : n ≤ a.length) (hb' : n ≤ b.length) :
    ∃ r, ncasecmp a (b ++ rb) n = some r ∧ (r = 0 → SameText (a.take n) (b.take n)) ∧
      (r ≠ 0 → Compares a b r) ∧ -255 ≤ r ∧ r ≤ 255 := by
  induction n generalizing a b with
  | zero => exact ⟨0, by rw [ncasecmp], fun _ => by simpa using SameText.nil, fun h => absurd rfl h, by decide, by decide⟩
  | succ n ih =>
    cases a with
    | nil => simp at ha'
    | cons x a =>
      cases b with
      | nil => simp at hb'
      | cons y b =>
        have hy : y ≠ 0 := by rintro rfl; simp at hb
        have b1 : smallCode x ≤ 255 := by have := x.toNat_lt; unfold smallCode; split <;> omega
        have b2 : smallCode y ≤ 255 := by have := y.toNat_lt; unfold smallCode; split <;> omega
        simp only [List.cons_append, ncasecmp, lower_code, List.take_succ_cons]
        by_cases hd : smallCode x = smallCode y
        · have hx : x ≠ 0 := by
            rintro rfl
            exact hy (code_zero.1 (hd.symm.trans (by decide)))
          by_cases hn : n > 0
          · rw [if_pos ⟨by omega, hx, hn⟩]
            obtain ⟨r, e, hr1, hr2, hr3⟩ := ih (a := a) (b := b) (fun h => hb (by simp [h])) (by simpa using ha') (by simpa using hb')
            exact ⟨r, e, fun h => .cons ((sameLetter_code _ _).2 hd) (hr1 h), fun h => compares_same hd (hr2 h), hr3⟩
          · have : n = 0 := by omega
            subst this
            rw [if_neg (by omega)]
            refine ⟨_, rfl, fun _ => .cons ((sameLetter_code _ _).2 hd) (by simpa using SameText.nil), fun h => by omega, by omega, by omega⟩
        · rw [if_neg (by omega)]
          exact ⟨_, rfl, fun h => by omega, fun _ => compares_diff hd, by omega, by omega⟩

theorem sameText_prefix {a b : List UInt8} {n : Nat} (h : SameText (a.take n) (b.take n)) :
    (n = a.length → n = b.length → Compares a b 0) ∧ (n = a.length → n < b.length → ∀ r : Int, r < 0 → Compares a b r) ∧
      (n = b.length → n < a.length → ∀ r : Int, 0 < r → Compares a b r) := by
  induction n generalizing a b with
  | zero =>
    refine ⟨fun h1 h2 => ?_, fun h1 h2 r hr => ?_, fun h1 h2 r hr => ?_⟩
    · rw [List.length_eq_zero_iff.1 h1.symm, List.length_eq_zero_iff.1 h2.symm]; exact compares_nil
    · rw [List.length_eq_zero_iff.1 h1.symm]
      cases b with
      | nil => simp at h2
      | cons => exact compares_short hr
    · rw [List.length_eq_zero_iff.1 h1.symm]
      cases a with
      | nil => simp at h2
      | cons => exact compares_long hr
  | succ n ih =>
    cases a with
    | nil =>
      cases b with
      | nil => exact ⟨fun h => by simp at h, fun h => by simp at h, fun h => by simp at h⟩
      | cons => cases h
    | cons x a =>
      cases b with
      | nil => cases h
      | cons y b =>
        simp only [List.take_succ_cons] at h
        cases h with
        | cons h1 h2 =>
          have hc := (sameLetter_code _ _).1 h1
          obtain ⟨i1, i2, i3⟩ := ih h2
          refine ⟨fun g1 g2 => compares_same hc (i1 ?_ ?_), fun g1 g2 r hr => compares_same hc (i2 ?_ ?_ r hr),
            fun g1 g2 r hr => compares_same hc (i3 ?_ ?_ r hr)⟩ <;> simp at g1 g2 <;> omega

/-- **C86, counted text with a C string.** `mg_vcasecmp`, for texts of less than 2^31 bytes; the counted text may contain NULs. -/
theorem C86_vcasecmp_partial {a b rb : List UInt8} (hb : 0 ∉ b) (hla : a.length < 2 ^ 31) (hlb : b.length < 2 ^ 31) :
    ∃ r, vcasecmp a (b ++ 0 :: rb) = some r ∧ Compares a b r := by
  unfold vcasecmp
  simp only [strlen_spec hb, Option.bind_eq_bind, Option.bind_some]
  obtain ⟨r, e, h1, h2, _⟩ := ncasecmp_counted (n := if a.length < b.length then a.length else b.length) (a := a) (b := b) (rb := 0 :: rb) hb
    (by split <;> omega) (by split <;> omega)
  rw [e, Option.bind_some]
  by_cases h0 : r = 0
  · rw [if_pos h0]
    obtain ⟨i1, i2, i3⟩ := sameText_prefix (h1 h0)
    have hv : (BitVec.ofInt 32 ((a.length : Int) - b.length)).toInt = (a.length : Int) - b.length := by
      rw [BitVec.toInt_ofInt, Int.bmod]; omega
    rw [hv]
    refine ⟨_, rfl, ?_⟩
    by_cases hl : a.length < b.length
    · rw [if_pos hl] at i2
      exact i2 rfl hl _ (by omega)
    · rw [if_neg hl] at i1 i3
      by_cases he : a.length = b.length
      · rw [show (a.length : Int) - b.length = 0 by omega]
        exact i1 he.symm rfl
      · exact i3 rfl (by omega) _ (by omega)
  · rw [if_neg h0]
    exact ⟨r, rfl, h2 h0⟩

/-- **C86, violation.** The difference of the lengths is cut to 32 bits: text that goes on for 2^32 bytes behind a C string is said to be
equal to it. -/
theorem C86_violation_vcasecmp_length {a b rb : List UInt8} (hb : 0 ∉ b) (hl : a.length = 2 ^ 32) :
    vcasecmp (b ++ a) (b ++ 0 :: rb) = some 0 ∧ ¬ SameText (b ++ a) b := by
  have hself : ∀ s : List UInt8, SameText s s := by
    intro s
    induction s with
    | nil => exact .nil
    | cons c s ih => exact .cons (.inl rfl) ih
  constructor
  · unfold vcasecmp
    simp only [strlen_spec hb, Option.bind_eq_bind, Option.bind_some, List.length_append]
    rw [if_neg (by omega)]
    obtain ⟨r, e, h1, h2, _⟩ := ncasecmp_counted (n := b.length) (a := b ++ a) (b := b) (rb := 0 :: rb) hb (by simp) (by simp)
    rw [e, Option.bind_some]
    have h0 : r = 0 := by
      apply Classical.byContradiction
      intro h
      have hc := h2 h
      have hpre := (sameText_prefix (a := b ++ a) (b := b) (n := b.length) (by simpa using hself b)).2.2 rfl (by simp; omega) 1 (by decide)
      have hgt : 0 < r := hc.2.2.2 (hpre.2.2.1 (by decide))
      obtain ⟨r', e', hr'⟩ := ncasecmp_spec (n := b.length) (a := b) (b := b) (ra := a) (rb := 0 :: rb) hb hb (.inl (Nat.le_refl _)) (.inl (Nat.le_refl _))
      rw [e] at e'
      cases e'
      exact h (hr'.1.2 (hself _))
    rw [if_pos h0]
    congr 1
    rw [show ((b.length + a.length : Nat) : Int) - b.length = 2 ^ 32 by omega]
    decide
  · intro h
    have : ∀ {s t : List UInt8}, SameText s t → s.length = t.length := by
      intro s t h
      induction h with
      | nil => rfl
      | cons _ _ ih => simp [ih]
    have := this h
    simp at this
    rw [this] at hl
    simp at hl

/-- Such texts exist (not that a test would want to make one). -/
example : ∃ a : List UInt8, a.length = 2 ^ 32 := ⟨List.replicate (2 ^ 32) 0, List.length_replicate ..⟩

theorem tolower_ascii {c : UInt8} (h : c < 128) : tolower c = some (smallCode c) := by rw [tolower, if_pos h, lower_code]

/-- **C86, counted texts.** `mg_strcasecmp`, for ASCII. -/
theorem C86_strcasecmp_partial {a b : List UInt8} (ha : ∀ c ∈ a, c < 128) (hb : ∀ c ∈ b, c < 128) : ∃ r, strcasecmp a b = some r ∧ Compares a b r := by
  induction a generalizing b with
  | nil =>
    cases b with
    | nil => exact ⟨0, rfl, compares_nil⟩
    | cons d t => exact ⟨-1, rfl, compares_short (by decide)⟩
  | cons c s ih =>
    cases b with
    | nil => exact ⟨1, rfl, compares_long (by decide)⟩
    | cons d t =>
      simp only [strcasecmp, tolower_ascii (ha c (by simp)), tolower_ascii (hb d (by simp)), Option.bind_eq_bind, Option.bind_some]
      by_cases h1 : smallCode c < smallCode d
      · rw [if_pos h1]; exact ⟨_, rfl, compares_less h1 (by decide)⟩
      · by_cases h2 : smallCode c > smallCode d
        · rw [if_neg h1, if_pos h2]; exact ⟨_, rfl, compares_greater h2 (by decide)⟩
        · rw [if_neg h1, if_neg h2]
          obtain ⟨r, e, hr⟩ := ih (b := t) (fun c h => ha c (List.mem_cons_of_mem _ h)) (fun c h => hb c (List.mem_cons_of_mem _ h))
          exact ⟨r, e, compares_same (by omega) hr⟩

/-- **C86, violation.** A byte above 127 in a counted text that is reached makes the behaviour undefined: `tolower` gets a negative number. -/
theorem C86_violation_high_bytes {c d : UInt8} (s t : List UInt8) (h : 128 ≤ c) : strcasecmp (c :: s) (d :: t) = none := by
  have : ¬ c < 128 := by
    rw [UInt8.lt_iff_toNat_lt]; rw [UInt8.le_iff_toNat_le] at h; omega
  simp [strcasecmp, tolower, this]

/-! ## Searching -/

theorem sameN_spec {m : Nat} {s f rf : List UInt8} (hf : 0 ∉ f) (hm : m = f.length) (hs : m ≤ s.length) :
    sameN s (f ++ rf) m = some (decide (s.take m = f)) := by
  induction f generalizing s m with
  | nil => subst hm; simp [sameN]
  | cons c f ih =>
    subst hm
    cases s with
    | nil => simp at hs
    | cons x s =>
      have hc : c ≠ 0 := by rintro rfl; simp at hf
      simp only [List.cons_append, List.length_cons, sameN, List.take_succ_cons]
      by_cases hx : x = c
      · subst hx
        rw [if_neg (by simp), if_neg hc, ih (fun h => hf (by simp [h])) rfl (by simpa using hs)]
        simp
      · rw [if_pos hx]
        simp [hx]

/-- **C86, searching.** `c_strnstr` finds the first place in the first `slen` bytes where the C string is, and NULL if it is not there;
nothing behind the `slen` bytes is read.  In an empty text nothing is found, not even the empty string. -/
theorem C86_strnstr {s f rf : List UInt8} {slen : Nat} (hf : 0 ∉ f) (hs : slen ≤ s.length) :
    ∃ r, strnstr s (f ++ 0 :: rf) slen = some r ∧
      (∀ i, r = some i → i < slen ∧ i + f.length ≤ slen ∧ (s.drop i).take f.length = f ∧
        ∀ j, j < i → (s.drop j).take f.length ≠ f) ∧
      (r = none → ∀ i, i < slen → i + f.length ≤ slen → (s.drop i).take f.length ≠ f) := by
  unfold strnstr
  rw [strlen_spec hf, Option.bind_some]
  suffices h : ∀ k i, slen - i = k → (∀ j, j < i → (s.drop j).take f.length ≠ f) →
      ∃ r, strnstrFrom s (f ++ 0 :: rf) f.length i slen = some r ∧
        (∀ i, r = some i → i < slen ∧ i + f.length ≤ slen ∧ (s.drop i).take f.length = f ∧ ∀ j, j < i → (s.drop j).take f.length ≠ f) ∧
        (r = none → ∀ i, i < slen → i + f.length ≤ slen → (s.drop i).take f.length ≠ f) from
    h _ 0 rfl (fun j h => by omega)
  intro k
  induction k with
  | zero =>
    intro i hk hbefore
    rw [strnstrFrom, if_neg (by omega)]
    exact ⟨none, rfl, nofun, fun _ j h1 _ => hbefore j (by omega)⟩
  | succ k ih =>
    intro i hk hbefore
    rw [strnstrFrom, if_pos (by omega)]
    by_cases hlen : i + f.length > slen
    · rw [if_pos hlen]
      exact ⟨none, rfl, nofun, fun _ j h1 h2 => hbefore j (by omega)⟩
    · rw [if_neg hlen, sameN_spec hf rfl (by simp; omega), Option.bind_some]
      by_cases he : (s.drop i).take f.length = f
      · simp only [he, decide_true, if_true]
        exact ⟨some i, rfl, fun j hj => by cases hj; exact ⟨by omega, by omega, he, hbefore⟩, nofun⟩
      · simp only [he, decide_false, Bool.false_eq_true, if_false]
        refine ih (i + 1) (by omega) fun j hj => ?_
        by_cases hji : j = i
        · subst hji; exact he
        · exact hbefore j (by omega)

/-- Found and not found. -/
example : strnstr [97, 98, 97, 99] [97, 99, 0] 4 = some (some 2) ∧ strnstr [97, 98, 97, 99] [97, 99, 0] 3 = some none := by
  constructor <;> simp [strnstr, strlen, strnstrFrom, sameN]

/-! ## Reading integers -/

theorem digits_step {t : List UInt8} {n : Nat} (h : Numeral.Value 10 t n) (hn : n < 2 ^ 63) (r : List UInt8) : digits64 0 (t ++ r) = digits64 n r := by
  induction h generalizing r with
  | nil => rfl
  | @snoc text m c d _ hd hlt ih =>
    rw [List.append_assoc, ih (by omega), List.singleton_append, digits64]
    unfold Numeral.digit at hd
    split at hd
    · next hc =>
      cases hd
      rw [if_pos ⟨UInt8.le_iff_toNat_le.2 hc.1, UInt8.le_iff_toNat_le.2 hc.2⟩, if_pos hn]
    · split at hd
      · cases hd; omega
      · cases hd

theorem to64_blanks {ws s : List UInt8} (h : ∀ c ∈ ws, CaseCmp.isspace c = true) : to64 (ws ++ s) = to64 s := by
  induction ws with
  | nil => rfl
  | cons c ws ih =>
    have hc := h c (by simp)
    have h0 : c ≠ 0 := by rintro rfl; cases hc
    rw [List.cons_append, to64, if_pos ⟨h0, hc⟩, ih fun c h' => h c (by simp [h'])]

/-- **C86, reading integers.** `cs_to64` of blanks, a numeral, perhaps a minus sign before it, and something that is no digit is the number
written, for numbers below 2^63. -/
theorem C86_to64_partial {ws t rest : List UInt8} {n : Nat} {c : UInt8} (hw : ∀ c ∈ ws, c ∈ ([32, 9, 10, 11, 12, 13] : List UInt8)) (ht : Numeral.Value 10 t n) (h0 : t ≠ [])
    (hn : n < 2 ^ 63) (hc : ¬ (48 ≤ c ∧ c ≤ 57)) :
    to64 (ws ++ t ++ c :: rest) = some n ∧ to64 (ws ++ 45 :: t ++ c :: rest) = some (-(n : Int)) := by
  have hw : ∀ c ∈ ws, CaseCmp.isspace c = true := fun c hc => by
    have : ∀ c ∈ ([32, 9, 10, 11, 12, 13] : List UInt8), CaseCmp.isspace c = true := by decide
    exact this c (hw c hc)
  have hd : digits64 0 (t ++ c :: rest) = some n := by rw [digits_step ht hn, digits64, if_neg hc]
  constructor
  · rw [List.append_assoc, to64_blanks hw]
    cases t with
    | nil => exact absurd rfl h0
    | cons x t =>
      have hx : 48 ≤ x ∧ x ≤ 57 := by
        apply Classical.byContradiction
        intro hx
        have : ∀ {t : List UInt8} {n : Nat}, Numeral.Value 10 t n → ∀ x ∈ t, 48 ≤ x ∧ x ≤ 57 := by
          intro t n h
          induction h with
          | nil => simp
          | snoc _ hd hlt ih =>
            intro x hx
            rcases List.mem_append.1 hx with hx | hx
            · exact ih x hx
            · rw [List.mem_singleton] at hx
              subst hx
              unfold Numeral.digit at hd
              split at hd
              · next hc => exact ⟨UInt8.le_iff_toNat_le.2 hc.1, UInt8.le_iff_toNat_le.2 hc.2⟩
              · split at hd
                · cases hd; omega
                · cases hd
        exact hx (this ht x (by simp))
      have h1 := UInt8.le_iff_toNat_le.1 hx.1
      have hs : CaseCmp.isspace x = false := by
        have : ∀ m : Fin 256, 48 ≤ m.val → CaseCmp.isspace (UInt8.ofNat m) = false := by decide +kernel
        simpa using this ⟨x.toNat, x.toNat_lt⟩ h1
      rw [List.cons_append, to64, if_neg (by rw [hs]; simp), if_neg (by rintro rfl; exact absurd h1 (by decide))]
      rw [← List.cons_append, hd]; rfl
  · rw [List.append_assoc, to64_blanks hw, List.cons_append, to64, if_neg (by decide), if_pos rfl, hd]; rfl

/-- **C86, violation.** For numbers from 2^63 on the behaviour is undefined, also for the least `int64_t`; and a plus sign is not
understood: the answer is 0. -/
theorem C86_violation_to64 {t rest : List UInt8} :
    to64 ([57, 50, 50, 51, 51, 55, 50, 48, 51, 54, 56, 53, 52, 55, 55, 53, 56, 48, 56] ++ 0 :: rest) = none ∧
    to64 (45 :: [57, 50, 50, 51, 51, 55, 50, 48, 51, 54, 56, 53, 52, 55, 55, 53, 56, 48, 56] ++ 0 :: rest) = none ∧
    to64 (43 :: t) = some 0 := by
  refine ⟨?_, ?_, ?_⟩
  · simp [to64, digits64, CaseCmp.isspace]
  · simp [to64, digits64, CaseCmp.isspace]
  · simp [to64, digits64, CaseCmp.isspace]

/-- ` -42;` -/
example : to64 ([32] ++ 45 :: [52, 50] ++ 59 :: []) = some (-42) :=
  (C86_to64_partial (ws := [32]) (t := [52, 50]) (n := 42) (c := 59) (by decide)
    (.snoc (text := [52]) (n := 4) (d := 2) (.snoc (text := []) (n := 0) (d := 4) .nil rfl (by decide)) rfl (by decide)) (by simp) (by decide) (by decide)).2

end Mjs.Props
