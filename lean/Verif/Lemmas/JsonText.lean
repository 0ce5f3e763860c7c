import Verif.Lemmas.Json
import Verif.Spec.Json

/-!
# What the scanning functions of the JSON parser do on well-formed parts of a text
-/

namespace Mjs.Json
open Mjs Mjs.Spec Mjs.Spec.Json

variable {σ : Type}

/-- What may follow a value: a blank, a comma or a closing bracket. -/
def Stops (r : List UInt8) : Prop :=
  ∃ c t, r = c :: t ∧ (c = 32 ∨ c = 9 ∨ c = 10 ∨ c = 13 ∨ c = 44 ∨ c = 93 ∨ c = 125)

theorem stops_blank {w r : List UInt8} (h : Blank w) (hr : Stops r) : Stops (w ++ r) := by
  cases w with
  | nil => exact hr
  | cons c w =>
    refine ⟨c, w ++ r, rfl, ?_⟩
    have := h c (by simp)
    rcases this with h | h | h | h <;> simp [h]

theorem dropWhile_blank {w r : List UInt8} (h : Blank w) : (w ++ r).dropWhile isSpace = r.dropWhile isSpace := by
  induction w with
  | nil => rfl
  | cons c w ih =>
    have hc : isSpace c = true := by
      rcases h c (by simp) with h | h | h | h <;> subst h <;> rfl
    rw [List.cons_append, List.dropWhile_cons_of_pos hc]
    exact ih fun x hx => h x (by simp [hx])

/-- Blanks are skipped up to a byte that is none. -/
theorem skip_blank {s : S σ} {w r : List UInt8} {c : UInt8} (hs : s.rest = w ++ c :: r) (h : Blank w) (hc : isSpace c = false) :
    skip s = { s with rest := c :: r } := by
  unfold skip
  rw [hs, dropWhile_blank h, List.dropWhile_cons_of_neg (by simp [hc])]

theorem testAndSkip_blank {s : S σ} {w r : List UInt8} {c : UInt8} (hs : s.rest = w ++ c :: r) (h : Blank w) (hc : isSpace c = false) :
    testAndSkip s c = .ok { s with rest := r } := by
  unfold testAndSkip
  rw [skip_blank hs h hc]
  simp [advance]

theorem blank_nil : Blank [] := by simp [Blank]

theorem blank_append {a b : List UInt8} (ha : Blank a) (hb : Blank b) : Blank (a ++ b) := by
  intro c hc
  rcases List.mem_append.1 hc with h | h
  · exact ha c h
  · exact hb c h

theorem skipComma_comma {s : S σ} {w r : List UInt8} (hs : s.rest = w ++ 44 :: r) (h : Blank w) :
    skipComma s = { s with rest := r } := by
  unfold skipComma
  rw [skip_blank hs h (by rfl)]
  rfl

theorem skipComma_none {s : S σ} {w r : List UInt8} {c : UInt8} (hs : s.rest = w ++ c :: r) (h : Blank w) (hc : isSpace c = false)
    (h44 : c ≠ 44) : skipComma s = { s with rest := c :: r } := by
  unfold skipComma
  rw [skip_blank hs h hc]
  simp [h44]

/-! ### Strings -/

theorem charLen_ascii : ∀ c : UInt8, c.toNat < 128 → charLen c = 1 := by
  intro c h
  have : ∀ n : Fin 128, charLen (UInt8.ofNat n.val) = 1 := by decide +kernel
  have := this ⟨c.toNat, h⟩
  simpa using this

theorem charLen_two : ∀ c : UInt8, 192 ≤ c.toNat → c.toNat < 224 → charLen c = 2 := by
  intro c h1 h2
  have : ∀ n : Fin 32, charLen (UInt8.ofNat (192 + n.val)) = 2 := by decide +kernel
  have := this ⟨c.toNat - 192, by omega⟩
  rw [show 192 + (c.toNat - 192) = c.toNat from by omega] at this
  simpa using this

theorem charLen_three : ∀ c : UInt8, 224 ≤ c.toNat → c.toNat < 240 → charLen c = 3 := by
  intro c h1 h2
  have : ∀ n : Fin 16, charLen (UInt8.ofNat (224 + n.val)) = 3 := by decide +kernel
  have := this ⟨c.toNat - 224, by omega⟩
  rw [show 224 + (c.toNat - 224) = c.toNat from by omega] at this
  simpa using this

theorem charLen_four : ∀ c : UInt8, 240 ≤ c.toNat → charLen c = 4 := by
  intro c h1
  have : ∀ n : Fin 16, charLen (UInt8.ofNat (240 + n.val)) = 4 := by decide +kernel
  have := this ⟨c.toNat - 240, by have := c.toNat_lt; omega⟩
  rw [show 240 + (c.toNat - 240) = c.toNat from by omega] at this
  simpa using this

theorem hex_xdigit {c : UInt8} {n : Nat} (h : Hex c n) : isXDigit c = true ∧ hexTo c = UInt8.ofNat n ∧ n < 16 ∧ c.toNat < 128 ∧ 32 ≤ c.toNat := by
  have hc := c.toNat_lt
  have key : ∀ c : UInt8, (48 ≤ c.toNat ∧ c.toNat ≤ 57 → isXDigit c = true ∧ hexTo c = UInt8.ofNat (c.toNat - 48)) ∧
      (97 ≤ c.toNat ∧ c.toNat ≤ 102 → isXDigit c = true ∧ hexTo c = UInt8.ofNat (c.toNat - 87)) ∧
      (65 ≤ c.toNat ∧ c.toNat ≤ 70 → isXDigit c = true ∧ hexTo c = UInt8.ofNat (c.toNat - 55)) := by
    intro c
    have : ∀ n : Fin 256, (48 ≤ (UInt8.ofNat n.val).toNat ∧ (UInt8.ofNat n.val).toNat ≤ 57 →
          isXDigit (UInt8.ofNat n.val) = true ∧ hexTo (UInt8.ofNat n.val) = UInt8.ofNat ((UInt8.ofNat n.val).toNat - 48)) ∧
        (97 ≤ (UInt8.ofNat n.val).toNat ∧ (UInt8.ofNat n.val).toNat ≤ 102 →
          isXDigit (UInt8.ofNat n.val) = true ∧ hexTo (UInt8.ofNat n.val) = UInt8.ofNat ((UInt8.ofNat n.val).toNat - 87)) ∧
        (65 ≤ (UInt8.ofNat n.val).toNat ∧ (UInt8.ofNat n.val).toNat ≤ 70 →
          isXDigit (UInt8.ofNat n.val) = true ∧ hexTo (UInt8.ofNat n.val) = UInt8.ofNat ((UInt8.ofNat n.val).toNat - 55)) := by
      decide +kernel
    have := this ⟨c.toNat, c.toNat_lt⟩
    simpa using this
  obtain ⟨k1, k2, k3⟩ := key c
  cases h with
  | dec h1 h2 => exact ⟨(k1 ⟨h1, h2⟩).1, (k1 ⟨h1, h2⟩).2, by omega, by omega, by omega⟩
  | small h1 h2 => exact ⟨(k2 ⟨h1, h2⟩).1, (k2 ⟨h1, h2⟩).2, by omega, by omega, by omega⟩
  | capital h1 h2 => exact ⟨(k3 ⟨h1, h2⟩).1, (k3 ⟨h1, h2⟩).2, by omega, by omega, by omega⟩

/-- The loop over the characters of a string goes on behind them. -/
theorem scanStr_prefix {body bs : List UInt8} (h : Chars body bs) : ∀ (n : Nat) (tail : List UInt8) (k : Nat),
    (body ++ tail).length < n → ∃ n', tail.length < n' ∧ scanStr n (body ++ tail) k = scanStr n' tail (k + body.length) := by
  induction h with
  | nil =>
    intro n tail k hn
    exact ⟨n, hn, rfl⟩
  | @plain c t b hc _ ih =>
    intro n tail k hn
    cases n with
    | zero => omega
    | succ n =>
      obtain ⟨h1, h2, h3, h4⟩ := hc
      simp only [List.cons_append, scanStr, charLen_ascii c h2]
      rw [if_neg (by omega), if_neg (by simp), if_neg h4, if_neg h3]
      simp only [List.drop_succ_cons, List.drop_zero]
      obtain ⟨n', hn', e⟩ := ih n tail (k + 1) (by simp at hn ⊢; omega)
      refine ⟨n', hn', ?_⟩
      rw [e]; congr 1; simp; omega
  | @two c x t b h1 h2 hx _ ih =>
    intro n tail k hn
    cases n with
    | zero => omega
    | succ n =>
      have e1 : c ≠ 92 := fun h => by subst h; simp at h1
      have e2 : c ≠ 34 := fun h => by subst h; simp at h1
      simp only [List.cons_append, scanStr, charLen_two c h1 h2]
      rw [if_neg (by omega), if_neg (by simp), if_neg e1, if_neg e2]
      simp only [List.drop_succ_cons, List.drop_zero]
      obtain ⟨n', hn', e⟩ := ih n tail (k + 2) (by simp at hn ⊢; omega)
      refine ⟨n', hn', ?_⟩
      rw [e]; congr 1; simp; omega
  | @three c x y t b h1 h2 hx hy _ ih =>
    intro n tail k hn
    cases n with
    | zero => omega
    | succ n =>
      have e1 : c ≠ 92 := fun h => by subst h; simp at h1
      have e2 : c ≠ 34 := fun h => by subst h; simp at h1
      simp only [List.cons_append, scanStr, charLen_three c h1 h2]
      rw [if_neg (by omega), if_neg (by simp), if_neg e1, if_neg e2]
      simp only [List.drop_succ_cons, List.drop_zero]
      obtain ⟨n', hn', e⟩ := ih n tail (k + 3) (by simp at hn ⊢; omega)
      refine ⟨n', hn', ?_⟩
      rw [e]; congr 1; simp; omega
  | @four c x y z t b h1 hx hy hz _ ih =>
    intro n tail k hn
    cases n with
    | zero => omega
    | succ n =>
      have e1 : c ≠ 92 := fun h => by subst h; simp at h1
      have e2 : c ≠ 34 := fun h => by subst h; simp at h1
      simp only [List.cons_append, scanStr, charLen_four c h1]
      rw [if_neg (by omega), if_neg (by simp), if_neg e1, if_neg e2]
      simp only [List.drop_succ_cons, List.drop_zero]
      obtain ⟨n', hn', e⟩ := ih n tail (k + 4) (by simp at hn ⊢; omega)
      refine ⟨n', hn', ?_⟩
      rw [e]; congr 1; simp; omega
  | @esc c e t b he _ ih =>
    intro n tail k hn
    cases n with
    | zero => omega
    | succ n =>
      have : escapeLen (c :: (t ++ tail)) (92 :: c :: (t ++ tail)).length = some (.ok 1) := by
        cases he <;> simp [escapeLen]
      simp only [List.cons_append, scanStr, charLen_ascii 92 (by decide)]
      rw [if_neg (by decide), if_neg (by simp), if_pos (by trivial), this]
      simp only [List.drop_succ_cons, List.drop_zero]
      obtain ⟨n', hn', e⟩ := ih n tail (k + (1 + 1)) (by simp at hn ⊢; omega)
      refine ⟨n', hn', ?_⟩
      rw [e]; congr 1; simp; omega
  | @ascii x y a m t b hx hy _ _ ih =>
    intro n tail k hn
    cases n with
    | zero => omega
    | succ n =>
      have : escapeLen (117 :: 48 :: 48 :: x :: y :: (t ++ tail)) (92 :: 117 :: 48 :: 48 :: x :: y :: (t ++ tail)).length =
          some (.ok 5) := by
        simp [escapeLen, (hex_xdigit hx).1, (hex_xdigit hy).1, show isXDigit 48 = true from rfl]
      simp only [List.cons_append, scanStr, charLen_ascii 92 (by decide)]
      rw [if_neg (by decide), if_neg (by simp), if_pos (by trivial), this]
      simp only [List.drop_succ_cons, List.drop_zero]
      obtain ⟨n', hn', e⟩ := ih n tail (k + (1 + 5)) (by simp at hn ⊢; omega)
      refine ⟨n', hn', ?_⟩
      rw [e]; congr 1; simp; omega

/-- The loop over the characters of a string finds the closing quote. -/
theorem scanStr_chars {body bs : List UInt8} (h : Chars body bs) (n : Nat) (tail : List UInt8) (k : Nat)
    (hn : (body ++ 34 :: tail).length < n) : scanStr n (body ++ 34 :: tail) k = .close (k + body.length) := by
  obtain ⟨n', hn', e⟩ := scanStr_prefix h n (34 :: tail) k hn
  rw [e]
  cases n' with
  | zero => omega
  | succ n => rfl

/-- The loop over the characters of a string ends at a control character. -/
theorem scanStr_control {body bs : List UInt8} (h : Chars body bs) (n : Nat) (c : UInt8) (tail : List UInt8) (k : Nat)
    (hc : c.toNat < 32) (hn : (body ++ c :: tail).length < n) : scanStr n (body ++ c :: tail) k = .fail .invalid := by
  obtain ⟨n', hn', e⟩ := scanStr_prefix h n (c :: tail) k hn
  rw [e]
  cases n' with
  | zero => omega
  | succ n => simp only [scanStr]; rw [if_pos hc]

theorem ne_zero {c : UInt8} {n : Nat} (h : n + 1 ≤ c.toNat) : (0 : UInt8) ≠ c := fun e => by
  rw [← e] at h; simp at h

/-- The text of a string contains no NUL. -/
theorem chars_noNul {body bs : List UInt8} (h : Chars body bs) : (0 : UInt8) ∉ body := by
  induction h with
  | nil => simp
  | plain hc _ ih => simp [ih, ne_zero hc.1]
  | two h1 _ hx _ ih => simp [ih, ne_zero h1, ne_zero hx.1]
  | three h1 _ hx hy _ ih => simp [ih, ne_zero h1, ne_zero hx.1, ne_zero hy.1]
  | four h1 hx hy hz _ ih => simp [ih, ne_zero h1, ne_zero hx.1, ne_zero hy.1, ne_zero hz.1]
  | esc he _ ih => cases he <;> simp [ih]
  | ascii hx hy _ _ ih => simp [ih, ne_zero (hex_xdigit hx).2.2.2.2, ne_zero (hex_xdigit hy).2.2.2.2]

theorem chars_length {body bs : List UInt8} (h : Chars body bs) : bs.length ≤ body.length := by
  induction h <;> simp only [List.length_cons, List.length_nil] at * <;> omega

theorem unescape_cons {c : UInt8} {t : List UInt8} (h : c ≠ 92) : unescape (c :: t) = (unescape t).map (c :: ·) := by
  rw [unescape.eq_def]
  split
  · cases ‹_ = []›
  · rename_i h'; cases h'; exact (h rfl).elim
  · rename_i h'; cases h'; exact (h rfl).elim
  · rename_i h'; cases h'; exact (h rfl).elim
  · rename_i h'; cases h'; rfl

/-- Unescaping gives the bytes. -/
theorem unescape_chars {body bs : List UInt8} (h : Chars body bs) : unescape body = some bs := by
  induction h with
  | nil => rfl
  | plain hc _ ih => rw [unescape_cons hc.2.2.2, ih]; rfl
  | two h1 _ hx _ ih =>
    rw [unescape_cons (fun h => by subst h; simp at h1), unescape_cons (fun h => by subst h; exact absurd hx.1 (by decide)), ih]; rfl
  | three h1 _ hx hy _ ih =>
    rw [unescape_cons (fun h => by subst h; simp at h1), unescape_cons (fun h => by subst h; exact absurd hx.1 (by decide)),
      unescape_cons (fun h => by subst h; exact absurd hy.1 (by decide)), ih]; rfl
  | four h1 hx hy hz _ ih =>
    rw [unescape_cons (fun h => by subst h; simp at h1), unescape_cons (fun h => by subst h; exact absurd hx.1 (by decide)),
      unescape_cons (fun h => by subst h; exact absurd hy.1 (by decide)), unescape_cons (fun h => by subst h; exact absurd hz.1 (by decide)), ih]; rfl
  | @esc c e t b he _ ih =>
    have hc : c ≠ 117 := by cases he <;> decide
    have : escChar c = some e := by cases he <;> rfl
    rw [unescape]
    · rw [if_neg hc, this, ih]; rfl
    · intro a b x y t' h1; exact fun _ => (hc h1).elim
  | @ascii x y n m t b hx hy hn _ ih =>
    obtain ⟨_, ex, bx, _⟩ := hex_xdigit hx
    obtain ⟨_, ey, by_, _⟩ := hex_xdigit hy
    have key : ∀ n m : Fin 16, UInt8.ofNat n.val * 16 ||| UInt8.ofNat m.val = UInt8.ofNat (n.val * 16 + m.val) := by decide +kernel
    rw [unescape, if_pos ⟨rfl, rfl⟩, ih, ex, ey]
    have := key ⟨n, bx⟩ ⟨m, by_⟩
    simp only at this
    rw [this]; rfl

/-! ### Numbers -/

theorem takeWhile_run {f : UInt8 → Bool} {ds r : List UInt8} (h : ∀ c ∈ ds, f c = true) (hr : ∀ c, r.head? = some c → f c = false) :
    ((ds ++ r).takeWhile f) = ds := by
  induction ds with
  | nil =>
    cases r with
    | nil => rfl
    | cons c r => rw [List.nil_append, List.takeWhile_cons_of_neg]; simp [hr c rfl]
  | cons d ds ih =>
    rw [List.cons_append, List.takeWhile_cons_of_pos (h d (by simp)), ih fun c hc => h c (by simp [hc])]

theorem digit_iff (c : UInt8) : (isDigit c = true ↔ Digit c) ∧ Tok.isDigit c = isDigit c := by
  refine ⟨by simp [isDigit, Digit], ?_⟩
  simp only [isDigit, Tok.isDigit, UInt8.le_iff_toNat_le]
  rfl

/-- The first byte is one of these. -/
def Starts (l : List UInt8) (r : List UInt8) : Prop := ∃ c t, r = c :: t ∧ c ∈ l

/-- A digit does not follow, and no letter that would make the number hexadecimal. -/
theorem starts_no {r : List UInt8} {l : List UInt8} (h : Starts l r) (f : UInt8 → Bool) (hl : ∀ c ∈ l, f c = false) :
    ∀ c, r.head? = some c → f c = false := by
  obtain ⟨c, t, rfl, hc⟩ := h
  intro d hd
  cases hd
  exact hl c hc

theorem digits_all {ds : List UInt8} (h : Digits ds) : ∀ c ∈ ds, isDigit c = true := fun c hc => (digit_iff c).1.2 (h.2 c hc)

theorem run_digits {ds r : List UInt8} (h : Digits ds) (hr : ∀ c, r.head? = some c → isDigit c = false) :
    digits1 isDigit (ds ++ r) = .ok ds.length ∧ Tok.span Tok.isDigit (ds ++ r) = ds.length := by
  have e : Tok.isDigit = isDigit := funext fun c => (digit_iff c).2
  constructor
  · cases ds with
    | nil => exact (h.1 rfl).elim
    | cons d ds =>
      simp only [List.cons_append, digits1, digits_all h d (by simp), if_true, run]
      rw [← List.cons_append, takeWhile_run (digits_all h) hr]
  · rw [Tok.span, e, takeWhile_run (digits_all h) hr]

/-- What follows a numeral. -/
def after0 : List UInt8 := [32, 9, 10, 13, 44, 93, 125]
/-- What follows the fraction. -/
def after1 : List UInt8 := [32, 9, 10, 13, 44, 93, 125, 101, 69]
/-- What follows the integral part. -/
def after2 : List UInt8 := [32, 9, 10, 13, 44, 93, 125, 101, 69, 46]

theorem stops_starts {r : List UInt8} (h : Stops r) : Starts after0 r := by
  obtain ⟨c, t, rfl, h⟩ := h
  exact ⟨c, t, rfl, by simpa [after0] using h⟩

theorem Starts.mono {l l' r : List UInt8} (h : Starts l r) (hl : ∀ c ∈ l, c ∈ l') : Starts l' r := by
  obtain ⟨c, t, e, h⟩ := h
  exact ⟨c, t, e, hl c h⟩

theorem exponent_eq {e r : List UInt8} (he : e = [] ∨ ∃ c s ds, e = c :: (s ++ ds) ∧ (c = 101 ∨ c = 69) ∧ (s = [] ∨ s = [43] ∨ s = [45]) ∧ Digits ds)
    (hr : Starts after0 r) : exponent (e ++ r) = .ok e.length ∧ Tok.exponentLen 101 69 (e ++ r) = e.length ∧ Starts after1 (e ++ r) := by
  have hr' := starts_no hr isDigit (by decide)
  rcases he with rfl | ⟨c, s, ds, rfl, hc, hs, hd⟩
  · obtain ⟨c, t, rfl, hc⟩ := hr
    have : ¬ (c = 101 ∨ c = 69) := by simp only [after0, List.mem_cons, List.not_mem_nil, or_false] at hc; rcases hc with h | h | h | h | h | h | h <;> subst h <;> decide
    refine ⟨?_, ?_, c, t, rfl, ?_⟩
    · simp only [List.nil_append, exponent]; rw [if_neg this]; rfl
    · simp only [List.nil_append, Tok.exponentLen]; rw [if_neg this]; rfl
    · simp only [after0, after1, List.mem_cons] at *; rcases hc with h | h | h | h | h | h | h | h <;> simp_all
  · obtain ⟨h1, h2⟩ := run_digits hd hr'
    have hpos : ds.length ≠ 0 := fun h => hd.1 (List.length_eq_zero_iff.1 h)
    refine ⟨?_, ?_, c, s ++ ds ++ r, by simp, by rcases hc with rfl | rfl <;> simp [after1]⟩
    · simp only [List.cons_append, exponent]
      rw [if_pos hc]
      rcases hs with rfl | rfl | rfl
      · cases ds with
        | nil => exact (hd.1 rfl).elim
        | cons d ds =>
          have hd1 := (hd.2 d (by simp))
          have : ¬ (d = 43 ∨ d = 45) := by
            rintro (h | h) <;> subst h <;> exact absurd hd1.1 (by decide)
          simp only [List.nil_append, List.cons_append] at h1 ⊢
          rw [if_neg this, h1]
          simp [Except.map]; omega
      · simp only [List.cons_append, List.nil_append]
        rw [if_pos (.inl trivial), h1]
        simp [Except.map]; omega
      · simp only [List.cons_append, List.nil_append]
        rw [if_pos (.inr trivial), h1]
        simp [Except.map]; omega
    · simp only [List.cons_append, Tok.exponentLen]
      rw [if_pos hc]
      have hg : Tok.signLen (s ++ ds ++ r) = s.length ∧ (s ++ ds ++ r).drop s.length = ds ++ r := by
        refine ⟨?_, by rw [List.append_assoc, List.drop_left]⟩
        rcases hs with rfl | rfl | rfl
        · cases ds with
          | nil => exact (hd.1 rfl).elim
          | cons d ds =>
            have hd1 := (hd.2 d (by simp))
            have : ¬ (d = 43 ∨ d = 45) := by
              rintro (h | h) <;> subst h <;> exact absurd hd1.1 (by decide)
            simp only [List.nil_append, List.cons_append, Tok.signLen]
            rw [if_neg this]; rfl
        · rfl
        · rfl
      rw [hg.1, hg.2, h2, if_neg hpos]
      simp; omega

theorem fraction_eq {f r : List UInt8} (hf : f = [] ∨ ∃ ds, f = 46 :: ds ∧ Digits ds) (hr : Starts after1 r) :
    fraction (f ++ r) = .ok f.length ∧ Tok.fractionLen Tok.isDigit (f ++ r) = f.length ∧ Starts after2 (f ++ r) := by
  have hr' := starts_no hr isDigit (by decide)
  rcases hf with rfl | ⟨ds, rfl, hd⟩
  · obtain ⟨c, t, rfl, hc⟩ := hr
    have : c ≠ 46 := by rintro rfl; revert hc; decide
    refine ⟨?_, ?_, c, t, rfl, ?_⟩
    · rw [List.nil_append, fraction]
      · rfl
      · rintro t' h; injection h with h; exact this h
    · simp only [List.nil_append, Tok.fractionLen]; rw [if_neg this]; rfl
    · simp only [after1, after2, List.mem_cons] at *; rcases hc with h | h | h | h | h | h | h | h | h | h <;> simp_all
  · obtain ⟨h1, h2⟩ := run_digits hd hr'
    refine ⟨?_, ?_, 46, ds ++ r, rfl, by decide⟩
    · simp only [List.cons_append, fraction, h1]; simp [Except.map]; omega
    · simp only [List.cons_append, Tok.fractionLen, h2, if_true]; simp; omega

/-- Both scanners of numbers read a numeral whole. -/
theorem numeral_scan {t r : List UInt8} (h : IsNumeral t) (hr : Stops r) (neg : Bool) :
    scanNumber ((if neg then [45] else []) ++ (t ++ r)) = .ok ((if neg then [45] else []) ++ t).length ∧
      Tok.strtodLen (t ++ r) = t.length ∧ ∃ c u, t = c :: u ∧ Digit c := by
  obtain ⟨i, f, e, rfl, hi, hz, hf, he⟩ := h
  obtain ⟨x1, x2, x3⟩ := exponent_eq he (stops_starts hr)
  obtain ⟨f1, f2, f3⟩ := fraction_eq hf x3
  obtain ⟨i1, i2⟩ := run_digits hi (starts_no f3 isDigit (by decide))
  have ea : i ++ (f ++ e) ++ r = i ++ (f ++ (e ++ r)) := by simp
  have d1 : (i ++ (f ++ (e ++ r))).drop i.length = f ++ (e ++ r) := List.drop_left
  have d2 : (i ++ (f ++ (e ++ r))).drop (i.length + f.length) = e ++ r := by
    rw [← List.drop_drop, d1, List.drop_left]
  obtain ⟨c, u, hcu⟩ : ∃ c u, i = c :: u := by
    cases i with
    | nil => exact (hi.1 rfl).elim
    | cons c u => exact ⟨c, u, rfl⟩
  have hc : Digit c := hi.2 c (by simp [hcu])
  obtain ⟨g, v, hgv, hg⟩ := f3
  have h2 : (c = 48 → i ++ (f ++ (e ++ r)) = 48 :: g :: v) ∧ g ≠ 120 ∧ g ≠ 88 := by
    refine ⟨fun h0 => ?_, ?_, ?_⟩
    · have := hz (by rw [hcu, h0]; rfl)
      rw [this, hgv]; rfl
    · rintro rfl; revert hg; decide
    · rintro rfl; revert hg; decide
  refine ⟨?_, ?_, c, u ++ (f ++ e), by rw [hcu]; rfl, hc⟩
  · have hm : (((if neg then [45] else []) ++ (i ++ (f ++ e) ++ r) : List UInt8).head? = some 45) ↔ neg = true := by
      cases neg with
      | true => simp
      | false =>
        rw [hcu]
        simp only [Bool.false_eq_true, if_false, List.nil_append, List.cons_append, List.head?_cons, Option.some.injEq, iff_false]
        rintro rfl; exact absurd hc.1 (by decide)
    have hd : ((if neg then [45] else []) ++ (i ++ (f ++ e) ++ r) : List UInt8).drop (if neg = true then 1 else 0) = i ++ (f ++ (e ++ r)) := by
      cases neg <;> simp
    have hne : i ++ (f ++ (e ++ r)) ≠ [] := by rw [hcu]; simp
    have htk : (i ++ (f ++ (e ++ r))).take 2 ≠ [48, 120] := by
      intro h
      by_cases h0 : c = 48
      · rw [h2.1 h0] at h; simp at h; exact h2.2.1 h
      · rw [hcu] at h; simp at h; exact h0 h.1
    unfold scanNumber
    simp only [hm, hd, hne, htk, if_false, i1, d1, f1, d2, x1, bind, Except.bind]
    congr 1
    cases neg <;> simp <;> omega
  · rw [ea]
    have hx : Tok.hexPrefixLen (i ++ (f ++ (e ++ r))) = 0 := by
      by_cases h0 : c = 48
      · rw [h2.1 h0]
        unfold Tok.hexPrefixLen
        split
        · rename_i h; cases h; simp [h2.2.1, h2.2.2]
        · rfl
      · rw [hcu]
        unfold Tok.hexPrefixLen
        split
        · rename_i h; injection h with h; exact (h0 h).elim
        · rfl
    unfold Tok.strtodLen
    simp only [hx, ne_eq, not_true_eq_false, if_false, i2, d1, f2, d2, x2]
    simp; omega

end Mjs.Json
