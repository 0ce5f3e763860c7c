import Verif.Props.Printf

/-!
# C55: widths, precisions, characters, pointers, and formats one after the other
-/

namespace Mjs.Props
open Mjs Mjs.Printf Mjs.Spec

theorem text_of_prints {fmt : List UInt8} {args : List Arg} {t : List UInt8} (h : Prints fmt args t) : text fmt args = some t := by
  cases e : text fmt args with
  | none =>
    have := h [] 0 (Nat.le_refl _)
    rw [vsnprintf_text [] 0 (Nat.le_refl _), e] at this
    cases this
  | some u =>
    have h1 := h (List.replicate (t.length + u.length + 1) 0) (t.length + u.length + 1) (by simp)
    rw [vsnprintf_text _ _ (by simp), e, Option.map_some, Option.some.injEq, Prod.mk.injEq, if_neg (by omega), if_neg (by omega)] at h1
    obtain ⟨h1, h2⟩ := h1
    rw [List.take_of_length_le (by omega), List.take_of_length_le (by omega)] at h1
    have := congrArg (List.take t.length) h1
    rw [List.take_append_of_le_length (by omega), List.append_assoc, List.take_append_of_le_length (by omega), List.take_length,
      ← h2, List.take_length] at this
    rw [this]

/-- **C55, one text only.** -/
theorem C55_prints_unique {fmt : List UInt8} {args : List Arg} {t u : List UInt8} (h : Prints fmt args t) (h' : Prints fmt args u) : t = u := by
  have := (text_of_prints h).symm.trans (text_of_prints h')
  exact Option.some.inj this

/-! ## One after the other -/

theorem number_append {fmt : List UInt8} (acc : Nat) (h : (number acc fmt).2 ≠ []) (x : List UInt8) :
    number acc (fmt ++ x) = ((number acc fmt).1, (number acc fmt).2 ++ x) := by
  induction fmt generalizing acc with
  | nil => exact absurd rfl h
  | cons c fmt ih =>
    rw [List.cons_append]
    unfold number at h ⊢
    split
    · next hc => rw [if_pos hc] at h; exact ih _ h
    · rfl

theorem star_append {n : Int} {fmt : List UInt8} {A B : List Arg} {w : Int} {f : List UInt8} (h : star n fmt A = some (w, f, B)) (h0 : fmt ≠ []) :
    ∃ used, A = used ++ B ∧ ∀ x X, star n (fmt ++ x) (used ++ X) = some (w, f ++ x, X) := by
  cases fmt with
  | nil => exact absurd rfl h0
  | cons c g =>
    simp only [star] at h
    split at h
    · next hc =>
      rw [Option.map_eq_some_iff] at h
      obtain ⟨⟨v, R⟩, hr, h⟩ := h
      unfold intArg at hr
      split at hr
      · next k R' =>
        cases hr
        cases h
        refine ⟨[.int v], rfl, fun x X => ?_⟩
        simp [star, hc, intArg]
      · cases hr
    · next hc =>
      cases h
      refine ⟨[], rfl, fun x X => ?_⟩
      simp [star, hc]

theorem width_append {fmt : List UInt8} {A B : List Arg} {w : Int} {f : List UInt8} (h : parseWidth fmt A = some (w, f, B)) (h0 : f ≠ []) :
    ∃ used, A = used ++ B ∧ ∀ x X, parseWidth (fmt ++ x) (used ++ X) = some (w, f ++ x, X) := by
  unfold parseWidth at h
  have hne : (number 0 fmt).2 ≠ [] := by
    intro he
    rw [he] at h
    cases h
    exact h0 rfl
  obtain ⟨used, g1, g2⟩ := star_append h hne
  refine ⟨used, g1, fun x X => ?_⟩
  unfold parseWidth
  rw [number_append 0 hne]
  exact g2 x X

theorem precision_append {fmt : List UInt8} {A B : List Arg} {w : Int} {f : List UInt8} (h : parsePrecision fmt A = some (w, f, B)) (h0 : f ≠ []) :
    ∃ used, A = used ++ B ∧ ∀ x X, parsePrecision (fmt ++ x) (used ++ X) = some (w, f ++ x, X) := by
  unfold parsePrecision at h
  cases fmt with
  | nil => cases h; exact absurd rfl h0
  | cons c g =>
    dsimp only at h
    split at h
    · next hc =>
      split at h
      · next hs =>
        have hg : g ≠ [] := by rintro rfl; cases hs
        obtain ⟨used, g1, g2⟩ := star_append h hg
        refine ⟨used, g1, fun x X => ?_⟩
        have : (g ++ x).head? = some 42 := by cases g with | nil => exact absurd rfl hg | cons b g => simpa using hs
        rw [List.cons_append, parsePrecision, if_pos hc, if_pos this]
        exact g2 x X
      · next hs =>
        cases h
        refine ⟨[], rfl, fun x X => ?_⟩
        have hg : g ≠ [] := by rintro rfl; exact h0 rfl
        have : ¬ (g ++ x).head? = some 42 := by cases g with | nil => exact absurd rfl hg | cons b g => simpa using hs
        rw [List.cons_append, parsePrecision, if_pos hc, if_neg this, number_append 0 h0]
        rfl
    · next hc =>
      cases h
      refine ⟨[], rfl, fun x X => ?_⟩
      rw [List.cons_append, parsePrecision, if_neg hc]
      rfl

theorem lenL_append {m : UInt8} {f : List UInt8} (h : f ≠ []) (x : List UInt8) : lenL m (f ++ x) = ((lenL m f).1, (lenL m f).2 ++ x) := by
  cases f with
  | nil => exact absurd rfl h
  | cons c f => simp only [List.cons_append, lenL]; split <;> rfl

theorem lenH_append {m : UInt8} {f : List UInt8} (h : f ≠ []) (x : List UInt8) : lenH m (f ++ x) = ((lenH m f).1, (lenH m f).2 ++ x) := by
  cases f with
  | nil => exact absurd rfl h
  | cons c f => simp only [List.cons_append, lenH]; split <;> rfl

theorem lenMod_append {fmt : List UInt8} (h : (parseLenMod fmt).2 ≠ []) (x : List UInt8) :
    parseLenMod (fmt ++ x) = ((parseLenMod fmt).1, (parseLenMod fmt).2 ++ x) := by
  cases fmt with
  | nil => exact absurd rfl h
  | cons c f =>
    simp only [List.cons_append, parseLenMod] at h ⊢
    split
    · next hc =>
      rw [if_pos hc] at h
      have h2 : (lenH c f).2 ≠ [] := by intro e; rw [e] at h; exact h rfl
      have h1 : f ≠ [] := by rintro rfl; exact h2 rfl
      rw [lenH_append h1, lenL_append h2]
    · rfl

theorem conv_append {fmt : List UInt8} {A B : List Arg} {c : Conv} {f : List UInt8} (h : parseConv fmt A = some (c, f, B)) :
    ∃ used, A = used ++ B ∧ ∀ x X, parseConv (fmt ++ x) (used ++ X) = some (c, f ++ x, X) := by
  unfold parseConv at h
  simp only [Option.bind_eq_bind, Option.bind_eq_some_iff] at h
  obtain ⟨⟨w, f1, a1⟩, h1, ⟨p, f2, a2⟩, h2, h3⟩ := h
  dsimp only at h2 h3
  split at h3
  · cases h3
  · next ch f' e =>
    cases h3
    have n3 : (parseLenMod f2).2 ≠ [] := by rw [e]; simp
    have n2 : f2 ≠ [] := by rintro rfl; exact n3 rfl
    have n1 : f1 ≠ [] := by rintro rfl; cases h2; exact n2 rfl
    have nf : fmt ≠ [] := by rintro rfl; cases h1; exact n1 rfl
    obtain ⟨u1, g1, k1⟩ := width_append h1 n1
    obtain ⟨u2, g2, k2⟩ := precision_append h2 n2
    refine ⟨u1 ++ u2, by rw [g1, g2, List.append_assoc], fun x X => ?_⟩
    unfold parseConv
    rw [List.append_assoc, k1]
    simp only [Option.bind_eq_bind, Option.bind_some]
    rw [k2]
    simp only [Option.bind_some]
    rw [lenMod_append n3, e]
    have : (fmt ++ x).head? = fmt.head? := by cases fmt with | nil => exact absurd rfl nf | cons b g => rfl
    rw [this]
    rfl

/-- The format takes exactly these arguments: with fewer of them it is an error. -/
def Takes (fmt : List UInt8) (args : List Arg) : Prop :=
  ∀ front back, args = front ++ back → back ≠ [] → ∀ mem W, W ≤ mem.length → vsnprintf mem W fmt front = none

theorem text_none {fmt : List UInt8} {args : List Arg} (h : ∀ mem W, W ≤ mem.length → vsnprintf mem W fmt args = none) : text fmt args = none := by
  have := h [] 0 (Nat.le_refl _)
  rw [vsnprintf_text [] 0 (Nat.le_refl _)] at this
  simpa using this

/-- **C55, one after the other.** If a format prints `t1` and takes exactly its arguments, and another one prints `t2`, then the two
in one format print `t1` and then `t2`. -/
theorem C55_concat {f1 f2 : List UInt8} {a1 a2 : List Arg} {t1 t2 : List UInt8} (h1 : Prints f1 a1 t1) (hT : Takes f1 a1) (h2 : Prints f2 a2 t2) :
    Prints (f1 ++ f2) (a1 ++ a2) (t1 ++ t2) := by
  apply prints_of_text
  have e1 := text_of_prints h1
  have e2 := text_of_prints h2
  have hx : ∀ front back, a1 = front ++ back → back ≠ [] → text f1 front = none := fun fr bk h h' => text_none (hT fr bk h h')
  clear h1 hT h2
  induction hn : f1.length using Nat.strongRecOn generalizing f1 a1 t1 with
  | ind n ih =>
    cases f1 with
    | nil =>
      rw [text] at e1
      cases e1
      have : a1 = [] := by
        apply Classical.byContradiction
        intro h
        have := hx [] a1 rfl h
        rw [text] at this
        cases this
      subst this
      simpa using e2
    | cons ch f =>
      by_cases hc : ch = 37
      · subst hc
        rw [text_conv] at e1
        simp only [Option.bind_eq_some_iff] at e1
        obtain ⟨⟨c, f', B⟩, hp, e1⟩ := e1
        dsimp only at e1
        obtain ⟨used, g1, g2⟩ := conv_append hp
        cases B with
        | nil => cases e1
        | cons a args =>
          simp only [Option.bind_eq_some_iff, Option.map_eq_some_iff] at e1
          obtain ⟨t, ht, u, hu, rfl⟩ := e1
          subst g1
          have hl := parseConv_length hp
          have := ih f'.length (by rw [← hn]; simp; omega) hu (fun front back hfb hb => by
            have := hx (used ++ a :: front) back (by rw [hfb]; simp) hb
            rw [text_conv] at this
            have g3 := g2 [] (a :: front)
            simp only [List.append_nil] at g3
            rw [g3, Option.bind_some] at this
            dsimp only at this
            rw [ht, Option.bind_some] at this
            simpa using this) rfl
          rw [List.cons_append, text_conv, List.append_assoc, List.cons_append, g2 f2 (a :: (args ++ a2)), Option.bind_some]
          dsimp only
          rw [ht, Option.bind_some, this, Option.map_some, List.append_assoc]
      · rw [text_lit hc, Option.map_eq_some_iff] at e1
        obtain ⟨u, hu, rfl⟩ := e1
        have := ih f.length (by rw [← hn]; simp) hu (fun front back hfb hb => by
          have := hx front back hfb hb
          rw [text_lit hc] at this
          simpa using this) rfl
        rw [List.cons_append, text_lit hc, this]
        rfl

/-- **C55, plain text.** A format without `%` prints itself and takes no arguments. -/
theorem C55_literal {fmt : List UInt8} (h : 37 ∉ fmt) : Prints fmt [] fmt ∧ Takes fmt [] := by
  refine ⟨prints_of_text ?_, fun front back h hb => ?_⟩
  · induction fmt with
    | nil => rw [text]
    | cons c f ih =>
      simp only [List.mem_cons, not_or] at h
      rw [text_lit (Ne.symm h.1), ih h.2]; rfl
  · have := List.append_eq_nil_iff.1 h.symm
    exact absurd this.2 hb

/-- A single conversion takes the arguments it uses. -/
theorem takes_one {spec : List UInt8} {used : List Arg} {a : Arg} {c : Conv} (hp : ∀ X, parseConv spec (used ++ X) = some (c, [], X))
    (hfew : ∀ front back, used = front ++ back → back ≠ [] → parseConv spec front = none) : Takes (37 :: spec) (used ++ [a]) := by
  intro front back h hb mem W hW
  rw [vsnprintf_text mem W hW, text_conv]
  rcases List.append_eq_append_iff.1 h.symm with ⟨z, rfl, hz⟩ | ⟨z, rfl, hz⟩
  · cases z with
    | nil =>
      have := hp []
      simp only [List.append_nil] at this
      rw [this]; rfl
    | cons b z =>
      rw [hfew front (b :: z) rfl (by simp)]; rfl
  · cases z with
    | nil =>
      rw [hp]; rfl
    | cons b z =>
      simp only [List.cons_append, List.cons.injEq] at hz
      exact absurd (List.append_eq_nil_iff.1 hz.2.symm).2 hb

/-! ## Widths of numbers -/

/-- The digits of a number with its zeros. -/
theorem itoaTmp_zero {num : Int} {base : Nat} (hb : 2 ≤ base) (hbase : base = 10 ∨ base = 16) (w : Int) (h1 : -2 ^ 63 < num) (h2 : num < 2 ^ 63)
    (hw : w ≤ 39) :
    ∃ tmp ds, itoaTmp num base hb true w = some tmp ∧ Spec.Numeral.Nat base num.natAbs ds ∧
      tmp.reverse = (if num < 0 then [45] else []) ++ List.replicate (w - ds.length).toNat 48 ++ ds := by
  have hlen : (digitsRev num.natAbs base hb).length ≤ 19 := by
    refine digitsRev_length _ _ hb 18 ?_
    rcases hbase with rfl | rfl
    · have : (2:Nat)^63 < 10^(18+1) := by decide
      omega
    · have : (2:Nat)^63 < 16^(18+1) := by decide
      omega
  have hnum := digitsRev_numeral num.natAbs base hb (by omega)
  unfold itoaTmp
  rw [if_neg (by omega)]
  simp only [if_true]
  rw [show min w 39 = w by omega]
  by_cases hneg : num < 0
  · simp only [if_pos hneg]
    rw [if_pos (by simp; omega)]
    exact ⟨_, _, rfl, hnum, by simp⟩
  · simp only [if_neg hneg]
    rw [if_pos (by simp; omega)]
    exact ⟨_, _, rfl, hnum, by simp⟩

/-- What is printed for a number with a width. -/
theorem text_width {spec : List UInt8} {c : Conv} {n v : Int} {base : Nat} {used : List Arg} (hb : 2 ≤ base) (hbase : base = 10 ∨ base = 16)
    (hp : parseConv spec (used ++ [.int n]) = some (c, [], [.int n])) (hc1 : c.ch ≠ 99) (hc2 : c.ch ≠ 112) (hz : c.zero = true) (hw : c.width ≤ 39)
    (hf : fetched c n = some (v, base)) (h1 : -2 ^ 63 < v) (h2 : v < 2 ^ 63) :
    ∃ ds, Prints (37 :: spec) (used ++ [.int n]) ((if v < 0 then [45] else []) ++ List.replicate (c.width - ds.length).toNat 48 ++ ds) ∧
      Spec.Numeral.Nat base v.natAbs ds := by
  obtain ⟨tmp, ds, e, hn, ht⟩ := itoaTmp_zero hb hbase c.width h1 h2 hw
  refine ⟨ds, prints_of_text ?_, hn⟩
  rw [text_conv, hp]
  simp only [Option.bind_some, convText]
  rw [if_neg hc1, if_neg hc2, hf]
  simp only [Option.bind_some, hb, dif_pos, hz, e, Option.map_some, text, ht]
  simp

theorem bmod_small {n : Int} (h1 : -2 ^ 31 ≤ n) (h2 : n < 2 ^ 31) : (BitVec.ofInt 32 n).toInt = n := by
  rw [BitVec.toInt_ofInt, Int.bmod]; omega

theorem toNat_small {n : Int} (h1 : 0 ≤ n) (h2 : n < 2 ^ 32) : ((BitVec.ofInt 32 n).toNat : Int) = n := by
  rw [BitVec.toNat_ofInt]; omega

/-- Digits in a format are the number they write. -/
theorem number_value {ds : List UInt8} {w : Nat} (h : Numeral.Value 10 ds w) (r : List UInt8) : number 0 (ds ++ r) = number w r := by
  induction h generalizing r with
  | nil => rfl
  | @snoc text n c d _ hd hlt ih =>
    rw [List.append_assoc, ih, List.singleton_append, number]
    unfold Numeral.digit at hd
    split at hd
    · next hc =>
      cases hd
      rw [if_pos ⟨UInt8.le_iff_toNat_le.2 hc.1, UInt8.le_iff_toNat_le.2 hc.2⟩]
    · split at hd
      · cases hd; omega
      · cases hd

theorem value_range {ds : List UInt8} {w : Nat} (h : Numeral.Value 10 ds w) : ∀ c ∈ ds, c ≠ 42 ∧ c ≠ 46 := by
  induction h with
  | nil => simp
  | @snoc text n c d _ hd hlt ih =>
    intro x hx
    rcases List.mem_append.1 hx with hx | hx
    · exact ih x hx
    · simp only [List.mem_singleton] at hx
      subst hx
      constructor <;> (rintro rfl; simp [Numeral.digit] at hd)

theorem number_stop {acc : Nat} {c : UInt8} {r : List UInt8} (h : ¬ (48 ≤ c ∧ c ≤ 57)) : number acc (c :: r) = (acc, c :: r) := by
  rw [number, if_neg h]

/-- A width in digits and a conversion. -/
theorem conv_width {ws : List UInt8} {w : Nat} (hw : Numeral.Value 10 ws w) {ch : UInt8} (hc : ch = 100 ∨ ch = 117 ∨ ch = 120 ∨ ch = 115) (X : List Arg) :
    parseConv (48 :: ws ++ [ch]) X = some (⟨true, w, 0, 0, ch⟩, [], X) ∧
    (ws.head? ≠ some 48 → parseConv (ws ++ [ch]) X = some (⟨false, w, 0, 0, ch⟩, [], X)) := by
  have hstop : number w [ch] = (w, [ch]) := number_stop (by rcases hc with rfl | rfl | rfl | rfl <;> decide)
  have h0 : number 0 (48 :: (ws ++ [ch])) = (w, [ch]) := by
    rw [number, if_pos (by decide)]
    exact (number_value hw _).trans hstop
  have h1 : number 0 (ws ++ [ch]) = (w, [ch]) := (number_value hw _).trans hstop
  constructor
  · unfold parseConv parseWidth
    rw [List.cons_append, h0]
    rcases hc with rfl | rfl | rfl | rfl <;> rfl
  · intro hz
    have hh : ((ws ++ [ch]).head? == some 48) = false := by
      cases ws with
      | nil => rcases hc with rfl | rfl | rfl | rfl <;> rfl
      | cons b ws => simpa using hz
    unfold parseConv parseWidth
    rw [h1, hh]
    rcases hc with rfl | rfl | rfl | rfl <;> rfl

/-- **C55, zero padding.** `%0<w>d` prints the sign and then the numeral of the absolute value, with zeros before it up to `w` digits;
`%0<w>u` and `%0<w>x` do so for unsigned numbers, and `%0*d` takes the width from an argument.  Widths up to 39. -/
theorem C55_zero_padded {ws : List UInt8} {w : Nat} (hw : Numeral.Value 10 ws w) (h39 : w ≤ 39) (n : Int) :
    (-2 ^ 31 ≤ n → n < 2 ^ 31 →
      (∃ ds, Numeral.Nat 10 n.natAbs ds ∧
        Prints (37 :: 48 :: ws ++ ascii "d") [.int n] ((if n < 0 then [45] else []) ++ List.replicate (w - ds.length) 48 ++ ds)) ∧
      (∃ ds, Numeral.Nat 10 n.natAbs ds ∧
        Prints (ascii "%0*d") [.int w, .int n] ((if n < 0 then [45] else []) ++ List.replicate (w - ds.length) 48 ++ ds))) ∧
    (0 ≤ n → n < 2 ^ 32 →
      (∃ ds, Numeral.Nat 10 n.natAbs ds ∧ Prints (37 :: 48 :: ws ++ ascii "u") [.int n] (List.replicate (w - ds.length) 48 ++ ds)) ∧
      (∃ ds, Numeral.Nat 16 n.natAbs ds ∧ Prints (37 :: 48 :: ws ++ ascii "x") [.int n] (List.replicate (w - ds.length) 48 ++ ds))) := by
  have sub : ∀ k : Nat, ((w : Int) - (k : Int)).toNat = w - k := by intro k; omega
  refine ⟨fun h1 h2 => ⟨?_, ?_⟩, fun h1 h2 => ⟨?_, ?_⟩⟩
  · obtain ⟨ds, hp, hn⟩ := text_width (n := n) (v := n) (base := 10) (used := []) (by decide) (.inl rfl) (conv_width hw (.inl rfl) [.int n]).1
      (show _ ≠ _ by simp) (show _ ≠ _ by simp) rfl (show (w : Int) ≤ 39 by omega) (by simp [fetched, bmod_small h1 h2]) (by omega) (by omega)
    exact ⟨ds, hn, by simpa [sub, ascii] using hp⟩
  · have hp : parseConv [48, 42, 100] ([.int w] ++ [.int n]) = some (⟨true, w, 0, 0, 100⟩, [], [.int n]) := rfl
    obtain ⟨ds, hp, hn⟩ := text_width (n := n) (v := n) (base := 10) (used := [.int w]) (by decide) (.inl rfl) hp
      (show _ ≠ _ by simp) (show _ ≠ _ by simp) rfl (show (w : Int) ≤ 39 by omega) (by simp [fetched, bmod_small h1 h2]) (by omega) (by omega)
    refine ⟨ds, hn, ?_⟩
    rw [sub] at hp
    exact hp
  · obtain ⟨ds, hp, hn⟩ := text_width (n := n) (v := n) (base := 10) (used := []) (by decide) (.inl rfl) (conv_width hw (.inr (.inl rfl)) [.int n]).1
      (show _ ≠ _ by simp) (show _ ≠ _ by simp) rfl (show (w : Int) ≤ 39 by omega) (by simp [fetched]; omega) (by omega) (by omega)
    exact ⟨ds, hn, by simpa [sub, ascii, show ¬ n < 0 by omega] using hp⟩
  · obtain ⟨ds, hp, hn⟩ := text_width (n := n) (v := n) (base := 16) (used := []) (by decide) (.inr rfl) (conv_width hw (.inr (.inr (.inl rfl))) [.int n]).1
      (show _ ≠ _ by simp) (show _ ≠ _ by simp) rfl (show (w : Int) ≤ 39 by omega) (by simp [fetched]; omega) (by omega) (by omega)
    exact ⟨ds, hn, by simpa [sub, ascii, show ¬ n < 0 by omega] using hp⟩

/-- Its hypotheses are met: the width 8. -/
example : Numeral.Value 10 (ascii "8") 8 ∧ 8 ≤ 39 := ⟨Numeral.Value.snoc (text := []) (n := 0) (d := 8) .nil rfl (by decide), by decide⟩

/-- **C55, violation.** Zero padding of a negative number is one character too long: the sign does not count. -/
theorem C55_violation_zero_padded_negative {ws : List UInt8} {w : Nat} (hw : Numeral.Value 10 ws w) (h39 : w ≤ 39) (n : Int) (h1 : -2 ^ 31 ≤ n)
    (h2 : n < 0) (hroom : 10 ≤ w) : ∃ t, Prints (37 :: 48 :: ws ++ ascii "d") [.int n] t ∧ t.length = w + 1 := by
  obtain ⟨tmp, ds, e, hn, ht⟩ := itoaTmp_zero (num := n) (base := 10) (by decide) (.inl rfl) w (by omega) (by omega) (by omega)
  have hlen : (digitsRev n.natAbs 10 (by decide)).length ≤ 10 := digitsRev_length _ _ _ 9 (by omega)
  refine ⟨tmp.reverse, prints_of_text ?_, ?_⟩
  · rw [List.cons_append, text_conv, show ascii "d" = [100] from rfl, (conv_width hw (.inl rfl) [.int n]).1]
    simp only [Option.bind_some, convText]
    rw [if_neg (by decide), if_neg (by decide), show fetched ⟨true, w, 0, 0, 100⟩ n = some (n, 10) by simp [fetched, bmod_small h1 (by omega)]]
    simp only [Option.bind_some]
    rw [dif_pos (by decide), e]
    simp [text]
  · unfold itoaTmp at e
    rw [if_neg (by omega)] at e
    simp only [if_true, if_pos h2] at e
    split at e
    · cases e
      simp; omega
    · cases e

/-- **C55, violation.** A width without the `0` is ignored for numbers: `%8d` prints what `%d` prints. -/
theorem C55_violation_number_width_ignored {ws : List UInt8} {w : Nat} (hw : Numeral.Value 10 ws w) (h0 : ws.head? ≠ some 48) (n : Int)
    (h1 : -2 ^ 31 ≤ n) (h2 : n < 2 ^ 31) : ∃ t, Prints (37 :: ws ++ ascii "d") [.int n] t ∧ Prints (ascii "%d") [.int n] t ∧ Numeral.Int 10 n t := by
  obtain ⟨t, ht, hn⟩ := text_num (ws ++ [100]) ⟨false, w, 0, 0, 100⟩ n n 10 (by decide) (.inl rfl) ((conv_width hw (.inl rfl) [.int n]).2 h0)
    (show _ ≠ _ by simp) (show _ ≠ _ by simp) rfl (by simp [fetched, bmod_small h1 h2]) (by omega) (by omega)
  refine ⟨t, ht, ?_, hn⟩
  have := text_of_prints ht
  refine prints_of_text ?_
  rw [← this, show ascii "%d" = 37 :: [100] from rfl, text_conv, text_conv, (conv_width hw (.inl rfl) [.int n]).2 h0]
  have hp : parseConv [100] [.int n] = some (⟨false, 0, 0, 0, 100⟩, [], [.int n]) := rfl
  rw [hp]
  rfl

/-! ## Strings -/

/-- The bytes of `s` a precision of `p` selects: up to the NUL, at most `p`; bytes behind them are not looked at. -/
def Selects (p : Nat) (s b : List UInt8) : Prop :=
  (∀ c ∈ b, c ≠ 0) ∧ ∃ rest, s = b ++ rest ∧ (b.length = p ∨ b.length < p ∧ rest.head? = some 0)

theorem strnlen_selects {p : Nat} (pre b rest : List UInt8) (h : ∀ c ∈ b, c ≠ 0)
    (hp : pre.length + b.length = p ∨ pre.length + b.length < p ∧ rest.head? = some 0) :
    strnlen (pre ++ b ++ rest) pre.length p = some (pre.length + b.length) := by
  induction b generalizing pre with
  | nil =>
    rw [strnlen]
    rcases hp with hp | ⟨hp, hr⟩
    · rw [if_neg (by simp at hp; omega)]; rfl
    · cases rest with
      | nil => cases hr
      | cons r rest =>
        cases hr
        rw [if_pos (by simpa using hp)]
        simp
  | cons c b ih =>
    have := ih (pre ++ [c]) (fun x hx => h x (by simp [hx])) (by simp only [List.length_append, List.length_cons, List.length_nil] at hp ⊢; rw [show pre.length + (0 + 1) + b.length = pre.length + (b.length + 1) by omega]; exact hp)
    rw [strnlen, if_pos (by simp at hp; omega), show (pre ++ c :: b ++ rest)[pre.length]? = some c by simp, Option.bind_some,
      if_pos (h c (by simp))]
    simp only [List.length_append, List.length_cons, List.length_nil, List.append_assoc, List.cons_append, List.nil_append] at this ⊢
    rw [this]; congr 1; omega

theorem strChars_selects {p : Nat} (pre b rest : List UInt8) (h0 : 0 < p) (h : ∀ c ∈ b, c ≠ 0)
    (hp : pre.length + b.length = p ∨ pre.length + b.length < p ∧ rest.head? = some 0) :
    strChars (pre ++ b ++ rest) pre.length p = some b := by
  induction b generalizing pre with
  | nil =>
    rw [strChars]
    rcases hp with hp | ⟨hp, hr⟩
    · rw [if_neg (by simp at hp; omega)]
    · cases rest with
      | nil => cases hr
      | cons r rest =>
        cases hr
        rw [if_pos (by right; simp at hp; omega)]
        have : (pre ++ [] ++ 0 :: rest)[pre.length]? = some 0 := by simp
        split
        · next h => rw [this] at h; cases h
        · next c h => rw [this] at h; cases h; rfl
  | cons c b ih =>
    have := ih (pre ++ [c]) (fun x hx => h x (by simp [hx])) (by simp only [List.length_append, List.length_cons, List.length_nil] at hp ⊢; rw [show pre.length + (0 + 1) + b.length = pre.length + (b.length + 1) by omega]; exact hp)
    have e : (pre ++ c :: b ++ rest)[pre.length]? = some c := by simp
    rw [strChars, if_pos (by right; simp at hp; omega)]
    split
    · next h' => rw [e] at h'; cases h'
    · next d h' =>
      rw [e] at h'
      cases h'
      rw [if_pos (h c (by simp))]
      simp only [List.length_append, List.length_cons, List.length_nil, List.append_assoc, List.cons_append, List.nil_append] at this ⊢
      rw [this]; rfl

theorem text_precision {spec : List UInt8} {used : List Arg} {c : Conv} {w p : Nat} {s b : List UInt8} (hs : Selects p s b) (h0 : 0 < p)
    (hp : parseConv spec (used ++ [.str (some s)]) = some (c, [], [.str (some s)])) (hc : c.ch = 115) (hw : c.width = w) (hpr : c.precision = p) :
    Prints (37 :: spec) (used ++ [.str (some s)]) (List.replicate (w - b.length) 32 ++ b) := by
  obtain ⟨hb, rest, rfl, hl⟩ := hs
  refine prints_of_text ?_
  have e1 := strnlen_selects (p := p) [] b rest hb (by simpa using hl)
  have e2 := strChars_selects (p := p) [] b rest h0 hb (by simpa using hl)
  simp only [List.nil_append, List.length_nil, Nat.zero_add] at e1 e2
  rw [text_conv, hp]
  simp only [Option.bind_some, convText, strText]
  rw [if_pos hc, hpr, hw, if_pos (by omega)]
  simp only [Int.toNat_natCast, Option.bind_eq_bind, Option.bind_some, e1, e2, text, Option.map_some, List.append_nil]
  rw [show ((w : Int) - (b.length : Int)).toNat = w - b.length by omega]

theorem conv_precision {ws ps : List UInt8} {w p : Nat} (hw : Numeral.Value 10 ws w) (hp : Numeral.Value 10 ps p) (X : List Arg) :
    ∃ z, parseConv (ws ++ 46 :: (ps ++ [115])) X = some (⟨z, w, p, 0, 115⟩, [], X) := by
  have h1 : number 0 (ws ++ 46 :: (ps ++ [115])) = (w, 46 :: (ps ++ [115])) := (number_value hw _).trans (number_stop (by decide))
  have h2 : number 0 (ps ++ [115]) = (p, [115]) := (number_value hp _).trans (number_stop (by decide))
  have h3 : ¬ (ps ++ [115]).head? = some 42 := by
    cases ps with
    | nil => simp
    | cons b ps => simpa using (value_range hp b (by simp)).1
  refine ⟨(ws ++ 46 :: (ps ++ [115])).head? == some 48, ?_⟩
  unfold parseConv parseWidth
  rw [h1]
  have h4 : star (w : Int) (46 :: (ps ++ [115])) X = some ((w : Int), 46 :: (ps ++ [115]), X) := rfl
  simp only [h4, Option.bind_eq_bind, Option.bind_some]
  have h5 : parsePrecision (46 :: (ps ++ [115])) X = some ((p : Int), [115], X) := by
    rw [parsePrecision, if_pos rfl, if_neg h3, h2]
  rw [h5]
  rfl

/-- **C55, strings with a precision.** `%<w>.<p>s` with `p > 0` prints the selected bytes with blanks before them up to the width; so do
`%*.*s` and, without blanks, `%.*s`, which take the numbers from arguments.  No byte behind the selected ones (and the NUL) need exist. -/
theorem C55_string_precision {ws ps : List UInt8} {w p : Nat} (hw : Numeral.Value 10 ws w) (hp : Numeral.Value 10 ps p) (h0 : 0 < p)
    {s b : List UInt8} (hs : Selects p s b) :
    Prints (37 :: ws ++ 46 :: ps ++ ascii "s") [.str (some s)] (List.replicate (w - b.length) 32 ++ b) ∧
    Prints (ascii "%*.*s") [.int w, .int p, .str (some s)] (List.replicate (w - b.length) 32 ++ b) ∧
    Prints (ascii "%.*s") [.int p, .str (some s)] b := by
  refine ⟨?_, ?_, ?_⟩
  · obtain ⟨z, h⟩ := conv_precision hw hp [.str (some s)]
    have := text_precision (used := []) hs h0 h rfl (w := w) rfl rfl
    simpa [ascii] using this
  · exact text_precision (used := [.int w, .int p]) (spec := [42, 46, 42, 115]) (c := ⟨false, w, p, 0, 115⟩) hs h0 rfl rfl rfl rfl
  · have := text_precision (used := [.int p]) (spec := [46, 42, 115]) (c := ⟨false, 0, p, 0, 115⟩) (w := 0) hs h0 rfl rfl rfl rfl
    rw [Nat.zero_sub, List.replicate_zero, List.nil_append] at this
    exact this

/-- Its hypothesis is met: three bytes out of four with no NUL behind them, and a shorter text before its NUL. -/
example : Selects 3 (ascii "abcd") (ascii "abc") ∧ Selects 9 (ascii "ab" ++ [0]) (ascii "ab") :=
  ⟨⟨by decide, [100], rfl, .inl rfl⟩, ⟨by decide, [0], rfl, .inr ⟨by decide, rfl⟩⟩⟩

/-- **C55, violation.** Without a precision the blanks before a string do not depend on it: `%8s` puts eight blanks before every string. -/
theorem C55_violation_string_width {ws : List UInt8} {w : Nat} (hw : Numeral.Value 10 ws w) (hz : ws.head? ≠ some 48) (bs rest : List UInt8)
    (h : ∀ c ∈ bs, c ≠ 0) : Prints (37 :: ws ++ ascii "s") [.str (some (bs ++ 0 :: rest))] (List.replicate w 32 ++ bs) := by
  refine prints_of_text ?_
  have e := strChars_nul [] bs rest h
  simp only [List.nil_append, List.length_nil] at e
  rw [List.cons_append, text_conv, show ascii "s" = [115] from rfl, (conv_width hw (.inr (.inr (.inr rfl))) _).2 hz]
  simp [convText, strText, e, text]

/-! ## Characters and pointers -/

/-- **C55, characters.** `%c` prints the byte. -/
theorem C55_char (b : UInt8) : Prints (ascii "%c") [.int b.toNat] [b] := by
  refine prints_of_text ?_
  have hp : parseConv [99] [.int b.toNat] = some (⟨false, 0, 0, 0, 99⟩, [], [.int b.toNat]) := rfl
  rw [show ascii "%c" = 37 :: [99] from rfl, text_conv, hp]
  have hb := b.toNat_lt
  have : UInt8.ofNat (((b.toNat : Int) % 256).toNat) = b := by
    rw [show ((b.toNat : Int) % 256).toNat = b.toNat by omega, UInt8.ofNat_toNat]
  simp [convText, text, this]

/-- **C55, pointers.** `%p` prints `0x` and the address in hexadecimal, for addresses below 2^63. -/
theorem C55_pointer (n : Nat) (h : n < 2 ^ 63) : ∃ ds, Numeral.Nat 16 n ds ∧ Prints (ascii "%p") [.int n] (ascii "0x" ++ ds) := by
  obtain ⟨tmp, e, hn⟩ := itoaTmp_numeral (n : Int) 16 (by decide) (by decide) 0 (by omega) (by omega) (.inr rfl)
  unfold Numeral.Int at hn
  rw [if_neg (by omega)] at hn
  refine ⟨tmp.reverse, hn, prints_of_text ?_⟩
  have hp : parseConv [112] [.int n] = some (⟨false, 0, 0, 0, 112⟩, [], [.int n]) := rfl
  rw [show ascii "%p" = 37 :: [112] from rfl, text_conv, hp]
  have hv : (BitVec.ofInt 64 (n : Int)).toInt = n := by rw [BitVec.toInt_ofInt, Int.bmod]; omega
  simp only [Option.bind_some, convText]
  rw [if_neg (by decide), if_pos trivial, hv, e]
  simp [text, ascii]

/-- Each of the conversions takes exactly its arguments, so they can be put together with `C55_concat`. -/
theorem C55_takes (a b c : Arg) :
    (∀ spec ∈ [ascii "d", ascii "u", ascii "x", ascii "ld", ascii "s", ascii "c", ascii "p"], Takes (37 :: spec) [a]) ∧
    (∀ n : Int, Takes (ascii "%0*d") [.int n, b] ∧ Takes (ascii "%.*s") [.int n, b]) ∧
    (∀ n m : Int, Takes (ascii "%*.*s") [.int n, .int m, c]) := by
  refine ⟨?_, fun n => ⟨?_, ?_⟩, fun n m => ?_⟩
  · intro spec hs
    simp only [List.mem_cons, List.not_mem_nil, or_false] at hs
    have few : ∀ front back : List Arg, ([] : List Arg) = front ++ back → back ≠ [] → parseConv spec front = none := by
      intro front back h hb
      exact absurd (List.append_eq_nil_iff.1 h.symm).2 hb
    rcases hs with rfl | rfl | rfl | rfl | rfl | rfl | rfl
    · exact takes_one (used := []) (c := ⟨false, 0, 0, 0, 100⟩) (fun X => rfl) few
    · exact takes_one (used := []) (c := ⟨false, 0, 0, 0, 117⟩) (fun X => rfl) few
    · exact takes_one (used := []) (c := ⟨false, 0, 0, 0, 120⟩) (fun X => rfl) few
    · exact takes_one (used := []) (c := ⟨false, 0, 0, 108, 100⟩) (fun X => rfl) few
    · exact takes_one (used := []) (c := ⟨false, 0, 0, 0, 115⟩) (fun X => rfl) few
    · exact takes_one (used := []) (c := ⟨false, 0, 0, 0, 99⟩) (fun X => rfl) few
    · exact takes_one (used := []) (c := ⟨false, 0, 0, 0, 112⟩) (fun X => rfl) few
  · refine takes_one (spec := [48, 42, 100]) (used := [.int n]) (c := ⟨true, n, 0, 0, 100⟩) (fun X => rfl) ?_
    intro front back h hb
    cases front with
    | nil => rfl
    | cons x front =>
      simp only [List.cons_append, List.cons.injEq] at h
      exact absurd (List.append_eq_nil_iff.1 h.2.symm).2 hb
  · refine takes_one (spec := [46, 42, 115]) (used := [.int n]) (c := ⟨false, 0, n, 0, 115⟩) (fun X => rfl) ?_
    intro front back h hb
    cases front with
    | nil => rfl
    | cons x front =>
      simp only [List.cons_append, List.cons.injEq] at h
      exact absurd (List.append_eq_nil_iff.1 h.2.symm).2 hb
  · refine takes_one (spec := [42, 46, 42, 115]) (used := [.int n, .int m]) (c := ⟨false, n, m, 0, 115⟩) (fun X => rfl) ?_
    intro front back h hb
    cases front with
    | nil => rfl
    | cons x front =>
      simp only [List.cons_append, List.cons.injEq] at h
      obtain ⟨rfl, h⟩ := h
      cases front with
      | nil => rfl
      | cons y front =>
        simp only [List.cons_append, List.cons.injEq] at h
        exact absurd (List.append_eq_nil_iff.1 h.2.symm).2 hb

/-- Put together: a name, a colon and a number. -/
example (bs rest : List UInt8) (h : ∀ c ∈ bs, c ≠ 0) (n : Int) (h1 : -2 ^ 31 ≤ n) (h2 : n < 2 ^ 31) :
    ∃ t, Prints (ascii "%s" ++ (ascii ": " ++ ascii "%d")) ([.str (some (bs ++ 0 :: rest))] ++ ([] ++ [.int n])) (bs ++ (ascii ": " ++ t)) ∧
      Numeral.Int 10 n t := by
  obtain ⟨t, ht, hn⟩ := (C55_numbers n).1 h1 h2
  have lit := C55_literal (fmt := ascii ": ") (by decide)
  exact ⟨t, C55_concat (C55_string bs rest h) ((C55_takes (.str (some (bs ++ 0 :: rest))) (.int 0) (.int 0)).1 (ascii "s") (by simp))
    (C55_concat lit.1 lit.2 ht), hn⟩

end Mjs.Props
