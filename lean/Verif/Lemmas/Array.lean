import Verif.Model.Array
import Verif.Spec.Array
import Verif.Lemmas.ObjectHist
import Verif.Lemmas.StrApi
import Verif.Props.Printf

namespace Mjs.Arr
open Mjs Mjs.Mbuf Mjs.Str Mjs.Arena Mjs.Obj Mjs.Spec

/-! ### Numerals -/

theorem digit_dec {c : UInt8} {d : Nat} (h : Numeral.digit c = some d) (hd : d < 10) : isDecimal c = true ∧ d = c.toNat - 48 := by
  unfold Numeral.digit at h
  unfold isDecimal
  split at h
  · cases h; simp_all
  · split at h
    · simp only [Option.some.injEq] at h; omega
    · cases h

theorem value_fold {t n} (h : Numeral.Value 10 t n) :
    t.all isDecimal = true ∧ t.foldl (fun a (c : UInt8) => a * 10 + (c.toNat - 48)) 0 = n := by
  induction h with
  | nil => simp
  | snoc _ hd hlt ih =>
    obtain ⟨h1, h2⟩ := digit_dec hd hlt
    simp [ih.1, ih.2, h1, h2]

theorem fold_pos (t : List UInt8) : ∀ a, 0 < a → t.all isDecimal = true →
    0 < t.foldl (fun a (c : UInt8) => a * 10 + (c.toNat - 48)) a := by
  induction t with
  | nil => intro a h _; exact h
  | cons c t ih =>
    intro a h hd
    simp only [List.all_cons, Bool.and_eq_true] at hd
    exact ih _ (by show 0 < a * 10 + (c.toNat - 48); omega) hd.2

theorem value_snoc {t n} (h : Numeral.Value 10 t n) : t = [] ∧ n = 0 ∨ ∃ s c d m, t = s ++ [c] ∧ Numeral.Value 10 s m ∧
    Numeral.digit c = some d ∧ d < 10 ∧ n = m * 10 + d := by
  cases h with
  | nil => exact .inl ⟨rfl, rfl⟩
  | snoc h hd hl => exact .inr ⟨_, _, _, _, rfl, h, hd, hl, rfl⟩

/-- A text of digits that starts with no zero is not the number zero. -/
theorem value_ne_zero {t n} (h : Numeral.Value 10 t n) (h0 : t.head? ≠ some 48) (hne : t ≠ []) : 0 < n := by
  obtain ⟨ha, hf⟩ := value_fold h
  cases t with
  | nil => exact absurd rfl hne
  | cons c t =>
    simp only [List.all_cons, Bool.and_eq_true] at ha
    rw [← hf, List.foldl_cons]
    refine fold_pos t _ ?_ ha.2
    have hc := ha.1
    simp only [isDecimal, Bool.and_eq_true, decide_eq_true_eq] at hc
    have : c ≠ 48 := fun e => h0 (by rw [e]; rfl)
    have : c.toNat ≠ 48 := fun e => this (by rw [← UInt8.toNat_inj]; exact e)
    omega

theorem value_unique (k : Nat) : ∀ t t' n, t.length ≤ k → Numeral.Value 10 t n → Numeral.Value 10 t' n → t.head? ≠ some 48 →
    t'.head? ≠ some 48 → t = t' := by
  induction k with
  | zero =>
    intro t t' n hl h h' h0 h0'
    cases t with
    | nil =>
      rcases value_snoc h with ⟨_, rfl⟩ | ⟨s, c, d, m, e, _⟩
      · cases t' with
        | nil => rfl
        | cons a b => exact absurd (value_ne_zero h' h0' (by simp)) (by omega)
      · simp at e
    | cons => simp at hl
  | succ k ih =>
    intro t t' n hl h h' h0 h0'
    rcases value_snoc h with ⟨rfl, rfl⟩ | ⟨s, c, d, m, rfl, hs, hd, hlt, rfl⟩
    · cases t' with
      | nil => rfl
      | cons a b => exact absurd (value_ne_zero h' h0' (by simp)) (by omega)
    · rcases value_snoc h' with ⟨rfl, e⟩ | ⟨s', c', d', m', rfl, hs', hd', hlt', e⟩
      · exact absurd (value_ne_zero h h0 (by simp)) (by omega)
      · obtain rfl : m = m' := by omega
        obtain rfl : d = d' := by omega
        have hs0 : s.head? ≠ some 48 := by
          cases s with
          | nil => simp
          | cons a b => simpa using h0
        have hs0' : s'.head? ≠ some 48 := by
          cases s' with
          | nil => simp
          | cons a b => simpa using h0'
        rw [ih s s' m (by simpa using hl) hs hs' hs0 hs0']
        congr 2
        have h1 := digit_dec hd hlt
        have h2 := digit_dec hd' hlt'
        simp only [isDecimal, Bool.and_eq_true, decide_eq_true_eq] at h1 h2
        rw [← UInt8.toNat_inj]
        omega

theorem numeral_unique {n t t'} (h : Numeral.Nat 10 n t) (h' : Numeral.Nat 10 n t') : t = t' := by
  obtain ⟨h1, h2, h3⟩ := h
  obtain ⟨h1', h2', h3'⟩ := h'
  have hz : ∀ {m}, Numeral.Value 10 [48] m → m = 0 := fun hv => by
    have := (value_fold hv).2; simpa using this.symm
  by_cases e : t.head? = some 48
  · have := h3 e
    subst this
    have := hz h1
    subst this
    by_cases e' : t'.head? = some 48
    · exact (h3' e').symm
    · exact absurd (value_ne_zero h1' e' h2') (by omega)
  · by_cases e' : t'.head? = some 48
    · have := h3' e'
      subst this
      have := hz h1'
      subst this
      exact absurd (value_ne_zero h1 e h2) (by omega)
    · exact value_unique _ t t' n (Nat.le_refl _) h1 h1' e e'

theorem numeral_decimal {n t} (h : Numeral.Nat 10 n t) : ∀ c ∈ t, isDecimal c = true := by
  have := (value_fold h.1).1
  simpa using this

theorem decimal_ne_zero {c : UInt8} (h : isDecimal c = true) : c ≠ 0 ∧ isBlank c = false ∧ c ≠ 43 ∧ c ≠ 45 := by
  simp only [isDecimal, Bool.and_eq_true, decide_eq_true_eq] at h
  refine ⟨?_, ?_, ?_, ?_⟩
  · rintro rfl; exact absurd h.1 (by decide)
  · cases hb : isBlank c with
    | false => rfl
    | true =>
      simp only [isBlank, Bool.or_eq_true, beq_iff_eq, Bool.and_eq_true, decide_eq_true_eq] at hb
      rcases hb with rfl | hb
      · exact absurd h.1 (by decide)
      · omega
  · rintro rfl; exact absurd h.1 (by decide)
  · rintro rfl; exact absurd h.1 (by decide)

theorem numeral_noNul {n t} (h : Numeral.Nat 10 n t) : (0 : UInt8) ∉ t := fun hm =>
  (decimal_ne_zero (numeral_decimal h 0 hm)).1 rfl

theorem afterSign_digits {t : List UInt8} (h : ∀ c ∈ t, isDecimal c = true) : t.dropWhile isBlank = t ∧ afterSign t = t := by
  have h1 : t.dropWhile isBlank = t := by
    cases t with
    | nil => rfl
    | cons c t => rw [List.dropWhile_cons_of_neg (by simp [(decimal_ne_zero (h c (by simp))).2.1])]
  refine ⟨h1, ?_⟩
  rw [afterSign, h1]
  cases t with
  | nil => rfl
  | cons c t =>
    have := decimal_ne_zero (h c (by simp))
    simp [this.2.2.1, this.2.2.2]

theorem ulong_numeral {n t} (h : Numeral.Nat 10 n t) (hn : n < 2 ^ 64) : ulong t = some n := by
  have hd := numeral_decimal h
  obtain ⟨h1, h2⟩ := afterSign_digits hd
  simp only [ulong, h1, h2, (value_fold h.1).2]
  rw [if_pos ⟨h.2.1, by simpa using hd⟩, if_neg (by omega), if_neg]
  intro e
  exact (decimal_ne_zero (hd 45 (List.mem_of_head? e))).2.2.2 rfl

/-! ### The key of an index -/

theorem indexKey_spec (i : Nat) (hi : i < 2 ^ 63) : ∃ buf t, indexKey i = some (.loc buf, t.length) ∧ Numeral.Nat 10 i t ∧
    buf.take t.length = t ∧ t.length ≤ buf.length ∧ t.length ≤ 19 := by
  obtain ⟨t, hp, hn⟩ := Props.text_num [108, 117] ⟨false, 0, 0, 108, 117⟩ i i 10 (by decide) (.inl rfl) rfl (by decide) (by decide) rfl
    (by
      simp only [Printf.fetched]
      rw [if_neg (by decide), if_pos (by decide), if_neg (by decide), if_pos (.inl trivial), if_neg (by decide)]
      congr 2
      rw [BitVec.toInt_ofInt, Int.bmod]; omega) (by omega) (by omega)
  have hn' : Numeral.Nat 10 i t := by
    have := hn
    unfold Numeral.Int at this
    rw [if_neg (by omega)] at this
    simpa using this
  have hlen : t.length ≤ 19 := by
    have hf := value_fold hn'.1
    by_cases h0 : t.head? = some 48
    · rw [hn'.2.2 h0]; decide
    · have key : ∀ (u : List UInt8) a, 0 < a → u.all isDecimal = true →
          10 ^ u.length ≤ u.foldl (fun a (c : UInt8) => a * 10 + (c.toNat - 48)) a := by
        intro u
        induction u with
        | nil => intro a h _; exact h
        | cons c u ih =>
          intro a ha hu
          simp only [List.all_cons, Bool.and_eq_true] at hu
          have h2 : ∀ (u : List UInt8) a, u.all isDecimal = true → a * 10 ^ u.length ≤
              u.foldl (fun a (c : UInt8) => a * 10 + (c.toNat - 48)) a := by
            intro u
            induction u with
            | nil => intro a _; simp
            | cons c u ih =>
              intro a hu
              simp only [List.all_cons, Bool.and_eq_true] at hu
              have := ih (a * 10 + (c.toNat - 48)) hu.2
              refine Nat.le_trans ?_ this
              rw [List.length_cons, Nat.pow_succ, ← Nat.mul_assoc, Nat.mul_right_comm]
              exact Nat.mul_le_mul_right _ (by omega)
          have := h2 (c :: u) a (by simp [hu.1, hu.2])
          exact Nat.le_trans (Nat.le_mul_of_pos_left _ ha) this
      cases t with
      | nil => simp
      | cons c u =>
        simp only [List.all_cons, Bool.and_eq_true] at hf
        have hc := hf.1.1
        simp only [isDecimal, Bool.and_eq_true, decide_eq_true_eq] at hc
        have hne : c.toNat ≠ 48 := fun e => h0 (by rw [List.head?_cons, ← show c = 48 from by rw [← UInt8.toNat_inj]; exact e])
        have := key u (0 * 10 + (c.toNat - 48)) (by omega) hf.1.2
        have h3 := hf.2
        rw [List.foldl_cons] at h3
        rw [h3] at this
        have h4 : u.length < 19 := by
          rcases Nat.lt_or_ge u.length 19 with h | h
          · exact h
          · have := Nat.pow_le_pow_right (show 0 < 10 by decide) h
            omega
        simp only [List.length_cons]; omega
  have := hp (List.replicate 20 0) 20 (by simp)
  refine ⟨t.take 19 ++ [0] ++ (List.replicate 20 0).drop (min (t.length + 1) 20), t, ?_, hn', ?_, ?_, hlen⟩
  · rw [indexKey, this]
    simp only [Option.map_some]
    rw [if_neg (by decide), if_neg (by omega)]
  · rw [List.take_of_length_le (by omega : t.length ≤ 19)]
    simp
  · rw [List.take_of_length_le (by omega : t.length ≤ 19)]
    simp

/-- The key that array functions use for an index. -/
theorem indexKey_ptr (i : Nat) (hi : i < 2 ^ 63) (st : Store) : ∃ buf t, indexKey i = some (buf, t.length) ∧ Numeral.Nat 10 i t ∧
    KeyPtr st buf t ∧ t.length ≤ 19 := by
  obtain ⟨buf, t, h1, h2, h3, h4, h5⟩ := indexKey_spec i hi
  exact ⟨.loc buf, t, h1, h2, ⟨rfl, by rw [load, if_pos h4, h3], by omega⟩, h5⟩

/-! ### Reading numbers -/

theorem skipSpace_spec (rd : Nat → Option UInt8) (ws : List UInt8) (hw : ∀ c ∈ ws, isBlank c = true) : ∀ (i : Nat) c,
    (∀ k x, ws[k]? = some x → rd (i + k) = some x) → rd (i + ws.length) = some c → isBlank c = false →
    skipSpace rd i = some (i + ws.length) := by
  have hsp : ∀ c, isspace c = isBlank c := fun c => by
    unfold isspace isBlank
    rw [Bool.eq_iff_iff]; simp
  induction ws with
  | nil =>
    intro i c _ hc hb
    rw [skipSpace]
    simp only [List.length_nil, Nat.add_zero] at hc
    simp [hc, hsp, hb]
  | cons a ws ih =>
    intro i c hr hc hb
    rw [skipSpace]
    have h0 := hr 0 a rfl
    rw [Nat.add_zero] at h0
    have := ih (fun x hx => hw x (by simp [hx])) (i + 1) c (fun k x hk => by
      have := hr (k + 1) x hk
      rwa [show i + 1 + k = i + (k + 1) by omega]) (by rwa [List.length_cons, show i + (ws.length + 1) = i + 1 + ws.length by omega] at hc) hb
    simp only [h0, Option.bind_eq_bind, Option.bind_some, hsp, hw a (by simp), if_true]
    rw [this, List.length_cons]
    congr 1; omega

theorem digits_spec (rd : Nat → Option UInt8) (ds : List UInt8) (hw : ∀ c ∈ ds, isDecimal c = true) : ∀ (i acc : Nat) c,
    (∀ k x, ds[k]? = some x → rd (i + k) = some x) → rd (i + ds.length) = some c → isDecimal c = false →
    digits rd i acc = some (i + ds.length, ds.foldl (fun a (c : UInt8) => a * 10 + (c.toNat - 48)) acc) := by
  induction ds with
  | nil =>
    intro i acc c _ hc hb
    rw [digits]
    simp only [List.length_nil, Nat.add_zero] at hc
    have : ¬ (48 ≤ c.toNat ∧ c.toNat ≤ 57) := by
      simpa [isDecimal] using hb
    simp only [hc, Option.bind_eq_bind, Option.bind_some, if_neg this]
    rfl
  | cons a ds ih =>
    intro i acc c hr hc hb
    rw [digits]
    have h0 := hr 0 a rfl
    rw [Nat.add_zero] at h0
    have := ih (fun x hx => hw x (by simp [hx])) (i + 1) (acc * 10 + (a.toNat - 48)) c (fun k x hk => by
      have := hr (k + 1) x hk
      rwa [show i + 1 + k = i + (k + 1) by omega]) (by rwa [List.length_cons, show i + (ds.length + 1) = i + 1 + ds.length by omega] at hc) hb
    have ha : 48 ≤ a.toNat ∧ a.toNat ≤ 57 := by simpa [isDecimal] using hw a (by simp)
    simp only [h0, Option.bind_eq_bind, Option.bind_some, if_pos ha]
    rw [this, List.length_cons, List.foldl_cons]
    congr 2; omega

/-- The parts of a text before a number ends: blanks, at most one sign, digits. -/
structure Scan (ws sg ds : List UInt8) (c : UInt8) : Prop where
  blanks : ∀ x ∈ ws, isBlank x = true
  sign : sg = [] ∨ sg = [43] ∨ sg = [45]
  dec : ∀ x ∈ ds, isDecimal x = true
  stop : isDecimal c = false
  first : sg = [] → ds = [] → isBlank c = false ∧ c ≠ 43 ∧ c ≠ 45

theorem strtoul_scan {ws sg ds c} (hs : Scan ws sg ds c) (rd : Nat → Option UInt8)
    (hr : ∀ k x, (ws ++ sg ++ ds ++ [c])[k]? = some x → rd k = some x) :
    strtoul rd = some (if ds = [] then (0, 0) else
      (let n := ds.foldl (fun a (c : UInt8) => a * 10 + (c.toNat - 48)) 0
       if n ≥ 2 ^ 64 then 2 ^ 64 - 1 else if sg = [45] then (2 ^ 64 - n) % 2 ^ 64 else n, ws.length + sg.length + ds.length)) := by
  obtain ⟨x, hx, hxb, hxs⟩ : ∃ x, (sg ++ ds ++ [c])[0]? = some x ∧ isBlank x = false ∧
      ((x = 45 ∨ x = 43) ↔ sg ≠ []) := by
    rcases hs.sign with rfl | rfl | rfl
    · cases hd : ds with
      | nil =>
        have := hs.first rfl hd
        exact ⟨c, rfl, this.1, by simp [this.2.1, this.2.2]⟩
      | cons d ds' =>
        have := decimal_ne_zero (hs.dec d (by simp [hd]))
        exact ⟨d, rfl, this.2.1, by simp [this.2.2.1, this.2.2.2]⟩
    · exact ⟨43, rfl, by decide, by simp⟩
    · exact ⟨45, rfl, by decide, by simp⟩
  have hx45 : (x = 45) ↔ sg = [45] := by
    rcases hs.sign with rfl | rfl | rfl
    · have : ¬ (x = 45 ∨ x = 43) := fun h => by simp at hxs; exact absurd h (by simp [hxs])
      rw [not_or] at this
      simp [this.1]
    · simp only [List.cons_append, List.nil_append, List.getElem?_cons_zero, Option.some.injEq] at hx
      subst hx; decide
    · simp only [List.cons_append, List.nil_append, List.getElem?_cons_zero, Option.some.injEq] at hx
      subst hx; decide
  have hws : rd (0 + ws.length) = some x := by
    apply hr
    rw [List.append_assoc, List.append_assoc, List.getElem?_append_right (by omega), ← List.append_assoc]
    simpa using hx
  have h1 := skipSpace_spec rd ws hs.blanks 0 x (fun k y hk => by
    have hk' := (List.getElem?_eq_some_iff.1 hk).1
    rw [Nat.zero_add]
    apply hr
    rw [List.append_assoc, List.append_assoc, List.getElem?_append_left hk']
    exact hk) hws hxb
  rw [Nat.zero_add] at h1 hws
  have hj : (if x = 45 ∨ x = 43 then ws.length + 1 else ws.length) = ws.length + sg.length := by
    rcases hs.sign with rfl | rfl | rfl
    · rw [if_neg (by simp [hxs])]; rfl
    · rw [if_pos (hxs.2 (by simp))]; rfl
    · rw [if_pos (hxs.2 (by simp))]; rfl
  have h2 := digits_spec rd ds hs.dec (ws.length + sg.length) 0 c (fun k y hk => by
    have hk' := (List.getElem?_eq_some_iff.1 hk).1
    apply hr
    rw [List.append_assoc, List.getElem?_append_right (by simp only [List.length_append]; omega),
      List.getElem?_append_left (by simp only [List.length_append]; omega)]
    rw [← hk]; congr 1; simp only [List.length_append]; omega) (by
    apply hr
    rw [List.getElem?_append_right (by simp only [List.length_append]; omega)]
    simp only [List.length_append, Nat.sub_self]; rfl) hs.stop
  rw [strtoul, h1]
  simp only [Option.bind_eq_bind, Option.bind_some, hws, hj, h2]
  by_cases hd : ds = []
  · simp [hd]
  · have : 0 < ds.length := List.length_pos_iff.2 hd
    rw [if_neg (by omega), if_neg hd]
    simp only [hx45]

theorem takeWhile_all {p : UInt8 → Bool} {l : List UInt8} (h : ∀ x ∈ l, p x = true) : l.takeWhile p = l := by
  induction l with
  | nil => rfl
  | cons a l ih => rw [List.takeWhile_cons_of_pos (h a (by simp)), ih (fun x hx => h x (by simp [hx]))]

theorem dropWhile_append_stop {p : UInt8 → Bool} {l : List UInt8} {c} (hc : p c = false) :
    (l ++ [c]).dropWhile p = l.dropWhile p ++ [c] ∧ (l ++ [c]).takeWhile p = l.takeWhile p := by
  induction l with
  | nil => simp [hc]
  | cons a l ih =>
    cases ha : p a with
    | true => simp [ha, ih.1, ih.2]
    | false => simp [ha]

/-- Every text that ends a number inside can be scanned. -/
theorem scan_exists (l : List UInt8) (h : numberish l = false) : ∃ ws sg ds c rest, l = ws ++ sg ++ ds ++ c :: rest ∧
    Scan ws sg ds c ∧ l.takeWhile isBlank = ws ∧ (∃ t, l.dropWhile isBlank = sg ++ t ∧ t = ds ++ c :: rest ∧ afterSign l = t) := by
  have hsplit := List.takeWhile_append_dropWhile (p := isBlank) (l := l)
  have hbl : ∀ x ∈ l.takeWhile isBlank, isBlank x = true := fun x hx => by
    have := List.all_takeWhile (p := isBlank) (l := l)
    simp only [List.all_eq_true] at this
    exact this x hx
  have tail : ∀ t : List UInt8, t.all isDecimal = false → ∃ ds c rest, t = ds ++ c :: rest ∧ (∀ x ∈ ds, isDecimal x = true) ∧
      isDecimal c = false := by
    intro t
    induction t with
    | nil => intro h; simp at h
    | cons a t ih =>
      intro h
      cases ha : isDecimal a with
      | false => exact ⟨[], a, t, rfl, by simp, ha⟩
      | true =>
        obtain ⟨ds, c, rest, rfl, h1, h2⟩ := ih (by simpa [ha] using h)
        exact ⟨a :: ds, c, rest, rfl, by simp [ha]; exact h1, h2⟩
  rw [numberish] at h
  cases hd : l.dropWhile isBlank with
  | nil => rw [afterSign, hd] at h; simp at h
  | cons x u =>
    have hxb : isBlank x = false := by
      have := List.head?_dropWhile_not isBlank l
      rw [hd] at this
      simpa using this
    by_cases hx : x = 43 ∨ x = 45
    · have ha : afterSign l = u := by rw [afterSign, hd]; simp only [if_pos hx]
      rw [ha] at h
      obtain ⟨ds, c, rest, hu, h1, h2⟩ := tail u h
      refine ⟨_, [x], ds, c, rest, ?_, ⟨hbl, ?_, h1, h2, by simp⟩, rfl, u, rfl, hu, ha⟩
      · conv => lhs; rw [← hsplit, hd, hu]
        simp
      · rcases hx with rfl | rfl <;> simp
    · have ha : afterSign l = x :: u := by rw [afterSign, hd]; simp only [if_neg hx]
      rw [ha] at h
      obtain ⟨ds, c, rest, hu, h1, h2⟩ := tail _ h
      refine ⟨_, [], ds, c, rest, ?_, ⟨hbl, .inl rfl, h1, h2, ?_⟩, rfl, x :: u, rfl, hu, ha⟩
      · conv => lhs; rw [← hsplit, hd, hu]
        simp
      · intro _ hds
        subst hds
        simp only [List.nil_append, List.cons.injEq] at hu
        rw [← hu.1]
        rw [not_or] at hx
        exact ⟨hxb, hx⟩

theorem byteOf_of_load {st : Store} (hi : InvS st) {p n l} (h : load st.cmem st.owned p n = some l) {k x}
    (hk : l[k]? = some x) : byteOf st p k = some x := by
  have hl := load_length hi.1.1 h
  have hk' := (List.getElem?_eq_some_iff.1 hk).1
  have hpre : load st.cmem st.owned p (k + 1) = some (l.take (k + 1)) := by
    cases p with
    | null => simp [load] at h; obtain ⟨rfl, rfl⟩ := h; simp at hk
    | ext a =>
      have := readC_take h 0 (k + 1) (by omega)
      simpa [load] using this
    | own a =>
      simp only [load] at h ⊢
      split at h
      · rename_i hc
        cases h
        rw [if_pos ⟨hc.1, by omega⟩, List.take_take, Nat.min_eq_left (by omega)]
      · cases h
    | loc b =>
      simp only [load] at h ⊢
      split at h
      · rename_i hc
        cases h
        rw [if_pos (by omega), List.take_take, Nat.min_eq_left (by omega)]
      · cases h
  rw [byteOf, hpre, Option.bind_some, List.getElem?_take_of_lt (by omega), hk]

/-- What `str_to_ulong` makes of a property name. -/
theorem strToUlong_spec {st : Store} (hi : InvS st) {v bs} (hn : Named st v bs) :
    ∃ n ok, strToUlong st v = some (n, ok) ∧ (if ok then some n else none) = ulong bs := by
  by_cases hnum : numberish bs = true
  · -- the number may reach the end of the text, which is NUL-terminated
    obtain ⟨p, n, h1, h2, h3, _, h5⟩ := hn.2.2.2 hnum
    subst h3
    have hz : isBlank 0 = false ∧ isDecimal 0 = false := by decide
    have hnum' : numberish (bs ++ [0]) = false := by
      rw [numberish, afterSign, (dropWhile_append_stop hz.1).1]
      cases hd : bs.dropWhile isBlank with
      | nil => simp [hz.2]
      | cons a t => by_cases ha : a = 43 ∨ a = 45 <;> simp [ha, hz.2]
    obtain ⟨ws, sg, ds, c, rest, hl, hs, hw, t, hd, ht, hat⟩ := scan_exists _ hnum'
    have hst := strtoul_scan hs (byteOf st p) (fun k x hk => byteOf_of_load hi h5 (by
      rw [hl]
      have hk' := (List.getElem?_eq_some_iff.1 hk).1
      simp only [List.length_append, List.length_cons, List.length_nil] at hk'
      rw [show ws ++ sg ++ ds ++ c :: rest = (ws ++ sg ++ ds ++ [c]) ++ rest by simp]
      rw [List.getElem?_append_left (by simp only [List.length_append, List.length_cons, List.length_nil]; omega), hk]))
    -- everything before the NUL is scanned
    have hafter : afterSign bs ++ [0] = t := by
      rw [← hat, afterSign, afterSign, (dropWhile_append_stop hz.1).1]
      cases hd : bs.dropWhile isBlank with
      | nil => simp
      | cons a t => by_cases ha : a = 43 ∨ a = 45 <;> simp [ha]
    have hds : ds = afterSign bs ∧ c = 0 ∧ rest = [] := by
      have hall : ∀ x ∈ afterSign bs, isDecimal x = true := by simpa [numberish] using hnum
      rw [ht] at hafter
      have e1 : (afterSign bs ++ [0]).takeWhile isDecimal = afterSign bs := by
        rw [(dropWhile_append_stop hz.2).2]
        exact takeWhile_all hall
      have e2 : (ds ++ c :: rest).takeWhile isDecimal = ds := by
        rw [show ds ++ c :: rest = ds ++ ([c] ++ rest) by simp, List.takeWhile_append_of_pos hs.dec]
        simp [hs.stop]
      rw [hafter, e2] at e1
      subst e1
      have := List.append_cancel_left hafter
      simp only [List.cons.injEq] at this
      exact ⟨rfl, this.1.symm, this.2.symm⟩
    obtain ⟨e1, e2, e3⟩ := hds
    have hsg : bs.dropWhile isBlank = sg ++ ds := by
      rw [(dropWhile_append_stop hz.1).1, ht, e2, e3, ← List.append_assoc] at hd
      exact List.append_cancel_right hd
    have hws : bs.takeWhile isBlank = ws := by rw [← hw, (dropWhile_append_stop hz.1).2]
    have hlen : bs.length = ws.length + sg.length + ds.length := by
      have := congrArg List.length (List.takeWhile_append_dropWhile (p := isBlank) (l := bs))
      rw [hws, hsg] at this
      simp only [List.length_append] at this
      omega
    have hsign : (sg = [45]) ↔ (bs.dropWhile isBlank).head? = some 45 := by
      rw [hsg]
      rcases hs.sign with rfl | rfl | rfl
      · cases hdd : ds with
        | nil => simp
        | cons d ds' =>
          have := decimal_ne_zero (hs.dec d (by simp [hdd]))
          simp [this.2.2.2]
      · simp
      · simp
    simp only [strToUlong, h1, Option.bind_eq_bind, Option.bind_some, hst]
    by_cases hd0 : ds = []
    · have hu : ulong bs = none := by
        simp only [ulong, ← e1]
        rw [if_neg (fun h => h.1 hd0)]
      rw [if_pos hd0]
      refine ⟨_, _, rfl, ?_⟩
      rw [hu, if_neg]
      intro h
      simp only [Bool.and_eq_true, beq_iff_eq, bne_iff_ne, ne_eq] at h
      exact h.2 h.1.symm
    · have hpos : 0 < ds.length := List.length_pos_iff.2 hd0
      rw [if_neg hd0]
      refine ⟨_, _, rfl, ?_⟩
      have hok : (ws.length + sg.length + ds.length == bs.length && bs.length != 0) = true := by
        simp only [Bool.and_eq_true, beq_iff_eq, bne_iff_ne, ne_eq]; omega
      simp only [hok, if_true, ulong, ← e1]
      rw [if_pos (⟨hd0, by simpa using hs.dec⟩ : ds ≠ [] ∧ ds.all isDecimal = true)]
      simp only [hsign]
  · -- the number ends inside the text
    have hnum := Bool.not_eq_true _ ▸ hnum
    obtain ⟨p, n, h1, h2, h3⟩ := hn.1
    have hlen := (load_length hi.1.1 h3).symm
    subst hlen
    obtain ⟨ws, sg, ds, c, rest, hl, hs, hw, t, hd, ht, hat⟩ := scan_exists _ hnum
    have hst := strtoul_scan hs (byteOf st p) (fun k x hk => byteOf_of_load hi h3 (by
      rw [hl]
      have hk' := (List.getElem?_eq_some_iff.1 hk).1
      simp only [List.length_append, List.length_cons, List.length_nil] at hk'
      rw [show ws ++ sg ++ ds ++ c :: rest = (ws ++ sg ++ ds ++ [c]) ++ rest by simp]
      rw [List.getElem?_append_left (by simp only [List.length_append, List.length_cons, List.length_nil]; omega), hk]))
    have hul : ulong bs = none := by
      rw [numberish] at hnum
      simp only [ulong, hnum]
      simp
    have hlen : bs.length = ws.length + sg.length + ds.length + rest.length + 1 := by
      conv => lhs; rw [hl]
      simp only [List.length_append, List.length_cons]; omega
    simp only [strToUlong, h1, Option.bind_eq_bind, Option.bind_some, hst, hul]
    refine ⟨_, _, rfl, ?_⟩
    rw [if_neg]
    by_cases hd0 : ds = [] <;> simp [hd0] <;> omega

end Mjs.Arr
