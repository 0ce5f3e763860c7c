import Verif.Lemmas.Strtod
import Verif.Props.HexLiteral
import Verif.Props.NumText
import Verif.Props.JsonRound
import Verif.Spec.Sem
import Verif.Props.Ieee

/-!
# C77: decimal numbers in scripts and in JSON

`Decimal t n e` (Spec/Decimal.lean) says that the text `t` writes the number `n * 10 ^ e`; `NearestDecimal` says which double that is.
-/

namespace Mjs.Props
open Mjs Mjs.Tok Mjs.Spec Mjs.Exec Mjs.Code Mjs.Sem Mjs.Grammar Mjs.Spec.Double Mjs.Spec.Decimal

/-- What the C library reads: all of the text, as the nearest double. -/
theorem C77_strtod {t : List UInt8} {n : Nat} {e : Int} (h : Decimal t n e) :
    strtodLen t = t.length ∧ NearestDecimal false n e (Strtod.strtod t) := by
  obtain ⟨h1, _, h3⟩ := Strtod.decimal h
  exact ⟨h1, h3 ▸ Strtod.scale_nearest n e⟩

/-- The largest double below 2^63. -/
theorem below63 : scaled 0x43DFFFFFFFFFFFFF#64 = (2 ^ 63 - 1024) * 2 ^ 1074 := by decide +kernel

/-- Rounding does not pass a double. -/
theorem nearest_le {m : Int} {den : Nat} (hden : 0 < den) {d e : Val} (h : Nearest m den d) (he : ¬ IsNaN e) (hle : m ≤ scaled e * den) : scaled d ≤ scaled e := by
  have hself : Nearest (scaled e * den) den e := by
    refine ⟨he, fun x hx hne => ?_⟩
    rw [Int.sub_self]
    left
    rw [← Int.sub_mul]
    have : (scaled x - scaled e) * (den : Int) ≠ 0 := Int.mul_ne_zero (by omega) (by omega)
    omega
  rcases Int.lt_or_eq_of_le hle with g | g
  · exact h.mono hden hself g
  · exact Int.le_of_eq (h.exact hden he g)

theorem toI64_of_isInt {d : Val} {m : Int} (h : IsInt d m) (h1 : 0 ≤ m) (h2 : m < 2 ^ 63) : toI64 d = m := toI64_isInt h (by omega) h2

theorem strtod_sign {t : List UInt8} {n : Nat} {e : Int} (h : Decimal t n e) : Ieee.sign (Strtod.strtod t) = false := by
  rw [(Strtod.decimal h).2.2]
  exact Ieee.sign_pack _ (by have := Ieee.ofQuot_le (n * 10 ^ e.toNat * 2 ^ 1074) (10 ^ (-e).toNat); unfold Strtod.scale; omega)

/-- **C77, scripts.** Wherever a decimal number comes next in a text — after blanks and comments, and before something that is no letter, digit
or point — the next token is the whole number, and the value of the literal is the double nearest to what is written.  The number must be below
2^63 (by at least 1024: C62 shows what larger ones become), and not the last character of the text, where the parser reads beyond the end. -/
theorem C77_literal_partial (E : Env) [Natives E] (hV : E.numVal = Strtod.strtod) (src : List UInt8) (hnul : (0 : UInt8) ∉ src) (st : State) (hp : st.pos ≤ src.length)
    {gap t rest : List UInt8} (hd : src.drop st.pos = gap ++ (t ++ rest)) (hg : Spec.Tok.GapThen gap (t ++ rest))
    {n : Nat} {e : Int} (h : Decimal t n e) (hr : Ends rest) (h2 : 2 ≤ (t ++ rest).length) (hn : n * 10 ^ e.toNat ≤ (2 ^ 63 - 1024) * 10 ^ (-e).toNat) :
    ∃ st' tok x v, pnext src st = some st' ∧ Is E src st' tok ∧ src.drop st'.pos = rest ∧ WriteE 0 x [tok] ∧
      (∀ F k d vm, eval E F (k + 1) (d + 1) x vm = some (.ok vm v)) ∧ NearestDecimal false n e v := by
  obtain ⟨gap', rest', hd', hg', hsk⟩ := skip_spec hnul _ st.pos st.lineNo rfl hp
  obtain ⟨rfl, rfl⟩ := C59_gap_unique hg' hg (by rw [← hd', hd])
  obtain ⟨h1, hp1⟩ := drop_app hd hp
  generalize hP : st.pos + gap'.length = p at *
  obtain ⟨hlen, c, u, rfl, hcd, hcx⟩ := Strtod.decimal_then h (Strtod.endsNum_of hr)
  obtain ⟨hlt, hpk, h3, hm⟩ := drop_cons (show src.drop p = c :: (u ++ rest) from h1)
  have hL : p + (1 + u.length + rest.length) = src.length := by
    have := congrArg List.length h1
    simp at this ⊢; omega
  have hc0 : c ≠ 0 := by rintro rfl; exact absurd hcd (by decide)
  have hst : ¬ ([48, 120] <+: c :: (u ++ rest)) := by
    rintro ⟨r, e⟩
    simp only [List.cons_append, List.nil_append, List.cons.injEq] at e
    exact hcx e.1.symm 120 r e.2.symm rfl
  have hge : getnum src p = some (p + (1 + u.length)) := by
    unfold getnum
    rw [starts_eq 48 120 (by decide) (by decide) h1 (by omega)]
    show (if decide ([48, 120] <+: c :: (u ++ rest)) = true then some (p + 2 + strtoulLen (src.drop (p + 2))) else some (p + strtodLen (src.drop p))) = _
    rw [if_neg (by simpa using hst), h1, hlen, List.length_cons, Nat.add_comm u.length]
  have hlex : lexeme src p = some (NUM, p, 1 + u.length, p + u.length) := by
    rw [lexeme, hpk]
    simp only [Option.bind_eq_bind, Option.bind_some]
    rw [if_neg hc0, if_pos hcd, hge]
    simp only [Option.bind_some]
    congr 4 <;> omega
  have hq : p + u.length < src.length := by omega
  have hpq : peek src (p + u.length) = some src[p + u.length] := by rw [peek, if_pos hq, List.getElem?_eq_getElem hq]
  have hq0 : src[p + u.length] ≠ 0 := fun e => hnul (e ▸ List.getElem_mem hq)
  have hpos : ∀ s : State, s.pos = p + u.length + 1 → src.drop s.pos = rest := by
    intro s hs
    rw [hs, show p + u.length + 1 = p + 1 + u.length by omega, ← List.drop_drop, h3, List.drop_left]
  have hnum : Parser.numeral E src p = some (Strtod.strtod (c :: u)) := by
    unfold Parser.numeral
    simp only
    rw [if_pos (by simp only [List.length_append, List.length_cons] at h2; omega), h1, hlen, hV, List.take_left]
    rw [if_neg]
    rintro ⟨e1, e2⟩
    simp only [List.cons_append, List.head?_cons, Option.some.injEq] at e1
    simp only [List.cons_append, List.drop_succ_cons, List.drop_zero] at e2
    cases hu : u ++ rest with
    | nil => rw [hu] at e2; cases e2
    | cons y r => rw [hu] at e2; exact hcx e1 y r hu (by simpa using e2)
  obtain ⟨hall, hnear⟩ := C77_strtod h
  have hsign := strtod_sign h
  generalize hdd : Strtod.strtod (c :: u) = dd at *
  have htext : (src.drop p).take (1 + u.length) = c :: u := by
    rw [h1, show 1 + u.length = (c :: u).length by simp [Nat.add_comm], List.take_left]
  by_cases hint : Parser.integral dd = true
  · have hden : 0 < 10 ^ (-e).toNat := Nat.pow_pos (by decide)
    have hle := nearest_le hden hnear (e := 0x43DFFFFFFFFFFFFF#64) (by decide) (by
      rw [below63, if_neg (by decide), Int.one_mul]
      generalize hG : (2 : Int) ^ 1074 = G
      have hG0 : 0 < G := hG ▸ Int.pow_pos (by decide)
      rw [Int.mul_right_comm _ G]
      refine Int.mul_le_mul_of_nonneg_right ?_ (Int.le_of_lt hG0)
      have := Int.ofNat_le.2 hn
      rw [Int.natCast_mul, Int.natCast_mul, Int.natCast_pow] at this
      exact this)
    rw [below63] at hle
    have hfin : Finite dd := by
      rcases Ieee.finite_or_inf hnear.1 with g | g
      · exact g
      · exfalso
        rw [Ieee.isInf_eq g, hsign] at hle
        revert hle
        rw [show scaled (Ieee.inf false) = 2 ^ 1024 * 2 ^ 1074 by decide +kernel]
        generalize hG : (2 : Int) ^ 1074 = G
        intro hle
        have hG0 : 0 < G := hG ▸ Int.pow_pos (by decide)
        exact absurd (Int.le_of_mul_le_mul_right hle hG0) (by decide +kernel)
    obtain ⟨m, hm⟩ : ∃ m, IsInt dd m := by
      unfold Parser.integral at hint
      simp only [Bool.or_eq_true, decide_eq_true_eq, Bool.and_eq_true, beq_iff_eq] at hint
      rcases hint with g | g
      · exact absurd g (Ieee.not_inf hfin)
      · exact ⟨scaled dd / 2 ^ 1074, hfin, (Int.ediv_mul_cancel (Int.dvd_of_emod_eq_zero g.2)).symm⟩
    have hm0 : 0 ≤ m := by
      have h0 : 0 ≤ scaled dd := by rw [Ieee.scaled_low, hsign]; simp
      rw [hm.2] at h0
      exact Int.nonneg_of_mul_nonneg_left h0 (show (0 : Int) < 2 ^ 1074 from Int.pow_pos (by decide))
    have hm1 : m ≤ 2 ^ 63 - 1024 := by
      rw [hm.2] at hle
      exact Int.le_of_mul_le_mul_right hle (Int.pow_pos (by decide))
    refine ⟨_, .int (Parser.literalInt dd), .int (Parser.literalInt dd), dd, lexeme_next st hsk hlex hpq, ⟨rfl, dd, hnum, hint, rfl⟩, hpos _ (by simp [hq0]), rfl, ?_, hnear⟩
    intro F k d vm
    have hv : mkInt (BitVec.ofNat 64 (Parser.literalInt dd)).toInt = dd := by
      unfold Parser.literalInt
      rw [BitVec.ofNat_toNat, BitVec.setWidth_eq, toI64_of_isInt hm hm0 (by omega), BitVec.toInt_ofInt, Int.bmod_eq_of_le (by omega) (by omega), mkInt,
        Strtod.ofIntD_self hm (by omega) (by rw [hsign]; simp; omega), mkNumber_finite hfin]
    rw [eval, hv]
    rfl
  · rw [Bool.not_eq_true] at hint
    refine ⟨_, .dbl (c :: u), .dbl (c :: u), dd, lexeme_next st hsk hlex hpq, ⟨rfl, htext, hall, dd, hnum, hint⟩, hpos _ (by simp [hq0]), rfl, ?_, hnear⟩
    intro F k d vm
    have hnn : mkNumber dd = dd := by
      rw [mkNumber, if_neg]
      rw [isnan_iff]; exact hnear.1
    rw [eval, hV, hdd, hnn]
    rfl

/-! ## JSON -/

theorem digits_value : ∀ {t : List UInt8}, (∀ c ∈ t, Json.Digit c) → ∃ n, Numeral.Value 10 t n := by
  intro t
  induction h : t.length generalizing t with
  | zero => intro _; exact ⟨0, by rw [List.length_eq_zero_iff.1 h]; exact .nil⟩
  | succ k ih =>
    intro hd
    have hne : t ≠ [] := by rintro rfl; simp at h
    obtain ⟨n, hn⟩ := ih (t := t.dropLast) (by simp [h]) fun c hc => hd c (List.dropLast_subset t hc)
    obtain ⟨h1, h2⟩ := hd _ (List.getLast_mem hne)
    refine ⟨n * 10 + ((t.getLast hne).toNat - 48), ?_⟩
    have := Numeral.Value.snoc (base := 10) hn (c := t.getLast hne) (d := (t.getLast hne).toNat - 48) (by unfold Numeral.digit; rw [if_pos ⟨h1, h2⟩]) (by omega)
    rwa [List.dropLast_concat_getLast] at this

/-- Every numeral of JSON is a decimal number. -/
theorem numeral_decimal {t : List UInt8} (h : Json.IsNumeral t) : ∃ n e, Decimal t n e := by
  obtain ⟨i, f, x, rfl, hi, _, hf, hx⟩ := h
  obtain ⟨m, hm⟩ : ∃ m, Exponent x m := by
    rcases hx with rfl | ⟨c, s, ds, rfl, hc, hs, hds⟩
    · exact ⟨0, .none⟩
    · obtain ⟨k, hk⟩ := digits_value hds.2
      rcases hs with rfl | rfl | rfl
      · exact ⟨k, .plain hc hds.1 hk⟩
      · exact ⟨k, .plus hc hds.1 hk⟩
      · exact ⟨-(k : Int), .minus hc hds.1 hk⟩
  rcases hf with rfl | ⟨ds, rfl, hds⟩
  · obtain ⟨n, hn⟩ := digits_value hi.2
    exact ⟨n, m, by simpa using Decimal.whole hi.1 hn hm⟩
  · obtain ⟨n, hn⟩ := digits_value (t := i ++ ds) fun c hc => by
      rcases List.mem_append.1 hc with hc | hc
      · exact hi.2 c hc
      · exact hds.2 c hc
    exact ⟨n, _, Decimal.point hi.1 hn hm⟩

theorem neg_pack {u : Nat} (h : u < 2 ^ 63) : negD (Ieee.pack false u) = Ieee.pack true u := by
  show Ieee.neg (Ieee.pack false u) = _
  obtain ⟨h1, h2⟩ := Ieee.sign_neg (Ieee.pack false u)
  rw [← Ieee.pack_self (Ieee.neg _), h1, h2, Ieee.sign_pack _ h, Ieee.low_pack _ h]
  rfl

theorem signed_pack {t : List UInt8} {n : Nat} {e : Int} (h : Decimal t n e) (neg : Bool) :
    mkNumber (if neg then negD (Strtod.strtod t) else Strtod.strtod t) = Ieee.pack neg (Strtod.scale n 10 e) ∧
      NearestDecimal neg n e (Ieee.pack neg (Strtod.scale n 10 e)) := by
  have hle : Strtod.scale n 10 e < 2 ^ 63 := by
    have := Ieee.ofQuot_le (n * 10 ^ e.toNat * 2 ^ 1074) (10 ^ (-e).toNat)
    unfold Strtod.scale; omega
  have hv : (if neg then negD (Strtod.strtod t) else Strtod.strtod t) = Ieee.pack neg (Strtod.scale n 10 e) := by
    rw [(Strtod.decimal h).2.2]
    cases neg
    · rfl
    · exact neg_pack hle
  have hn : NearestDecimal neg n e (Ieee.pack neg (Strtod.scale n 10 e)) := by
    have := Ieee.pack_nearest neg (n := n * 10 ^ e.toNat * 2 ^ 1074) (d := 10 ^ (-e).toNat) (Nat.pow_pos (by decide))
    unfold NearestDecimal Strtod.scale
    cases neg
    · rw [if_neg (by decide), Int.natCast_mul, Int.natCast_mul, Int.natCast_pow, Int.natCast_pow] at this
      rw [if_neg (by decide), Int.one_mul]
      exact this
    · rw [if_pos rfl, Int.natCast_mul, Int.natCast_mul, Int.natCast_pow, Int.natCast_pow] at this
      rw [if_pos rfl, Int.neg_mul, Int.one_mul, Int.neg_mul, Int.neg_mul]
      exact this
  refine ⟨?_, hn⟩
  rw [hv, mkNumber_notNaN hn.1]

/-- **C77, JSON.** Every number in a text that `JSON.parse` reads (C46 says how the parts of the text are found in the result: `Shows`) becomes the
double nearest to what is written. -/
theorem C77_json {h : Obj.Heap} {v : Val} {neg : Bool} {t : List UInt8} (hs : Json.Shows Strtod.strtod h v (.num neg t)) :
    (Json.IsNumeral t → ∃ n e, Decimal t n e) ∧ ∀ n e, Decimal t n e → NearestDecimal neg n e v := by
  refine ⟨numeral_decimal, fun n e hd => ?_⟩
  cases hs
  obtain ⟨h1, h2⟩ := signed_pack hd neg
  rw [h1]
  exact h2

/-! ## Texts of numbers are read back -/

/-- An integer, other than -0, is the double nearest to what its text writes. -/
theorem numText_back {d : Val} {n : Int} (h : IsInt d n) (h1 : -2 ^ 63 ≤ n) (h2 : n < 2 ^ 63) (hs : Ieee.sign d = decide (n < 0)) :
    ∃ (neg : Bool) (t : List UInt8), Print.numText d = (if neg then [45] else []) ++ t ∧ Json.IsNumeral t ∧ mkNumber (if neg then negD (Strtod.strtod t) else Strtod.strtod t) = d := by
  have key : ∀ t, Numeral.Nat 10 n.natAbs t → Json.IsNumeral t ∧ mkNumber (if decide (n < 0) then negD (Strtod.strtod t) else Strtod.strtod t) = d := by
    rintro t ⟨hv, h0, hz⟩
    refine ⟨⟨t, [], [], by simp, ⟨h0, fun c hc => ?_⟩, hz, .inl rfl, .inl rfl⟩, ?_⟩
    · have := (Strtod.value_ten hv).1 c hc
      unfold isDigit at this
      simp only [Bool.and_eq_true, decide_eq_true_eq] at this
      exact ⟨UInt8.le_iff_toNat_le.1 this.1, UInt8.le_iff_toNat_le.1 this.2⟩
    · have hd : Decimal t n.natAbs 0 := by simpa using Decimal.whole h0 hv .none
      rw [(signed_pack hd _).1, ← Strtod.ofIntD_self h (by omega) hs, Strtod.ofIntD_eq (by omega)]
      unfold Strtod.scale
      simp
  have hi := C70_integer h h1 h2
  unfold Numeral.Int at hi
  by_cases hn : n < 0
  · rw [if_pos hn] at hi
    obtain ⟨t, ht, hd⟩ := hi
    obtain ⟨a, b⟩ := key t hd
    exact ⟨true, t, by rw [ht]; rfl, a, by simpa [hn] using b⟩
  · rw [if_neg hn] at hi
    obtain ⟨a, b⟩ := key _ hi
    exact ⟨false, _, by simp, a, by simpa [hn] using b⟩

/-- **C77, back and forth.** An integer of 64 bits (other than -0), written with `JSON.stringify` and read with `JSON.parse` — in the same engine or another, at any
moment of its life — is the same number.  A number that is the whole text must be followed by a blank, a comma or a bracket (`C47_root_number`). -/
theorem C77_integers_survive {cmem : Nat → Option UInt8} {h : Obj.Heap} {ops : List ObjOp} (hh : History cmem Print.numText h ops) (hn : ∀ o ∈ ops, o.noNul)
    {d : Val} {n : Int} (hi : IsInt d n) (h1 : -2 ^ 63 ≤ n) (h2 : n < 2 ^ 63) (hs : Ieee.sign d = decide (n < 0)) :
    ∃ t, (∀ k, t.length < k → ∀ {fresh : Nat → List UInt8}, (∀ n, (fresh n).length = n) → JsonOut.stringify Print.numText h k d [] 0 0 fresh = some (.block (t ++ [0]) t.length)) ∧
      ∀ {cmem' : Nat → Option UInt8} {numText' : Val → List UInt8} {E : Env} {h' : Obj.Heap} {ops' : List ObjOp}, E.numVal = Strtod.strtod →
        History cmem' numText' h' ops' → (∀ o ∈ ops', o.noNul) →
        ∀ c r, (c = 32 ∨ c = 9 ∨ c = 10 ∨ c = 13 ∨ c = 44 ∨ c = 93 ∨ c = 125) →
        ∀ {k : Nat}, t.length < k → t.length < 2 ^ 31 → ∀ {al : Nat → Obj.Allocs}, Json.Supplied (t.length + 255) (2 * t.length) h' al →
        ∃ b, Json.parse E k h' al (t ++ c :: r) = .done .ok d b := by
  obtain ⟨neg, t, ht, hnum, hb⟩ := numText_back hi h1 h2 hs
  have hden : Json.Denotes Print.numText ops h.str d (.num neg t) := .num (isNumber_finite hi.1) hnum ht
  obtain ⟨u, hu, hback⟩ := C65_partial numText_ok hh hn hden .num
  refine ⟨u, hu, fun hV hh' hn' c r hc k hk h31 al hal => ?_⟩
  obtain ⟨v', b, hp, hsh⟩ := hback hh' hn' (c :: r) (fun _ _ _ => ⟨c, r, rfl, hc⟩) hk h31 hal
  rw [hV] at hsh
  cases hsh
  rw [hb] at hp
  exact ⟨b, hp⟩

/-- **C77, fractions.** The text of any other number is read as the double nearest to its millionths. -/
theorem C77_fraction {d : Val} (hf : Finite d) (h : ¬ ∃ n, IsInt d n) :
    ∃ n t, Spec.Print.Millionths d n ∧ Print.numText d = (if negative d then [45] else []) ++ t ∧ Decimal t n (-6) ∧ NearestDecimal false n (-6) (Strtod.strtod t) := by
  obtain ⟨w, p, n, ht, hp, hv, hm, hw, _⟩ := C70_fraction hf h
  have hd : Decimal (w ++ 46 :: p) n (-6) := by
    have := Decimal.point (x := []) hw hv .none
    rw [hp] at this
    simpa using this
  exact ⟨n, _, hm, ht, hd, (C77_strtod hd).2⟩

/-- Non-vacuity: `12.50` writes 1250 * 10^-2, `1e3` writes 1 * 10^3. -/
example : Decimal [49, 50, 46, 53, 48] 1250 (-2) ∧ Decimal [49, 101, 51] 1 3 := by
  have d : ∀ {t n c} (k : Nat), Numeral.Value 10 t n → Numeral.digit c = some k → k < 10 → Numeral.Value 10 (t ++ [c]) (n * 10 + k) := fun _ h h1 h2 => .snoc h h1 h2
  refine ⟨?_, ?_⟩
  · exact .point (i := [49, 50]) (f := [53, 48]) (x := []) (m := 0) (by decide)
      (d 0 (d 5 (d 2 (d 1 .nil (c := 49) rfl (by decide)) (c := 50) rfl (by decide)) (c := 53) rfl (by decide)) (c := 48) rfl (by decide)) .none
  · exact .whole (i := [49]) (x := [101, 51]) (by decide) (d 1 .nil (c := 49) rfl (by decide))
      (.plain (.inl rfl) (by decide) (d 3 .nil (c := 51) rfl (by decide)))

/-- Non-vacuity: in ` 0.1;` the first token is a literal, whose value is the double 0x3FB999999999999A. -/
example (E : Env) [Natives E] (hV : E.numVal = Strtod.strtod) : ∃ st' tok x v, pnext [32, 48, 46, 49, 59] {} = some st' ∧ Is E [32, 48, 46, 49, 59] st' tok ∧
    WriteE 0 x [tok] ∧ (∀ F k d vm, eval E F (k + 1) (d + 1) x vm = some (.ok vm v)) ∧ scaled v = scaled 0x3FB999999999999A#64 := by
  have hd : Decimal [48, 46, 49] 1 (-1) := .point (i := [48]) (f := [49]) (x := []) (m := 0) (n := 1) (by decide)
    (.snoc (text := [48]) (n := 0) (d := 1) (.snoc (text := []) (n := 0) (d := 0) .nil rfl (by decide)) rfl (by decide)) .none
  obtain ⟨st', tok, x, v, h1, h2, _, h4, h5, h6⟩ := C77_literal_partial E hV [32, 48, 46, 49, 59] (by decide) {} (by decide) (gap := [32]) (t := [48, 46, 49]) (rest := [59]) rfl
    (.blank _ _ _ (by unfold Spec.Tok.Blank; decide) (.done _ ⟨fun c hc => by cases hc; unfold Spec.Tok.Blank; decide, by decide, by decide⟩)) hd
    (fun c r h => by cases h; decide) (by decide) (by decide)
  refine ⟨st', tok, x, v, h1, h2, h4, h5, ?_⟩
  have h7 := (C77_strtod hd).2
  have h8 : Strtod.strtod [48, 46, 49] = 0x3FB999999999999A#64 := by decide +kernel
  rw [h8] at h7
  exact h6.unique (by decide) h7

end Mjs.Props
