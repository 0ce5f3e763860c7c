import Verif.Props.Index

/-!
# C79: every number as an index of a string or a pointer

Integers of 64 bits are cut to 32 bits, larger numbers and the infinities are the index 0, and fractions and NaN are no index.
-/

namespace Mjs.Props
open Mjs Mjs.Mbuf Mjs.Str Mjs.Arena Mjs.Obj Mjs.Spec Mjs.Core Mjs.Code Mjs.Sem Mjs.Exec Mjs.Spec.Double

/-- The number `k` is of 2^63 or more, or below -2^63; the infinities are. -/
def Large (k : Val) : Prop := ¬ IsNaN k ∧ (2 ^ 63 * 2 ^ 1074 ≤ scaled k ∨ scaled k < -2 ^ 63 * 2 ^ 1074)

/-- The place a number addresses in `s[k]` and `p[k]`, if any. -/
inductive Addresses : Val → Option Int → Prop
  | int {k : Val} {n : Int} : IsInt k n → -2 ^ 63 ≤ n → n < 2 ^ 63 → Addresses k (some (n.bmod (2 ^ 32)))
  | large {k : Val} : Large k → Addresses k (some 0)
  | fraction {k : Val} : Finite k → (¬ ∃ n, IsInt k n) → Addresses k none
  | nan : Addresses tagNan none

theorem large_scaled {k : Val} (h : IsInf k) : Large k := by
  refine ⟨fun hn => hn.2 h.2, ?_⟩
  have hm : 2 ^ 63 * 2 ^ 1074 < magnitude k := by
    unfold magnitude
    rw [if_neg (by rw [h.1]; decide), h.1, h.2]
    decide +kernel
  have hp : ((2 : Int) ^ 1074) = ((2 ^ 1074 : Nat) : Int) := by simp
  rw [hp]
  generalize 2 ^ 1074 = S at hm
  unfold scaled
  split <;> omega

/-- Every number is one of these. -/
theorem C79_every_number {k : Val} (h : isNumber k = true) : ∃ r, Addresses k r := by
  by_cases hk : k = tagNan
  · subst hk; exact ⟨_, .nan⟩
  have hn : ¬ IsNaN k := by
    intro hh
    rw [isNumber, Bool.or_eq_true, beq_iff_eq] at h
    rcases h with h | h
    · exact hk h
    · rw [getDouble, (isnan_iff k).2 hh] at h; cases h
  by_cases hf : Finite k
  · by_cases hi : ∃ n, IsInt k n
    · obtain ⟨n, hi⟩ := hi
      by_cases hr : -2 ^ 63 ≤ n ∧ n < 2 ^ 63
      · exact ⟨_, .int hi hr.1 hr.2⟩
      · refine ⟨_, .large ⟨hn, ?_⟩⟩
        rw [hi.2]
        have hpos : (0 : Int) < 2 ^ 1074 := Int.pow_pos (by decide)
        by_cases h0 : n < 0
        · exact .inr (Int.mul_lt_mul_of_pos_right (by omega) hpos)
        · exact .inl (Int.mul_le_mul_of_nonneg_right (by omega) (Int.le_of_lt hpos))
    · exact ⟨_, .fraction hf hi⟩
  · refine ⟨_, .large (large_scaled ?_)⟩
    unfold Finite at hf
    unfold IsNaN at hn
    unfold IsInf
    omega

section
variable {cmem : Nat → Option UInt8} {E : Env} [Natives E] {F : Nat → Option Fn} {d : Nat} {vm vm1 vm2 vm3 : Vm} {ops : List ObjOp}
  {e e1 e2 e3 : Expr} {t k k' v : Val} {x : List UInt8}

theorem addresses_number {r : Option Int} (h : Addresses k r) : isNumber k = true := by
  cases h with
  | int h => exact isNumber_finite h.1
  | large h =>
    have : isnan k = false := by
      cases hh : isnan k with
      | false => rfl
      | true => exact absurd ((isnan_iff k).1 hh) h.1
    simp [isNumber, getDouble, this]
  | fraction h => exact isNumber_finite h
  | nan => decide

omit [Natives E] in
/-- Numbers with the same text address the same. -/
theorem getProp_text (hE : E.numText = Print.numText) (hi : InvS vm.heap.str) (ho : isObject t = false) (hk : isNumber k = true)
    (hk' : isNumber k' = true) (he : Print.numText k = Print.numText k') : getProp E vm t k = getProp E vm t k' := by
  unfold getProp
  rw [builtin_key (.number hk) hE hi, builtin_key (.number hk') hE hi, he]
  simp only [ho, Bool.false_eq_true, if_false]

/-- A large number and -2^63. -/
theorem large_text (h : Large k) : Print.numText k = Print.numText 0xC3E0000000000000#64 ∧ IsInt 0xC3E0000000000000#64 (-2 ^ 63) := by
  refine ⟨(C70_violation_large h.1 h.2).trans (by decide +kernel), by decide, by decide +kernel⟩

/-- A fraction and NaN are read as no number, and their text begins with a digit or a minus sign. -/
theorem fraction_text (h : Addresses k none) : (∃ m, cstrToUlong (Print.numText k) = some (m, false)) ∧
    ∀ (y : List UInt8) (c : UInt8), y.head? = some c → isDecimal c = false → c ≠ 45 → Print.numText k ≠ y ∧ cstr (Print.numText k) ≠ y := by
  have key : ∀ {u y : List UInt8} {c b : UInt8}, u.head? = some b → (isDecimal b = true ∨ b = 45) → y.head? = some c → isDecimal c = false →
      c ≠ 45 → u ≠ y ∧ cstr u ≠ y := by
    intro u y c b hu hb hy hc hm
    have hbc : b ≠ c := by
      rintro rfl
      rcases hb with hb | hb
      · rw [hb] at hc; cases hc
      · exact hm hb
    have hb0 : b ≠ 0 := by
      rcases hb with hb | rfl
      · exact (Arr.decimal_ne_zero hb).1
      · decide
    cases u with
    | nil => cases hu
    | cons b' u =>
      cases hu
      refine ⟨fun e => ?_, fun e => ?_⟩
      · rw [← e] at hy; exact hbc (Option.some.inj hy)
      · rw [← e, cstr, List.takeWhile_cons_of_pos (by simpa using hb0)] at hy
        exact hbc (Option.some.inj hy)
  cases h with
  | nan =>
    rw [C70_nan]
    refine ⟨⟨0, ?_⟩, fun y c => key (b := 45) (by decide) (.inr rfl)⟩
    have hsc : Arr.Scan [] [45] [] 110 := ⟨by simp, .inr (.inr rfl), by simp, by decide, fun h => by cases h⟩
    have := Arr.strtoul_scan hsc (fun i => if i < (txt "-nan").length then (txt "-nan")[i]? else if i = (txt "-nan").length then some 0 else none) ?_
    · unfold cstrToUlong
      rw [this]
      rfl
    · intro i c hc
      have hlt := (List.getElem?_eq_some_iff.1 hc).1
      have : i = 0 ∨ i = 1 := by simp at hlt; omega
      rcases this with rfl | rfl <;> exact hc
  | fraction hf hno =>
    obtain ⟨whole, part, n, ht, hl, hv, _, hw, _⟩ := C70_fraction hf hno
    have hdec : ∀ c ∈ whole, isDecimal c = true := by
      have := (Arr.value_fold hv).1
      rw [List.all_append, Bool.and_eq_true] at this
      simpa using this.1
    generalize Print.numText k = u at ht
    generalize hsg : (if negative k then ([45] : List UInt8) else []) = sg at ht
    have hsg' : sg = [] ∨ sg = [43] ∨ sg = [45] := by
      rw [← hsg]; split
      · exact .inr (.inr rfl)
      · exact .inl rfl
    subst ht
    constructor
    · have hsc : Arr.Scan [] sg whole 46 := ⟨by simp, hsg', hdec, by decide, fun _ hnil => absurd hnil hw⟩
      have := Arr.strtoul_scan hsc (fun i => if i < (sg ++ (whole ++ 46 :: part)).length then (sg ++ (whole ++ 46 :: part))[i]? else
        if i = (sg ++ (whole ++ 46 :: part)).length then some 0 else none) ?_
      · unfold cstrToUlong
        rw [this, if_neg hw, Option.map_some]
        have hne : (([] : List UInt8).length + sg.length + whole.length == (sg ++ (whole ++ 46 :: part)).length) = false := by
          simp only [List.length_nil, List.length_append, List.length_cons, beq_eq_false_iff_ne]
          omega
        simp only [hne, Bool.false_and]
        exact ⟨_, rfl⟩
      · intro i c hc
        have e : sg ++ (whole ++ 46 :: part) = ([] ++ sg ++ whole ++ [46]) ++ part := by simp
        have hlt := (List.getElem?_eq_some_iff.1 hc).1
        rw [e, if_pos (by rw [List.length_append]; omega), List.getElem?_append_left hlt, hc]
    · intro y c
      rcases hsg' with rfl | rfl | rfl
      · cases whole with
        | nil => exact absurd rfl hw
        | cons b w => exact key (b := b) rfl (.inl (hdec b (by simp)))
      · exfalso
        split at hsg <;> cases hsg
      · exact key (b := 45) rfl (.inr rfl)

/-- **C79, `s[k]` for every number `k`.** With a string of less than 2^31 bytes: the byte at the place the number addresses, undefined if
there is none; a number that addresses no place, as fractions, is a TypeError. -/
theorem C79_string_index_exact {r : Option Int} {bs : List UInt8} (hE : E.numText = Print.numText) (h1 : Means E F d e1 vm (.ok vm1 t))
    (h2 : Means E F d e2 vm1 (.ok vm2 k)) (h : Scoped cmem E vm2 ops) (hok : vm2.error = .ok) (ht : Reads vm2.heap.str t bs)
    (hb : bs.length < 2 ^ 31) (hk : Addresses k r) (hg : Granted vm2.heap 1 (vm2.al 0)) :
    (∀ i b, r = some i → 0 ≤ i → bs[i.toNat]? = some b →
      ∃ vm3 v, Means E F (d + 2) (.get (.index e1 e2)) vm (.ok vm3 v) ∧ Calm cmem E ops vm2 vm3 ∧ Reads vm3.heap.str v [b]) ∧
    (∀ i, r = some i → (i < 0 ∨ bs.length ≤ i.toNat) →
      ∃ vm3, Means E F (d + 2) (.get (.index e1 e2)) vm (.ok vm3 mkUndefined) ∧ Calm cmem E ops vm2 vm3) ∧
    (r = none → ∃ vm3, Means E F (d + 2) (.get (.index e1 e2)) vm (.err vm3) ∧ vm3.error = .type ∧ vm3.heap = vm2.heap) := by
  have hst := reads_isString ht
  have hob : isObject t = false := by
    cases hs : isObject t with
    | false => rfl
    | true => exact absurd (C04_one_kind t .object .string hs hst) (by decide)
  have hn := addresses_number hk
  have main : ∀ (k' : Val) (n : Int), IsInt k' n → -2 ^ 63 ≤ n → n < 2 ^ 63 → Print.numText k = Print.numText k' → r = some (n.bmod (2 ^ 32)) →
      (∀ i b, r = some i → 0 ≤ i → bs[i.toNat]? = some b →
        ∃ vm3 v, Means E F (d + 2) (.get (.index e1 e2)) vm (.ok vm3 v) ∧ Calm cmem E ops vm2 vm3 ∧ Reads vm3.heap.str v [b]) ∧
      (∀ i, r = some i → (i < 0 ∨ bs.length ≤ i.toNat) →
        ∃ vm3, Means E F (d + 2) (.get (.index e1 e2)) vm (.ok vm3 mkUndefined) ∧ Calm cmem E ops vm2 vm3) := by
    intro k' n hi hn1 hn2 hte hr
    obtain ⟨g1, g2⟩ := getProp_string hE h hok ht hb hi hn1 hn2 hg
    rw [← getProp_text hE h.inv hob hn (isNumber_finite hi.1) hte] at g1 g2
    constructor
    · intro i b hi' h0 hb'
      rw [hr] at hi'
      cases hi'
      obtain ⟨vm', v, e, hc, hrd⟩ := g1 b h0 hb'
      have := means_index h1 h2 e
      rw [if_pos hc.error] at this
      exact ⟨_, v, this, ⟨⟨hc.inv.hist, hc.inv.noNul, hc.inv.scopes, hc.inv.plain⟩, hc.error, hc.scopes, hc.this, hc.reads⟩, hrd⟩
    · intro i hi' hno
      rw [hr] at hi'
      cases hi'
      have := means_index h1 h2 (g2 hno)
      rw [if_pos hok] at this
      exact ⟨_, this, ⟨⟨h.hist, h.noNul, h.scopes, h.plain⟩, hok, rfl, rfl, fun _ _ h => h⟩⟩
  cases r with
  | some i =>
    have : ∃ (k' : Val) (n : Int), IsInt k' n ∧ -2 ^ 63 ≤ n ∧ n < 2 ^ 63 ∧ Print.numText k = Print.numText k' ∧ some i = some (n.bmod (2 ^ 32)) := by
      generalize hr : some i = r at hk
      cases hk with
      | int g1 g2 g3 => exact ⟨_, _, g1, g2, g3, rfl, rfl⟩
      | large g => exact ⟨_, _, (large_text g).2, by decide, by decide, (large_text g).1, by decide⟩
      | fraction => cases hr
      | nan => cases hr
    obtain ⟨k', n, g1, g2, g3, g4, g5⟩ := this
    obtain ⟨m1, m2⟩ := main k' n g1 g2 g3 g4 g5
    exact ⟨m1, m2, fun hh => by cases hh⟩
  | none =>
    refine ⟨(fun _ _ hh => absurd hh (by simp)), (fun _ hh => absurd hh (by simp)), fun _ => ?_⟩
    obtain ⟨⟨m, hu⟩, hne⟩ := fraction_text hk
    have he : (prepend vm2 .type (txt "type error")).error = .type := by rw [prepend]; exact if_pos hok
    obtain ⟨p, l, q1, _⟩ := ht
    have hgp : getProp E vm2 t k = some (prepend vm2 .type (txt "type error"), mkUndefined) := by
      unfold getProp
      rw [builtin_key (.number hn) hE h.inv, if_pos hst]
      unfold builtinString
      rw [hu]
      simp only [Option.bind_eq_bind, Option.bind_some, q1]
      rw [if_neg (hne _ 108 (by decide) (by decide) (by decide)).2,
        if_neg (not_or.2 ⟨(hne _ 97 (by decide) (by decide) (by decide)).2, (hne _ 99 (by decide) (by decide) (by decide)).2⟩),
        if_neg (hne _ 105 (by decide) (by decide) (by decide)).2, if_neg (hne _ 115 (by decide) (by decide) (by decide)).2]
      simp only [Bool.false_eq_true, if_false, Option.bind_some, hob]
    have := means_index h1 h2 hgp
    rw [if_neg (by rw [he]; decide)] at this
    exact ⟨_, this, he, rfl⟩

/-- **C79, violation.** Beyond every string there is its first byte again: at 2^63 and above, and at infinity, below -2^63 and at minus
infinity. -/
theorem C79_violation_index_large {b : UInt8} {bs : List UInt8} (hE : E.numText = Print.numText) (h1 : Means E F d e1 vm (.ok vm1 t))
    (h2 : Means E F d e2 vm1 (.ok vm2 k)) (h : Scoped cmem E vm2 ops) (hok : vm2.error = .ok) (ht : Reads vm2.heap.str t (b :: bs))
    (hb : (b :: bs).length < 2 ^ 31) (hk : Large k) (hg : Granted vm2.heap 1 (vm2.al 0)) :
    ∃ vm3 v, Means E F (d + 2) (.get (.index e1 e2)) vm (.ok vm3 v) ∧ Reads vm3.heap.str v [b] := by
  obtain ⟨vm3, v, g1, _, g2⟩ := (C79_string_index_exact hE h1 h2 h hok ht hb (.large hk) hg).1 0 b rfl (by decide) rfl
  exact ⟨vm3, v, g1, g2⟩

/-- **C79, `p[k]` for every number `k`.** The byte of memory at the place the number addresses, from the pointer on; a number that
addresses no place, as fractions, is a TypeError. -/
theorem C79_pointer_index_exact {r : Option Int} (hE : E.numText = Print.numText) (h1 : Means E F d e1 vm (.ok vm1 t))
    (h2 : Means E F d e2 vm1 (.ok vm2 k)) (hi : InvS vm2.heap.str) (hok : vm2.error = .ok) (ht : isForeign t = true) (hk : Addresses k r) :
    (∀ (i : Int) (a : Nat) (b : UInt8), r = some i → (a : Int) = (getPtr t).toNat + i → a < 2 ^ 64 → vm2.heap.str.cmem a = some b →
      ∃ v, Means E F (d + 2) (.get (.index e1 e2)) vm (.ok { vm2 with lastGetprop := t } v) ∧ IsInt v b.toNat) ∧
    (r = none → ∃ vm3, Means E F (d + 2) (.get (.index e1 e2)) vm (.err vm3) ∧ vm3.error = .type ∧ vm3.heap = vm2.heap) := by
  have hns : isString t = false := by
    cases hs : isString t with
    | false => rfl
    | true => exact absurd (C04_one_kind t .string .foreign hs ht) (by decide)
  have hob : isObject t = false := by
    cases hs : isObject t with
    | false => rfl
    | true => exact absurd (C04_one_kind t .object .foreign hs ht) (by decide)
  have hna : isArray t = false := by
    cases hs : isArray t with
    | false => rfl
    | true =>
      have : isObject t = true := by
        unfold isArray at hs; unfold isObject; rw [beq_iff_eq] at hs; rw [hs]; decide
      rw [this] at hob; cases hob
  have hn := addresses_number hk
  constructor
  · intro i a b hr ha ha2 hb
    have : ∃ (k' : Val) (n : Int), IsInt k' n ∧ -2 ^ 63 ≤ n ∧ n < 2 ^ 63 ∧ Print.numText k = Print.numText k' ∧ i = n.bmod (2 ^ 32) := by
      subst hr
      generalize hr : some i = r at hk
      cases hk with
      | int g1 g2 g3 => exact ⟨_, _, g1, g2, g3, rfl, Option.some.inj hr⟩
      | large g => exact ⟨_, _, (large_text g).2, by decide, by decide, (large_text g).1, (Option.some.inj hr).trans (by decide)⟩
      | fraction => cases hr
      | nan => cases hr
    obtain ⟨k', n, g1, g2, g3, g4, g5⟩ := this
    obtain ⟨c1, _, _⟩ := int_text g1 g2 g3
    obtain ⟨_, c4⟩ := int_text_ne g1 g2 g3
    rw [← g4] at c1 c4
    have hgp : getProp E vm2 t k = some (vm2, mkInt b.toNat) := by
      unfold getProp
      rw [builtin_key (.number hn) hE hi, if_neg (by rw [hns]; decide), if_neg (c4 _ 97 (by decide) (by decide) (by decide)),
        if_neg (by rw [hna]; decide), if_pos ht]
      unfold builtinForeign
      simp only [c1, Option.bind_eq_bind, Option.bind_some, cInt_index, not_true_eq_false, if_false]
      rw [← g5, show wrap (((getPtr t).toNat : Int) + i) = a by rw [← ha, wrap]; omega, hb]
      rfl
    have := means_index h1 h2 hgp
    rw [if_pos hok] at this
    exact ⟨_, this, mkInt_isInt _ (by have := b.toNat_lt; omega)⟩
  · rintro rfl
    obtain ⟨⟨m, hu⟩, hne⟩ := fraction_text hk
    have he : (prepend vm2 .type (txt "index must be a number")).error = .type := by rw [prepend]; exact if_pos hok
    have hgp : getProp E vm2 t k = some (prepend vm2 .type (txt "index must be a number"), mkUndefined) := by
      unfold getProp
      rw [builtin_key (.number hn) hE hi, if_neg (by rw [hns]; decide), if_neg (hne _ 97 (by decide) (by decide) (by decide)).1,
        if_neg (by rw [hna]; decide), if_pos ht]
      unfold builtinForeign
      rw [hu]
      rfl
    have := means_index h1 h2 hgp
    rw [if_neg (by rw [he]; decide)] at this
    exact ⟨_, this, he, rfl⟩

/-- The number `k` is at least `n` and below `n + 1`, for an `n` that is not negative. -/
def WholePart (k : Val) (n : Nat) : Prop := Finite k ∧ n * 2 ^ 1074 ≤ scaled k ∧ scaled k < (n + 1) * 2 ^ 1074

theorem getInt_whole {n : Nat} (h : WholePart k n) (hn : n < 2 ^ 31) : getInt k = n := by
  have : truncD k = n := by
    have h1 := h.2.1
    have h2 := h.2.2
    unfold truncD
    have hpos : (0 : Int) < 2 ^ 1074 := Int.pow_pos (by decide)
    generalize (2 : Int) ^ 1074 = S at h1 h2 hpos
    have h0 : 0 ≤ scaled k := Int.le_trans (Int.mul_nonneg (by omega) (Int.le_of_lt hpos)) h1
    rw [Int.tdiv_eq_ediv_of_nonneg h0]
    apply Int.le_antisymm
    · have := Int.ediv_lt_of_lt_mul hpos h2
      omega
    · exact (Int.le_ediv_iff_mul_le hpos).2 h1
  rw [getInt, getDouble, cvtInt, this, if_pos ⟨h.1, by omega, by omega⟩, BitVec.toInt_ofInt, Int.bmod]
  omega

/-- **C79, `p[k] = v` with fractions.** Both are cut to their whole parts: `p[1.5] = 2.5` stores 2 one byte behind the pointer.
`p[1.5]` on the other hand is a TypeError (`C79_pointer_index_exact`). -/
theorem C79_pointer_assign_fraction {n : Nat} {a : Nat} {b : UInt8} {w : Val} (h1 : Means E F d e1 vm (.ok vm1 t))
    (h2 : Means E F d e2 vm1 (.ok vm2 k)) (h3 : Means E F (d + 1) e3 vm2 (.ok vm3 w)) (hok : vm3.error = .ok) (ht : isForeign t = true)
    (hk : WholePart k n) (hn : n < 2 ^ 31) (ha : a = (getPtr t).toNat + n) (ha2 : a < 2 ^ 64) (hw : WholePart w b.toNat)
    (hm : (vm3.heap.str.cmem a).isSome = true) :
    ∃ vm4, Means E F (d + 2) (.assign none (.index e1 e2) e3) vm (.ok vm4 w) ∧ StoredByte vm3 vm4 a b := by
  have hb := b.toNat_lt
  have hob : isObject t = false := by
    cases hs : isObject t with
    | false => rfl
    | true => exact absurd (C04_one_kind t .object .foreign hs ht) (by decide)
  have hadr : wrap (((getPtr t).toNat : Int) + n) = a := by rw [wrap]; omega
  have e : ∃ vm4, Exec.assign E vm3 w t k = some (vm4, w) ∧ StoredByte vm3 vm4 a b := by
    rw [Exec.assign, if_neg (by rw [hob]; decide), if_pos ht, if_neg (by rw [isNumber_finite hk.1]; decide), getInt_whole hk hn,
      getInt_whole hw (by omega), hadr]
    rw [if_neg (by rw [isNumber_finite hw.1]; rintro (hh | hh | hh); exact hh rfl; all_goals omega)]
    simp only [hm, if_true]
    exact ⟨_, rfl, by simp, fun a' h => by simp [h], rfl⟩
  obtain ⟨vm4, e, hs⟩ := e
  have := means_index_assign h1 h2 h3 e
  rw [if_pos (by rw [hs.2.2]; exact hok)] at this
  exact ⟨vm4, this, hs⟩

end

/-- The cases are met: 1.5 addresses nothing, infinity and 1e300 the first byte, 2^32 + 1 the second. -/
example : Addresses 0x3FF8000000000000#64 none ∧ Addresses 0x7FF0000000000000#64 (some 0) ∧ Addresses (mkInt (2 ^ 32 + 1)) (some 1) ∧
    WholePart 0x3FF8000000000000#64 1 := by
  refine ⟨.fraction (by decide) ?_, .large (large_scaled (by decide)), ?_, by decide, by decide +kernel, by decide +kernel⟩
  · rintro ⟨n, h⟩
    have hs := h.2
    have e : scaled 0x3FF8000000000000#64 = 3 * 2 ^ 1073 := by decide +kernel
    rw [e, show (2 : Int) ^ 1074 = 2 * 2 ^ 1073 by decide +kernel] at hs
    have hpos : (0 : Int) < 2 ^ 1073 := Int.pow_pos (by decide)
    generalize (2 : Int) ^ 1073 = S at hs hpos
    rw [← Int.mul_assoc] at hs
    have := Int.eq_of_mul_eq_mul_right (Int.ne_of_gt hpos) hs
    omega
  · have : Addresses (mkInt (2 ^ 32 + 1)) (some ((2 ^ 32 + 1 : Int).bmod (2 ^ 32))) := .int (mkInt_isInt _ (by decide)) (by decide) (by decide)
    exact this

end Mjs.Props
