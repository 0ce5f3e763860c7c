import Verif.Lemmas.StrApi

/-!
# C11-C13: `slice`, `indexOf`, `at`

`this` is any string readable as `x` (`Reads st this x`, see Props/Str.lean), in any representation; arguments are numbers
standing for integers in the range of C `int` (`IsInt`, Spec/Double.lean); the string is shorter than 2^31 bytes.
-/

namespace Mjs.Props
open Mjs Mjs.Mbuf Mjs.Str Mjs.Spec.Double Mjs.Spec.Slice

/-- **C11.** `this.slice(b, e)`: the bytes between the two positions, as a new string. -/
theorem C11_slice (hr : Nat) (st : Store) (hi : InvS st) (this b e : Val) (nb ne : Int) (x : List UInt8) (rest : List Val)
    (als : Nat → Alloc) (hthis : Reads st this x) (hb : IsInt b nb) (he : IsInt e ne)
    (hb1 : -2 ^ 31 ≤ nb) (hb2 : nb < 2 ^ 31) (he1 : -2 ^ 31 ≤ ne) (he2 : ne < 2 ^ 31) (hx : x.length < 2 ^ 31)
    (hsz : st.owned.len + x.length + 11 < 2 ^ 48) (hal : ∀ i, AllocLow (als i)) (hgrant : als 1 ≠ none) :
    ∃ st' v, slice hr st this (b :: e :: rest) als = .ok st' v ∧ InvS st' ∧
      ReadsZ st' v (sub x (position nb x.length) (position ne x.length)) ∧ (∀ w ws, Reads st w ws → Reads st' w ws) := by
  have hs := reads_isString hthis
  obtain ⟨p, n, hg, hp, hl⟩ := hthis
  have hn := load_length hi.1.1 hl
  subst hn
  have p1 := position_le nb x.length
  have p2 := position_le ne x.length
  -- the requested part
  have hend : (if normalizeIdx (getInt e) x.length < normalizeIdx (getInt b) x.length
      then normalizeIdx (getInt b) x.length else normalizeIdx (getInt e) x.length) -
      normalizeIdx (getInt b) x.length = ((position ne x.length - position nb x.length : Nat) : Int) := by
    rw [getInt_isInt he he1 he2, getInt_isInt hb hb1 hb2, normalizeIdx_eq, normalizeIdx_eq]
    split <;> omega
  have hpart := load_add hl (position nb x.length) (position ne x.length - position nb x.length) (by omega)
  have hlen : (sub x (position nb x.length) (position ne x.length)).length = position ne x.length - position nb x.length := by
    simp [sub]; omega
  have hpart' : load st.cmem st.owned (p.add (position nb x.length))
      (sub x (position nb x.length) (position ne x.length)).length =
      some (sub x (position nb x.length) (position ne x.length)) := by rw [hlen]; exact hpart
  obtain ⟨st', v, h1, h2, h3, h4, _⟩ := C07_copy_reads_back hr st hi (p.add (position nb x.length)) _ als
    (by rw [add_isNull]; exact hp) hpart' (by omega) hal hgrant
  refine ⟨st', v, ?_, h2, h3, h4⟩
  simp only [slice, cInt_eq hx, checkArg_string hs, hg, List.getElem?_cons_zero, List.getElem?_cons_succ,
    checkArg_number (isNumber_finite hb.1), checkArg_number (isNumber_finite he.1), List.length_cons,
    Option.map_some]
  rw [if_pos (by omega)]
  simp only [hend, Int.toNat_natCast]
  rw [getInt_isInt hb hb1 hb2, normalizeIdx_eq, Int.toNat_natCast, ← hlen, h1]

/-- **C11, one argument.** `this.slice(b)`: up to the end. -/
theorem C11_slice_to_end (hr : Nat) (st : Store) (hi : InvS st) (this b : Val) (nb : Int) (x : List UInt8)
    (als : Nat → Alloc) (hthis : Reads st this x) (hb : IsInt b nb)
    (hb1 : -2 ^ 31 ≤ nb) (hb2 : nb < 2 ^ 31) (hx : x.length < 2 ^ 31)
    (hsz : st.owned.len + x.length + 11 < 2 ^ 48) (hal : ∀ i, AllocLow (als i)) (hgrant : als 1 ≠ none) :
    ∃ st' v, slice hr st this [b] als = .ok st' v ∧ InvS st' ∧
      ReadsZ st' v (x.drop (position nb x.length)) ∧ (∀ w ws, Reads st w ws → Reads st' w ws) := by
  have hs := reads_isString hthis
  obtain ⟨p, n, hg, hp, hl⟩ := hthis
  have hn := load_length hi.1.1 hl
  subst hn
  have p1 := position_le nb x.length
  have hpart := load_add hl (position nb x.length) (x.length - position nb x.length) (by omega)
  rw [List.take_of_length_le (by simp)] at hpart
  have hlen : (x.drop (position nb x.length)).length = x.length - position nb x.length := by simp
  rw [← hlen] at hpart
  obtain ⟨st', v, h1, h2, h3, h4, _⟩ := C07_copy_reads_back hr st hi (p.add (position nb x.length)) _ als
    (by rw [add_isNull]; exact hp) hpart (by omega) hal hgrant
  refine ⟨st', v, ?_, h2, h3, h4⟩
  simp only [slice, cInt_eq hx, checkArg_string hs, hg, List.getElem?_cons_zero,
    checkArg_number (isNumber_finite hb.1), List.length_cons, List.length_nil]
  rw [if_neg (by omega), getInt_isInt hb hb1 hb2, normalizeIdx_eq]
  simp only
  rw [if_neg (by omega), Int.toNat_natCast, show (x.length : Int) - (position nb x.length : Nat) =
    ((x.length - position nb x.length : Nat) : Int) by omega, Int.toNat_natCast, ← hlen, h1]

/-- Where `indexOf` starts to search. -/
def startAt (from_ : Option Int) (len : Nat) : Nat :=
  match from_ with
  | none => 0
  | some n => min n.toNat len

/-- **C12.** `this.indexOf(t)` and `this.indexOf(t, from)`: the result is a number `r`, which is the least index from the
starting point on where `t` occurs, or -1 if there is none. -/
theorem C12_indexOf (st : Store) (this t : Val) (x y : List UInt8) (rest : List Val) (from_ : Option Int)
    (hthis : Reads st this x) (ht : Reads st t y) (hx : x.length < 2 ^ 31)
    (hrest : (rest = [] ∧ from_ = none) ∨
      ∃ d n more, rest = d :: more ∧ from_ = some n ∧ IsInt d n ∧ -2 ^ 31 ≤ n ∧ n < 2 ^ 31) :
    ∃ v r, indexOf st this (t :: rest) = .ok st v ∧ IsInt v r ∧
      ((∃ i : Nat, r = i ∧ startAt from_ x.length ≤ i ∧ OccursAt x y i ∧
          ∀ j, startAt from_ x.length ≤ j → j < i → ¬ OccursAt x y j) ∨
       (r = -1 ∧ ∀ j, startAt from_ x.length ≤ j → ¬ OccursAt x y j)) := by
  have hs := reads_isString hthis
  have hs' := reads_isString ht
  have hb1 : strBytes st this = some x := by
    obtain ⟨p, n, hg, _, hl⟩ := hthis
    simp [strBytes, hg, hl]
  have hb2 : strBytes st t = some y := by
    obtain ⟨p, n, hg, _, hl⟩ := ht
    simp [strBytes, hg, hl]
  have hfrom : indexOfFrom (t :: rest) x.length = some (some (startAt from_ x.length)) := by
    rcases hrest with ⟨rfl, rfl⟩ | ⟨d, n, more, rfl, rfl, hd, h1, h2⟩
    · rfl
    · simp only [indexOfFrom, List.length_cons, List.getElem?_cons_succ, List.getElem?_cons_zero,
        checkArg_number (isNumber_finite hd.1), Option.map_some]
      rw [if_pos (by omega), getInt_isInt hd h1 h2]
      rw [cInt_eq hx]
      simp only [startAt, Option.some.injEq]
      split <;> split <;> omega
  have hstart : startAt from_ x.length ≤ x.length := by
    unfold startAt; split <;> omega
  obtain ⟨s1, s2⟩ := strstr_spec (x.drop (startAt from_ x.length)) y
  simp only [indexOf, checkArg_string hs, List.getElem?_cons_zero, checkArg_string hs', hb1, hb2, hfrom]
  cases hstr : strstr (x.drop (startAt from_ x.length)) y with
  | some i =>
    obtain ⟨o1, o2⟩ := (s1 i).1 hstr
    rw [occursAt_drop x y _ _ hstart] at o1
    have hlt := ((occursAt_iff x y _).1 o1).1
    refine ⟨_, _, rfl, mkInt_isInt _ (by omega), Or.inl ⟨startAt from_ x.length + i, by omega, by omega, o1, ?_⟩⟩
    intro j h1 h2 h3
    refine o2 (j - startAt from_ x.length) (by omega) ?_
    rw [occursAt_drop x y _ _ hstart, Nat.add_sub_cancel' h1]
    exact h3
  | none =>
    refine ⟨_, _, rfl, mkInt_isInt _ (by decide), Or.inr ⟨rfl, ?_⟩⟩
    intro j h1 h3
    refine (s2.1 hstr) (j - startAt from_ x.length) ?_
    rw [occursAt_drop x y _ _ hstart, Nat.add_sub_cancel' h1]
    exact h3

theorem charCodeAt_eq (st : Store) (hi : InvS st) (this i : Val) (n : Int) (x : List UInt8) (rest : List Val)
    (hthis : Reads st this x) (hx : x.length < 2 ^ 31) (hd : IsInt i n) (h1 : -2 ^ 31 ≤ n) (h2 : n < 2 ^ 31) :
    charCodeAt st this (i :: rest) =
      match x[position n x.length]? with
      | some b => .ok st (mkInt b.toNat)
      | none => .ok st mkUndefined := by
  have hs := reads_isString hthis
  obtain ⟨p, k, hg, hp, hl⟩ := hthis
  have hn := load_length hi.1.1 hl
  subst hn
  simp only [charCodeAt, cInt_eq hx, checkArg_string hs, hg, List.getElem?_cons_zero, checkArg_number (isNumber_finite hd.1),
    getInt_isInt hd h1 h2, normalizeIdx_eq, Int.toNat_natCast]
  have := position_le n x.length
  by_cases hlt : position n x.length < x.length
  · rw [if_pos (by omega), load_add hl _ 1 (by omega), List.getElem?_eq_getElem hlt]
    rw [List.drop_eq_getElem_cons hlt]
    rfl
  · rw [if_neg (by omega), List.getElem?_eq_none (by omega)]

/-- **C13 (partial).** `this.at(i)` for `0 ≤ i`, and for negative `i` that address a byte counted from the end: the byte as
a number, `undefined` from the length on.  Missing: `i < -length`, see the next theorem. -/
theorem C13_at_partial (st : Store) (hi : InvS st) (this i : Val) (n : Int) (x : List UInt8) (rest : List Val)
    (hthis : Reads st this x) (hx : x.length < 2 ^ 31) (hd : IsInt i n) (h1 : -2 ^ 31 ≤ n) (h2 : n < 2 ^ 31) (hge : -(x.length : Int) ≤ n) :
    ∃ v, charCodeAt st this (i :: rest) = .ok st v ∧
      (0 ≤ n → ∀ b, x[n.toNat]? = some b → IsInt v b.toNat) ∧
      (n < 0 → ∀ b, x[(x.length + n).toNat]? = some b → IsInt v b.toNat) ∧
      ((x.length : Int) ≤ n → isUndefined v = true) := by
  rw [charCodeAt_eq st hi this i n x rest hthis hx hd h1 h2]
  have hsmall : ∀ b : UInt8, ((b.toNat : Int)).natAbs < 2 ^ 53 := fun b => by have := b.toNat_lt; omega
  cases hb : x[position n x.length]? with
  | some b =>
    have hlt : position n x.length < x.length := (List.getElem?_eq_some_iff.1 hb).1
    refine ⟨_, rfl, ?_, ?_, ?_⟩
    · intro hn c hc
      have hlt' : n.toNat < x.length := (List.getElem?_eq_some_iff.1 hc).1
      have : position n x.length = n.toNat := by unfold position; rw [if_pos hn]; omega
      rw [this, hc] at hb; cases hb
      exact mkInt_isInt _ (hsmall _)
    · intro hn c hc
      have : position n x.length = (x.length + n).toNat := by unfold position; rw [if_neg (by omega)]; omega
      rw [this, hc] at hb; cases hb
      exact mkInt_isInt _ (hsmall _)
    · intro hn
      unfold position at hlt
      rw [if_pos (by omega)] at hlt
      omega
  | none =>
    have hge' : x.length ≤ position n x.length := List.getElem?_eq_none_iff.1 hb
    refine ⟨_, rfl, ?_, ?_, fun _ => by decide⟩
    · intro hn c hc
      have hlt' : n.toNat < x.length := (List.getElem?_eq_some_iff.1 hc).1
      unfold position at hge'
      rw [if_pos hn] at hge'
      omega
    · intro hn c hc
      have hlt' : (x.length + n).toNat < x.length := (List.getElem?_eq_some_iff.1 hc).1
      unfold position at hge'
      rw [if_neg (by omega)] at hge'
      omega

/-- **C13, violation.** An index before the beginning addresses nothing, but `at` returns the first byte. -/
theorem C13_at_before_begin (st : Store) (hi : InvS st) (this i : Val) (n : Int) (b : UInt8) (x : List UInt8)
    (rest : List Val) (hthis : Reads st this (b :: x)) (hx : (b :: x).length < 2 ^ 31) (hd : IsInt i n) (h1 : -2 ^ 31 ≤ n)
    (hlt : n < -((b :: x).length : Int)) :
    ∃ v, charCodeAt st this (i :: rest) = .ok st v ∧ IsInt v b.toNat := by
  rw [charCodeAt_eq st hi this i n (b :: x) rest hthis hx hd h1 (by omega)]
  have : position n (b :: x).length = 0 := by unfold position; rw [if_neg (by omega)]; omega
  rw [this]
  exact ⟨_, rfl, mkInt_isInt _ (by have := b.toNat_lt; omega)⟩

/-! ### Concrete cases -/

/-- "ABCD" as an inline string. -/
theorem exReads : Reads exStore (mkTagged (packLE [4, 65, 66, 67, 68]) tagStringI) [65, 66, 67, 68] :=
  (inline4_reads exStore [65, 66, 67, 68] (by decide)).reads

/-- "BC" -/
theorem exReads2 : Reads exStore (mkTagged (packLE [2, 66, 67]) tagStringI) [66, 67] :=
  (inline4_reads exStore [66, 67] (by decide)).reads

/-- "ABCD".slice(-3, 3) is "BC". -/
example : ∃ st' v, slice 1024 exStore (mkTagged (packLE [4, 65, 66, 67, 68]) tagStringI) [mkInt (-3), mkInt 3] exAls = .ok st' v ∧
    ReadsZ st' v [66, 67] := by
  obtain ⟨st', v, h1, _, h2, _⟩ := C11_slice 1024 exStore exStore_inv _ (mkInt (-3)) (mkInt 3) (-3) 3 _ [] exAls exReads
    (mkInt_isInt _ (by decide)) (mkInt_isInt _ (by decide)) (by decide) (by decide) (by decide) (by decide) (by decide)
    (by decide) exAls_low (by simp [exAls])
  exact ⟨st', v, h1, h2⟩

example : ∃ st' v, slice 1024 exStore (mkTagged (packLE [4, 65, 66, 67, 68]) tagStringI) [mkInt 1] exAls = .ok st' v ∧
    ReadsZ st' v [66, 67, 68] := by
  obtain ⟨st', v, h1, _, h2, _⟩ := C11_slice_to_end 1024 exStore exStore_inv _ (mkInt 1) 1 _ exAls exReads
    (mkInt_isInt _ (by decide)) (by decide) (by decide) (by decide) (by decide) exAls_low (by simp [exAls])
  exact ⟨st', v, h1, h2⟩

/-- "ABCD".indexOf("BC") is 1, "ABCD".indexOf("BC", 2) is -1. -/
example : indexOf exStore (mkTagged (packLE [4, 65, 66, 67, 68]) tagStringI) [mkTagged (packLE [2, 66, 67]) tagStringI] =
    .ok exStore (mkInt 1) := by rfl
example : ∃ v r, indexOf exStore (mkTagged (packLE [4, 65, 66, 67, 68]) tagStringI)
    [mkTagged (packLE [2, 66, 67]) tagStringI, mkInt 2] = .ok exStore v ∧ IsInt v r := by
  obtain ⟨v, r, h, h2, _⟩ := C12_indexOf exStore _ _ _ _ [mkInt 2] (some 2) exReads exReads2 (by decide)
    (Or.inr ⟨_, _, _, rfl, rfl, mkInt_isInt 2 (by decide), by decide, by decide⟩)
  exact ⟨v, r, h, h2⟩

/-- "ABCD".at(-1) is 68, "ABCD".at(-9) is 65. -/
example : ∃ v, charCodeAt exStore (mkTagged (packLE [4, 65, 66, 67, 68]) tagStringI) [mkInt (-1)] = .ok exStore v ∧ IsInt v 68 := by
  obtain ⟨v, h, _, h2, _⟩ := C13_at_partial exStore exStore_inv _ _ (-1) _ [] exReads (by decide) (mkInt_isInt _ (by decide))
    (by decide) (by decide) (by decide)
  exact ⟨v, h, h2 (by decide) 68 rfl⟩
example : ∃ v, charCodeAt exStore (mkTagged (packLE [4, 65, 66, 67, 68]) tagStringI) [mkInt (-9)] = .ok exStore v ∧ IsInt v 65 :=
  C13_at_before_begin exStore exStore_inv _ _ (-9) 65 [66, 67, 68] [] exReads (by decide) (mkInt_isInt _ (by decide)) (by decide) (by decide)

end Mjs.Props
