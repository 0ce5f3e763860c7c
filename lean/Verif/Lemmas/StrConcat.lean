import Verif.Lemmas.StrStore

namespace Mjs.Str
open Mjs Mjs.Mbuf Mjs.Varint

theorem bytesFrom_mkTagged (ps : List UInt8) (hq : ps.length ≤ 6) (k : Fin 16) :
    bytesFrom (mkTagged (packLE ps) (makeTag 1 k)) 0 =
      ps ++ (List.replicate (6 - ps.length) 0 ++ [UInt8.ofNat (0xf0 + k.val), 0xff]) := by
  have hlt : packLE ps < 2 ^ 48 :=
    Nat.lt_of_lt_of_le (packLE_lt ps) (by rw [show (2 : Nat) ^ 48 = 256 ^ 6 from rfl]; exact Nat.pow_le_pow_right (by decide) hq)
  apply packLE_inj
  · simp [bytesFrom]; omega
  · rw [packLE_bytesFrom, mkTagged_toNat _ hlt, packLE_append, packLE_append, packLE_replicate_zero, Nat.zero_add,
      List.length_replicate, ← Nat.mul_assoc, ← Nat.pow_add, show ps.length + (6 - ps.length) = 6 by omega]
    have hk : ∀ k : Fin 16, packLE [UInt8.ofNat (0xf0 + k.val), 0xff] = 0xfff0 + k.val := by decide
    rw [hk, Nat.mul_comm, show (256 : Nat) ^ 6 = 2 ^ 48 from by decide]

theorem ofNat_packed (ps : List UInt8) (hq : ps.length ≤ 6) (k : Fin 16) :
    BitVec.ofNat 64 (packLE (ps ++ (List.replicate (6 - ps.length) 0 ++ [UInt8.ofNat (0xf0 + k.val), 0xff]))) =
      mkTagged (packLE ps) (makeTag 1 k) := by
  rw [← bytesFrom_mkTagged ps hq k, packLE_bytesFrom, BitVec.ofNat_toNat, BitVec.setWidth_eq]

theorem writeVal_packed (ps : List UInt8) (hq : ps.length ≤ 6) (k : Fin 16) (i : Nat) (bs : List UInt8)
    (h : i + bs.length ≤ ps.length) :
    writeVal (mkTagged (packLE ps) (makeTag 1 k)) i bs =
      some (mkTagged (packLE (ps.take i ++ bs ++ ps.drop (i + bs.length))) (makeTag 1 k)) := by
  have hl : (ps.take i ++ bs ++ ps.drop (i + bs.length)).length = ps.length := by simp; omega
  rw [writeVal, if_pos (by omega), bytesFrom_mkTagged ps hq]
  rw [← ofNat_packed (ps.take i ++ bs ++ ps.drop (i + bs.length)) (by omega), hl]
  congr 2
  rw [List.take_append_of_le_length (by omega), List.drop_append_of_le_length (by omega)]
  simp

theorem load_some_length {st : Store} (hi : InvS st) {v p n bs} (_ : getString st v = some (p, n))
    (h2 : load st.cmem st.owned p n = some bs) : n = bs.length := (load_length hi.1.1 h2).symm

/-- What `s_concat` does, with the new value and the new content of the buffer. -/
theorem sConcat_full (hr : Nat) (st : Store) (hi : InvS st) (a b : Val) (x y : List UInt8) (als : Nat → Alloc)
    (ha : Reads st a x) (hb : Reads st b y) (hsz : st.owned.len + (x.length + y.length) + 11 < 2 ^ 48)
    (hal : ∀ i, AllocLow (als i)) (hgrant : als 1 ≠ none) :
    ∃ st' v, sConcat hr st a b als = some (st', v) ∧ InvS st' ∧ Extends st st' ∧ ReadsZ st' v (x ++ y) ∧
      st'.foreign = st.foreign ∧ st'.owned.len ≤ st.owned.len + (x.length + y.length) + 11 ∧
      ((x.length + y.length ≤ 4 ∧ st' = st ∧ v = mkTagged (packLE (UInt8.ofNat (x.length + y.length) :: (x ++ y))) tagStringI) ∨
       (x.length + y.length = 5 ∧ st' = st ∧ v = mkTagged (packLE (x ++ y)) tagString5) ∨
       (5 < x.length + y.length ∧ v = mkTagged st.owned.len tagStringO ∧
          st'.owned.content = st.owned.content ++ (encodeBytes (x.length + y.length) ++ (x ++ y) ++ [0]))) := by
  obtain ⟨pa, na, ga, nna, la⟩ := ha
  obtain ⟨pb, nb, gb, nnb, lb⟩ := hb
  have hna := load_some_length hi ga la
  have hnb := load_some_length hi gb lb
  subst hna hnb
  obtain ⟨st1, res, bs, e1, i1, x1, hbl, _, r1, f1, m1, hlen1, hcase⟩ :=
    mkStringCopy_core hr st hi .null (x.length + y.length) als (Or.inl rfl) hsz hal hgrant
  have ga1 := getString_mono hi i1 x1 ga nna
  have gb1 := getString_mono hi i1 x1 gb nnb
  have la1 := load_move hi i1 x1 la
  have lb1 := load_move hi i1 x1 lb
  rcases hcase with ⟨h4, hst, hv, hz⟩ | ⟨h5, hst, hv, hz⟩ | ⟨h6, hv, hc⟩
  · have hz' := hz rfl
    subst hst
    have ht : res &&& tagMask = tagStringI := by rw [hv]; exact mkTagged_tag _ 6
    have w1 : writeVal res 1 x = some (mkTagged (packLE (UInt8.ofNat (x.length + y.length) :: (x ++ List.replicate y.length 0)))
        tagStringI) := by
      rw [hv, hz']
      have := writeVal_packed (UInt8.ofNat (x.length + y.length) :: List.replicate (x.length + y.length) 0)
        (by simp; omega) 6 1 x (by simp; omega)
      rw [show makeTag 1 (6 : Fin 16).val = tagStringI from rfl] at this
      rw [this]
      congr 3
      rw [show 1 + x.length = x.length + 1 by omega]
      simp
    have w2 : writeVal (mkTagged (packLE (UInt8.ofNat (x.length + y.length) :: (x ++ List.replicate y.length 0)))
        tagStringI) (1 + x.length) y = some (mkTagged (packLE (UInt8.ofNat (x.length + y.length) :: (x ++ y))) tagStringI) := by
      have := writeVal_packed (UInt8.ofNat (x.length + y.length) :: (x ++ List.replicate y.length 0))
        (by simp; omega) 6 (1 + x.length) y (by simp; omega)
      rw [show makeTag 1 (6 : Fin 16).val = tagStringI from rfl] at this
      rw [this]
      congr 3
      rw [show 1 + x.length + y.length = (x.length + y.length) + 1 by omega, show 1 + x.length = x.length + 1 by omega,
        List.take_succ_cons, List.drop_succ_cons, take_len_append]
      rw [List.drop_of_length_le (by simp)]
      simp
    refine ⟨st1, mkTagged (packLE (UInt8.ofNat (x.length + y.length) :: (x ++ y))) tagStringI, ?_, i1, x1, ?_, f1, by omega, .inl ⟨h4, rfl, rfl⟩⟩
    · simp only [sConcat, ga, gb, e1, la, lb, Option.bind_eq_bind, Option.bind_some, ht, if_true, w1, w2]
    · have := inline4_reads st1 (x ++ y) (by simp; omega)
      rwa [List.length_append] at this
  · have hz' := hz rfl
    subst hst
    have ht : res &&& tagMask = tagString5 := by rw [hv]; exact mkTagged_tag _ 7
    have w1 : writeVal res 0 x = some (mkTagged (packLE (x ++ List.replicate y.length 0)) tagString5) := by
      rw [hv, hz']
      have := writeVal_packed (List.replicate (x.length + y.length) 0) (by simp; omega) 7 0 x (by simp)
      rw [show makeTag 1 (7 : Fin 16).val = tagString5 from rfl] at this
      rw [this]
      simp
    have w2 : writeVal (mkTagged (packLE (x ++ List.replicate y.length 0)) tagString5) x.length y =
        some (mkTagged (packLE (x ++ y)) tagString5) := by
      have := writeVal_packed (x ++ List.replicate y.length 0) (by simp; omega) 7 x.length y (by simp)
      rw [show makeTag 1 (7 : Fin 16).val = tagString5 from rfl] at this
      rw [this]
      rw [take_len_append, List.drop_of_length_le (by simp)]
      simp
    refine ⟨st1, mkTagged (packLE (x ++ y)) tagString5, ?_, i1, x1, ?_, f1, by omega, .inr (.inl ⟨h5, rfl, rfl⟩)⟩
    · simp only [sConcat, ga, gb, e1, la, lb, Option.bind_eq_bind, Option.bind_some, ht, w1, w2]
      rw [if_neg (by decide), if_pos trivial]
    · exact inline5_reads st1 (x ++ y) (by simp; omega)
  · have ht : res &&& tagMask = tagStringO := by rw [hv]; exact mkTagged_tag _ 8
    have hcl := content_length hi.1.1
    have hl64 : x.length + y.length < 2 ^ 64 := by omega
    have hk := llen_le_ten (x.length + y.length) hl64
    obtain ⟨gr, _⟩ := owned_reads st1 i1 st.owned.content bs [] (by omega) (by omega) (by rw [hbl]; simpa using hc)
    rw [hcl, hbl] at gr
    rw [← hv] at gr
    -- the two stores
    have hlen : st1.owned.len = st.owned.len + (llen (x.length + y.length) + (x.length + y.length) + 1) := by
      rw [len_of_content hi.1.1 i1.1.1 hc]; simp [length_encodeBytes, hbl]; omega
    obtain ⟨m2, e2, i2, l2, a2, c2⟩ := store_spec st1.owned i1.1.1 (st.owned.len + llen (x.length + y.length)) x (by omega)
    obtain ⟨m3, e3, i3, l3, a3, c3⟩ := store_spec m2 i2 (st.owned.len + llen (x.length + y.length) + x.length) y (by omega)
    have hoff : st1.owned.addr + st.owned.len + llen (x.length + y.length) - st1.owned.addr =
        st.owned.len + llen (x.length + y.length) := by omega
    have hge : ¬ (st1.owned.addr + st.owned.len + llen (x.length + y.length) < st1.owned.addr) := by omega
    -- contents
    obtain ⟨b1, b2, hbs, hb1, hb2⟩ : ∃ b1 b2 : List UInt8, bs = b1 ++ b2 ∧ b1.length = x.length ∧ b2.length = y.length :=
      ⟨bs.take x.length, bs.drop x.length, by rw [List.take_append_drop], by simp; omega, by simp; omega⟩
    have c2' : m2.content = (st.owned.content ++ encodeBytes (x.length + y.length) ++ x) ++ (b2 ++ [0]) := by
      have e : st1.owned.content = (st.owned.content ++ encodeBytes (x.length + y.length)) ++ (b1 ++ (b2 ++ [0])) := by
        rw [hc, hbs]; simp
      have el : st.owned.len + llen (x.length + y.length) = (st.owned.content ++ encodeBytes (x.length + y.length)).length := by
        rw [List.length_append, length_encodeBytes, hcl]
      rw [c2, e, el, take_len_append, ← List.drop_drop, drop_len_append, ← hb1, drop_len_append]
    have c3' : m3.content = st.owned.content ++ (encodeBytes (x.length + y.length) ++ (x ++ y) ++ [0]) := by
      have el : st.owned.len + llen (x.length + y.length) + x.length =
          (st.owned.content ++ encodeBytes (x.length + y.length) ++ x).length := by
        rw [List.length_append, List.length_append, length_encodeBytes, hcl]
      rw [c3, c2', el, take_len_append, ← List.drop_drop, drop_len_append, ← hb2, drop_len_append]
      simp
    have i' : InvS { st1 with owned := m3 } := ⟨⟨i3, by rw [a3, a2]; exact i1.1.2⟩, i1.2⟩
    refine ⟨{ st1 with owned := m3 }, res, ?_, i', ⟨⟨_, c3'⟩, by rw [f1]; exact ⟨[], by simp⟩, m1⟩, ?_, f1, by show m3.len ≤ _; omega,
      .inr (.inr ⟨h6, hv, c3'⟩)⟩
    · simp only [sConcat, ga, gb, e1, ga1, gb1, la1, lb1, Option.bind_eq_bind, Option.bind_some, ht, gr]
      rw [if_neg (by decide), if_neg (by decide)]
      simp only [hge, if_false, hoff, e2, e3, Option.bind_some]
    · have := (owned_reads { st1 with owned := m3 } i' st.owned.content (x ++ y) [] (by omega) (by simp; omega)
        (by rw [List.length_append]; simpa using c3')).2
      rw [hcl, ← hv] at this
      exact this

/-- What `s_concat` does. -/
theorem sConcat_core (hr : Nat) (st : Store) (hi : InvS st) (a b : Val) (x y : List UInt8) (als : Nat → Alloc)
    (ha : Reads st a x) (hb : Reads st b y) (hsz : st.owned.len + (x.length + y.length) + 11 < 2 ^ 48)
    (hal : ∀ i, AllocLow (als i)) (hgrant : als 1 ≠ none) :
    ∃ st' v, sConcat hr st a b als = some (st', v) ∧ InvS st' ∧ Extends st st' ∧ ReadsZ st' v (x ++ y) ∧
      st'.foreign = st.foreign ∧ st'.owned.len ≤ st.owned.len + (x.length + y.length) + 11 := by
  obtain ⟨st', v, h1, h2, h3, h4, h5, h6, _⟩ := sConcat_full hr st hi a b x y als ha hb hsz hal hgrant
  exact ⟨st', v, h1, h2, h3, h4, h5, h6⟩

theorem memcmp_zero (xs ys : List UInt8) (h : xs.length = ys.length) : memcmp xs ys = 0 ↔ xs = ys := by
  induction xs generalizing ys with
  | nil =>
    cases ys with
    | nil => simp [memcmp]
    | cons _ _ => simp at h
  | cons x xs ih =>
    cases ys with
    | nil => simp at h
    | cons y ys =>
      simp only [memcmp]
      split
      · rename_i hlt
        constructor
        · intro h; exact absurd h (by decide)
        · intro h; simp only [List.cons.injEq] at h; exact absurd (h.1 ▸ hlt) (by simp)
      · split
        · rename_i hlt
          constructor
          · intro h; exact absurd h (by decide)
          · intro h; simp only [List.cons.injEq] at h; exact absurd (h.1 ▸ hlt) (by simp)
        · rename_i h1 h2
          have : x = y := by
            apply UInt8.toNat.inj
            rw [UInt8.lt_iff_toNat_lt] at h1 h2
            omega
          rw [ih ys (by simpa using h), this]
          simp

theorem sCmp_core (st : Store) (hi : InvS st) (a b : Val) (x y : List UInt8) (ha : Reads st a x) (hb : Reads st b y) :
    ∃ r, sCmp st a b = some r ∧ (r = 0 ↔ x = y) := by
  obtain ⟨pa, na, ga, nna, la⟩ := ha
  obtain ⟨pb, nb, gb, nnb, lb⟩ := hb
  have hna := load_some_length hi ga la
  have hnb := load_some_length hi gb lb
  subst hna hnb
  by_cases hl : x.length = y.length
  · refine ⟨memcmp x y, ?_, memcmp_zero x y hl⟩
    simp only [sCmp, ga, gb, Option.bind_eq_bind, Option.bind_some, hl, if_true]
    rw [← hl, la, hl, lb]
    rfl
  · have hne : x ≠ y := fun h => hl (by rw [h])
    simp only [sCmp, ga, gb, Option.bind_eq_bind, Option.bind_some, if_neg hl]
    by_cases hgt : x.length > y.length
    · exact ⟨1, by rw [if_pos hgt], by simp [hne]⟩
    · exact ⟨-1, by rw [if_neg hgt, if_pos (by omega)], by simp [hne]⟩

end Mjs.Str
