import Verif.Lemmas.StrConcat

namespace Mjs.Str
open Mjs Mjs.Mbuf Mjs.Varint

theorem packLE_ptrBytes (a : Nat) (ha : a < 2 ^ 64) : packLE (ptrBytes a) = a := by
  have h := packLE_bytesFrom (BitVec.ofNat 64 a)
  have hn : (BitVec.ofNat 64 a).toNat = a := by rw [BitVec.toNat_ofNat, Nat.mod_eq_of_lt ha]
  rw [hn] at h
  have e : ptrBytes a = bytesFrom (BitVec.ofNat 64 a) 0 := by
    simp only [ptrBytes, bytesFrom, byteAt, hn, Nat.sub_zero, Nat.zero_add]
  rw [e, h]

theorem ptrBytes_length (a : Nat) : (ptrBytes a).length = 8 := by simp [ptrBytes]

/-- What `mjs_mk_string` without copy does. -/
theorem mkStringForeign_core (hr : Nat) (st : Store) (hi : InvS st) (a len : Nat) (als : Nat → Alloc)
    (bs : List UInt8) (hsrc : readC st.cmem a len = some bs) (ha : a < 2 ^ 64) (hlen : len < 2 ^ 64)
    (hsz : st.foreign.len + 18 < 2 ^ 48) (hsz' : st.owned.len + 11 < 2 ^ 48)
    (hal : ∀ i, AllocLow (als i)) (h0 : als 0 ≠ none) (h1 : als 1 ≠ none) :
    ∃ st' v, mkStringForeign hr st a len als = some (st', v) ∧ InvS st' ∧ Extends st st' ∧ Reads st' v bs := by
  by_cases hz : len = 0
  · subst hz
    obtain ⟨st', v, bs', e, i, x, hl, _, r, _⟩ := mkStringCopy_core hr st hi (.ext a) 0 als (Or.inr ⟨bs, hsrc⟩)
      (by omega) hal h1
    have hb := readC_length hsrc
    rw [List.length_eq_zero_iff] at hl hb
    subst hl hb
    exact ⟨st', v, by rw [mkStringForeign, if_pos rfl]; exact e, i, x, r.reads⟩
  · have hk := llen_le_ten len hlen
    have henc : (encode len (llen len)).1 = encodeBytes len := by
      rw [encode_full len (llen len) (Nat.le_refl _)]
    obtain ⟨m1, gap, e1, i1, hg, c1⟩ := insertGap_addr hr st.foreign hi.2 (llen len + 8) (als 0) (als 1) (by omega)
      (hal 0) (hal 1) (Or.inr h0)
    have hl := content_length hi.2.1
    have hl1 := content_length i1.1
    have hlen1 : m1.len = st.foreign.len + (llen len + 8) := by rw [← hl1, c1, List.length_append, hl, hg]
    obtain ⟨m2, e2, i2, l2, a2, c2⟩ := store_spec m1 i1.1 st.foreign.len (encodeBytes len)
      (by rw [length_encodeBytes]; omega)
    obtain ⟨m3, e3, i3, l3, a3, c3⟩ := store_spec m2 i2 (st.foreign.len + llen len) (ptrBytes a)
      (by rw [ptrBytes_length]; omega)
    obtain ⟨g1, g2, hgs, hg1, hg2⟩ : ∃ g1 g2 : List UInt8, gap = g1 ++ g2 ∧ g1.length = llen len ∧ g2.length = 8 :=
      ⟨gap.take (llen len), gap.drop (llen len), by rw [List.take_append_drop], by simp; omega, by simp; omega⟩
    have c2' : m2.content = (st.foreign.content ++ encodeBytes len) ++ g2 := by
      rw [c2, c1, ← hl, take_len_append, ← List.drop_drop, drop_len_append, hgs, length_encodeBytes, ← hg1, drop_len_append]
    have c3' : m3.content = st.foreign.content ++ (encodeBytes len ++ ptrBytes a) := by
      have el : st.foreign.len + llen len = (st.foreign.content ++ encodeBytes len).length := by
        rw [List.length_append, length_encodeBytes, hl]
      rw [c3, c2', el, take_len_append, ← List.drop_drop, drop_len_append, List.drop_of_length_le (by rw [hg2, ptrBytes_length]; exact Nat.le_refl _)]
      simp
    have hn : mkStringForeign hr st a len als = some ({ st with foreign := m3 }, mkTagged st.foreign.len tagStringF) := by
      simp only [mkStringForeign, if_neg hz, e1, henc, Option.bind_eq_bind, Option.bind_some, e2, e3]
    refine ⟨_, _, hn, ⟨hi.1, ⟨i3, by rw [a3, a2]; exact i1.2⟩⟩, ⟨⟨[], by simp⟩, ⟨_, c3'⟩, rfl⟩, .ext a, len, ?_, rfl, hsrc⟩
    have ht : mkTagged st.foreign.len tagStringF &&& tagMask = tagStringF := mkTagged_tag _ 9
    have hs : isString (mkTagged st.foreign.len tagStringF) = true := isString_tagged 9 (by decide) ht
    have ho : valToOffset (mkTagged st.foreign.len tagStringF) = st.foreign.len := mkTagged_offset _ (by omega) 9
    have hl3 : m3.len = st.foreign.len + (llen len + 8) := by omega
    unfold getString
    simp only [hs, ht, ho, not_true_eq_false, if_false]
    rw [if_neg (by decide), if_neg (by decide), if_neg (by decide), if_pos trivial, if_pos (by omega)]
    have hd : decode (m3.mem.drop st.foreign.len) (m3.len - st.foreign.len) = .ok len (llen len) := by
      have h1 : decode (encodeBytes len ++ ptrBytes a) (llen len) = .ok len (llen len) :=
        decode_encode _ hlen _ _ (Nat.le_refl _)
      refine decode_local (by omega) h1 ?_
      intro j hj
      rw [List.getElem?_drop, mem_content _ (by omega), c3', List.getElem?_append_right (by omega)]
      congr 1
      omega
    have hp : (m3.mem.drop (st.foreign.len + llen len)).take 8 = ptrBytes a := by
      have e : m3.content.drop (st.foreign.len + llen len) = ptrBytes a := by
        rw [c3', ← List.append_assoc]
        have el : st.foreign.len + llen len = (st.foreign.content ++ encodeBytes len).length := by
          rw [List.length_append, length_encodeBytes, hl]
        rw [el, drop_len_append]
      rw [← e, Mbuf.content, List.drop_take]
      congr 1
      omega
    rw [hd]
    simp only
    rw [if_pos (by omega), hp, packLE_ptrBytes a ha]

/-- Without memory the length, the bytes or the terminator are written outside the block. -/
theorem embed_oom (hr : Nat) (cmem) (m : Mbuf) (hm : Mbuf.Inv m) (p : Ptr) (len : Nat)
    (hsz : m.len + len + 11 < 2 ^ 52) (hfull : m.size < m.len + (llen len + len + 1)) :
    embedString hr cmem m m.len p len true none none = none := by
  have hk := llen_le_ten len (by omega)
  obtain ⟨m', r, he, _, h⟩ := insertGap_spec hr m hm m.len (llen len + len + 1) none none (Nat.le_refl _)
    (by omega) (fun _ h => absurd h (by simp)) (fun _ h => absurd h (by simp))
  have hi : Mbuf.insert hr m m.len none (llen len + len + 1) none none = some (m, 0) := by
    have hg : grow hr m.mem ((m.len + (llen len + len + 1)) % 2 ^ 64) none none = none := by
      simp [grow, realloc]
    unfold Mbuf.insert
    rw [if_neg (by have := hm.1; simp [Mbuf.size]; omega)]
    split
    · rfl
    · simp only
      rw [if_neg (by rw [Nat.mod_eq_of_lt (by omega)]; omega), hg]
  have hstore : ∀ m' : Mbuf, m'.mem.length = m.mem.length → store m' (m.len + (llen len + len + 1) - 1) [0] = none := by
    intro m' hm'
    simp only [store, memcpyFrom]
    rw [if_neg]
    · rfl
    · rw [hm']
      simp only [Mbuf.size] at hfull
      simp; omega
  have hkeep : ∀ (m a : Mbuf) o bs, store m o bs = some a → a.mem.length = m.mem.length := by
    intro m a o bs h
    simp only [store, memcpyFrom, Option.map_eq_some_iff] at h
    obtain ⟨mem', h, rfl⟩ := h
    split at h
    · cases h; simp; omega
    · exact absurd h (by simp)
  simp only [embedString, if_true, hi, Option.bind_eq_bind, Option.bind_some]
  cases h2 : store m m.len (encode len (llen len)).1 with
  | none => rfl
  | some m2 =>
    simp only [Option.bind_some]
    cases h3 : copySource cmem m2 (m.len + llen len) (if backedBy m p = true then relocate p m.addr m.addr else p) len with
    | none => rfl
    | some m3 =>
      simp only [Option.bind_some]
      apply hstore
      have e2 := hkeep _ _ _ _ h2
      unfold copySource at h3
      generalize (if backedBy m p = true then relocate p m.addr m.addr else p) = q at h3
      split at h3
      · cases h3; exact e2
      · rw [Option.bind_eq_some_iff] at h3
        obtain ⟨bs, _, h3⟩ := h3
        rw [hkeep _ _ _ _ h3, e2]

end Mjs.Str
