import Verif.Lemmas.StrVal

namespace Mjs.Str
open Mjs Mjs.Mbuf Mjs.Varint

/-- Well-formed string store. -/
def InvS (st : Store) : Prop := InvL st.owned ∧ InvL st.foreign

/-- The store only grew. -/
def Extends (st st' : Store) : Prop :=
  (∃ e, st'.owned.content = st.owned.content ++ e) ∧ (∃ e, st'.foreign.content = st.foreign.content ++ e) ∧
  st'.cmem = st.cmem

theorem Extends.refl (st : Store) : Extends st st := ⟨⟨[], by simp⟩, ⟨[], by simp⟩, rfl⟩

theorem Extends.trans {a b c : Store} (h1 : Extends a b) (h2 : Extends b c) : Extends a c := by
  obtain ⟨⟨e1, h1⟩, ⟨f1, g1⟩, k1⟩ := h1
  obtain ⟨⟨e2, h2⟩, ⟨f2, g2⟩, k2⟩ := h2
  exact ⟨⟨e1 ++ e2, by rw [h2, h1, List.append_assoc]⟩, ⟨f1 ++ f2, by rw [g2, g1, List.append_assoc]⟩, by rw [k2, k1]⟩

/-- `v` reads as `bs` and a NUL byte follows. -/
def ReadsZ (st : Store) (v : Val) (bs : List UInt8) : Prop :=
  ∃ p n, getString st v = some (p, n) ∧ p.isNull = false ∧ n = bs.length ∧ load st.cmem st.owned p n = some bs ∧
    load st.cmem st.owned p (n + 1) = some (bs ++ [0])

theorem ReadsZ.reads {st v bs} (h : ReadsZ st v bs) : Reads st v bs := by
  obtain ⟨p, n, h1, h2, _, h3, _⟩ := h
  exact ⟨p, n, h1, h2, h3⟩

theorem mem_content {m : Mbuf} (j : Nat) (hj : j < m.len) : m.mem[j]? = m.content[j]? := by
  rw [Mbuf.content, List.getElem?_take, if_pos hj]

theorem len_of_content {m m' : Mbuf} {e} (hm : Mbuf.Inv m) (hm' : Mbuf.Inv m') (hc : m'.content = m.content ++ e) :
    m'.len = m.len + e.length := by
  rw [← content_length hm', hc, List.length_append, content_length hm]

theorem mem_agree {m m' : Mbuf} {e} (hm : Mbuf.Inv m) (hm' : Mbuf.Inv m') (hc : m'.content = m.content ++ e)
    (j : Nat) (hj : j < m.len) : m'.mem[j]? = m.mem[j]? := by
  have hl := len_of_content hm hm' hc
  rw [mem_content j hj, mem_content j (by omega), hc, List.getElem?_append_left (by rw [content_length hm]; exact hj)]

theorem decode_mono {m m' : Mbuf} {e} {o v k : Nat} (hm : Mbuf.Inv m) (hm' : Mbuf.Inv m')
    (hc : m'.content = m.content ++ e) (ho : o < m.len) (h : decode (m.mem.drop o) (m.len - o) = .ok v k) :
    o < m'.len ∧ decode (m'.mem.drop o) (m'.len - o) = .ok v k ∧ k ≤ m.len - o := by
  have hl := len_of_content hm hm' hc
  have hk : k ≤ m.len - o := decode_len_le (by have := hm.1; simp; omega) h
  refine ⟨by omega, decode_local (by omega) h ?_, hk⟩
  intro j hj
  rw [List.getElem?_drop, List.getElem?_drop]
  exact mem_agree hm hm' hc _ (by omega)

/-- Pointer after the store was extended (and possibly moved). -/
def move (st st' : Store) : Ptr → Ptr
  | .own a => .own (a - st.owned.addr + st'.owned.addr)
  | p => p

theorem getString_mono {st st' : Store} (hi : InvS st) (hi' : InvS st') (he : Extends st st') {v p n}
    (h : getString st v = some (p, n)) (hp : p.isNull = false) :
    getString st' v = some (move st st' p, n) := by
  obtain ⟨⟨e1, c1⟩, ⟨e2, c2⟩, _⟩ := he
  unfold getString at h ⊢
  simp only at h ⊢
  split at h
  · cases h; simp [Ptr.isNull] at hp
  rename_i hs
  rw [if_neg hs]
  split at h
  · rename_i ht
    rw [if_pos ht]; cases h; rfl
  rename_i ht1
  rw [if_neg ht1]
  split at h
  · rename_i ht
    rw [if_pos ht]; cases h; rfl
  rename_i ht2
  rw [if_neg ht2]
  split at h
  · rename_i ht
    rw [if_pos ht]
    split at h
    · rename_i ho
      split at h
      · rename_i size k hd
        obtain ⟨a1, a2, a3⟩ := decode_mono hi.1.1 hi'.1.1 c1 ho hd
        rw [if_pos a1, a2]
        cases h
        simp only [move]
        congr 3
        omega
      · cases h; simp [Ptr.isNull] at hp
      · exact absurd h (by simp)
    · cases h; simp [Ptr.isNull] at hp
  rename_i ht3
  rw [if_neg ht3]
  split at h
  · rename_i ht
    rw [if_pos ht]
    split at h
    · rename_i ho
      split at h
      · rename_i size k hd
        obtain ⟨a1, a2, a3⟩ := decode_mono hi.2.1 hi'.2.1 c2 ho hd
        rw [if_pos a1, a2]
        simp only
        split at h
        · rename_i h8
          have hl := len_of_content hi.2.1 hi'.2.1 c2
          rw [if_pos (by omega)]
          cases h
          simp only [move]
          have : (st'.foreign.mem.drop (valToOffset v + k)).take 8 = (st.foreign.mem.drop (valToOffset v + k)).take 8 := by
            apply List.ext_getElem?
            intro j
            simp only [List.getElem?_take, List.getElem?_drop]
            split
            · exact mem_agree hi.2.1 hi'.2.1 c2 _ (by omega)
            · rfl
          rw [this]
        · exact absurd h (by simp)
      · cases h; simp [Ptr.isNull] at hp
      · exact absurd h (by simp)
    · cases h; simp [Ptr.isNull] at hp
  · exact absurd h (by simp)

theorem move_isNull (st st' : Store) (p : Ptr) : (move st st' p).isNull = p.isNull := by cases p <;> rfl

theorem load_move {st st' : Store} (hi : InvS st) (hi' : InvS st') (he : Extends st st') {p n bs}
    (h : load st.cmem st.owned p n = some bs) : load st'.cmem st'.owned (move st st' p) n = some bs := by
  obtain ⟨⟨e1, c1⟩, _, c3⟩ := he
  rw [c3]
  have := load_mono hi.1.1 hi'.1.1 h c1
  cases p <;> exact this

/-- **Strings are stable**: what reads as `bs` reads as `bs` in every extension of the store. -/
theorem reads_mono {st st' : Store} (hi : InvS st) (hi' : InvS st') (he : Extends st st') {v bs}
    (h : Reads st v bs) : Reads st' v bs := by
  obtain ⟨p, n, h1, h2, h3⟩ := h
  exact ⟨_, n, getString_mono hi hi' he h1 h2, by rw [move_isNull]; exact h2, load_move hi hi' he h3⟩

theorem readsZ_mono {st st' : Store} (hi : InvS st) (hi' : InvS st') (he : Extends st st') {v bs}
    (h : ReadsZ st v bs) : ReadsZ st' v bs := by
  obtain ⟨p, n, h1, h2, h3, h4, h5⟩ := h
  exact ⟨_, n, getString_mono hi hi' he h1 h2, by rw [move_isNull]; exact h2, h3, load_move hi hi' he h4,
    load_move hi hi' he h5⟩

theorem isString_tagged {v : Val} (k : Fin 16) (hk : k = 6 ∨ k = 7 ∨ k = 8 ∨ k = 9 ∨ k = 11)
    (h : v &&& tagMask = makeTag 1 k) : isString v = true := by
  simp only [isString, h]
  revert hk; clear h; revert k; decide

/-- Reading an owned string stored at a known place. -/
theorem owned_reads (st : Store) (hi : InvS st) (pre bs post : List UInt8) (hpre : pre.length < 2 ^ 48)
    (hbs : bs.length < 2 ^ 64)
    (hc : st.owned.content = pre ++ (encodeBytes bs.length ++ bs ++ [0]) ++ post) :
    getString st (mkTagged pre.length tagStringO) =
      some (.own (st.owned.addr + pre.length + llen bs.length), bs.length) ∧
    ReadsZ st (mkTagged pre.length tagStringO) bs := by
  have hcl := content_length hi.1.1
  have hlen : st.owned.len = pre.length + (llen bs.length + bs.length + 1) + post.length := by
    rw [← hcl, hc]; simp [length_encodeBytes]; omega
  have hg : getString st (mkTagged pre.length tagStringO) =
      some (.own (st.owned.addr + pre.length + llen bs.length), bs.length) := by
    have ht : mkTagged pre.length tagStringO &&& tagMask = tagStringO := mkTagged_tag _ 8
    have hs : isString (mkTagged pre.length tagStringO) = true := isString_tagged 8 (by decide) ht
    have ho : valToOffset (mkTagged pre.length tagStringO) = pre.length := mkTagged_offset _ hpre 8
    unfold getString
    simp only [hs, ht, ho, not_true_eq_false, if_false]
    rw [if_neg (by decide), if_neg (by decide), if_pos trivial, if_pos (by omega)]
    have hd : decode (st.owned.mem.drop pre.length) (st.owned.len - pre.length) = .ok bs.length (llen bs.length) := by
      have h1 : decode (encodeBytes bs.length ++ (bs ++ [0] ++ post)) (llen bs.length) = .ok bs.length (llen bs.length) :=
        decode_encode _ hbs _ _ (Nat.le_refl _)
      refine decode_local (by omega) h1 ?_
      intro j hj
      have e : pre ++ (encodeBytes bs.length ++ bs ++ [0]) ++ post =
          pre ++ (encodeBytes bs.length ++ (bs ++ [0] ++ post)) := by simp
      rw [List.getElem?_drop, mem_content _ (by omega), hc, e, List.getElem?_append_right (by omega)]
      congr 1
      omega
    rw [hd]
  refine ⟨hg, _, _, hg, rfl, rfl, ?_, ?_⟩
  · have hsub : st.owned.addr + pre.length + llen bs.length - st.owned.addr = pre.length + llen bs.length := by omega
    simp only [load]
    rw [if_pos (by omega), hsub, hc]
    have e : pre ++ (encodeBytes bs.length ++ bs ++ [0]) ++ post =
        (pre ++ encodeBytes bs.length) ++ (bs ++ ([0] ++ post)) := by simp
    have el : pre.length + llen bs.length = (pre ++ encodeBytes bs.length).length := by simp [length_encodeBytes]
    rw [e, el, drop_len_append, take_len_append]
  · have hsub : st.owned.addr + pre.length + llen bs.length - st.owned.addr = pre.length + llen bs.length := by omega
    simp only [load]
    rw [if_pos (by omega), hsub, hc]
    have e : pre ++ (encodeBytes bs.length ++ bs ++ [0]) ++ post =
        (pre ++ encodeBytes bs.length) ++ ((bs ++ [0]) ++ post) := by simp
    have el : pre.length + llen bs.length = (pre ++ encodeBytes bs.length).length := by simp [length_encodeBytes]
    have el2 : bs.length + 1 = (bs ++ ([0] : List UInt8)).length := by simp
    rw [e, el, drop_len_append, el2, take_len_append]

/-- Reading an inline string of at most four bytes. -/
theorem inline4_reads (st : Store) (bs : List UInt8) (hb : bs.length ≤ 4) :
    ReadsZ st (mkTagged (packLE (UInt8.ofNat bs.length :: bs)) tagStringI) bs := by
  have ht : mkTagged (packLE (UInt8.ofNat bs.length :: bs)) tagStringI &&& tagMask = tagStringI := mkTagged_tag _ 6
  have hs := isString_tagged 6 (by decide) ht
  have hlt : packLE (UInt8.ofNat bs.length :: bs) < 2 ^ 48 :=
    Nat.lt_of_lt_of_le (packLE_lt _) (by
      rw [show (2 : Nat) ^ 48 = 256 ^ 6 from rfl]; exact Nat.pow_le_pow_right (by decide) (by simp; omega))
  have hb0 : byteAt (mkTagged (packLE (UInt8.ofNat bs.length :: bs)) tagStringI) 0 = UInt8.ofNat bs.length := by
    have := mkTagged_byte _ hlt 6 0 (by decide)
    rw [packLE_byte _ 0 (by simp)] at this
    exact this
  have hsz : charToSize (UInt8.ofNat bs.length) = bs.length := by
    rw [charToSize, UInt8.toNat_ofNat', Nat.mod_eq_of_lt (by omega), if_pos (by omega)]
  have hg : getString st (mkTagged (packLE (UInt8.ofNat bs.length :: bs)) tagStringI) =
      some (.loc (bytesFrom (mkTagged (packLE (UInt8.ofNat bs.length :: bs)) tagStringI) 1), bs.length) := by
    unfold getString
    simp only [hs, ht, not_true_eq_false, if_false, if_true, hb0, hsz]
  have hbf := fun n hn => bytesFrom_packed (UInt8.ofNat bs.length :: bs) (by simp; omega) 6 1 n hn
  refine ⟨_, _, hg, rfl, rfl, ?_, ?_⟩
  · simp only [load]
    rw [if_pos (by rw [bytesFrom_length]; omega)]
    have := hbf bs.length (by omega)
    rw [show makeTag 1 (6 : Fin 16).val = tagStringI from rfl] at this
    rw [this]
    simp
  · simp only [load]
    rw [if_pos (by rw [bytesFrom_length]; omega)]
    have := hbf (bs.length + 1) (by omega)
    rw [show makeTag 1 (6 : Fin 16).val = tagStringI from rfl] at this
    rw [this]
    simp only [List.cons_append, List.drop_succ_cons, List.drop_zero]
    rw [List.take_append, List.take_of_length_le (by omega)]
    congr 1
    rw [show bs.length + 1 - bs.length = 1 by omega]
    rfl

/-- Reading an inline string of five bytes. -/
theorem inline5_reads (st : Store) (bs : List UInt8) (hb : bs.length = 5) :
    ReadsZ st (mkTagged (packLE bs) tagString5) bs := by
  have ht : mkTagged (packLE bs) tagString5 &&& tagMask = tagString5 := mkTagged_tag _ 7
  have hs := isString_tagged 7 (by decide) ht
  have hg : getString st (mkTagged (packLE bs) tagString5) =
      some (.loc (bytesFrom (mkTagged (packLE bs) tagString5) 0), bs.length) := by
    unfold getString
    simp only [hs, ht, not_true_eq_false, if_false, if_true]
    rw [if_neg (by decide), hb]
  have hbf := fun n hn => bytesFrom_packed bs (by omega) 7 0 n hn
  refine ⟨_, _, hg, rfl, rfl, ?_, ?_⟩
  · simp only [load]
    rw [if_pos (by rw [bytesFrom_length]; omega)]
    have := hbf bs.length (by omega)
    rw [show makeTag 1 (7 : Fin 16).val = tagString5 from rfl] at this
    rw [this]
    simp
  · simp only [load]
    rw [if_pos (by rw [bytesFrom_length]; omega)]
    have := hbf (bs.length + 1) (by omega)
    rw [show makeTag 1 (7 : Fin 16).val = tagString5 from rfl] at this
    rw [this]
    simp only [List.drop_zero]
    rw [List.take_append, List.take_of_length_le (by omega)]
    congr 1
    rw [show bs.length + 1 - bs.length = 1 by omega]
    rfl

/-- What `mjs_mk_string` with copy does; with a NULL source the bytes of a long string are indeterminate. -/
theorem mkStringCopy_core (hr : Nat) (st : Store) (hi : InvS st) (p : Ptr) (len : Nat) (als : Nat → Alloc)
    (hsrc : p.isNull = true ∨ ∃ bs, load st.cmem st.owned p len = some bs)
    (hsz : st.owned.len + len + 11 < 2 ^ 48) (hal : ∀ i, AllocLow (als i)) (hgrant : als 1 ≠ none) :
    ∃ st' v bs, mkStringCopy hr st p len als = some (st', v) ∧ InvS st' ∧ Extends st st' ∧ bs.length = len ∧
      (p.isNull = false → load st.cmem st.owned p len = some bs) ∧ ReadsZ st' v bs ∧
      st'.foreign = st.foreign ∧ st'.cmem = st.cmem ∧ st'.owned.len ≤ st.owned.len + len + 11 ∧
      ((len ≤ 4 ∧ st' = st ∧ v = mkTagged (packLE (UInt8.ofNat len :: bs)) tagStringI ∧
          (p.isNull = true → bs = List.replicate len 0)) ∨
       (len = 5 ∧ st' = st ∧ v = mkTagged (packLE bs) tagString5 ∧ (p.isNull = true → bs = List.replicate len 0)) ∨
       (5 < len ∧ v = mkTagged st.owned.len tagStringO ∧
          st'.owned.content = st.owned.content ++ (encodeBytes len ++ bs ++ [0]))) := by
  by_cases h4 : len ≤ 4
  · obtain ⟨bs, hbs, hbl, hld, hnull⟩ :
        ∃ bs, inlineBytes st.cmem st.owned p len = some bs ∧
          bs.length = len ∧ (p.isNull = false → load st.cmem st.owned p len = some bs) ∧
          (p.isNull = true → bs = List.replicate len 0) := by
      by_cases hn : p.isNull = true
      · exact ⟨List.replicate len 0, by rw [inlineBytes, if_pos hn], by simp, by simp [hn], fun _ => rfl⟩
      · rcases hsrc with h | ⟨bs, h⟩
        · exact absurd h hn
        · exact ⟨bs, by rw [inlineBytes, if_neg hn]; exact h, load_length hi.1.1 h, fun _ => h, fun h => absurd h hn⟩
    subst hbl
    refine ⟨st, _, bs, ?_, hi, .refl st, rfl, hld, inline4_reads st bs h4, rfl, rfl, by omega,
      Or.inl ⟨h4, rfl, rfl, hnull⟩⟩
    simp only [mkStringCopy, if_pos h4, hbs, Option.bind_eq_bind, Option.bind_some]
  by_cases h5 : len = 5
  · obtain ⟨bs, hbs, hbl, hld, hnull⟩ :
        ∃ bs, inlineBytes st.cmem st.owned p len = some bs ∧
          bs.length = len ∧ (p.isNull = false → load st.cmem st.owned p len = some bs) ∧
          (p.isNull = true → bs = List.replicate len 0) := by
      by_cases hn : p.isNull = true
      · exact ⟨List.replicate len 0, by rw [inlineBytes, if_pos hn], by simp, by simp [hn], fun _ => rfl⟩
      · rcases hsrc with h | ⟨bs, h⟩
        · exact absurd h hn
        · exact ⟨bs, by rw [inlineBytes, if_neg hn]; exact h, load_length hi.1.1 h, fun _ => h, fun h => absurd h hn⟩
    subst hbl
    refine ⟨st, _, bs, ?_, hi, .refl st, rfl, hld, inline5_reads st bs h5, rfl, rfl, by omega,
      Or.inr (Or.inl ⟨h5, rfl, rfl, hnull⟩)⟩
    simp only [mkStringCopy, if_neg h4, if_pos h5, hbs, Option.bind_eq_bind, Option.bind_some]
  · have hlen : 0 < len := by omega
    -- the optional resize
    obtain ⟨m1, p1, he1, i1, c1, l1, hn1, hs1⟩ :
        ∃ m1 p1, (if st.owned.len + len > st.owned.size then
            (resize st.owned (st.owned.len + len + bufReserve) (als 0),
              if backedBy st.owned p then
                relocate p st.owned.addr (resize st.owned (st.owned.len + len + bufReserve) (als 0)).addr else p)
            else (st.owned, p)) = (m1, p1) ∧ InvL m1 ∧ m1.content = st.owned.content ∧ m1.len = st.owned.len ∧
            p1.isNull = p.isNull ∧
            (∀ bs, load st.cmem st.owned p len = some bs → load st.cmem m1 p1 len = some bs) := by
      by_cases hbig : st.owned.len + len > st.owned.size
      · obtain ⟨r1, r2, r3⟩ := resize_addr st.owned hi.1 (st.owned.len + len + bufReserve) (als 0) (hal 0)
        refine ⟨_, _, if_pos hbig, r1, r2, r3, relocate_isNull _ _ _ _, ?_⟩
        intro bs hbs
        exact relocate_load (e := []) hi.1.1 r1.1 hlen hbs (by rw [r2]; simp)
      · exact ⟨_, _, if_neg hbig, hi.1, rfl, rfl, rfl, fun _ h => h⟩
    have hsrc1 : p1.isNull = true ∨ ∃ bs, load st.cmem m1 p1 len = some bs := by
      rcases hsrc with h | ⟨bs, h⟩
      · exact Or.inl (by rw [hn1]; exact h)
      · exact Or.inr ⟨bs, hs1 bs h⟩
    obtain ⟨m2, bs, e2, i2, hbl, hbu, c2⟩ := embed_spec hr st.cmem m1 i1 p1 len (als 1) (als 2) hlen (by omega)
      (hal 1) (hal 2) (Or.inr hgrant) hsrc1
    have hk := llen_le_ten len (by omega)
    have hl2 : m2.len = st.owned.len + (llen len + len + 1) := by
      rw [len_of_content i1.1 i2.1 c2, l1]; simp [length_encodeBytes, hbl]; omega
    have hc' : m2.content = st.owned.content ++ (encodeBytes len ++ bs ++ [0]) := by rw [c2, c1]
    refine ⟨{ st with owned := m2 }, mkTagged st.owned.len tagStringO, bs, ?_, ⟨i2, hi.2⟩, ⟨⟨_, hc'⟩, ⟨[], by simp⟩, rfl⟩,
      hbl, ?_, ?_, rfl, rfl, by simp only; omega, Or.inr (Or.inr ⟨by omega, rfl, hc'⟩)⟩
    · simp only [mkStringCopy, if_neg h4, if_neg h5, he1, e2, Option.bind_eq_bind, Option.bind_some]
    · intro hn
      rcases hsrc with h | ⟨bs', h⟩
      · rw [h] at hn; exact absurd hn (by simp)
      · rw [hbu bs' (by rw [hn1]; exact hn) (hs1 bs' h)]; exact h
    · have hcl := content_length hi.1.1
      have := (owned_reads { st with owned := m2 } ⟨i2, hi.2⟩ st.owned.content bs [] (by omega) (by omega)
        (by rw [hbl]; simpa using hc')).2
      rw [hcl] at this
      exact this

end Mjs.Str
