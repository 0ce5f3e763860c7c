import Verif.Model.Str
import Verif.Lemmas.Mbuf
import Verif.Lemmas.VarintDec
import Verif.Lemmas.Value

namespace Mjs.Str
open Mjs Mjs.Mbuf Mjs.Varint

/-! ### Blocks -/

/-- Addresses of blocks are not NULL and lie in the lower half of the address space. -/
def AllocLow (a : Alloc) : Prop := ∀ r, a = some r → r.1 ≠ 0 ∧ r.1 < 2 ^ 63

theorem AllocLow.ok {a : Alloc} (h : AllocLow a) : AllocOk a := fun r hr => (h r hr).1

/-- Well-formed buffer in the lower half of the address space. -/
def InvL (m : Mbuf) : Prop := Mbuf.Inv m ∧ m.addr < 2 ^ 63

theorem overwrite_take (xs : List UInt8) (l off : Nat) (bs : List UInt8) (hl : l ≤ xs.length)
    (h : off + bs.length ≤ l) :
    (xs.take off ++ bs ++ xs.drop (off + bs.length)).take l =
      (xs.take l).take off ++ bs ++ (xs.take l).drop (off + bs.length) := by
  have hP : (xs.take off ++ bs).length = off + bs.length := by simp; omega
  rw [List.take_append, hP, List.take_of_length_le (by omega), List.take_take, Nat.min_eq_left (by omega),
    List.drop_take]

theorem store_spec (m : Mbuf) (hm : Mbuf.Inv m) (off : Nat) (bs : List UInt8) (h : off + bs.length ≤ m.len) :
    ∃ m', store m off bs = some m' ∧ Mbuf.Inv m' ∧ m'.len = m.len ∧ m'.addr = m.addr ∧
      m'.content = m.content.take off ++ bs ++ m.content.drop (off + bs.length) := by
  obtain ⟨hl, ha⟩ := hm
  have e : memcpyFrom m.mem off bs bs.length =
      some (m.mem.take off ++ bs ++ m.mem.drop (off + bs.length)) := by
    simp [memcpyFrom]; omega
  refine ⟨{ m with mem := m.mem.take off ++ bs ++ m.mem.drop (off + bs.length) }, by simp [store, e],
    ⟨by simp; omega, ?_⟩, rfl, rfl, ?_⟩
  · intro h0
    have := ha h0
    simp only [this, List.length_nil] at hl
    have h1 : off = 0 := by omega
    have h2 : bs = [] := List.length_eq_zero_iff.1 (by omega)
    simp [this, h1, h2]
  · exact overwrite_take m.mem m.len off bs hl h

theorem resize_addr (m : Mbuf) (hm : InvL m) (n : Nat) (al : Alloc) (h : AllocLow al) :
    InvL (resize m n al) ∧ (resize m n al).content = m.content ∧ (resize m n al).len = m.len := by
  obtain ⟨h1, h2⟩ := resize_spec m hm.1 n al h.ok
  refine ⟨⟨h1, ?_⟩, h2, ?_⟩
  · unfold resize
    split
    · split
      · split
        · exact hm.2
        · exact Nat.pow_pos (by decide)
      · rename_i a mem' hr
        cases al with
        | none => simp [realloc] at hr
        | some r =>
          obtain ⟨a', j⟩ := r
          simp only [realloc, Option.some.injEq, Prod.mk.injEq] at hr
          rw [← hr.1]
          exact (h _ rfl).2
    · exact hm.2
  · unfold resize
    split
    · split
      · split <;> rfl
      · rfl
    · rfl

theorem insert_addr {hr : Nat} {m m' : Mbuf} {off len r : Nat} {data : Option (List UInt8)} {al1 al2 : Alloc}
    (he : Mbuf.insert hr m off data len al1 al2 = some (m', r)) (hm : m.addr < 2 ^ 63) (h1 : AllocLow al1)
    (h2 : AllocLow al2) : m'.addr < 2 ^ 63 := by
  unfold Mbuf.insert at he
  split at he
  · exact absurd he (by simp)
  split at he
  · cases he; exact hm
  simp only at he
  split at he
  · simp only [Option.bind_eq_bind, Option.bind_eq_some_iff] at he
    obtain ⟨mem', _, he⟩ := he
    cases he; exact hm
  · split at he
    · cases he; exact hm
    · rename_i a mem0 hg
      simp only [Option.bind_eq_bind, Option.bind_eq_some_iff] at he
      obtain ⟨mem', _, he⟩ := he
      cases he
      simp only
      unfold grow at hg
      split at hg
      · split at hg
        · cases al2 with
          | none => simp [realloc] at hg
          | some r =>
            obtain ⟨a', j⟩ := r
            simp only [realloc, Option.some.injEq, Prod.mk.injEq] at hg
            rw [← hg.1]; exact (h2 _ rfl).2
        · exact absurd hg (by simp)
      · rename_i r hr1
        cases hg
        cases al1 with
        | none => simp [realloc] at hr1
        | some r =>
          obtain ⟨a', j⟩ := r
          simp only [realloc, Option.some.injEq, Prod.mk.injEq] at hr1
          rw [← hr1.1]; exact (h1 _ rfl).2

theorem insertGap_addr (hr : Nat) (m : Mbuf) (hm : InvL m) (len : Nat) (al1 al2 : Alloc)
    (hsz : m.len + len < 2 ^ 52) (h1 : AllocLow al1) (h2 : AllocLow al2)
    (hroom : m.len + len ≤ m.size ∨ al1 ≠ none) :
    ∃ m' gap, insert hr m m.len none len al1 al2 = some (m', len) ∧ InvL m' ∧ gap.length = len ∧
      m'.content = m.content ++ gap := by
  obtain ⟨m', r, he, hi, h⟩ := insertGap_spec hr m hm.1 m.len len al1 al2 (Nat.le_refl _) hsz h1.ok h2.ok
  have haddr : m'.addr < 2 ^ 63 := insert_addr he hm.2 h1 h2
  rcases h with ⟨e1, gap, e2, e3⟩ | ⟨_, _, e | ⟨e, e'⟩⟩
  · subst e1
    refine ⟨m', gap, he, ⟨hi, haddr⟩, e2, ?_⟩
    have hcl := content_length hm.1
    rw [e3, Mjs.Spec.Bytes.insertAt, List.take_of_length_le (by omega), List.drop_of_length_le (by omega),
      List.append_nil]
  · have := hm.2; omega
  · rcases hroom with h | h
    · omega
    · exact absurd e' h

/-! ### Loads -/

theorem readC_length {cmem a n bs} (h : readC cmem a n = some bs) : bs.length = n := by
  induction n generalizing a bs with
  | zero => simp [readC] at h; subst h; rfl
  | succ n ih =>
    simp only [readC, Option.bind_eq_bind, Option.bind_eq_some_iff] at h
    obtain ⟨b, _, bs', h2, h3⟩ := h
    cases h3
    simp [ih h2]

theorem load_length {cmem m p n bs} (hm : Mbuf.Inv m) (h : load cmem m p n = some bs) : bs.length = n := by
  cases p with
  | null => simp only [load] at h; split at h <;> simp_all
  | ext a => exact readC_length h
  | own a =>
    simp only [load] at h
    split at h
    · cases h
      have := content_length hm
      simp; omega
    · exact absurd h (by simp)
  | loc b =>
    simp only [load] at h
    split at h
    · cases h; simp; omega
    · exact absurd h (by simp)

/-- Reading at an unchanged pointer from a block whose content only grew, or whose pointer was relocated with it. -/
theorem load_mono {cmem m m' p n bs e} (hm : Mbuf.Inv m) (hm' : Mbuf.Inv m')
    (h : load cmem m p n = some bs) (hc : m'.content = m.content ++ e) :
    load cmem m' (match p with | .own a => .own (a - m.addr + m'.addr) | q => q) n = some bs := by
  have hl := content_length hm
  have hl' := content_length hm'
  have hlen : m'.len = m.len + e.length := by rw [← hl', hc, List.length_append, hl]
  cases p with
  | null => exact h
  | ext a => exact h
  | loc b => exact h
  | own a =>
    simp only [load] at h ⊢
    split at h
    · rename_i hc1
      cases h
      rw [if_pos (by omega)]
      rw [hc, show a - m.addr + m'.addr - m'.addr = a - m.addr by omega]
      rw [List.drop_append_of_le_length (by omega), List.take_append_of_le_length (by simp; omega)]
    · exact absurd h (by simp)

theorem load_mono_same {cmem m m' p n bs e} (hm : Mbuf.Inv m) (hm' : Mbuf.Inv m')
    (h : load cmem m p n = some bs) (hc : m'.content = m.content ++ e) (ha : m'.addr = m.addr) :
    load cmem m' p n = some bs := by
  have := load_mono hm hm' h hc
  cases p with
  | own a =>
    simp only [load] at h
    split at h
    · rename_i hc1
      simp only [ha] at this
      rwa [Nat.sub_add_cancel hc1.1] at this
    · exact absurd h (by simp)
  | _ => exact this

/-- Relocation of a readable, non-empty source. -/
theorem relocate_load {cmem m m' p n bs e} (hm : Mbuf.Inv m) (hm' : Mbuf.Inv m') (hn : 0 < n)
    (h : load cmem m p n = some bs) (hc : m'.content = m.content ++ e) :
    load cmem m' (if backedBy m p then relocate p m.addr m'.addr else p) n = some bs := by
  have := load_mono hm hm' h hc
  cases p with
  | own a =>
    have hb : backedBy m (.own a) = true := by
      simp only [load] at h
      split at h
      · rename_i hc1; simp [backedBy]; omega
      · exact absurd h (by simp)
    simp only [hb, if_true, relocate]
    exact this
  | _ => simpa [backedBy] using this

theorem relocate_isNull (p : Ptr) (a b : Nat) (c : Bool) :
    (if c then relocate p a b else p).isNull = p.isNull := by
  cases c <;> cases p <;> rfl

/-! ### Embedding -/

theorem take_len_append {α} (a b : List α) : (a ++ b).take a.length = a := List.take_left' rfl
theorem drop_len_append {α} (a b : List α) : (a ++ b).drop a.length = b := List.drop_left' rfl

/-- The bytes the source provides: NULL leaves the room as it is. -/
def SrcOk (cmem : Nat → Option UInt8) (m : Mbuf) (p : Ptr) (len : Nat) (bs : List UInt8) : Prop :=
  bs.length = len ∧ (p.isNull = true ∨ load cmem m p len = some bs)

theorem embed_spec (hr : Nat) (cmem) (m : Mbuf) (hm : InvL m) (p : Ptr) (len : Nat) (al1 al2 : Alloc)
    (hlen : 0 < len) (hsz : m.len + len + 11 < 2 ^ 52) (h1 : AllocLow al1) (h2 : AllocLow al2)
    (hroom : m.len + (llen len + len + 1) ≤ m.size ∨ al1 ≠ none)
    (hsrc : p.isNull = true ∨ ∃ bs, load cmem m p len = some bs) :
    ∃ m' bs, embedString hr cmem m m.len p len true al1 al2 = some m' ∧ InvL m' ∧ bs.length = len ∧
      (∀ bs', p.isNull = false → load cmem m p len = some bs' → bs = bs') ∧
      m'.content = m.content ++ (encodeBytes len ++ bs ++ [0]) := by
  have hk : llen len ≤ 10 := llen_le_ten len (by omega)
  have henc : (encode len (llen len)).1 = encodeBytes len := by
    rw [encode_full len (llen len) (Nat.le_refl _)]
  obtain ⟨m1, gap, e1, i1, hg, c1⟩ := insertGap_addr hr m hm (llen len + len + 1) al1 al2 (by omega) h1 h2 hroom
  have hl := content_length hm.1
  have hl1 := content_length i1.1
  have hlen1 : m1.len = m.len + (llen len + len + 1) := by rw [← hl1, c1, List.length_append, hl, hg]
  -- split the gap
  obtain ⟨g1, g2, g3, hgs, hg1, hg2, hg3⟩ :
      ∃ g1 g2 g3 : List UInt8, gap = g1 ++ (g2 ++ g3) ∧ g1.length = llen len ∧ g2.length = len ∧ g3.length = 1 := by
    refine ⟨gap.take (llen len), (gap.drop (llen len)).take len, (gap.drop (llen len)).drop len, ?_, ?_, ?_, ?_⟩
    · rw [List.take_append_drop, List.take_append_drop]
    · simp; omega
    · simp; omega
    · simp; omega
  -- the length
  obtain ⟨m2, e2, i2, l2, a2, c2⟩ := store_spec m1 i1.1 m.len (encodeBytes len)
    (by rw [length_encodeBytes]; omega)
  have c2' : m2.content = m.content ++ (encodeBytes len ++ (g2 ++ g3)) := by
    rw [c2, c1, ← hl, take_len_append, List.append_assoc]
    congr 2
    rw [← List.drop_drop, drop_len_append, hgs, length_encodeBytes, ← hg1, drop_len_append]
  -- the bytes
  have key : ∃ m3 bs, copySource cmem m2 (m.len + llen len)
        (if backedBy m p then relocate p m.addr m1.addr else p) len = some m3 ∧ Mbuf.Inv m3 ∧ m3.len = m1.len ∧ m3.addr = m1.addr ∧
      bs.length = len ∧ (∀ bs', p.isNull = false → load cmem m p len = some bs' → bs = bs') ∧
      m3.content = m.content ++ (encodeBytes len ++ (bs ++ g3)) := by
    rw [copySource, relocate_isNull]
    by_cases hn : p.isNull = true
    · rw [if_pos hn]
      exact ⟨m2, g2, rfl, i2, l2, a2, hg2, by simp [hn], c2'⟩
    · rw [if_neg hn]
      obtain ⟨bs, hbs⟩ : ∃ bs, load cmem m p len = some bs := by
        rcases hsrc with h | h
        · exact absurd h hn
        · exact h
      have hbl := load_length hm.1 hbs
      have := relocate_load hm.1 i2 hlen hbs c2'
      rw [a2] at this
      rw [this]
      simp only [Option.bind_some]
      obtain ⟨m3, e3, i3, l3, a3, c3⟩ := store_spec m2 i2 (m.len + llen len) bs (by omega)
      refine ⟨m3, bs, e3, i3, by omega, by rw [a3, a2], hbl, ?_, ?_⟩
      · intro bs' _ h'; rw [hbs] at h'; exact Option.some.inj h'
      · rw [c3, c2', hbl]
        have ee : m.content ++ (encodeBytes len ++ (g2 ++ g3)) = (m.content ++ encodeBytes len) ++ (g2 ++ g3) := by simp
        have el : m.len + llen len = (m.content ++ encodeBytes len).length := by
          rw [List.length_append, length_encodeBytes, hl]
        rw [ee, el, take_len_append, ← List.drop_drop, drop_len_append, ← hg2, drop_len_append]
        simp
  obtain ⟨m3, bs, e3, i3, l3, a3, hb, hbu, c3⟩ := key
  obtain ⟨m4, e4, i4, l4, a4, c4⟩ := store_spec m3 i3 (m.len + (llen len + len + 1) - 1) [0]
    (by simp; omega)
  refine ⟨m4, bs, ?_, ⟨i4, by rw [a4, a3]; exact i1.2⟩, hb, hbu, ?_⟩
  · simp only [embedString, if_true, e1, henc, Option.bind_eq_bind, Option.bind_some, e2, e3]
    exact e4
  · rw [c4, c3]
    have ee : m.content ++ (encodeBytes len ++ (bs ++ g3)) = (m.content ++ encodeBytes len ++ bs) ++ g3 := by simp
    have el : m.len + (llen len + len + 1) - 1 = (m.content ++ encodeBytes len ++ bs).length := by
      rw [List.length_append, List.length_append, length_encodeBytes, hl, hb]; omega
    rw [ee, el, take_len_append, ← List.drop_drop, drop_len_append]
    have : g3.drop ([0] : List UInt8).length = ([] : List UInt8) := List.drop_of_length_le (by simp; omega)
    rw [this]
    simp

end Mjs.Str
