import Verif.Model.Mbuf
import Verif.Spec.Bytes

namespace Mjs.Mbuf
open Mjs.Spec.Bytes (insertAt)

/-- The struct invariant promised in mbuf.h:48-52; a NULL buffer has size 0. -/
def Inv (m : Mbuf) : Prop := m.len ≤ m.mem.length ∧ (m.addr = 0 → m.mem = [])

/-- A successful `realloc` does not return NULL. -/
def AllocOk (a : Alloc) : Prop := ∀ r, a = some r → r.1 ≠ 0

theorem realloc_some {mem n al a mem'} (h : realloc mem n al = some (a, mem')) :
    mem'.length = n ∧ (∀ k, k ≤ n → k ≤ mem.length → mem'.take k = mem.take k) ∧ (AllocOk al → a ≠ 0) := by
  cases al with
  | none => simp [realloc] at h
  | some r =>
    obtain ⟨a', junk⟩ := r
    simp only [realloc, Option.some.injEq, Prod.mk.injEq] at h
    obtain ⟨rfl, rfl⟩ := h
    refine ⟨by simp; omega, ?_, fun hok => hok _ rfl⟩
    intro k hk1 hk2
    rw [List.take_append_of_le_length (by simp; omega), List.take_take, Nat.min_eq_left hk1]

theorem content_length {m : Mbuf} (h : Inv m) : m.content.length = m.len := by
  simp [Mbuf.content, Nat.min_eq_left h.1]

theorem memmove_eq {mem dst src n} (h1 : dst + n ≤ mem.length) (h2 : src + n ≤ mem.length) :
    memmove mem dst src n = some (mem.take dst ++ (mem.drop src).take n ++ mem.drop (dst + n)) := by
  simp [memmove, h1, h2]

theorem openGap_some (mem : List UInt8) (mlen off : Nat) (d : List UInt8) (h1 : off ≤ mlen)
    (h2 : mlen + d.length ≤ mem.length) :
    ∃ mem', openGap mem mlen off (some d) d.length = some mem' ∧ mem'.length = mem.length ∧
      mem'.take (mlen + d.length) = insertAt (mem.take mlen) off d := by
  have e1 : memmove mem (off + d.length) off (mlen - off) =
      some (mem.take (off + d.length) ++ (mem.drop off).take (mlen - off) ++ mem.drop (off + d.length + (mlen - off))) :=
    memmove_eq (by omega) (by omega)
  simp only [openGap, e1, Option.bind_eq_bind, Option.bind_some]
  generalize hM : mem.take (off + d.length) ++ (mem.drop off).take (mlen - off) ++
    mem.drop (off + d.length + (mlen - off)) = M
  have hMl : M.length = mem.length := by rw [← hM]; simp; omega
  have e2 : memcpyFrom M off d d.length = some (M.take off ++ d.take d.length ++ M.drop (off + d.length)) := by
    simp [memcpyFrom]; omega
  refine ⟨_, e2, by simp; omega, ?_⟩
  have hMtake : M.take off = mem.take off := by
    rw [← hM, List.append_assoc, List.take_append_of_le_length (by simp; omega), List.take_take,
      Nat.min_eq_left (by omega)]
  have hMdrop : M.drop (off + d.length) = (mem.drop off).take (mlen - off) ++ mem.drop (off + d.length + (mlen - off)) := by
    rw [← hM, List.append_assoc]
    have hl : (mem.take (off + d.length)).length = off + d.length := by simp; omega
    exact List.drop_left' hl
  rw [hMtake, hMdrop, List.take_length, insertAt]
  have hl3 : (mem.take off).length = off := by simp; omega
  have hl4 : ((mem.drop off).take (mlen - off)).length = mlen - off := by simp; omega
  have : mem.take off ++ d ++ ((mem.drop off).take (mlen - off) ++ mem.drop (off + d.length + (mlen - off))) =
      (mem.take off ++ d ++ (mem.drop off).take (mlen - off)) ++ mem.drop (off + d.length + (mlen - off)) := by
    simp
  rw [this, List.take_left' (by simp; omega)]
  rw [List.take_take, Nat.min_eq_left h1, List.drop_take]

theorem openGap_none (mem : List UInt8) (mlen off len : Nat) (h1 : off ≤ mlen) (h2 : mlen + len ≤ mem.length) :
    ∃ mem' gap, openGap mem mlen off none len = some mem' ∧ mem'.length = mem.length ∧ gap.length = len ∧
      mem'.take (mlen + len) = insertAt (mem.take mlen) off gap := by
  have e1 : memmove mem (off + len) off (mlen - off) =
      some (mem.take (off + len) ++ (mem.drop off).take (mlen - off) ++ mem.drop (off + len + (mlen - off))) :=
    memmove_eq (by omega) (by omega)
  refine ⟨_, (mem.drop off).take len, by simp only [openGap, e1]; rfl, by simp; omega, by simp; omega, ?_⟩
  rw [List.take_left' (by simp; omega), insertAt, List.take_take, Nat.min_eq_left h1, List.drop_take]
  congr 1
  rw [List.take_add]

theorem grow_none {hr mem n al1 al2} (h : grow hr mem n al1 al2 = none) : al1 = none := by
  cases al1 with
  | none => rfl
  | some r => simp [grow, realloc] at h

theorem grow_some {hr mem n al1 al2 a mem0} (h : grow hr mem n al1 al2 = some (a, mem0)) (k : Nat)
    (hk : k ≤ mem.length) (hkn : k ≤ n) (h1 : AllocOk al1) (h2 : AllocOk al2) :
    n ≤ mem0.length ∧ mem0.take k = mem.take k ∧ a ≠ 0 := by
  have hgrow : n ≤ newSize hr n := by unfold newSize; split <;> omega
  unfold grow at h
  split at h
  · split at h
    · obtain ⟨e1, e2, e3⟩ := realloc_some h
      exact ⟨by omega, e2 _ hkn hk, e3 h2⟩
    · exact absurd h (by simp)
  · rename_i r hr1
    cases h
    obtain ⟨e1, e2, e3⟩ := realloc_some hr1
    exact ⟨by omega, e2 _ (by omega) hk, e3 h1⟩

/-- What `mbuf_insert` does with real data. -/
theorem insert_spec (hr : Nat) (m : Mbuf) (hm : Inv m) (off : Nat) (d : List UInt8) (al1 al2 : Alloc)
    (hoff : off ≤ m.len) (hsz : m.len + d.length < 2 ^ 52) (h1 : AllocOk al1) (h2 : AllocOk al2) :
    ∃ m' r, insert hr m off (some d) d.length al1 al2 = some (m', r) ∧ Inv m' ∧
      ((r = d.length ∧ m'.content = insertAt m.content off d) ∨
       (r = 0 ∧ m' = m ∧ ((2 ^ 64 - 1) - m.addr < d.length ∨ (m.size < m.len + d.length ∧ al1 = none)))) := by
  obtain ⟨hl, ha⟩ := hm
  have hmod : (m.len + d.length) % 2 ^ 64 = m.len + d.length := Nat.mod_eq_of_lt (by omega)
  unfold insert
  rw [if_neg (by simp only [Mbuf.size]; omega)]
  by_cases hov : (2 ^ 64 - 1) - m.addr < d.length
  · rw [if_pos hov]
    exact ⟨m, 0, rfl, ⟨hl, ha⟩, Or.inr ⟨rfl, rfl, Or.inl hov⟩⟩
  rw [if_neg hov]
  simp only [hmod]
  by_cases hfit : m.len + d.length ≤ m.size
  · rw [if_pos hfit]
    obtain ⟨mem', he, hlen', hc⟩ := openGap_some m.mem m.len off d hoff hfit
    simp only [he, Option.bind_eq_bind, Option.bind_some]
    refine ⟨_, _, rfl, ⟨by simp only [Mbuf.size] at hfit; simp; omega, ?_⟩, Or.inl ⟨rfl, hc⟩⟩
    intro h0
    have := ha h0
    simp [this] at hlen'
    exact hlen'
  · rw [if_neg hfit]
    cases hat : grow hr m.mem (m.len + d.length) al1 al2 with
    | none =>
      exact ⟨m, 0, rfl, ⟨hl, ha⟩, Or.inr ⟨rfl, rfl, Or.inr ⟨by omega, grow_none hat⟩⟩⟩
    | some r =>
      obtain ⟨a, mem0⟩ := r
      have key := grow_some hat m.len hl (by omega) h1 h2
      obtain ⟨k1, k2, k3⟩ := key
      obtain ⟨mem', he, hlen', hc⟩ := openGap_some mem0 m.len off d hoff k1
      simp only [he, Option.bind_eq_bind, Option.bind_some]
      refine ⟨_, _, rfl, ⟨by simp only; omega, fun h0 => absurd h0 k3⟩, Or.inl ⟨rfl, ?_⟩⟩
      simp only [Mbuf.content]
      rw [hc, k2]

/-- What `mbuf_insert` does with a NULL data pointer. -/
theorem insertGap_spec (hr : Nat) (m : Mbuf) (hm : Inv m) (off len : Nat) (al1 al2 : Alloc)
    (hoff : off ≤ m.len) (hsz : m.len + len < 2 ^ 52) (h1 : AllocOk al1) (h2 : AllocOk al2) :
    ∃ m' r, insert hr m off none len al1 al2 = some (m', r) ∧ Inv m' ∧
      ((r = len ∧ ∃ gap : List UInt8, gap.length = len ∧ m'.content = insertAt m.content off gap) ∨
       (r = 0 ∧ m' = m ∧ ((2 ^ 64 - 1) - m.addr < len ∨ (m.size < m.len + len ∧ al1 = none)))) := by
  obtain ⟨hl, ha⟩ := hm
  have hmod : (m.len + len) % 2 ^ 64 = m.len + len := Nat.mod_eq_of_lt (by omega)
  unfold insert
  rw [if_neg (by simp only [Mbuf.size]; omega)]
  by_cases hov : (2 ^ 64 - 1) - m.addr < len
  · rw [if_pos hov]
    exact ⟨m, 0, rfl, ⟨hl, ha⟩, Or.inr ⟨rfl, rfl, Or.inl hov⟩⟩
  rw [if_neg hov]
  simp only [hmod]
  by_cases hfit : m.len + len ≤ m.size
  · rw [if_pos hfit]
    obtain ⟨mem', gap, he, hlen', hg, hc⟩ := openGap_none m.mem m.len off len hoff hfit
    simp only [he, Option.bind_eq_bind, Option.bind_some]
    refine ⟨_, _, rfl, ⟨by simp only [Mbuf.size] at hfit; simp; omega, ?_⟩, Or.inl ⟨rfl, gap, hg, hc⟩⟩
    intro h0
    have := ha h0
    simp [this] at hlen'
    exact hlen'
  · rw [if_neg hfit]
    cases hat : grow hr m.mem (m.len + len) al1 al2 with
    | none =>
      exact ⟨m, 0, rfl, ⟨hl, ha⟩, Or.inr ⟨rfl, rfl, Or.inr ⟨by omega, grow_none hat⟩⟩⟩
    | some r =>
      obtain ⟨a, mem0⟩ := r
      have key := grow_some hat m.len hl (by omega) h1 h2
      obtain ⟨k1, k2, k3⟩ := key
      obtain ⟨mem', gap, he, hlen', hg, hc⟩ := openGap_none mem0 m.len off len hoff k1
      simp only [he, Option.bind_eq_bind, Option.bind_some]
      refine ⟨_, _, rfl, ⟨by simp only; omega, fun h0 => absurd h0 k3⟩, Or.inl ⟨rfl, gap, hg, ?_⟩⟩
      simp only [Mbuf.content]
      rw [hc, k2]

theorem resize_spec (m : Mbuf) (hm : Inv m) (n : Nat) (al : Alloc) (h : AllocOk al) :
    Inv (resize m n al) ∧ (resize m n al).content = m.content := by
  obtain ⟨hl, ha⟩ := hm
  unfold resize
  split
  · rename_i hc
    cases hr : realloc m.mem n al with
    | none =>
      simp only
      split
      · exact ⟨⟨hl, ha⟩, rfl⟩
      · have h0 : n = 0 := by omega
        have hlen0 : m.len = 0 := by
          rcases hc with hc | hc
          · simp only [Mbuf.size] at hc; omega
          · omega
        exact ⟨⟨by simp [hlen0], by simp⟩, by simp [Mbuf.content, hlen0]⟩
    | some r =>
      obtain ⟨a, mem'⟩ := r
      obtain ⟨e1, e2, e3⟩ := realloc_some hr
      have hn : m.len ≤ n := by
        rcases hc with hc | hc
        · simp only [Mbuf.size] at hc; omega
        · exact hc.2
      exact ⟨⟨by simp; omega, fun h0 => absurd h0 (e3 h)⟩, e2 _ hn hl⟩
  · exact ⟨⟨hl, ha⟩, rfl⟩

theorem remove_spec (m : Mbuf) (hm : Inv m) (n : Nat) :
    ∃ m', remove m n = some m' ∧ Inv m' ∧ m'.content = if n ≤ m.len then m.content.drop n else m.content := by
  obtain ⟨hl, ha⟩ := hm
  unfold remove
  split
  · rename_i hc
    rw [memmove_eq (by omega) (by omega)]
    refine ⟨_, rfl, ⟨by simp; omega, ?_⟩, ?_⟩
    · intro h0; simp [ha h0]
    · rw [if_pos hc.2]
      simp only [Mbuf.content, List.take_zero, List.nil_append, Nat.zero_add]
      rw [List.take_left' (by simp; omega), List.drop_take]
  · rename_i hc
    refine ⟨m, rfl, ⟨hl, ha⟩, ?_⟩
    split
    · have : n = 0 := by omega
      simp [this]
    · rfl

end Mjs.Mbuf
