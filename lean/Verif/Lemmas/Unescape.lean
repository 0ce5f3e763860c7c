import Verif.Model.Unescape
import Verif.Spec.Escape
import Verif.Lemmas.Str

namespace Mjs.Str
open Mjs Mjs.Mbuf Mjs.Varint Mjs.Spec.Escape

theorem digit_hex {c : UInt8} {x : Nat} (h : digit c = some x) : isxdigit c = true ∧ hex c = x := by
  unfold digit at h
  simp only [isxdigit, hex, UInt8.le_iff_toNat_le, Bool.or_eq_true, Bool.and_eq_true, decide_eq_true_eq]
  simp only [UInt8.reduceToNat]
  repeat' split at h
  all_goals cases h
  · exact ⟨by omega, by rw [if_pos (by omega)]⟩
  · exact ⟨by omega, by rw [if_neg (by omega), if_pos (by omega)]; omega⟩
  · exact ⟨by omega, by rw [if_neg (by omega), if_neg (by omega), if_pos (by omega)]; omega⟩

theorem letter_step {c b : UInt8} (h : letter c = some b) :
    (c = 34 ∨ c = 39 ∨ c = 10) ∧ b = c ∨
    ¬ (c = 34 ∨ c = 39 ∨ c = 10) ∧ ∀ (mem : List UInt8) i, mem[i]? = some c →
      ∃ code, nextesc mem i = some (code, i + 1) ∧ code ≠ -1 ∧ runeByte code = b := by
  unfold letter at h
  split at h
  all_goals cases h
  all_goals first
    | (left; exact ⟨by decide, rfl⟩)
    | (right
       refine ⟨by decide, fun mem i hm => ?_⟩
       simp only [nextesc, hm, Option.bind_some]
       exact ⟨_, rfl, by decide, by decide⟩)

theorem getElem?_at {α} (pre : List α) (c : α) (post : List α) : (pre ++ c :: post)[pre.length]? = some c := by
  rw [List.getElem?_append_right (Nat.le_refl _), Nat.sub_self]; rfl

theorem getElem?_at1 {α} (pre : List α) (a c : α) (post : List α) : (pre ++ a :: c :: post)[pre.length + 1]? = some c := by
  rw [List.getElem?_append_right (by omega), show pre.length + 1 - pre.length = 1 by omega]; rfl

theorem unescLoop_step {mem : List UInt8} {len i j : Nat} {out : List UInt8} (hi : i < len)
    (h : unescStep mem len i = some (out, j)) : unescLoop mem len i = (unescLoop mem len j).map (out ++ ·) := by
  rw [unescLoop, if_pos hi]
  split
  · rename_i h'; rw [h] at h'; exact absurd h' (by simp)
  · rename_i h'; rw [h] at h'; cases h'; rfl

theorem unescLoop_denotes {body t : List UInt8} (h : Denotes body t) (pre rest : List UInt8) :
    unescLoop (pre ++ body ++ rest) (pre.length + body.length) pre.length = some t := by
  induction h generalizing pre with
  | nil => rw [unescLoop, if_neg (by simp)]
  | @plain c s t hc _ ih =>
    have e : unescStep (pre ++ c :: s ++ rest) (pre.length + (c :: s).length) pre.length = some ([c], pre.length + 1) := by
      simp only [unescStep, List.append_assoc, List.cons_append, getElem?_at, Option.bind_some]
      rw [if_neg (by simp [hc])]
    rw [unescLoop_step (by simp) e]
    have := ih (pre ++ [c])
    simp only [List.length_append, List.length_singleton, List.append_assoc, List.singleton_append] at this
    rw [show pre.length + (c :: s).length = pre.length + (1 + s.length) by simp; omega]
    simp only [List.append_assoc, List.cons_append] at this ⊢
    rw [← Nat.add_assoc, this]
    rfl
  | @escape c b s t hc _ ih =>
    have e : unescStep (pre ++ 92 :: c :: s ++ rest) (pre.length + (92 :: c :: s).length) pre.length =
        some ([b], pre.length + 2) := by
      have h1 : (pre ++ 92 :: c :: (s ++ rest))[pre.length + 1]? = some c := getElem?_at1 _ _ _ _
      simp only [unescStep, List.append_assoc, List.cons_append, getElem?_at, Option.bind_some]
      rw [if_pos (by simp), h1, Option.bind_some]
      rcases letter_step hc with ⟨h2, rfl⟩ | ⟨h2, h3⟩
      · rw [if_pos h2]
      · obtain ⟨code, h4, h5, h6⟩ := h3 _ _ h1
        rw [if_neg h2, h4]
        simp only [Option.map_some]
        rw [if_neg h5, h6]
    rw [unescLoop_step (by simp) e]
    have := ih (pre ++ [92, c])
    simp only [List.length_append, List.length_cons, List.length_nil, List.append_assoc, List.cons_append,
      List.nil_append] at this
    rw [show pre.length + (92 :: c :: s).length = pre.length + (0 + 1 + 1) + s.length by simp; omega]
    simp only [List.append_assoc, List.cons_append]
    rw [show pre.length + 2 = pre.length + (0 + 1 + 1) by omega, this]
    rfl
  | @hex c d x y s t hx hy _ ih =>
    obtain ⟨x1, x2⟩ := digit_hex hx
    obtain ⟨y1, y2⟩ := digit_hex hy
    have e : unescStep (pre ++ 92 :: 120 :: c :: d :: s ++ rest) (pre.length + (92 :: 120 :: c :: d :: s).length) pre.length =
        some ([UInt8.ofNat (16 * x + y)], pre.length + 4) := by
      have h1 : (pre ++ 92 :: 120 :: c :: d :: (s ++ rest))[pre.length + 1]? = some 120 := getElem?_at1 _ _ _ _
      have h2 : (pre ++ 92 :: 120 :: c :: d :: (s ++ rest))[pre.length + 1 + 1]? = some c := by
        rw [List.getElem?_append_right (by omega), show pre.length + 1 + 1 - pre.length = 2 by omega]; rfl
      have h3 : (pre ++ 92 :: 120 :: c :: d :: (s ++ rest))[pre.length + 1 + 1 + 1]? = some d := by
        rw [List.getElem?_append_right (by omega), show pre.length + 1 + 1 + 1 - pre.length = 3 by omega]; rfl
      have h4 : nextesc (pre ++ 92 :: 120 :: c :: d :: (s ++ rest)) (pre.length + 1) =
          some (((x * 16 + y : Nat) : Int), pre.length + 1 + 3) := by
        simp only [nextesc, h1, Option.bind_some]
        rw [if_neg (by decide), if_neg (by decide), if_neg (by decide), if_neg (by decide), if_neg (by decide),
          if_neg (by decide), if_neg (by decide), if_neg (by decide), if_neg (by decide), if_neg (by decide), if_pos trivial]
        simp only [hexRun, h2, h3, Option.bind_some, x1, y1, if_true, x2, y2, Nat.zero_mul, Nat.zero_add, Option.map_some, escHex]
      simp only [unescStep, List.append_assoc, List.cons_append, getElem?_at, Option.bind_some]
      rw [if_pos (by simp), h1, Option.bind_some, if_neg (by decide), h4]
      simp only [Option.map_some]
      rw [if_neg (by omega)]
      congr 3
      unfold runeByte
      apply UInt8.toNat.inj
      rw [UInt8.toNat_ofNat', UInt8.toNat_ofNat']
      omega
    rw [unescLoop_step (by simp) e]
    have := ih (pre ++ [92, 120, c, d])
    simp only [List.length_append, List.length_cons, List.length_nil, List.append_assoc, List.cons_append,
      List.nil_append] at this
    rw [show pre.length + (92 :: 120 :: c :: d :: s).length = pre.length + (0 + 1 + 1 + 1 + 1) + s.length by simp; omega]
    simp only [List.append_assoc, List.cons_append]
    rw [show pre.length + 4 = pre.length + (0 + 1 + 1 + 1 + 1) by omega, this]
    rfl

/-! ### Every body -/

theorem hexRun_some {mem : List UInt8} {i acc n : Nat} {q : Nat} {c : UInt8} (hq : mem[q]? = some c) (hx : isxdigit c = false)
    (hi : i ≤ q) : ∃ r, hexRun mem i acc n = some r ∧ (∀ m, r = some m → i + n ≤ q) := by
  induction n generalizing i acc with
  | zero => exact ⟨_, rfl, fun m _ => by omega⟩
  | succ n ih =>
    have hlt : q < mem.length := (List.getElem?_eq_some_iff.1 hq).1
    have hi' : i < mem.length := by omega
    simp only [hexRun, List.getElem?_eq_getElem hi', Option.bind_some]
    by_cases hd : isxdigit mem[i] = true
    · rw [if_pos hd]
      have hne : i ≠ q := by
        rintro rfl
        rw [List.getElem?_eq_getElem hi', Option.some.injEq] at hq
        rw [hq, hx] at hd
        exact absurd hd (by simp)
      obtain ⟨r, h1, h2⟩ := ih (i := i + 1) (acc := acc * 16 + hex mem[i]) (by omega)
      exact ⟨r, h1, fun m hm => by have := h2 m hm; omega⟩
    · rw [if_neg hd]
      exact ⟨none, rfl, fun m hm => absurd hm (by simp)⟩

/-- Inside a literal followed by a byte that is not a hex digit (the closing quote), `nextesc` stays in the text and
consumes at most one byte beyond the literal. -/
theorem nextesc_some {mem : List UInt8} {i len : Nat} {c : UInt8} (hq : mem[len]? = some c) (hx : isxdigit c = false)
    (hi : i < len) : ∃ code j, nextesc mem i = some (code, j) := by
  have hlt : len < mem.length := (List.getElem?_eq_some_iff.1 hq).1
  have hi' : i < mem.length := by omega
  obtain ⟨r4, h4, _⟩ := hexRun_some (acc := 0) (n := 4) hq hx (show i + 1 ≤ len by omega)
  obtain ⟨r2, h2, _⟩ := hexRun_some (acc := 0) (n := 2) hq hx (show i + 1 ≤ len by omega)
  have h : (nextesc mem i).isSome = true := by
    simp only [nextesc, List.getElem?_eq_getElem hi', Option.bind_some, h4, h2, Option.map_some,
      apply_ite Option.isSome, Option.isSome_some, ite_self]
  obtain ⟨⟨code, j⟩, h⟩ := Option.isSome_iff_exists.1 h
  exact ⟨code, j, h⟩

theorem unescLoop_total {mem : List UInt8} {len : Nat} {c : UInt8} (hq : mem[len]? = some c) (hx : isxdigit c = false)
    (i : Nat) : ∃ t, unescLoop mem len i = some t ∧ t.length ≤ len - i := by
  have hlt : len < mem.length := (List.getElem?_eq_some_iff.1 hq).1
  induction hn : len - i using Nat.strongRecOn generalizing i with
  | ind n ih =>
    by_cases hi : i < len
    · have hstep : ∃ out j, unescStep mem len i = some (out, j) ∧ i + out.length ≤ j ∧ (len < j → out.length = 1) ∧ i < j := by
        have hi' : i < mem.length := by omega
        simp only [unescStep, List.getElem?_eq_getElem hi', Option.bind_some]
        split
        · rename_i hc
          have hi1 : i + 1 < mem.length := by omega
          simp only [List.getElem?_eq_getElem hi1, Option.bind_some]
          split
          · exact ⟨_, _, rfl, by simp, fun _ => rfl, by omega⟩
          · obtain ⟨code, j, h⟩ := nextesc_some hq hx hc.2
            have hp := hexStep_pos h
            simp only at hp
            simp only [h, Option.map_some]
            split
            · exact ⟨_, _, rfl, by simp, by omega, by omega⟩
            · exact ⟨_, _, rfl, by simp; omega, fun _ => rfl, by omega⟩
        · exact ⟨_, _, rfl, by simp, fun _ => rfl, by omega⟩
      obtain ⟨out, j, h1, h2, h3, h4⟩ := hstep
      obtain ⟨t, h5, h6⟩ := ih (len - j) (by omega) j rfl
      refine ⟨out ++ t, ?_, ?_⟩
      · rw [unescLoop_step hi h1, h5]; rfl
      · rw [List.length_append]
        by_cases hj : len < j
        · have := h3 hj; omega
        · omega
    · exact ⟨[], by rw [unescLoop, if_neg hi], by simp⟩

theorem denotes_plain {s : List UInt8} (h : ∀ c ∈ s, c ≠ 92) : Denotes s s := by
  induction s with
  | nil => exact .nil
  | cons c s ih => exact .plain (h c (by simp)) (ih fun d hd => h d (by simp [hd]))

/-! ### Embedding a decoded literal -/

theorem insert_store2 (hr : Nat) (m : Mbuf) (hm : Mbuf.Inv m) (off : Nat) (x y : List UInt8) (al1 al2 : Alloc)
    (hoff : off ≤ m.len) (hsz : m.len + (x.length + y.length) < 2 ^ 52) (h1 : AllocOk al1) (h2 : AllocOk al2)
    (hroom : m.len + (x.length + y.length) ≤ m.size ∨ al1 ≠ none) (haddr : m.addr < 2 ^ 63) :
    ∃ m1 m2 m3 r, Mbuf.insert hr m off none (x.length + y.length) al1 al2 = some (m1, r) ∧ store m1 off x = some m2 ∧
      store m2 (off + x.length) y = some m3 ∧ Mbuf.Inv m3 ∧ m3.content = Mjs.Spec.Bytes.insertAt m.content off (x ++ y) := by
  obtain ⟨m1, r, e1, i1, h⟩ := insertGap_spec hr m hm off (x.length + y.length) al1 al2 hoff hsz h1 h2
  have hl := content_length hm
  rcases h with ⟨e2, gap, hg, c1⟩ | ⟨_, _, e | ⟨e, e'⟩⟩
  · subst e2
    have hl1 := content_length i1
    have hlen1 : m1.len = m.len + (x.length + y.length) := by
      rw [← hl1, c1]; simp [Mjs.Spec.Bytes.insertAt, hg]; omega
    obtain ⟨m2, s2, i2, l2, a2, c2⟩ := store_spec m1 i1 off x (by omega)
    obtain ⟨m3, s3, i3, l3, a3, c3⟩ := store_spec m2 i2 (off + x.length) y (by omega)
    refine ⟨m1, m2, m3, _, e1, s2, s3, i3, ?_⟩
    have hpre : (m.content.take off).length = off := by simp; omega
    have c2' : m2.content = (m.content.take off ++ x) ++ (gap.drop x.length ++ m.content.drop off) := by
      rw [c2, c1]
      simp only [Mjs.Spec.Bytes.insertAt, List.append_assoc]
      generalize m.content.take off = P at hpre
      generalize m.content.drop off = Q
      subst hpre
      rw [take_len_append, ← List.drop_drop, drop_len_append, List.drop_append_of_le_length (by omega)]
    have hpre2 : (m.content.take off ++ x).length = off + x.length := by simp; omega
    rw [c3, c2', ← hpre2, take_len_append, ← List.drop_drop, drop_len_append]
    have : (gap.drop x.length).length = y.length := by simp; omega
    rw [← this, drop_len_append]
    simp [Mjs.Spec.Bytes.insertAt]
  · omega
  · rcases hroom with h | h
    · omega
    · exact absurd e' h

end Mjs.Str
