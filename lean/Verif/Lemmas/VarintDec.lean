import Verif.Lemmas.Varint
import Verif.Spec.Varint

namespace Mjs.Varint
open Mjs.Spec.Varint (value Complete)

theorem value_append (xs ys : List UInt8) :
    value (xs ++ ys) = value xs + 2 ^ (7 * xs.length) * value ys := by
  induction xs with
  | nil => simp [value]
  | cons b bs ih =>
    simp only [List.cons_append, value, ih, List.length_cons, Nat.mul_add, Nat.pow_add]
    rw [show 2 ^ (7 * 1) = 128 from rfl]
    rw [Nat.mul_comm (2 ^ (7 * bs.length)) 128, Nat.mul_assoc, Nat.add_assoc]

theorem value_lt (xs : List UInt8) : value xs < 2 ^ (7 * xs.length) := by
  induction xs with
  | nil => simp [value]
  | cons b bs ih =>
    simp only [value, List.length_cons, Nat.mul_add, Nat.pow_add]
    rw [show 2 ^ (7 * 1) = 128 from rfl]
    omega

theorem complete_snoc (xs : List UInt8) (b : UInt8) (h : ∀ x ∈ xs, 128 ≤ x.toNat) (hb : b.toNat < 128) :
    Complete (xs ++ [b]) := by
  induction xs with
  | nil => simpa [Complete] using hb
  | cons x xs ih =>
    cases xs with
    | nil => simp [Complete]; exact ⟨h x (by simp), hb⟩
    | cons y ys =>
      simp only [List.cons_append, Complete]
      exact ⟨h x (by simp), ih (fun z hz => h z (List.mem_cons_of_mem _ hz))⟩

theorem mod_shift (x s : Nat) (hs : s < 64) : (x <<< s) % 2 ^ 64 = (x % 2 ^ (64 - s)) <<< s := by
  rw [Nat.shiftLeft_eq, Nat.shiftLeft_eq]
  have : 2 ^ 64 = 2 ^ (64 - s) * 2 ^ s := by rw [← Nat.pow_add]; congr 1; omega
  rw [this, Nat.mul_mod_mul_right]

/-- What the decoder may return from loop state `i`. -/
theorem decodeLoop_spec (mem : List UInt8) (bufSize : Nat) (hb : bufSize ≤ mem.length) :
    ∀ (k i n : Nat), k = 10 - i → i ≤ bufSize → i ≤ 10 →
      n = value (mem.take i) % 2 ^ 64 → (∀ x ∈ mem.take i, 128 ≤ x.toNat) → 7 * i < 64 →
      match decodeLoop mem bufSize i (7 * i) n with
      | .ub => False
      | .fail => bufSize < 10 ∧ ∀ x ∈ mem.take bufSize, 128 ≤ x.toNat
      | .ok v l => i < l ∧ l ≤ bufSize ∧ l ≤ 10 ∧ v = value (mem.take l) % 2 ^ 64 ∧
          (∀ x ∈ mem.take (l - 1), 128 ≤ x.toNat) ∧ (l < 10 → Complete (mem.take l)) := by
  intro k
  induction k with
  | zero =>
    intro i n hk hi hi10 hn hall hsh
    omega
  | succ k ih =>
    intro i n hk hi hi10 hn hall hsh
    rw [decodeLoop]
    by_cases hfail : i = bufSize ∨ i = 8 * 8 / 7 + 1
    · rw [if_pos hfail]
      simp only
      have : i = bufSize := by omega
      subst this
      exact ⟨by omega, hall⟩
    · rw [if_neg hfail, if_neg (by omega)]
      have hlt : i < mem.length := by omega
      rw [List.getElem?_eq_getElem hlt]
      simp only
      have htake : mem.take (i + 1) = mem.take i ++ [mem[i]] := by
        rw [List.take_add_one, List.getElem?_eq_getElem hlt]; rfl
      have hlen : (mem.take i).length = i := by simp; omega
      have hv := value_lt (mem.take i)
      rw [hlen] at hv
      have hp : 2 ^ (7 * i) ≤ 2 ^ 64 := Nat.pow_le_pow_right (by omega) (by omega)
      have hn' : n = value (mem.take i) := by rw [hn, Nat.mod_eq_of_lt (by omega)]
      have hnew : n ||| (((mem[i] &&& 0x7f).toNat <<< (7 * i)) % 2 ^ 64)
          = value (mem.take (i + 1)) % 2 ^ 64 := by
        rw [mod_shift _ _ (by omega), or_shift _ _ _ (by rw [hn']; exact hv), htake, value_append, hlen, hn']
        simp only [value, Nat.mul_zero, Nat.add_zero, byte_and7f]
        have e : 2 ^ 64 = 2 ^ (7 * i) * 2 ^ (64 - 7 * i) := by
          rw [← Nat.pow_add]; congr 1; omega
        rw [e]
        generalize hA : value (mem.take i) = A at *
        generalize hB : (mem[i]).toNat % 128 = B
        generalize hP : 2 ^ (7 * i) = P at *
        rw [Nat.mod_mul]
        have h1 : (A + P * B) % P = A := by rw [Nat.add_mul_mod_self_left, Nat.mod_eq_of_lt hv]
        have h2 : (A + P * B) / P = B := by
          rw [Nat.add_mul_div_left _ _ (by omega), Nat.div_eq_of_lt hv, Nat.zero_add]
        rw [h1, h2, Nat.mul_comm]
      rw [hnew]
      by_cases hc : 7 * i + 7 < 64 ∧ (mem[i] &&& 0x80) ≠ 0
      · rw [if_pos hc]
        have hbyte := (byte_and80 _).1 hc.2
        have := ih (i + 1) (value (mem.take (i + 1)) % 2 ^ 64) (by omega) (by omega) (by omega) rfl
          (by
            rw [htake]; intro x hx
            rcases List.mem_append.1 hx with h | h
            · exact hall x h
            · rw [List.mem_singleton.1 h]; exact hbyte)
          (by omega)
        rw [Nat.mul_add, Nat.mul_one] at this
        revert this
        cases decodeLoop mem bufSize (i + 1) (7 * i + 7) (value (mem.take (i + 1)) % 2 ^ 64) with
        | ub => exact id
        | fail => exact id
        | ok v l => simp only; intro ⟨a, b⟩; exact ⟨by omega, b⟩
      · rw [if_neg hc]
        simp only
        refine ⟨by omega, by omega, by omega, trivial, by simpa using hall, ?_⟩
        intro hl
        rw [htake]
        apply complete_snoc _ _ hall
        have : ¬ ((mem[i] &&& 0x80) ≠ 0) := fun h => hc ⟨by omega, h⟩
        rw [byte_and80] at this
        omega

/-- The encoder produces a complete encoding denoting the number. -/
theorem encodeBytes_complete (n : Nat) : Complete (encodeBytes n) ∧ value (encodeBytes n) = n := by
  induction n using Nat.strongRecOn with
  | ind n ih =>
    by_cases h : n < 128
    · rw [encodeBytes_last n h]
      simp [Complete, value]
      omega
    · rw [encodeBytes_step n (by omega)]
      have hb := low_or80 (n % 128) (by omega)
      have ⟨h1, h2⟩ := ih (n / 128) (by omega)
      constructor
      · cases hE : encodeBytes (n / 128) with
        | nil => rw [hE] at h1; exact h1.elim
        | cons y ys =>
          rw [hE] at h1
          simp only [Complete]
          exact ⟨by omega, h1⟩
      · simp only [value, h2, hb]; omega

/-- A successful decode depends only on the bytes it used, and a longer buffer gives the same result. -/
theorem decodeLoop_local (mem mem' : List UInt8) (b b' v l : Nat) (hb : b ≤ b') :
    ∀ (k i shift n : Nat), k = 64 - shift → i ≤ b → decodeLoop mem b i shift n = .ok v l →
      (∀ j, j < l → mem'[j]? = mem[j]?) → i < l ∧ decodeLoop mem' b' i shift n = .ok v l := by
  intro k
  induction k using Nat.strongRecOn with
  | ind k ih =>
    intro i shift n hk hi hd hag
    rw [decodeLoop] at hd
    split at hd
    · exact absurd hd (by simp)
    rename_i hnf
    split at hd
    · exact absurd hd (by simp)
    rename_i hsh
    split at hd
    · exact absurd hd (by simp)
    rename_i byte hbyte
    simp only at hd
    split at hd
    · rename_i hc
      have := ih (64 - (shift + 7)) (by omega) (i + 1) (shift + 7) _ rfl (by omega) hd hag
      refine ⟨by omega, ?_⟩
      rw [decodeLoop, if_neg (by omega), if_neg hsh, hag i (by omega), hbyte]
      simp only
      rw [if_pos hc]
      exact this.2
    · rename_i hc
      cases hd
      refine ⟨by omega, ?_⟩
      rw [decodeLoop, if_neg (by omega), if_neg hsh, hag i (by omega), hbyte]
      simp only
      rw [if_neg hc]

theorem decode_local {mem mem' : List UInt8} {b b' v l : Nat} (hb : b ≤ b') (h : decode mem b = .ok v l)
    (hag : ∀ j, j < l → mem'[j]? = mem[j]?) : decode mem' b' = .ok v l :=
  (decodeLoop_local mem mem' b b' v l hb 64 0 0 0 rfl (Nat.zero_le _) h hag).2

theorem decode_encode (n : Nat) (hn : n < 2 ^ 64) (rest : List UInt8) (b : Nat) (hb : llen n ≤ b) :
    decode (encodeBytes n ++ rest) b = .ok n (llen n) := by
  have hD := decodeLoop_encode n [] rest 0 b (by simp) (by simpa using hn)
    (by simpa using llen_le_ten n hn) (by simpa using hb)
  simpa [decode] using hD

theorem decode_len_le {mem : List UInt8} {b v l : Nat} (hb : b ≤ mem.length) (h : decode mem b = .ok v l) : l ≤ b := by
  have := decodeLoop_spec mem b hb 10 0 0 rfl (by omega) (by omega) (by simp [value]) (by simp) (by omega)
  rw [Nat.mul_zero] at this
  rw [show decodeLoop mem b 0 0 0 = .ok v l from h] at this
  exact this.2.1

end Mjs.Varint
