import Verif.Model.DataView
import Verif.Spec.Endian
import Verif.Lemmas.Num

namespace Mjs.DataView
open Mjs Mjs.Spec.Endian

/-- Most significant byte first. -/
def fold (acc : Nat) (bs : List UInt8) : Nat := bs.foldl (fun a b => a * 256 + b.toNat) acc

theorem leValue_append (a b : List UInt8) : leValue (a ++ b) = leValue a + 256 ^ a.length * leValue b := by
  induction a with
  | nil => simp [leValue]
  | cons x xs ih =>
    simp only [List.cons_append, leValue, ih, List.length_cons, Nat.pow_succ]
    rw [Nat.mul_add, Nat.mul_comm (256 ^ xs.length) 256, Nat.mul_assoc]
    omega

theorem fold_eq (bs : List UInt8) (acc : Nat) : fold acc bs = acc * 256 ^ bs.length + leValue bs.reverse := by
  induction bs generalizing acc with
  | nil => simp [fold, leValue]
  | cons b bs ih =>
    rw [show fold acc (b :: bs) = fold (acc * 256 + b.toNat) bs from rfl, ih, List.reverse_cons, leValue_append]
    simp only [List.length_cons, List.length_reverse, leValue, Nat.pow_succ, Nat.mul_zero, Nat.add_zero]
    rw [Nat.add_mul, Nat.mul_assoc, Nat.mul_comm 256, Nat.mul_comm (b.toNat)]
    omega

theorem leValue_lt (bs : List UInt8) : leValue bs < 256 ^ bs.length := by
  induction bs with
  | nil => simp [leValue]
  | cons b bs ih =>
    have := b.toNat_lt
    simp only [leValue, List.length_cons, Nat.pow_succ]
    omega

theorem getLoop_spec (mem : List UInt8) (inc : Int) (bs : List UInt8) (p : Int) (res : BitVec 32)
    (h : ∀ k, k < bs.length → byteAt mem (p + k * inc) = bs[k]?) :
    getLoop mem p inc res bs.length = some (BitVec.ofNat 32 (fold res.toNat bs)) := by
  induction bs generalizing p res with
  | nil => simp [getLoop, fold]
  | cons b bs ih =>
    have h0 := h 0 (by simp)
    simp only [Int.ofNat_zero, Int.zero_mul, Int.add_zero, List.getElem?_cons_zero] at h0
    rw [List.length_cons, getLoop, h0, Option.bind_some, ih]
    · congr 1
      rw [show fold res.toNat (b :: bs) = fold (res.toNat * 256 + b.toNat) bs from rfl, fold_eq, fold_eq]
      apply BitVec.eq_of_toNat_eq
      rw [BitVec.toNat_ofNat, BitVec.toNat_ofNat]
      have e : (res <<< 8 ||| BitVec.ofNat 32 b.toNat).toNat = (res.toNat * 256 + b.toNat) % 2 ^ 32 := by
        have hb := b.toNat_lt
        rw [BitVec.toNat_or, BitVec.toNat_shiftLeft, BitVec.toNat_ofNat, Nat.mod_eq_of_lt (show b.toNat < 2 ^ 32 by omega),
          Nat.shiftLeft_eq, show (2:Nat) ^ 8 = 256 from rfl]
        have : res.toNat * 256 % 2 ^ 32 = (res.toNat % 2 ^ 24) * 2 ^ 8 := by omega
        rw [this, ← Nat.shiftLeft_eq, ← Nat.shiftLeft_add_eq_or_of_lt (by omega), Nat.shiftLeft_eq]
        omega
      rw [e, Nat.add_mod, Nat.mul_mod, Nat.mod_mod, ← Nat.mul_mod, ← Nat.add_mod]
    · intro k hk
      have := h (k + 1) (by simpa using hk)
      rw [List.getElem?_cons_succ] at this
      rw [← this]
      congr 1
      rw [show ((k + 1 : Nat) : Int) = (k : Int) + 1 by omega, Int.add_mul]
      omega

theorem setLoop_spec (inc : Int) (hinc : inc = 1 ∨ inc = -1) (n : Nat) (mem : List UInt8) (p : Int) (val : BitVec 32)
    (h : ∀ k : Nat, k < n → 0 ≤ p + k * inc ∧ p + k * inc < mem.length) :
    ∃ mem', setLoop mem p inc val n = some mem' ∧ mem'.length = mem.length ∧
      (∀ k : Nat, k < n → byteAt mem' (p + k * inc) = some (UInt8.ofNat (val.toNat / 256 ^ k % 256))) ∧
      (∀ i : Nat, (∀ k : Nat, k < n → (i : Int) ≠ p + k * inc) → mem'[i]? = mem[i]?) := by
  induction n generalizing mem p val with
  | zero => exact ⟨mem, rfl, rfl, fun k hk => absurd hk (by omega), fun _ _ => rfl⟩
  | succ n ih =>
    have h0 := h 0 (by omega)
    simp only [Int.natCast_zero, Int.zero_mul, Int.add_zero] at h0
    have e0 : setByte mem p (UInt8.ofNat (val &&& 0xff#32).toNat) =
        some (mem.set p.toNat (UInt8.ofNat (val &&& 0xff#32).toNat)) := by
      unfold setByte; rw [if_neg (by omega)]
    have ev : (val &&& 0xff#32).toNat = val.toNat % 256 := by
      rw [BitVec.toNat_and]; exact Nat.and_two_pow_sub_one_eq_mod val.toNat 8
    obtain ⟨mem', h1, h2, h3, h4⟩ := ih (mem.set p.toNat (UInt8.ofNat (val &&& 0xff#32).toNat)) (p + inc) (val >>> 8) (by
      intro k hk
      have := h (k + 1) (by omega)
      rw [show ((k + 1 : Nat) : Int) = (k : Int) + 1 by omega, Int.add_mul] at this
      rw [List.length_set]; omega)
    have hcast : ∀ k : Nat, p + ((k + 1 : Nat) : Int) * inc = p + inc + k * inc := by
      intro k; rw [show ((k + 1 : Nat) : Int) = (k : Int) + 1 by omega, Int.add_mul]; omega
    refine ⟨mem', by simp only [setLoop, e0, Option.bind_some, h1], by rw [h2, List.length_set], ?_, ?_⟩
    · intro k hk
      cases k with
      | zero =>
        simp only [Int.natCast_zero, Int.zero_mul, Int.add_zero]
        unfold byteAt
        rw [if_neg (by omega), h4 p.toNat, List.getElem?_set_self (by omega), ev]
        · simp
        · intro k hk' hp
          have : p.toNat = p := by omega
          rcases hinc with rfl | rfl <;> omega
      | succ k =>
        rw [hcast, h3 k (by omega)]
        congr 2
        rw [BitVec.toNat_ushiftRight, Nat.shiftRight_eq_div_pow, Nat.div_div_eq_div_mul, Nat.pow_succ (n := 256), Nat.mul_comm (256 ^ k)]
    · intro i hi
      rw [h4 i, List.getElem?_set_ne]
      · intro hp
        have := hi 0 (by omega)
        simp only [Int.natCast_zero, Int.zero_mul, Int.add_zero] at this
        omega
      · intro k hk
        rw [← hcast]
        exact hi (k + 1) (by omega)

theorem byteAt_nat (mem : List UInt8) (a : Int) (n : Nat) (h : a = n) : byteAt mem a = mem[n]? := by
  subst h; unfold byteAt; rw [if_neg (by omega)]; rfl

theorem field_getElem? (mem : List UInt8) (p w k : Nat) (hk : k < w) : ((mem.drop p).take w)[k]? = mem[p + k]? := by
  rw [List.getElem?_take_of_lt hk, List.getElem?_drop]

theorem reverse_getElem? {α} (l : List α) (k : Nat) (hk : k < l.length) : l.reverse[k]? = l[l.length - 1 - k]? :=
  List.getElem?_reverse hk

theorem getUint_spec (mem : List UInt8) (p w : Nat) (be : Bool) (h : p + w ≤ mem.length) :
    getUint mem p w be = some (BitVec.ofNat 32 (fieldValue be ((mem.drop p).take w))) := by
  have hl : ((mem.drop p).take w).length = w := by simp; omega
  unfold getUint fieldValue
  cases be
  · simp only [Bool.false_eq_true, if_false]
    have := getLoop_spec mem (-1) ((mem.drop p).take w).reverse (p + ((w : Int) - 1)) 0 (by
      intro k hk
      rw [List.length_reverse, hl] at hk
      rw [reverse_getElem? _ _ (by omega), hl, field_getElem? _ _ _ _ (by omega)]
      exact byteAt_nat _ _ _ (by omega))
    rw [List.length_reverse, hl] at this
    rw [this, fold_eq]
    simp
  · simp only [if_true]
    have := getLoop_spec mem 1 ((mem.drop p).take w) (p + 0) 0 (by
      intro k hk
      rw [hl] at hk
      rw [field_getElem? _ _ _ _ hk]
      exact byteAt_nat _ _ _ (by omega))
    rw [hl] at this
    rw [this, fold_eq]
    simp

theorem leValue_of_bytes (F : List UInt8) (x : Nat)
    (h : ∀ k, k < F.length → F[k]? = some (UInt8.ofNat (x / 256 ^ k % 256))) : leValue F = x % 256 ^ F.length := by
  induction F generalizing x with
  | nil => simp [leValue, Nat.mod_one]
  | cons b bs ih =>
    have h0 := h 0 (by simp)
    simp only [List.getElem?_cons_zero, Option.some.injEq, Nat.pow_zero, Nat.div_one] at h0
    have := ih (x / 256) (by
      intro k hk
      have := h (k + 1) (by simpa using hk)
      rw [List.getElem?_cons_succ] at this
      rw [this, Nat.pow_succ, Nat.mul_comm, Nat.div_div_eq_div_mul])
    rw [leValue, this, h0, UInt8.toNat_ofNat', List.length_cons, Nat.pow_succ (n := 256), Nat.mul_comm (256 ^ _), Nat.mod_mul]
    omega

theorem setUint_spec (mem : List UInt8) (p w : Nat) (be : Bool) (val : BitVec 32) (h : p + w ≤ mem.length) :
    ∃ mem', setUint mem p val w be = some mem' ∧ mem'.length = mem.length ∧
      fieldValue be ((mem'.drop p).take w) = val.toNat % 256 ^ w ∧
      (∀ i, (i < p ∨ p + w ≤ i) → mem'[i]? = mem[i]?) := by
  unfold setUint fieldValue
  cases be
  · simp only [Bool.false_eq_true, if_false]
    obtain ⟨mem', h1, h2, h3, h4⟩ := setLoop_spec 1 (.inl rfl) w mem (p + 0) val (by intro k hk; omega)
    have hl : ((mem'.drop p).take w).length = w := by simp; omega
    refine ⟨mem', h1, h2, ?_, fun i hi => h4 i (fun k hk => by omega)⟩
    have := leValue_of_bytes ((mem'.drop p).take w) val.toNat (by
      intro k hk
      rw [hl] at hk
      rw [← h3 k hk, field_getElem? _ _ _ _ hk]
      exact (byteAt_nat _ _ _ (by omega)).symm)
    rw [this, hl]
  · simp only [if_true]
    obtain ⟨mem', h1, h2, h3, h4⟩ := setLoop_spec (-1) (.inr rfl) w mem (p + ((w : Int) - 1)) val (by intro k hk; omega)
    have hl : ((mem'.drop p).take w).length = w := by simp; omega
    refine ⟨mem', h1, h2, ?_, fun i hi => h4 i (fun k hk => by omega)⟩
    have := leValue_of_bytes ((mem'.drop p).take w).reverse val.toNat (by
      intro k hk
      rw [List.length_reverse, hl] at hk
      rw [← h3 k hk, reverse_getElem? _ _ (by omega), hl, field_getElem? _ _ _ _ (by omega)]
      exact (byteAt_nat _ _ _ (by omega)).symm)
    rw [this, List.length_reverse, hl]

end Mjs.DataView
