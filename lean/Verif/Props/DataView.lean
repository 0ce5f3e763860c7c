import Verif.Lemmas.DataView

/-!
# C52: memory accessors

`(mem.drop p).take w` are the bytes of the field at `p`; what number they hold is `fieldValue` (Spec/Endian.lean).
-/

namespace Mjs.Props
open Mjs Mjs.DataView Mjs.Spec.Endian Mjs.Spec.Double

/-- **C52, storing.** A store of 1 to 4 bytes puts the number, modulo the width, into the field in the requested byte
order, and no other byte changes. -/
theorem C52_store (mem : List UInt8) (p w : Nat) (be : Bool) (val : BitVec 32) (h : p + w ≤ mem.length) :
    ∃ mem', setUint mem p val w be = some mem' ∧ setInt mem p val w be = some mem' ∧ mem'.length = mem.length ∧
      fieldValue be ((mem'.drop p).take w) = val.toNat % 256 ^ w ∧
      (∀ i, (i < p ∨ p + w ≤ i) → mem'[i]? = mem[i]?) := by
  obtain ⟨mem', h1, h2, h3, h4⟩ := setUint_spec mem p w be val h
  exact ⟨mem', h1, h1, h2, h3, h4⟩

theorem fieldValue_lt (be : Bool) (bs : List UInt8) : fieldValue be bs < 256 ^ bs.length := by
  unfold fieldValue
  split
  · have := leValue_lt bs.reverse; rwa [List.length_reverse] at this
  · exact leValue_lt bs

theorem sign_extend (w x : Nat) (h1 : 1 ≤ w) (h4 : w ≤ 4) (hx : x < 256 ^ w) :
    (BitVec.sshiftRight (BitVec.ofNat 32 x <<< (8 * (4 - w))) (8 * (4 - w))).toInt = signedValue w x := by
  rw [BitVec.toInt_sshiftRight, BitVec.toInt_shiftLeft, BitVec.toNat_ofNat]
  have : w = 1 ∨ w = 2 ∨ w = 3 ∨ w = 4 := by omega
  rcases this with rfl | rfl | rfl | rfl
  all_goals
    simp only [signedValue, Nat.shiftLeft_eq, Int.shiftRight_eq_div_pow, Int.bmod] at hx ⊢
    simp only [Nat.reduceMul, Nat.reduceSub, Nat.reducePow] at hx ⊢
    split <;> split <;> omega

/-- **C52, loading.** The unsigned and the signed accessor return, as a number, the field's value and the two's
complement reading of it. -/
theorem C52_load (mem : List UInt8) (p w : Nat) (be : Bool) (h : p + w ≤ mem.length) (h1 : 1 ≤ w) (h4 : w ≤ 4) :
    ∃ u i, memGetUint mem p w be = some u ∧ IsInt u (fieldValue be ((mem.drop p).take w)) ∧
      memGetInt mem p w be = some i ∧ IsInt i (signedValue w (fieldValue be ((mem.drop p).take w))) := by
  have hl : ((mem.drop p).take w).length = w := by simp; omega
  have hlt := fieldValue_lt be ((mem.drop p).take w)
  rw [hl] at hlt
  generalize hx : fieldValue be ((mem.drop p).take w) = x at hlt
  have h32 : x < 2 ^ 32 := Nat.lt_of_lt_of_le hlt (by
    have : (256 : Nat) ^ w ≤ 256 ^ 4 := Nat.pow_le_pow_right (by omega) h4
    exact this)
  have e := getUint_spec mem p w be h
  rw [hx] at e
  have hs := sign_extend w x h1 h4 hlt
  refine ⟨_, _, by rw [memGetUint, e]; rfl, ?_, by rw [memGetInt, getInt32, e]; rfl, ?_⟩
  · have : (BitVec.ofNat 32 x).toNat = x := by rw [BitVec.toNat_ofNat, Nat.mod_eq_of_lt h32]
    simp only [this]
    exact ofIntD_isInt _ (by omega)
  · simp only [hs]
    refine ofIntD_isInt _ ?_
    have : w = 1 ∨ w = 2 ∨ w = 3 ∨ w = 4 := by omega
    unfold signedValue
    rcases this with rfl | rfl | rfl | rfl <;> simp only [Nat.reduceMul, Nat.reduceSub, Nat.reducePow, Int.reducePow] at hlt ⊢ <;>
      split <;> omega

/-- **C52, round trip.** What was stored is loaded. -/
theorem C52_roundtrip (mem : List UInt8) (p w : Nat) (be : Bool) (val : BitVec 32) (h : p + w ≤ mem.length)
    (h1 : 1 ≤ w) (h4 : w ≤ 4) :
    ∃ mem' u i, setUint mem p val w be = some mem' ∧
      memGetUint mem' p w be = some u ∧ IsInt u (val.toNat % 256 ^ w : Nat) ∧
      memGetInt mem' p w be = some i ∧ IsInt i (signedValue w (val.toNat % 256 ^ w)) := by
  obtain ⟨mem', e1, _, e2, e3, _⟩ := C52_store mem p w be val h
  obtain ⟨u, i, f1, f2, f3, f4⟩ := C52_load mem' p w be (by omega) h1 h4
  rw [e3] at f2 f4
  exact ⟨mem', u, i, e1, f1, f2, f3, f4⟩

/-- Concretely: -2 stored as two big endian bytes at index 1. -/
example : setUint [9, 9, 9, 9] 1 (BitVec.ofInt 32 (-2)) 2 true = some [9, 255, 254, 9] ∧
    getUint [9, 255, 254, 9] 1 2 true = some 65534 ∧ getInt32 [9, 255, 254, 9] 1 2 true = some (BitVec.ofInt 32 (-2)) ∧
    getUint [9, 255, 254, 9] 1 2 false = some 65279 := by decide

theorem leValue_foldr (bs : List UInt8) : bs.foldr (fun b acc => b.toNat + 256 * acc) 0 = leValue bs := by
  induction bs with
  | nil => rfl
  | cons b bs ih => rw [List.foldr_cons, ih]; rfl

theorem leValue_bytes (n : Nat) : ∀ x : Nat, leValue ((List.range n).map fun i => UInt8.ofNat (x / 256 ^ i % 256)) = x % 256 ^ n := by
  induction n with
  | zero => intro x; simp [leValue, Nat.mod_one]
  | succ n ih =>
    intro x
    rw [List.range_succ_eq_map, List.map_cons, List.map_map]
    simp only [leValue]
    have : ((fun i => UInt8.ofNat (x / 256 ^ i % 256)) ∘ Nat.succ) = fun i => UInt8.ofNat (x / 256 / 256 ^ i % 256) := by
      funext i
      simp only [Function.comp]
      rw [Nat.pow_succ, Nat.div_div_eq_div_mul, Nat.mul_comm 256]
    rw [this, ih]
    rw [Nat.pow_zero, Nat.div_one, UInt8.toNat_ofNat', Nat.mod_eq_of_lt (by omega), Nat.pow_succ 256 n, Nat.mul_comm (256 ^ n) 256, Nat.mod_mul]

/-- **C52, doubles and pointers.** A store of a double or a pointer puts its 8 bytes into the field and changes no other byte; a load
gives the double with the bits that are there. -/
theorem C52_double (mem : List UInt8) (p : Nat) (d : BitVec 64) (h : p + 8 ≤ mem.length) :
    ∃ mem', setDbl mem p d = some mem' ∧ setPtr mem p d = some mem' ∧ mem'.length = mem.length ∧
      fieldValue false ((mem'.drop p).take 8) = d.toNat ∧ (∀ i, (i < p ∨ p + 8 ≤ i) → mem'[i]? = mem[i]?) ∧
      getDbl mem' p = some d := by
  have hl : (mem.take p).length = p := by rw [List.length_take]; omega
  have hv : leValue ((List.range 8).map (fun i => UInt8.ofNat ((d >>> (8 * i)).toNat % 256))) = d.toNat := by
    have e : (fun i => UInt8.ofNat ((d >>> (8 * i)).toNat % 256)) = fun i => UInt8.ofNat (d.toNat / 256 ^ i % 256) := by
      funext i
      rw [BitVec.toNat_ushiftRight, Nat.shiftRight_eq_div_pow, Nat.pow_mul]
    rw [e, leValue_bytes, Nat.mod_eq_of_lt d.isLt]
  have hd : ∀ xs : List UInt8, xs.length = 8 → (((mem.take p ++ xs ++ mem.drop (p + 8)).drop p).take 8) = xs := by
    intro xs hx
    rw [List.append_assoc, List.drop_append_of_le_length (by omega), List.drop_eq_nil_of_le (by omega), List.nil_append,
      List.take_append_of_le_length (by omega), List.take_of_length_le (by omega)]
  refine ⟨_, by rw [setDbl, if_pos h], by rw [setPtr, setDbl, if_pos h], ?_, ?_, ?_, ?_⟩
  · simp only [List.length_append, hl, List.length_map, List.length_range, List.length_drop]
    omega
  · rw [hd _ (by simp)]
    exact hv
  · rintro i (hi | hi)
    · rw [List.append_assoc, List.getElem?_append_left (by omega), List.getElem?_take, if_pos hi]
    · rw [List.getElem?_append_right (by simp only [List.length_append, hl, List.length_map, List.length_range]; omega), List.getElem?_drop]
      simp only [List.length_append, hl, List.length_map, List.length_range]
      congr 1
      omega
  · rw [getDbl, if_pos (by simp only [List.length_append, hl, List.length_map, List.length_range, List.length_drop]; omega), hd _ (by simp),
      leValue_foldr, hv, BitVec.ofNat_toNat, BitVec.setWidth_eq]

/-- **C52, loading a double.** -/
theorem C52_double_load (mem : List UInt8) (p : Nat) (h : p + 8 ≤ mem.length) :
    ∃ d, getDbl mem p = some d ∧ d.toNat = fieldValue false ((mem.drop p).take 8) := by
  have := fieldValue_lt false ((mem.drop p).take 8)
  rw [List.length_take, List.length_drop, Nat.min_eq_left (by omega)] at this
  refine ⟨_, by rw [getDbl, if_pos h], ?_⟩
  rw [leValue_foldr, BitVec.toNat_ofNat]
  exact Nat.mod_eq_of_lt this

/-- **C52, addresses.** -/
theorem C52_address (base : BitVec 64) (offset : BitVec 32) (val : BitVec 32) :
    (getPtrAt base offset).toNat = ((base.toNat : Int) + offset.toInt) % 2 ^ 64 ∧ (toPtr val).toNat = val.toNat := by
  constructor
  · unfold getPtrAt
    rw [BitVec.toNat_add, show offset.signExtend 64 = BitVec.ofInt 64 offset.toInt from rfl, BitVec.toNat_ofInt]
    omega
  · unfold toPtr
    rw [BitVec.toNat_setWidth]
    omega

theorem setLoop_outside : ∀ (n : Nat) (mem : List UInt8) (p : Nat) (val : BitVec 32), 0 < n → mem.length < p + n →
    setLoop mem p 1 val n = none := by
  intro n
  induction n with
  | zero => intro _ _ _ h; omega
  | succ n ih =>
    intro mem p val _ h
    rw [setLoop]
    unfold setByte
    split
    · rfl
    · rename_i hc
      rw [Option.bind_some]
      exact ih _ (p + 1) _ (by omega) (by rw [List.length_set]; omega)

theorem getLoop_outside : ∀ (n : Nat) (mem : List UInt8) (p : Nat) (res : BitVec 32), 0 < n → mem.length < p + n →
    getLoop mem p 1 res n = none := by
  intro n
  induction n with
  | zero => intro _ _ _ h; omega
  | succ n ih =>
    intro mem p res _ h
    rw [getLoop, byteAt_nat mem p p rfl]
    cases e : mem[p]? with
    | none => rfl
    | some b =>
      have := (List.getElem?_eq_some_iff.1 e).1
      rw [Option.bind_some]
      exact ih _ (p + 1) _ (by omega) (by omega)

/-- **C52, outside.** Accesses to bytes that are not there are undefined behaviour, never something else: no store of a field
that does not lie in memory is taken for a success. -/
theorem C52_outside (mem : List UInt8) (p w : Nat) (be : Bool) (val : BitVec 32) (d : BitVec 64) (hw : 0 < w) (h : mem.length < p + w) :
    setUint mem p val w be = none ∧ memGetUint mem p w be = none ∧ memGetInt mem p w be = none ∧
      (w = 8 → setDbl mem p d = none ∧ getDbl mem p = none) := by
  have hg : getUint mem p w be = none := by
    unfold getUint
    cases be with
    | true =>
      simp only [if_true, Int.add_zero]
      exact getLoop_outside w mem p 0 hw h
    | false =>
      obtain ⟨w, rfl⟩ : ∃ k, w = k + 1 := ⟨w - 1, by omega⟩
      simp only [Bool.false_eq_true, if_false]
      rw [getLoop, byteAt_nat mem _ (p + w) (by omega), List.getElem?_eq_none (by omega)]
      rfl
  refine ⟨?_, by rw [memGetUint, hg]; rfl, by rw [memGetInt, getInt32, hg]; rfl, ?_⟩
  · unfold setUint
    cases be with
    | false =>
      simp only [Bool.false_eq_true, if_false, Int.add_zero]
      exact setLoop_outside w mem p val hw h
    | true =>
      obtain ⟨w, rfl⟩ : ∃ k, w = k + 1 := ⟨w - 1, by omega⟩
      simp only [if_true]
      rw [setLoop, setByte, if_pos (.inr (by omega))]
      rfl
  · rintro rfl
    exact ⟨by rw [setDbl, if_neg (by omega)], by rw [getDbl, if_neg (by omega)]⟩

example : setDbl [9, 9, 9, 9, 9, 9, 9, 9, 9, 9] 1 0x3FF8000000000000#64 = some [9, 0, 0, 0, 0, 0, 0, 0xF8, 0x3F, 9] ∧
    getDbl [9, 0, 0, 0, 0, 0, 0, 0xF8, 0x3F, 9] 1 = some 0x3FF8000000000000#64 ∧ getPtrAt 100 (BitVec.ofInt 32 (-4)) = 96 := by decide

end Mjs.Props
