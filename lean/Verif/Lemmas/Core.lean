import Verif.Model.Core
import Verif.Spec.Core
import Verif.Lemmas.Mbuf
import Verif.Lemmas.StrVal
import Verif.Lemmas.Num

namespace Mjs.Core
open Mjs Mjs.Mbuf Mjs.Str

/-- The bytes of a list of values. -/
def packVals (vs : List Val) : List UInt8 := vs.flatMap fun v => bytesFrom v 0

theorem packVals_length (vs : List Val) : (packVals vs).length = 8 * vs.length := by
  induction vs with
  | nil => rfl
  | cons v vs ih => simp only [packVals, List.flatMap_cons, List.length_append, List.length_cons, bytesFrom_length] at *; omega

theorem unpack_bytes (v : Val) : BitVec.ofNat 64 (packLE (bytesFrom v 0)) = v := by
  rw [packLE_bytesFrom]; simp

theorem packVals_get (vs : List Val) (i : Nat) (v : Val) (h : vs[i]? = some v) :
    ((packVals vs).drop (i * 8)).take 8 = bytesFrom v 0 := by
  induction vs generalizing i with
  | nil => simp at h
  | cons w vs ih =>
    have hl : (bytesFrom w 0).length = 8 := bytesFrom_length w 0
    cases i with
    | zero =>
      simp at h; subst h
      simp only [packVals, List.flatMap_cons, Nat.zero_mul, List.drop_zero]
      rw [List.take_append_of_le_length (by omega), List.take_of_length_le (by omega)]
    | succ i =>
      simp at h
      have e : (i + 1) * 8 = 8 + i * 8 := by omega
      simp only [packVals, List.flatMap_cons]
      rw [e, ← List.drop_drop, List.drop_append, hl, List.drop_of_length_le (l := bytesFrom w 0) (by omega), List.nil_append]
      exact ih i h

/-- Buffer `m` holds the list `vs`. -/
def Holds (m : Mbuf) (vs : List Val) : Prop := Inv m ∧ m.content = packVals vs

theorem Holds.len {m vs} (h : Holds m vs) : m.len = 8 * vs.length := by
  rw [← content_length h.1, h.2, packVals_length]

theorem content_slice {m : Mbuf} (i n : Nat) (h : i + n ≤ m.len) :
    (m.content.drop i).take n = (m.mem.drop i).take n := by
  unfold Mbuf.content
  rw [List.drop_take, List.take_take, Nat.min_eq_left (by omega)]

theorem popValM_spec {m : Mbuf} {vs : List Val} {v : Val} (h : Holds m (vs ++ [v])) :
    ∃ m', popValM m = some (v, m') ∧ Holds m' vs := by
  have hl := h.len
  simp only [List.length_append, List.length_singleton] at hl
  have hi : m.len ≤ m.mem.length := h.1.1
  refine ⟨{ m with len := m.len - 8 }, ?_, ?_, ?_⟩
  · unfold popValM
    rw [if_pos ⟨by omega, hi⟩, ← content_slice _ _ (by omega), h.2]
    have : m.len - 8 = vs.length * 8 := by omega
    rw [this, packVals_get _ _ v (by simp), unpack_bytes]
  · obtain ⟨a, b⟩ := h.1
    exact ⟨by simp only; omega, b⟩
  · have e : ({ m with len := m.len - 8 } : Mbuf).content = m.content.take (m.len - 8) := by
      simp only [Mbuf.content, List.take_take]; congr 1; omega
    rw [e, h.2, packVals, List.flatMap_append]
    have := packVals_length vs
    unfold packVals at this
    rw [List.take_append_of_le_length (by omega), List.take_of_length_le (by omega)]
    rfl

theorem vptrM_spec {m : Mbuf} {vs : List Val} (h : Holds m vs) (idx : Int) : vptrM m idx = at? vs idx := by
  have hl := h.len
  have hi : m.len ≤ m.mem.length := h.1.1
  have hs : stackSizeM m = vs.length := by unfold stackSizeM; omega
  unfold vptrM at? vptr
  rw [hs]
  simp only [Option.bind_eq_bind]
  cases hv : vptrIdx (cInt vs.length) idx with
  | none => rfl
  | some i =>
    simp only [Option.bind_some]
    have hi' : (i : Int) < cInt vs.length := by
      unfold vptrIdx at hv
      simp only at hv
      generalize (if idx < 0 then cInt vs.length + idx else idx) = j at hv
      split at hv
      · cases hv; omega
      · cases hv
    have hc : cInt vs.length ≤ vs.length := by
      rw [cInt, BitVec.toInt_eq_toNat_cond, BitVec.toNat_ofNat]
      split <;> omega
    have hb : i < vs.length := by omega
    rw [if_pos (by omega), ← content_slice _ _ (by omega), h.2]
    rw [packVals_get _ _ vs[i] (by simp [hb]), unpack_bytes]
    simp [hb]

theorem pushValM_spec {hr : Nat} {m : Mbuf} {vs : List Val} (h : Holds m vs) (v : Val) (al1 al2 : Alloc)
    (hsz : 8 * vs.length + 8 < 2 ^ 52) (h1 : AllocOk al1) (h2 : AllocOk al2) :
    ∃ m', pushValM hr m v al1 al2 = some m' ∧
      (Holds m' (vs ++ [v]) ∨ (m' = m ∧ (2 ^ 64 - 1 - m.addr < 8 ∨ (m.size < m.len + 8 ∧ al1 = none)))) := by
  have hl := h.len
  have hb : (bytesFrom v 0).length = 8 := bytesFrom_length v 0
  obtain ⟨m', r, e, hi, hc⟩ := insert_spec hr m h.1 m.len (bytesFrom v 0) al1 al2 (Nat.le_refl _) (by omega) h1 h2
  rw [hb] at e
  refine ⟨m', by simp [pushValM, Mbuf.append, e], ?_⟩
  rcases hc with ⟨_, hc⟩ | ⟨_, hm, hc⟩
  · refine .inl ⟨hi, ?_⟩
    rw [hc, Spec.Bytes.insertAt, ← content_length h.1, List.take_length, List.drop_length, h.2]
    simp [packVals]
  · exact .inr ⟨hm, by rwa [hb] at hc⟩

theorem cInt_small {n : Nat} (h : n < 2 ^ 31) : cInt n = n := by
  rw [cInt, BitVec.toInt_eq_toNat_cond, BitVec.toNat_ofNat]
  have : n % 2 ^ 32 = n := Nat.mod_eq_of_lt (by omega)
  rw [this, if_pos (by omega)]

theorem at_nat (s : List Val) (h : s.length < 2 ^ 31) (i : Int) (n : Nat) (hi : i = n) : at? s i = s[n]? := by
  subst hi
  unfold at? vptr vptrIdx
  rw [cInt_small h]
  have h0 : ¬ ((n : Int) < 0) := by omega
  simp only [h0, if_false]
  by_cases hn : n < s.length
  · rw [if_pos (by omega)]; simp
  · rw [if_neg (by omega), List.getElem?_eq_none (by omega)]; rfl

theorem at_neg (s : List Val) (h : s.length < 2 ^ 31) (i : Int) (n : Nat) (hi : i = -1 - n) : at? s i = s.reverse[n]? := by
  subst hi
  unfold at? vptr vptrIdx
  rw [cInt_small h]
  have h0 : (-1 - (n : Int)) < 0 := by omega
  simp only [h0, if_true]
  by_cases hn : n < s.length
  · rw [if_pos (by omega), List.getElem?_reverse hn]
    have : ((s.length : Int) + (-1 - n)).toNat = s.length - 1 - n := by omega
    rw [this]; rfl
  · rw [if_neg (by omega), List.getElem?_eq_none (by simp; omega)]; rfl

/-! ## Call frames -/

theorem at_last (s : List Val) (v : Val) (h : s.length < 2 ^ 31 - 1) : at? (s ++ [v]) (-1) = some v := by
  rw [at_neg _ (by simp; omega) _ 0 (by omega)]; simp

theorem int32_self (x : Int) (h1 : -2 ^ 31 ≤ x) (h2 : x < 2 ^ 31) : (BitVec.ofInt 32 x).toInt = x := by
  rw [BitVec.toInt_ofInt]
  exact Int.bmod_eq_of_le (by omega) (by omega)

theorem isNumber_mkInt (n : Int) (h : n.natAbs < 2 ^ 53) : isNumber (mkInt n) = true := isNumber_finite (mkInt_isInt n h).1

theorem retpos_frame (vm : Vm) (cs : List Val) (k : Int) (hc : vm.callStack = cs ++ [mkInt (k + 1)]) (hk : 0 ≤ k)
    (hk2 : k < vm.stack.length) (h1 : vm.stack.length < 2 ^ 31 - 1) (h2 : vm.callStack.length < 2 ^ 31 - 1) :
    getretvalpos vm = some k := by
  unfold getretvalpos
  rw [hc, at_last _ _ (by rw [hc] at h2; simp at h2; omega)]
  simp only [Option.bind_eq_bind, Option.bind_some, isNumber_mkInt (k + 1) (by omega), not_true_eq_false, if_false]
  rw [getInt_mkInt _ (by omega) (by omega), cInt_small (by omega), int32_self _ (by omega) (by omega),
    Int.add_sub_cancel, if_pos hk2]

theorem retpos (vm : Vm) (below args cs : List Val) (callee : Val) (hs : vm.stack = below ++ callee :: args)
    (hc : vm.callStack = cs ++ [mkInt (below.length + 1)]) (h1 : vm.stack.length < 2 ^ 31 - 1)
    (h2 : vm.callStack.length < 2 ^ 31 - 1) : getretvalpos vm = some (below.length : Int) := by
  have hl : vm.stack.length = below.length + 1 + args.length := by rw [hs]; simp; omega
  exact retpos_frame vm cs below.length hc (by omega) (by omega) h1 h2

/-! ## The register -/

theorem disownLoop_none (ptrs : List Nat) (p : Nat) (n : Nat) (hn : n ≤ ptrs.length) :
    disownLoop ptrs p n = none ↔ p ∉ ptrs.take n := by
  induction n with
  | zero => simp [disownLoop]
  | succ n ih =>
    have hlt : n < ptrs.length := by omega
    simp only [disownLoop]
    rw [List.take_succ_eq_append_getElem hlt]
    rw [List.getElem?_eq_getElem hlt]
    by_cases h : ptrs[n] = p
    · simp [h]
    · rw [if_neg (by simpa using h), ih (by omega)]
      rw [List.mem_append, List.mem_singleton, not_or]
      exact ⟨fun h' => ⟨h', Ne.symm h⟩, fun h' => h'.1⟩

theorem set_last_count (l : List Nat) (i : Nat) (hi : i < l.length) (q : Nat) :
    ((l.set i (l.getLast?.getD 0)).dropLast).count q = l.count q - if l[i] = q then 1 else 0 := by
  have hne : l ≠ [] := by intro e; subst e; simp at hi
  obtain ⟨a, x, rfl⟩ : ∃ a x, l = a ++ [x] := ⟨l.dropLast, l.getLast hne, (List.dropLast_concat_getLast hne).symm⟩
  simp only [List.getLast?_append, List.getLast?_singleton, Option.some_or, Option.getD_some]
  by_cases hia : i < a.length
  · rw [List.set_append_left _ _ hia]
    rw [List.dropLast_concat, List.getElem_append_left hia, List.count_append, List.count_set hia]
    have : a[i] = q → 0 < a.count q := fun e => List.count_pos_iff.2 (e ▸ List.getElem_mem hia)
    by_cases h1 : a[i] = q <;> by_cases h2 : x = q <;> simp [h1, h2] <;> simp_all
  · have : i = a.length := by simp at hi; omega
    subst this
    rw [List.set_append_right _ _ (by omega)]
    simp [List.count_append, List.count_singleton]

theorem disownLoop_some (ptrs : List Nat) (p : Nat) (n : Nat) (l : List Nat) (h : disownLoop ptrs p n = some l)
    (q : Nat) : l.count q = if q = p then ptrs.count q - 1 else ptrs.count q := by
  induction n with
  | zero => simp [disownLoop] at h
  | succ n ih =>
    simp only [disownLoop] at h
    split at h
    · rename_i hp
      obtain ⟨hn, hp⟩ := List.getElem?_eq_some_iff.1 hp
      cases h
      rw [set_last_count _ _ hn, hp]
      by_cases h1 : q = p
      · simp [h1]
      · simp [h1, Ne.symm h1]
    · exact ih h

end Mjs.Core
