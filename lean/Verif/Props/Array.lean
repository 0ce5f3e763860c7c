import Verif.Lemmas.ArraySplice
import Verif.Props.ObjectDemo

/-!
# C18, C19: arrays

`ArrayOps v ops f` (`Verif/Spec/Array.lean`): the recorded operations on `v` since its creation are about indices and leave
it with the elements `f`.  `History` is that of C15, so other objects may be used in any way in between.  `Granted h 20 al`
says that the C allocator grants what one operation asks for, `Supply n h al` that it does so for `n` operations.
-/

namespace Mjs.Props
open Mjs Mjs.Mbuf Mjs.Str Mjs.Arena Mjs.Obj Mjs.Spec Mjs.Arr

variable {cmem : Nat → Option UInt8} {numText : Val → List UInt8}

/-- **C18, reading.** Reading an index gives what was last stored there and not deleted since, undefined otherwise, and
reports whether it is present. -/
theorem C18_get {h ops v f} (hh : History cmem numText h ops) (ha : ArrayOps v ops f) {i} (hi : i < 2 ^ 63) :
    Arr.get h v i = some ((f i).getD mkUndefined) ∧ Arr.get2 h v i = some ((f i).getD mkUndefined, (f i).isSome) :=
  ⟨get_view hh (view_of ha) hi, get2_view hh (view_of ha) hi⟩

/-- **C18, length.** The length is one more than the greatest index present, 0 if there is none. -/
theorem C18_length {h ops v f} (hh : History cmem numText h ops) (ha : ArrayOps v ops f) :
    ∃ n, Arr.length h v = some n ∧ IsLength f n := by
  obtain ⟨n, e, hn, _⟩ := length_view hh (view_of ha)
  exact ⟨n, e, hn⟩

/-- **C18, storing.** Storing at an index succeeds, changes this index only, and no other object. -/
theorem C18_set {h ops v f} (hh : History cmem numText h ops) (ha : ArrayOps v ops f) {i} (hi : IsIndex i) (x : Val) {al}
    (hg : Granted h 20 al) : ∃ h' ops', Arr.set h v i x al = some (h', .ok) ∧ History cmem numText h' ops' ∧
      ArrayOps v ops' (setAt f i (some x)) ∧ Only v ops ops' := by
  obtain ⟨h', ops', e, hh', ha', ho, _⟩ := set_step hh ha hi x hg
  exact ⟨h', ops', e, hh', ha', ho⟩

/-- **C18, deleting.** -/
theorem C18_del {h ops v f} (hh : History cmem numText h ops) (ha : ArrayOps v ops f) {i} (hi : IsIndex i) :
    ∃ h' ops', Arr.del h v i = some h' ∧ History cmem numText h' ops' ∧
      ArrayOps v ops' (setAt f i none) ∧ Only v ops ops' := by
  obtain ⟨h', ops', e, hh', ha', ho, _⟩ := del_step hh ha hi ⟨0, fun _ => none, none, none⟩
  exact ⟨h', ops', e, hh', ha', ho⟩

/-- **C18, push.** Pushing stores at the length. -/
theorem C18_push {h ops v f n} (hh : History cmem numText h ops) (ha : ArrayOps v ops f) (hn : IsLength f n)
    (hi : IsIndex n) (x : Val) {al} (hg : Granted h 20 al) :
    ∃ h' ops', Arr.push h v x al = some (h', .ok) ∧ History cmem numText h' ops' ∧
      ArrayOps v ops' (setAt f n (some x)) ∧ Only v ops ops' := by
  obtain ⟨h', ops', e, hh', ha', ho, _⟩ := push_step hh ha hn hi x hg
  exact ⟨h', ops', e, hh', ha', ho⟩

theorem getType_array {v : Val} (h : isArray v = true) : getType v = some .objectArray := by
  have ht : v &&& tagMask = tagArray := by simpa [isArray] using h
  have hnum : isNumber v = false := by
    cases hn : isNumber v with
    | false => rfl
    | true =>
      simp only [isNumber, Bool.or_eq_true, beq_iff_eq] at hn
      rcases hn with rfl | hn
      · exact absurd ht (by decide)
      · rw [getDouble, isnan_of_tag ht (by decide) (by decide)] at hn
        cases hn
  simp only [getType, hnum, ht]
  decide

theorem getType_number {v : Val} (h : isNumber v = true) : getType v = some .number := by simp [getType, h]

/-- **C18, the method push.** It appends its arguments in order and returns the new length. -/
theorem C18_push_method {h ops v f n} (hh : History cmem numText h ops) (ha : ArrayOps v ops f) (hv : isArray v = true)
    (hn : IsLength f n) (args : List Val) (hi : n + args.length ≤ 2 ^ 32 - 1) {al} (hg : Supply args.length h al) :
    ∃ h' ops' f', Arr.pushMethod h v args al = some ⟨h', .ok, mkInt (n + args.length : Nat)⟩ ∧ History cmem numText h' ops' ∧
      ArrayOps v ops' f' ∧ Only v ops ops' ∧ ∀ i, f' i = if i < n then f i else args[i - n]? := by
  obtain ⟨h', ops', e, hh', ha', ho⟩ := pushAll_step hh ha hn args hi hg
  refine ⟨h', ops', _, ?_, hh', ha', ho, append_apply f n args fun i hi' => ?_⟩
  · simp only [Arr.pushMethod, checkArg, getType_array hv, ne_eq, not_true, if_false, Option.bind_eq_bind, Option.bind_some, e,
      length_step hh' ha' (append_isLength hn args)]
  · cases hf : f i with
    | none => rfl
    | some y => have := hn.1 i (by simp [hf]); omega

theorem getType_not_array {v : Val} {t} (ht : getType v = some t) (hv : isArray v = false) : t ≠ .objectArray := by
  rintro rfl
  simp only [getType] at ht
  split at ht
  · cases ht
  · have hta : v &&& tagMask ≠ tagArray := by simpa [isArray] using hv
    have hsh : (v &&& tagMask) >>> 48 ≠ tagArray >>> 48 := by
      intro e
      apply hta
      have h1 : ∀ w : Val, w &&& tagMask = ((w &&& tagMask) >>> 48) <<< 48 := by
        intro w
        apply BitVec.eq_of_getLsbD_eq
        intro j hj
        rw [BitVec.getLsbD_shiftLeft, BitVec.getLsbD_ushiftRight, BitVec.getLsbD_and]
        by_cases h48 : j < 48
        · have : ∀ j, j < 48 → tagMask.getLsbD j = false := by decide
          simp [h48, this j h48]
        · rw [show 48 + (j - 48) = j by omega]; simp [h48, hj]
      rw [h1 v, e]; decide
    repeat' split at ht
    all_goals first | (cases ht; done) | (simp_all)

/-- **C18, errors.** Storing into a value that is not an object reports a type error; reading it gives undefined, and its
length is 0; the method `push` of anything but an array is a type error. -/
theorem C18_not_array (h : Heap) (v : Val) (al : Nat → Allocs) :
    (isObject v = false → ∀ i x, Arr.set h v i x (al 0) = some (h, .type) ∧ Arr.get h v i = some mkUndefined ∧
      Arr.length h v = some 0) ∧
    (∀ t, getType v = some t → isArray v = false → ∀ args, Arr.pushMethod h v args al = some ⟨h, .type, mkUndefined⟩) := by
  refine ⟨fun hv i x => ⟨by simp [Arr.set, hv], by simp [Arr.get, Arr.get2, hv], by simp [Arr.length, hv]⟩, ?_⟩
  intro t ht hv args
  have := getType_not_array ht hv
  simp [Arr.pushMethod, checkArg, ht, this]

/-- **C18, other keys.** The length of any object is one more than the greatest of the numbers below 2^32-1 that its keys
denote for `strtoul`, 0 if there is none. -/
theorem C18_length_engine {h ops v} (hh : History cmem numText h ops) (hc : created ops v) :
    ∃ n, Arr.length h v = some n ∧
      (∀ k ∈ engineOrder ops v, ∀ i, ulong k = some i → IsIndex i → i < n) ∧
      (n = 0 ∨ ∃ k ∈ engineOrder ops v, ulong k = some (n - 1) ∧ IsIndex (n - 1)) := by
  obtain ⟨_, h2, h3⟩ := foldl_lenStep (engineOrder ops v) 0
  refine ⟨_, length_engine hh hc, fun k hk i hi hx => h2 k hk i hi (by unfold IsIndex at hx; omega), ?_⟩
  rcases h3 with h3 | ⟨k, hk, n, hn, hlt, e⟩
  · exact .inl h3
  · exact .inr ⟨k, hk, by rw [e]; exact hn, by rw [e]; unfold IsIndex; omega⟩

/-- A new array is empty and different from everything before. -/
theorem newArray_step {h ops} (hh : History cmem numText h ops) {al} (hg : CallocOk h.objs al.obj) :
    ∃ h' r, mkArray h al = some (h', r) ∧ History cmem numText h' (.new r :: ops) ∧ ¬ created ops r ∧ isArray r = true := by
  obtain ⟨A, fo, fp, hs⟩ := hh.sim
  obtain ⟨h', v, o, fo', e, hv, hA, _⟩ := mkObject_spec hs.inv hg
  have e' : mkArray h al = some (h', toArrayTag v) := by rw [mkArray, e]; rfl
  refine ⟨h', toArrayTag v, e', .newArray hh hg e', ?_, ?_⟩
  · intro hc
    obtain ⟨o', L, hv', hA', _⟩ := hs.obj _ hc
    have := (toArrayTag_isObj hv).2.symm.trans hv'.2
    cases this
    rw [hA] at hA'
    cases hA'
  · have ht : toArrayTag v &&& tagMask = tagArray := tag_mk v tagArray (by decide)
    simp [isArray, ht]

theorem stored_same (l items : List Val) (s : Nat) (hs : s + items.length ≤ l.length) :
    stored (elems l) s items = elems (l.take s ++ items ++ l.drop (s + items.length)) := by
  funext j
  unfold stored elems
  by_cases h1 : j < s
  · rw [if_neg (by omega), List.getElem?_append_left (by simp; omega), List.getElem?_append_left (by simp; omega),
      List.getElem?_take_of_lt h1]
  · by_cases h2 : j < s + items.length
    · rw [if_pos (by omega), List.getElem?_append_left (by simp; omega), List.getElem?_append_right (by simp; omega)]
      congr 1; simp; omega
    · rw [if_neg (by omega), List.getElem?_append_right (by simp; omega), List.getElem?_drop]
      congr 1; simp; omega

theorem stored_down (l items : List Val) (s c : Nat) (hs : s + c ≤ l.length) (hd : items.length < c) :
    stored (downState l s (c - items.length) l.length) s items = elems (l.take s ++ items ++ l.drop (s + c)) := by
  funext j
  unfold stored elems downState
  by_cases h1 : j < s
  · rw [if_neg (by omega), if_pos h1, List.getElem?_append_left (by simp; omega), List.getElem?_append_left (by simp; omega),
      List.getElem?_take_of_lt h1]
  · by_cases h2 : j < s + items.length
    · rw [if_pos (by omega), List.getElem?_append_left (by simp; omega), List.getElem?_append_right (by simp; omega)]
      congr 1; simp; omega
    · rw [if_neg (by omega), if_neg h1, List.getElem?_append_right (by simp; omega), List.getElem?_drop]
      have e : s + c + (j - (List.take s l ++ items).length) = j + (c - items.length) := by simp; omega
      rw [e]
      by_cases h3 : j < l.length
      · rw [if_pos h3]
        by_cases h4 : j + (c - items.length) < l.length
        · rw [if_pos h4]
        · rw [if_neg h4, List.getElem?_eq_none (by omega)]
      · rw [if_neg h3, List.getElem?_eq_none (by omega), List.getElem?_eq_none (by omega)]

theorem stored_up (l items : List Val) (s c : Nat) (hs : s + c ≤ l.length) (hd : c < items.length) :
    stored (upState l s (items.length - c) 0) s items = elems (l.take s ++ items ++ l.drop (s + c)) := by
  funext j
  unfold stored elems upState
  by_cases h1 : j < s
  · rw [if_neg (by omega), if_pos (by omega), List.getElem?_append_left (by simp; omega), List.getElem?_append_left (by simp; omega),
      List.getElem?_take_of_lt h1]
  · by_cases h2 : j < s + items.length
    · rw [if_pos (by omega), List.getElem?_append_left (by simp; omega), List.getElem?_append_right (by simp; omega)]
      congr 1; simp; omega
    · rw [if_neg (by omega), if_neg (by omega), if_neg (by omega), List.getElem?_append_right (by simp; omega), List.getElem?_drop]
      congr 1; simp; omega

theorem moveTail_step {h ops v} {l items : List Val} {s c : Nat} (hh : History cmem numText h ops) (ha : ArrayOps v ops (elems l))
    (hs : s + c ≤ l.length) (hb : l.length + items.length < 2 ^ 31) {m al} (hg : Supply (2 * (l.length - s) + m) h al) :
    ∃ h' ops' f', moveTail h v s l.length ((items.length : Int) - c) al = some h' ∧ History cmem numText h' ops' ∧
      ArrayOps v ops' f' ∧ Only v ops ops' ∧ stored f' s items = elems (l.take s ++ items ++ l.drop (s + c)) ∧
      Supply m h' fun k => al (k + 2 * (l.length - s)) := by
  have hd : ((l.length : Int) - s).toNat = l.length - s := by omega
  rcases Nat.lt_trichotomy items.length c with hlt | heq | hgt
  · have hst : downState l s (c - items.length) s = elems l := by
      funext j
      unfold downState elems
      split
      · rfl
      · rfl
    obtain ⟨h', ops', e, hh', ha', ho, hs'⟩ := down_step l s (c - items.length) (by omega) (l.length - s) (i := s) hh
      (hst ▸ ha) (Nat.le_refl _) (by omega) (by omega) hg
    refine ⟨h', ops', _, ?_, hh', ha', ho, stored_down l items s c hs hlt, hs'⟩
    rw [moveTail, if_pos (by omega), hd, ← e]
    congr 1 <;> omega
  · refine ⟨h, ops, _, ?_, hh, ha, .refl _ _, by rw [← heq] at hs ⊢; exact stored_same l items s hs, ?_⟩
    · rw [moveTail, if_neg (by omega), if_neg (by omega)]
    · rw [Nat.add_comm] at hg
      exact hg.drop _
  · have hst : upState l s (items.length - c) (l.length - s) = elems l := by
      funext j
      unfold upState elems
      by_cases h1 : j < s + (l.length - s)
      · rw [if_pos h1]
      · rw [if_neg h1]
        by_cases h2 : j < s + (l.length - s) + (items.length - c)
        · rw [if_pos h2, List.getElem?_eq_none (by omega)]
        · rw [if_neg h2, List.getElem?_eq_none (by omega), List.getElem?_eq_none (by omega)]
    obtain ⟨h', ops', e, hh', ha', ho, hs'⟩ := up_step l s (items.length - c) (by omega) (l.length - s) hh
      (hst ▸ ha) (by omega) (by omega) hg
    refine ⟨h', ops', _, ?_, hh', ha', ho, stored_up l items s c hs hgt, hs'⟩
    rw [moveTail, if_neg (by omega), if_pos (by omega), hd, ← e]
    congr 1
    omega

theorem cInt_small {n : Nat} (h : n < 2 ^ 31) : cInt n = n := by
  rw [cInt, BitVec.toInt_eq_toNat_cond, BitVec.toNat_ofNat]
  have : n % 2 ^ 32 = n := Nat.mod_eq_of_lt (by omega)
  rw [this, if_pos (by omega)]

theorem start_eq (n : Nat) (s : Int) : normalizeIdx s n = (editStart n s : Int) := by
  unfold normalizeIdx editStart
  by_cases h : s < 0
  · simp only [if_pos h]
    by_cases h2 : (n : Int) + s < 0
    · rw [if_pos h2, if_neg (by omega)]; omega
    · rw [if_neg h2, if_neg (by omega)]; omega
  · simp only [if_neg h]
    split <;> omega

theorem editStart_le (n : Nat) (s : Int) : editStart n s ≤ n := by
  unfold editStart; split <;> omega

/-- The part of `splice` after its arguments are understood. -/
theorem splice_body {h ops v} {l items : List Val} (hh : History cmem numText h ops) (ha : ArrayOps v ops (elems l))
    {s c : Nat} (hs : s + c ≤ l.length) (hb : l.length + items.length < 2 ^ 31) {al}
    (hg : Supply (1 + 3 * l.length + items.length) h al) :
    ∃ h0 h1 h2 h3 ops' r, mkArray h (al 0) = some (h0, r) ∧ length h0 v = some l.length ∧
      copyItems h0 v r s (fun k => al (1 + k)) c = some (h1, .ok) ∧
      moveTail h1 v s l.length ((items.length : Int) - c) (fun k => al (1 + c + k)) = some h2 ∧
      setItems h2 v s (fun k => al (1 + c + 2 * (l.length - s) + k)) items = some h3 ∧
      History cmem numText h3 ops' ∧ ArrayOps v ops' (elems (l.take s ++ items ++ l.drop (s + c))) ∧
      ArrayOps r ops' (elems ((l.drop s).take c)) ∧ isArray r = true ∧ ¬ created ops r ∧
      ∃ new, ops' = new ++ ops ∧ ∀ o ∈ new, o.target = v ∨ o.target = r := by
  rw [show 1 + 3 * l.length + items.length = (3 * l.length + items.length) + 1 by omega] at hg
  obtain ⟨h0, r, e0, hh0, hnc, hr⟩ := newArray_step hh hg.1.obj
  have hne : r ≠ v := fun e => hnc (e ▸ (view_of ha).cr)
  have ha0 : ArrayOps v (.new r :: ops) (elems l) := .other ha hne
  have hr0 : ArrayOps r (.new r :: ops) (elems []) := .new
  have hg0 := (hg.2 h0 (.new e0)).le (show c + (2 * (l.length - s) + items.length) ≤ _ by omega)
  obtain ⟨h1, ops1, e1, hh1, ha1, hr1, ho1, hg1⟩ := copy_step c hh0 ha0 hr0 hne (i := s) (by omega) (by simp; omega) hg0
  obtain ⟨h2, ops2, f2, e2, hh2, ha2, ho2, hf2, hg2⟩ := moveTail_step hh1 ha1 hs hb hg1
  obtain ⟨h3, ops3, e3, hh3, ha3, ho3⟩ := items_step items (m := 0) hh2 ha2 (s := s) (by omega) hg2
  refine ⟨h0, h1, h2, h3, ops3, r, e0, length_step hh0 ha0 (isLength_elems l), ?_, ?_, ?_, hh3, hf2 ▸ ha3, ?_, hr, hnc, ?_⟩
  · rw [← e1]; congr 1; funext k; rw [Nat.add_comm]
  · rw [← e2]; congr 1; funext k; rw [show 1 + c + k = k + c + 1 by omega]
  · rw [← e3]; congr 1; funext k; rw [show 1 + c + 2 * (l.length - s) + k = k + 2 * (l.length - s) + c + 1 by omega]
  · have hl : ((List.range c).map fun k => (elems l (s + k)).getD mkUndefined) = (l.drop s).take c := by
      apply List.ext_getElem
      · simp; omega
      · intro k h1 h2
        simp only [List.length_map, List.length_range] at h1
        simp [elems, List.getElem?_eq_getElem (show s + k < l.length by omega)]
    rw [hl] at hr1
    exact ho3.other hne.symm (ho2.other hne.symm hr1)
  · obtain ⟨l1, rfl, h1⟩ := ho1
    obtain ⟨l2, rfl, h2⟩ := ho2.trans ho3
    refine ⟨l2 ++ l1 ++ [.new r], by simp, fun o ho => ?_⟩
    simp only [List.mem_append, List.mem_singleton] at ho
    rcases ho with (ho | ho) | rfl
    · exact .inl (h2 o ho)
    · exact .inr (h1 o ho)
    · exact .inr rfl

/-- **C19.** On an array with the elements `l`, `splice(a, c, items...)` (or `splice(a)`) with numbers `a` and `c` returns
a new array of the removed elements in order, and leaves `prefix ++ items ++ suffix`; no other object changes.  Lengths are
below 2^31, because the code counts with `int`. -/
theorem C19_splice {h ops v} {l : List Val} (hh : History cmem numText h ops) (ha : ArrayOps v ops (elems l))
    (hv : isArray v = true) (a : Val) (hna : isNumber a = true) (rest : List Val)
    (hnc : ∀ c, rest.head? = some c → isNumber c = true) (hb : l.length + rest.length < 2 ^ 31) {al}
    (hg : Supply (1 + 3 * l.length + rest.length) h al) :
    let s := editStart l.length (getInt a)
    let c := editCount l.length s (rest.head?.map getInt)
    ∃ h' ops' r, splice h v (a :: rest) al = some ⟨h', .ok, r⟩ ∧ History cmem numText h' ops' ∧
      ArrayOps v ops' (elems (l.take s ++ rest.tail ++ l.drop (s + c))) ∧
      ArrayOps r ops' (elems ((l.drop s).take c)) ∧ isArray r = true ∧ ¬ created ops r ∧
      ∃ new, ops' = new ++ ops ∧ ∀ o ∈ new, o.target = v ∨ o.target = r := by
  intro s c
  have hsl : s ≤ l.length := editStart_le _ _
  have hcl : s + c ≤ l.length := by
    have : c ≤ l.length - s := by
      show editCount _ _ _ ≤ _
      unfold editCount; split <;> omega
    omega
  have htl : rest.tail.length ≤ rest.length := by cases rest <;> simp
  obtain ⟨h0, h1, h2, h3, ops', r, e0, e1, e2, e3, e4, r1, r2, r3, r4, r5, r6⟩ :=
    splice_body hh ha hcl (items := rest.tail) (by omega) (hg.le (by omega))
  refine ⟨h3, ops', r, ?_, r1, r2, r3, r4, r5, r6⟩
  have hdc : deleteCount (l.length : Int) (s : Int) (a :: rest) = some (some (c : Int)) := by
    unfold deleteCount
    cases rest with
    | nil =>
      rw [if_neg (by simp)]
      have : (c : Int) = l.length - s := by
        show ((editCount l.length s none : Nat) : Int) = _
        simp only [editCount]; omega
      simp only [this]
      rw [if_neg (by omega), if_neg (by omega)]
    | cons x items =>
      rw [if_pos (by simp)]
      have : (c : Nat) = min (getInt x).toNat (l.length - s) := rfl
      simp only [List.getElem?_cons_succ, List.getElem?_cons_zero, checkArg, getType_number (hnc x rfl), ne_eq, not_true, if_false,
        Option.map_some, this]
      congr 2
      split
      · omega
      · split <;> omega
  have hdr : (a :: rest).drop 2 = rest.tail := by cases rest <;> simp
  have hst : normalizeIdx (getInt a) (l.length : Int) = (s : Int) := start_eq _ _
  simp only [splice, Option.bind_eq_bind, e0, Option.bind_some, checkArg, getType_array hv, ne_eq, not_true, if_false, e1,
    List.getElem?_cons_zero, getType_number hna, cInt_small (show l.length < 2 ^ 31 by omega), hst, hdc, hdr, Int.toNat_natCast, e2]
  rw [e3, Option.bind_some]
  have : ((l.length : Int) - s).toNat = l.length - s := by omega
  rw [this, e4]
  rfl

/-- **C19, errors.** If `this` is not an array, or `start` is absent or no number, or the count is no number, `splice`
reports a type error and returns a new, empty array; no object changes. -/
theorem C19_type_errors {h ops v} (hh : History cmem numText h ops) (args : List Val) (al : Nat → Allocs)
    (hg : CallocOk h.objs (al 0).obj) (hty : ∀ w ∈ v :: args, getType w ≠ none)
    (hbad : isArray v = false ∨ (∃ f, ArrayOps v ops f) ∧ (args = [] ∨ (∃ a rest, args = a :: rest ∧ isNumber a = false) ∨
      ∃ a c rest, args = a :: c :: rest ∧ isNumber c = false)) :
    ∃ h' r, splice h v args al = some ⟨h', .type, r⟩ ∧ History cmem numText h' (.new r :: ops) ∧ ¬ created ops r := by
  obtain ⟨h', r, e, hh', hnc, _⟩ := newArray_step hh hg
  refine ⟨h', r, ?_, hh', hnc⟩
  obtain ⟨t, ht⟩ := Option.ne_none_iff_exists'.1 (hty v (by simp))
  cases hav : isArray v with
  | false => simp [splice, e, checkArg, ht, getType_not_array ht hav]
  | true =>
    obtain ⟨⟨f, hf⟩, hb⟩ := hbad.resolve_left (by simp [hav])
    have hf' : ArrayOps v (.new r :: ops) f := .other hf fun e => hnc (by rw [show r = v from e]; exact (view_of hf).cr)
    obtain ⟨n, hn, _⟩ := length_view hh' (view_of hf')
    have notNum : ∀ a ∈ v :: args, isNumber a = false → checkArg (some a) .number = some none := by
      intro a ha hna
      obtain ⟨u, hu⟩ := Option.ne_none_iff_exists'.1 (hty a ha)
      have : u ≠ .number := by
        rintro rfl
        simp only [getType, hna, Bool.false_eq_true, if_false] at hu
        repeat' split at hu
        all_goals cases hu
      simp [checkArg, hu, this]
    have hca : checkArg (some v) .objectArray = some (some v) := by simp [checkArg, getType_array hav]
    rcases hb with rfl | ⟨a, rest, rfl, hna⟩ | ⟨a, c, rest, rfl, hnc'⟩
    · simp [splice, e, hn, checkArg, getType_array hav]
    · simp [splice, e, hca, hn, notNum a (by simp) hna]
    · cases hna : isNumber a with
      | false => simp [splice, e, hca, hn, notNum a (by simp) hna]
      | true =>
        have hca' : checkArg (some a) .number = some (some a) := by simp [checkArg, getType_number hna]
        simp [splice, e, hca, hn, hca', deleteCount, notNum c (by simp) hnc']

/-! ### The hypotheses are met -/

theorem del_room {h k v name n h' b} (hr : Room h k) (he : Obj.del h v name n = some (h', b)) : Room h' k ∧ h'.str = h.str := by
  have hu : ∀ o prev nx h', unlink h o prev nx = some h' → Room h' k ∧ h'.str = h.str := by
    intro o prev nx h' he
    unfold unlink at he
    split at he
    all_goals
      rw [Option.map_eq_some_iff] at he
      obtain ⟨c, _, rfl⟩ := he
      exact ⟨⟨hr.al8, hr.low, hr.ocs, hr.oinc, hr.oblk, hr.pcs, hr.pinc, hr.pblk, hr.str, hr.forn⟩, rfl⟩
  have hl : ∀ o prev p r, delLoop h o name n prev p = some r → Room r.1 k ∧ r.1.str = h.str := by
    intro o prev p r
    refine delLoop.partial_correctness h o name n (motive := fun _ _ r => Room r.1 k ∧ r.1.str = h.str) ?_ prev p r
    intro f ih prev p r he
    split at he
    · cases he; exact ⟨hr, rfl⟩
    · simp only [Option.bind_eq_bind, Option.bind_eq_some_iff] at he
      obtain ⟨c, _, eq, _, he⟩ := he
      split at he
      · rw [Option.map_eq_some_iff] at he
        obtain ⟨h', hu', rfl⟩ := he
        exact hu _ _ _ _ hu'
      · exact ih _ _ _ he
  unfold Obj.del at he
  split at he
  · cases he; exact ⟨hr, rfl⟩
  · simp only [Option.bind_eq_bind, Option.bind_eq_some_iff] at he
    obtain ⟨o, _, c, _, he⟩ := he
    exact hl _ _ _ _ he

theorem next_room {h k h'} (hr : Room h k) (hi : InvS h.str) (hk : k < 1099511627776) (hn : Next h (alFor k) h') :
    Room h' (k + 1048576) ∧ InvS h'.str := by
  have up : ∀ {g}, Room g k → Room g (k + 1048576) := fun {g} hr =>
    ⟨by have := hr.al8; omega, by have := hr.low; omega, hr.ocs, hr.oinc, fun b hb => Nat.le_trans (hr.oblk b hb) (by omega),
      hr.pcs, hr.pinc, fun b hb => Nat.le_trans (hr.pblk b hb) (by omega), by have := hr.str; omega, by have := hr.forn; omega⟩
  cases hn with
  | @set v buf t x _ hkp hl e =>
    have hg := hr.granted hk (n := t.length) (by omega)
    obtain ⟨st', v', bs', ec, hi', _, _, _, _, hf, _, hl, _⟩ :=
      mkStringCopy_core (alFor k).hr h.str hi buf t.length (alFor k).strs (.inr ⟨t, hkp.bytes⟩) hg.room hg.low hg.grant
    obtain ⟨s1, s2, s3, s4, s5, s6, s7⟩ := setInternal_shape e (st' := st') (nv := v') (by simp [propName, ec])
    have hp := hr.pblk
    have hstr := hr.str
    have hfor := hr.forn
    refine ⟨⟨by have := hr.al8; omega, by have := hr.low; omega, s1.trans hr.ocs, s2.trans hr.oinc,
      fun b hb => Nat.le_trans (hr.oblk b (s3 ▸ hb)) (by omega), s4.trans hr.pcs, s5.trans hr.pinc, ?_, ?_, ?_⟩, ?_⟩
    · intro b hb
      rcases s6 with s6 | ⟨y, hy, s6⟩
      · rw [s6] at hb
        have := hp b hb; omega
      · rw [s6] at hb
        rcases List.mem_cons.1 hb with rfl | hb
        · cases hy
          simp only [hr.pinc]; omega
        · have := hp b hb; omega
    · rcases s7 with s7 | s7 <;> rw [s7] <;> omega
    · rcases s7 with s7 | s7
      · rw [s7]; omega
      · rw [s7, hf]; omega
    · rcases s7 with s7 | s7 <;> rw [s7]
      · exact hi
      · exact hi'
  | del _ _ e =>
    obtain ⟨h1, h2⟩ := del_room hr e
    exact ⟨up h1, by rw [h2]; exact hi⟩
  | new e =>
    simp only [mkArray, Option.map_eq_some_iff, mkObject, Option.bind_eq_bind, Option.bind_eq_some_iff] at e
    obtain ⟨_, ⟨⟨a, r, g⟩, ha, c, _, v', _, e⟩, e2⟩ := e
    cases e
    cases e2
    obtain ⟨s1, s2, s3⟩ := allocCell_shape ha
    have ho := hr.oblk
    refine ⟨⟨by have := hr.al8; omega, by have := hr.low; omega, by simp only [s1, hr.ocs], by simp only [s2, hr.oinc], ?_, hr.pcs, hr.pinc,
      fun b hb => Nat.le_trans (hr.pblk b hb) (by omega), by have := hr.str; simp only; omega, by have := hr.forn; simp only; omega⟩, hi⟩
    intro b hb
    rcases s3 with s3 | ⟨x, hx, s3⟩
    · simp only [s3] at hb
      have := ho b hb; omega
    · simp only [s3] at hb
      rcases List.mem_cons.1 hb with rfl | hb
      · cases hx
        simp only [hr.oinc]; omega
      · have := ho b hb; omega
  | skip => exact ⟨up hr, hi⟩

/-- An allocator that always grants memory beyond everything in use. -/
def supplyFrom (k : Nat) : Nat → Allocs
  | 0 => alFor k
  | n + 1 => supplyFrom (k + 1048576) n

theorem supply_room (n : Nat) : ∀ {h k}, Room h k → InvS h.str → k + n * 1048576 < 1099511627776 → Supply n h (supplyFrom k) := by
  induction n with
  | zero => intro h k _ _ _; trivial
  | succ n ih =>
    intro h k hr hi hk
    refine ⟨hr.granted (by omega) (by omega), fun h' hn => ?_⟩
    obtain ⟨r, i⟩ := next_room hr hi (by omega) hn
    exact ih r i (by omega)

/-- A history with an empty array, and an allocator with room for 4096 operations. -/
theorem demo_array (numText : Val → List UInt8) : ∃ h ops v al, History demoMem numText h ops ∧ ArrayOps v ops (elems []) ∧
    isArray v = true ∧ Supply 4096 h al := by
  obtain ⟨h0, hh0, hr0⟩ := demo_start numText
  obtain ⟨h1, v, e, hh1, _, hv⟩ := newArray_step hh0 (al := alFor 65536) (hr0.granted (n := 0) (by decide) (by decide)).obj
  obtain ⟨A, fo, fp, hs⟩ := hh0.sim
  obtain ⟨r1, i1⟩ := next_room hr0 hs.inv.str (by decide) (.new e)
  exact ⟨h1, _, v, _, hh1, .new, hv, supply_room 4096 r1 i1 (by decide)⟩

/-- `[x, y]` by pushing on a fresh array: the theorems above apply, and `splice(-1)` then removes `y`. -/
example (numText : Val → List UInt8) (x y : Val) : ∃ h ops v h' r al, History demoMem numText h ops ∧ ArrayOps v ops (elems [x, y]) ∧
    Arr.length h v = some 2 ∧ Arr.get h v 1 = some y ∧ splice h v [mkInt (-1)] al = some ⟨h', .ok, r⟩ ∧
    Arr.get h' r 0 = some y ∧ Arr.length h' v = some 1 := by
  obtain ⟨h, ops, v, al, hh, ha, hv, hs⟩ := demo_array numText
  have hs2 := hs
  obtain ⟨h1, ops1, e1, hh1, ha1, _, n1⟩ := push_step hh ha (isLength_elems []) (by simp [IsIndex]) x hs2.1
  rw [setAt_push] at ha1
  have hs3 := hs2.2 h1 n1
  obtain ⟨h2, ops2, e2, hh2, ha2, _, n2⟩ := push_step hh1 ha1 (isLength_elems _) (by simp [IsIndex]) y hs3.1
  rw [setAt_push] at ha2
  have hs4 := hs3.2 h2 n2
  have hm : isNumber (mkInt (-1)) = true ∧ getInt (mkInt (-1)) = -1 := by decide +kernel
  obtain ⟨h3, ops3, r, e3, hh3, ha3, hr3, _⟩ := C19_splice hh2 ha2 hv (mkInt (-1)) hm.1 [] (by simp) (by simp)
    (hs4.le (by simp))
  refine ⟨h2, ops2, v, h3, r, _, hh2, ha2, length_step hh2 ha2 (isLength_elems _), (C18_get hh2 ha2 (by decide)).1, e3, ?_, ?_⟩
  · rw [(C18_get hh3 hr3 (by decide)).1, hm.2]; rfl
  · rw [hm.2] at ha3
    exact length_step hh3 ha3 (isLength_elems _)

/-- **C18, other keys, witness.** A key such as `" 5"`, which is not an index, counts for the length. -/
theorem C18_blank_key_counts (numText : Val → List UInt8) : ∃ h v, History demoMem numText h [.set v [32, 53] mkNull, .new v] ∧
    Arr.length h v = some 6 ∧ Arr.get h v 5 = some mkUndefined := by
  obtain ⟨h0, hh0, hr0⟩ := demo_start numText
  obtain ⟨h1, v, hh1, hr1, _⟩ := grow_new hh0 hr0 (by decide)
  obtain ⟨h2, hh2, _⟩ := grow_set hh1 hr1 (by decide) (.inl rfl) [32, 53] (by decide) mkNull
  refine ⟨h2, v, hh2, ?_, ?_⟩
  · rw [length_engine hh2 (.inl rfl)]
    have : engineOrder [.set v [32, 53] mkNull, .new v] v = [[32, 53]] := by simp [engineOrder]
    rw [this]; decide
  · obtain ⟨buf, t, e, hn, hk, _⟩ := indexKey_ptr 5 (by decide) h2.str
    have ht : t = [53] := numeral_unique hn ⟨.snoc (text := []) .nil (d := 5) (by decide) (by decide), by decide, by decide⟩
    subst ht
    obtain ⟨A, fo, fp, hs⟩ := hh2.sim
    obtain ⟨o, L, hvo, hA, _, hlk⟩ := hs.obj v (.inl rfl)
    have hl := getOwnProperty_spec hs.inv hA hvo hk false (by simp)
    have hva := valueAt_locate hs.inv hA [53]
    rw [hlk] at hva
    have hec : engineCurrent [.set v [32, 53] mkNull, .new v] v [53] = none := by
      simp [engineCurrent, sameKey]
    rw [hec] at hva
    simp only [Arr.get, Arr.get2, if_pos hvo.1, e, Option.bind_eq_bind, Option.bind_some, hl]
    split
    · rw [hva]; rfl
    · rfl

end Mjs.Props
