import Verif.Spec.ObjMap

namespace Mjs.Spec

theorem cSame_refl (a : Key) : cSame a a = true := by simp [cSame]

theorem cSame_iff {a b : Key} : cSame a b = true ↔ a.length = b.length ∧ a.takeWhile (· ≠ 0) = b.takeWhile (· ≠ 0) := by
  simp [cSame]

theorem sameKey_refl (a : Key) : sameKey a a = true := by unfold sameKey; split <;> simp [cSame_refl]

theorem sameKey_length {a b : Key} (h : sameKey a b = true) : a.length = b.length := by
  unfold sameKey at h
  split at h
  · simp at h; rw [h]
  · exact (cSame_iff.1 h).1

theorem sameKey_iff {a b : Key} : sameKey a b = true ↔ a = b ∨ (5 < b.length ∧ cSame a b = true) := by
  unfold sameKey
  split
  · next h =>
    have : ¬ 5 < b.length := by omega
    simp [this]
  · next h =>
    have : 5 < b.length := by omega
    constructor
    · exact fun h => .inr ⟨this, h⟩
    · rintro (rfl | h)
      · exact cSame_refl _
      · exact h.2

theorem cSame_symm {a b : Key} (h : cSame a b = true) : cSame b a = true := by
  rw [cSame_iff] at h ⊢; exact ⟨h.1.symm, h.2.symm⟩

theorem cSame_trans {a b c : Key} (h : cSame a b = true) (h' : cSame b c = true) : cSame a c = true := by
  rw [cSame_iff] at *; exact ⟨h.1.trans h'.1, h.2.trans h'.2⟩

theorem sameKey_symm {a b : Key} (h : sameKey a b = true) : sameKey b a = true := by
  have hl := sameKey_length h
  rw [sameKey_iff] at *
  rcases h with h | h
  · exact .inl h.symm
  · exact .inr ⟨by omega, cSame_symm h.2⟩

theorem sameKey_trans {a b c : Key} (h : sameKey a b = true) (h' : sameKey b c = true) : sameKey a c = true := by
  have hl := sameKey_length h'
  rw [sameKey_iff] at *
  rcases h with rfl | h
  · exact h'
  · rcases h' with rfl | h'
    · exact .inr h
    · exact .inr ⟨h'.1, cSame_trans h.2 h'.2⟩

theorem sameKey_left {a b k : Key} (h : sameKey a b = true) : sameKey a k = sameKey b k := by
  rw [Bool.eq_iff_iff]
  exact ⟨fun h' => sameKey_trans (sameKey_symm h) h', fun h' => sameKey_trans h h'⟩

theorem sameKey_right {a b k : Key} (h : sameKey a b = true) : sameKey k a = sameKey k b := by
  rw [Bool.eq_iff_iff]
  exact ⟨fun h' => sameKey_trans h' h, fun h' => sameKey_trans h' (sameKey_symm h)⟩

theorem takeWhile_noNul {a : Key} (h : (0 : UInt8) ∉ a) : a.takeWhile (· ≠ 0) = a := by
  induction a with
  | nil => rfl
  | cons x a ih =>
    simp only [List.mem_cons, not_or] at h
    have hx : x ≠ 0 := fun e => h.1 e.symm
    rw [List.takeWhile_cons_of_pos (by simpa using hx), ih h.2]

theorem cSame_noNul {a b : Key} (h : (0 : UInt8) ∉ b) : cSame a b = (a == b) := by
  rw [Bool.eq_iff_iff, beq_iff_eq, cSame_iff]
  constructor
  · rintro ⟨hl, ht⟩
    rw [takeWhile_noNul h] at ht
    have : (a.takeWhile (· ≠ 0)).length = a.length := by rw [ht, hl]
    rw [← ht]
    exact ((List.takeWhile_prefix (p := fun x : UInt8 => decide (x ≠ 0)) (l := a)).eq_of_length this).symm
  · rintro rfl; exact ⟨rfl, rfl⟩

theorem sameKey_noNul {a b : Key} (h : (0 : UInt8) ∉ b) : sameKey a b = (a == b) := by
  unfold sameKey; split
  · rfl
  · exact cSame_noNul h

theorem sameKey_noNul' {a b : Key} (h : (0 : UInt8) ∉ a) : sameKey a b = (a == b) := by
  rw [Bool.eq_iff_iff]
  constructor
  · intro h'
    have := sameKey_symm h'
    rw [sameKey_noNul h] at this
    simpa using (beq_iff_eq.1 this).symm
  · intro h'; rw [beq_iff_eq.1 h']; exact sameKey_refl _

theorem order_noNul {ops : List ObjOp} (h : ∀ o ∈ ops, o.noNul) (v : Val) : ∀ k ∈ order ops v, (0 : UInt8) ∉ k := by
  induction ops with
  | nil => simp [order]
  | cons o ops ih =>
    have ih := ih fun o ho => h o (by simp [ho])
    have h0 := h o (by simp)
    intro k hk
    cases o with
    | new w =>
      simp only [order] at hk
      split at hk
      · simp at hk
      · exact ih k hk
    | set w k' x =>
      simp only [order] at hk
      split at hk
      · rcases List.mem_cons.1 hk with rfl | hk
        · exact h0
        · exact ih k hk
      · exact ih k hk
    | del w k' =>
      simp only [order] at hk
      split at hk
      · exact ih k (List.mem_filter.1 hk).1
      · exact ih k hk

theorem order_nodup (ops : List ObjOp) (v : Val) : (order ops v).Nodup := by
  induction ops with
  | nil => simp [order]
  | cons o ops ih =>
    cases o with
    | new w => simp only [order]; split <;> simp [ih]
    | set w k' x =>
      simp only [order]; split
      · next h => exact List.nodup_cons.2 ⟨h.2, ih⟩
      · exact ih
    | del w k' =>
      simp only [order]; split
      · exact ih.filter _
      · exact ih

/-- Without NUL bytes the engine does what the user expects. -/
theorem engineOrder_eq {ops : List ObjOp} (h : ∀ o ∈ ops, o.noNul) (v : Val) : engineOrder ops v = order ops v := by
  induction ops with
  | nil => rfl
  | cons o ops ih =>
    have ht : ∀ o ∈ ops, o.noNul := fun o ho => h o (by simp [ho])
    have ih := ih ht
    have h0 := h o (by simp)
    cases o with
    | new w => simp only [engineOrder, order, ih]
    | set w k x =>
      have : ((order ops v).all fun a => !sameKey a k) = true ↔ k ∉ order ops v := by
        rw [List.all_eq_true]
        constructor
        · intro hh hk
          have := hh k hk
          simp [sameKey_refl] at this
        · intro hk a ha
          rw [sameKey_noNul h0]
          have : a ≠ k := fun e => hk (e ▸ ha)
          simpa using this
      simp only [engineOrder, order, ih, this]
    | del w k =>
      simp only [engineOrder, order, ih]
      split
      · have hv : ∀ a, cSame a k = (a == k) := fun a => cSame_noNul h0
        simp only [victim, hv]
        cases hf : (order ops v).find? (fun a => a == k) with
        | none =>
          simp only
          refine (List.filter_eq_self.2 fun a ha => ?_).symm
          simpa using List.find?_eq_none.1 hf a ha
        | some a =>
          have : a = k := by simpa using List.find?_some hf
          subst this
          simp only
          rw [(order_nodup ops v).erase_eq_filter]
          apply List.filter_congr
          intro x _
          rw [Bool.eq_iff_iff]; simp
      · rfl

theorem engineCurrent_eq {ops : List ObjOp} (h : ∀ o ∈ ops, o.noNul) (v : Val) (k : Key) :
    engineCurrent ops v k = current ops v k := by
  induction ops with
  | nil => rfl
  | cons o ops ih =>
    have ht : ∀ o ∈ ops, o.noNul := fun o ho => h o (by simp [ho])
    have ih := ih ht
    have h0 := h o (by simp)
    cases o with
    | new w => simp only [engineCurrent, current, ih]
    | set w k' x =>
      simp only [engineCurrent, current, ih, sameKey_noNul h0, beq_iff_eq]
    | del w k' =>
      simp only [engineCurrent, current, ih, engineOrder_eq ht]
      have hv : ∀ a, cSame a k' = (a == k') := fun a => cSame_noNul h0
      simp only [victim, hv]
      by_cases hvw : v = w
      · subst hvw
        cases hf : (order ops v).find? (fun a => a == k') with
        | some a =>
          have : a = k' := by simpa using List.find?_some hf
          subst this
          have : sameKey a k = true ↔ k = a := by
            rw [sameKey_noNul' h0, beq_iff_eq]; exact ⟨Eq.symm, Eq.symm⟩
          simp [this]
        | none =>
          simp only [Option.any_none, Bool.false_eq_true, and_false, if_false, true_and]
          by_cases hk : k = k'
          · subst hk
            have hno : k ∉ order ops v := fun hk => by
              have := List.find?_eq_none.1 hf k hk
              simp at this
            simp only [if_true]
            -- a key that is not in the order has no value
            exact current_none hno
          · rw [if_neg hk]
      · simp [hvw]
where
  current_none {ops : List ObjOp} {v : Val} {k : Key} (h : k ∉ order ops v) : current ops v k = none := by
    induction ops with
    | nil => rfl
    | cons o ops ih =>
      cases o with
      | new w =>
        simp only [current, order] at *
        split at h
        · next hv => rw [if_pos hv]
        · next hv => rw [if_neg hv]; exact ih h
      | set w k' x =>
        simp only [current, order] at *
        split at h
        · next hv =>
          simp only [List.mem_cons, not_or] at h
          rw [if_neg (fun hh => h.1 hh.2)]; exact ih h.2
        · next hv =>
          rw [if_neg]
          · exact ih h
          · rintro ⟨rfl, rfl⟩; exact hv ⟨rfl, h⟩
      | del w k' =>
        simp only [current, order] at *
        split at h
        · next hv =>
          split
          · rfl
          · next hn =>
            apply ih
            intro hk
            refine h (List.mem_filter.2 ⟨hk, ?_⟩)
            simp only [ne_eq, decide_not, Bool.not_eq_eq_eq_not, Bool.not_true, decide_eq_false_iff_not]
            exact fun e => hn ⟨hv, e⟩
        · next hv => rw [if_neg (fun hh => hv hh.1)]; exact ih h

/-- The keys in the order are those with a value. -/
theorem mem_order_iff {ops : List ObjOp} {v : Val} {k : Key} : k ∈ order ops v ↔ (current ops v k).isSome = true := by
  constructor
  · intro h
    induction ops with
    | nil => simp [order] at h
    | cons o ops ih =>
      cases o with
      | new w =>
        simp only [current, order] at *
        split at h
        · simp at h
        · next hv => rw [if_neg hv]; exact ih h
      | set w k' x =>
        simp only [current, order] at *
        split at h
        · next hv =>
          rcases List.mem_cons.1 h with rfl | h
          · simp [hv.1]
          · split
            · simp
            · exact ih h
        · split
          · simp
          · exact ih h
      | del w k' =>
        simp only [current, order] at *
        split at h
        · next hv =>
          have := List.mem_filter.1 h
          rw [if_neg (by rintro ⟨_, rfl⟩; simp at this)]
          exact ih this.1
        · next hv => rw [if_neg (fun hh => hv hh.1)]; exact ih h
  · intro h
    refine Decidable.byContradiction fun hn => ?_
    rw [engineCurrent_eq.current_none hn] at h
    simp at h

end Mjs.Spec
