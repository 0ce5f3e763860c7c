import Verif.Model.Own

namespace Mjs.Own

theorem set_last_perm (l1 : List Nat) (v : Nat) (l2 : List Nat) :
    (((l1 ++ v :: l2).set l1.length ((l1 ++ v :: l2).getLast?.getD 0)).dropLast).Perm (l1 ++ l2) := by
  rcases List.eq_nil_or_concat l2 with rfl | ⟨l3, z, rfl⟩
  · simp
  · have h1 : (l1 ++ v :: (l3.concat z)).getLast?.getD 0 = z := by
      simp [List.getLast?_append, List.getLast?_cons]
    rw [h1, List.set_append_right _ _ (Nat.le_refl _), Nat.sub_self, List.set_cons_zero, List.concat_eq_append]
    have h2 : (l1 ++ z :: (l3 ++ [z])) = (l1 ++ z :: l3) ++ [z] := by simp
    rw [h2, List.dropLast_concat]
    refine List.Perm.append_left l1 ?_
    have := (List.perm_append_comm (l₁ := l3) (l₂ := [z])).symm
    simpa using this

theorem disownLoop_spec (ptrs : List Nat) (v : Nat) (n : Nat) (hn : n ≤ ptrs.length) :
    ((disownLoop ptrs v n).2 = true → (disownLoop ptrs v n).1.Perm (ptrs.erase v) ∧ v ∈ ptrs) ∧
    ((disownLoop ptrs v n).2 = false → (disownLoop ptrs v n).1 = ptrs ∧ v ∉ ptrs.take n) := by
  induction n with
  | zero => simp [disownLoop]
  | succ i ih =>
    have ih := ih (by omega)
    rw [disownLoop]
    by_cases h : ptrs[i]? = some v
    · rw [if_pos h]
      refine ⟨fun _ => ?_, fun h => by cases h⟩
      obtain ⟨hi, hv⟩ := List.getElem?_eq_some_iff.1 h
      have hsplit : ptrs = ptrs.take i ++ v :: ptrs.drop (i + 1) := by
        rw [← hv, ← List.drop_eq_getElem_cons hi, List.take_append_drop]
      have hlen : (ptrs.take i).length = i := by rw [List.length_take]; omega
      have hm : v ∈ ptrs := by rw [hsplit]; simp
      refine ⟨?_, hm⟩
      have hp := set_last_perm (ptrs.take i) v (ptrs.drop (i + 1))
      rw [← hsplit, hlen] at hp
      refine hp.trans ?_
      have h2 : ptrs.Perm (v :: (ptrs.take i ++ ptrs.drop (i + 1))) := by
        conv => lhs; rw [hsplit]
        exact List.perm_middle
      have h3 := h2.erase v
      rw [List.erase_cons_head] at h3
      exact h3.symm
    · rw [if_neg h]
      refine ⟨ih.1, fun hf => ⟨(ih.2 hf).1, ?_⟩⟩
      intro hm
      rw [List.take_succ] at hm
      rcases List.mem_append.1 hm with hm | hm
      · exact (ih.2 hf).2 hm
      · cases hq : ptrs[i]? with
        | none => rw [hq] at hm; simp at hm
        | some u =>
          rw [hq] at hm
          simp at hm
          exact h (by rw [hq, hm])

/-- `mjs_disown` removes one registration of the variable, if there is one. -/
theorem disown_spec {o : Owned} {v r} (h : disown o v = some r) :
    r.1.ptrs.Perm (o.ptrs.erase v) ∧ (r.2 = true ↔ v ∈ o.ptrs) ∧ r.1.buf = o.buf ∧ o.buf ≠ 0 := by
  unfold disown at h
  split at h
  · cases h
  · next hb =>
    simp only [Option.some.injEq] at h
    subst h
    obtain ⟨h1, h2⟩ := disownLoop_spec o.ptrs v o.ptrs.length (Nat.le_refl _)
    cases hq : (disownLoop o.ptrs v o.ptrs.length).2 with
    | true => exact ⟨(h1 hq).1, by simp [(h1 hq).2], rfl, hb⟩
    | false =>
      have := h2 hq
      rw [List.take_length] at this
      exact ⟨by simp only [this.1]; rw [List.erase_of_not_mem this.2], by simp [this.2], rfl, hb⟩

end Mjs.Own
