import Verif.Props.Array

/-!
# In every history objects are created once, before they are used
-/

namespace Mjs.Props
open Mjs Mjs.Mbuf Mjs.Str Mjs.Arena Mjs.Obj Mjs.Spec

/-- Objects are new when they are created, and created before they are used. -/
def Orderly : List ObjOp → Prop
  | [] => True
  | .new v :: t => ¬ created t v ∧ Orderly t
  | .set v _ _ :: t => created t v ∧ Orderly t
  | .del v _ :: t => created t v ∧ Orderly t

variable {cmem : Nat → Option UInt8} {numText : Val → List UInt8}

theorem newObject_fresh {h ops} (hh : History cmem numText h ops) {al} (hg : CallocOk h.objs al.obj) {h' v}
    (e : mkObject h al = some (h', v)) : ¬ created ops v := by
  obtain ⟨A, fo, fp, hs⟩ := hh.sim
  obtain ⟨h1, w, o, fo', e', hv, hA, _⟩ := mkObject_spec hs.inv hg
  rw [e'] at e
  cases e
  intro hc
  obtain ⟨o', L, hv', hA', _⟩ := hs.obj _ hc
  have := hv.2.symm.trans hv'.2
  cases this
  rw [hA] at hA'
  cases hA'

theorem orderly {h ops} (hh : History cmem numText h ops) : Orderly ops := by
  induction hh with
  | create => exact trivial
  | newObject h1 hg e ih => exact ⟨newObject_fresh h1 hg e, ih⟩
  | newArray h1 hg e ih =>
    refine ⟨?_, ih⟩
    obtain ⟨h', r, e', _, hnc, _⟩ := newArray_step h1 hg
    rw [e'] at e
    cases e
    exact hnc
  | set _ hc _ _ _ ih => exact ⟨hc, ih⟩
  | setZ _ hc _ _ _ _ _ ih => exact ⟨hc, ih⟩
  | setV _ hc _ _ _ _ _ _ ih => exact ⟨hc, ih⟩
  | del _ hc _ _ ih => exact ⟨hc, ih⟩
  | string _ _ _ _ _ ih => exact ih
  | foreign _ _ _ _ _ _ _ _ ih => exact ih
  | concat _ _ _ _ _ ih => exact ih

theorem created_cons {op : ObjOp} {ops v} (h : created ops v) : created (op :: ops) v := by
  cases op with
  | new w => exact .inr h
  | set => exact h
  | del => exact h

theorem orderly_target {ops} (h : Orderly ops) : ∀ o ∈ ops, created ops o.target := by
  induction ops with
  | nil => simp
  | cons a t ih =>
    intro o ho
    rcases List.mem_cons.1 ho with rfl | ho
    · cases o with
      | new v => exact .inl rfl
      | set v k x => exact h.1
      | del v k => exact h.1
    · have ht : Orderly t := by cases a <;> exact h.2
      exact created_cons (ih ht o ho)

/-- The keys of an array contain no NUL. -/
theorem array_noNul {ops v f} (h : Orderly ops) (ha : ArrayOps v ops f) : ∀ o ∈ ops, o.target = v → o.noNul := by
  induction ha with
  | new =>
    intro o ho ht
    rcases List.mem_cons.1 ho with rfl | ho
    · exact trivial
    · exact absurd (ht ▸ orderly_target h.2 o ho) h.1
  | set _ _ hn ih =>
    intro o ho ht
    rcases List.mem_cons.1 ho with rfl | ho
    · exact Arr.numeral_noNul hn
    · exact ih h.2 o ho ht
  | del _ _ hn ih =>
    intro o ho ht
    rcases List.mem_cons.1 ho with rfl | ho
    · exact Arr.numeral_noNul hn
    · exact ih h.2 o ho ht
  | @other ops f op _ hne ih =>
    intro o ho ht
    rcases List.mem_cons.1 ho with rfl | ho
    · exact absurd ht hne
    · exact ih (by cases op <;> exact h.2) o ho ht

end Mjs.Props
