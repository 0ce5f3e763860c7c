import Verif.Lemmas.ObjectSet
import Verif.Spec.ObjMap
import Verif.Props.Str

namespace Mjs.Obj
open Mjs Mjs.Mbuf Mjs.Str Mjs.Arena Mjs.Spec

/-! ### The empty engine -/

theorem createHeap_inv {hr cmem al1 al2 bo bp h} (h1 : AllocLow al1) (h2 : AllocLow al2)
    (ho : ∀ b, bo = some b → 0 < b ∧ b % 8 = 0 ∧ b + 20 * 8 < 2 ^ 47)
    (hp : ∀ b, bp = some b → 0 < b ∧ b % 8 = 0 ∧ b + 20 * 24 < 2 ^ 47)
    (hc : createHeap hr cmem al1 al2 bo bp = some h) : ∃ fo fp, HInv h (fun _ => none) fo fp := by
  simp only [createHeap, Option.bind_eq_bind, Option.bind_eq_some_iff] at hc
  obtain ⟨st, hst, ao, hao, ap, hap, hc⟩ := hc
  cases hc
  cases bo with
  | none => simp [Arena.init, newBlock] at hao
  | some bo =>
    cases bp with
    | none => simp [Arena.init, newBlock] at hap
    | some bp =>
      obtain ⟨a1, e1, ok1, _⟩ := init_spec (α := Unit) 8 20 10 bo (by decide) (by decide) (by decide) (ho _ rfl).1
        (ho _ rfl).2.1 (ho _ rfl).2.2
      obtain ⟨a2, e2, ok2, _⟩ := init_spec (α := Val × Val) 24 20 10 bp (by decide) (by decide) (by decide) (hp _ rfl).1
        (hp _ rfl).2.1 (hp _ rfl).2.2
      rw [hao] at e1; cases e1
      rw [hap] at e2; cases e2
      exact ⟨_, _, Mjs.Props.create_inv h1 h2 hst, ok1, ok2, by simp, by simp, by simp, by simp, by simp, by simp⟩

/-! ### Lists and histories -/

theorem lookup_cons (e : Ent) (L : List Ent) (k : List UInt8) :
    lookup (e :: L) k = if sameKey e.key k = true then some e.val else lookup L k := by
  unfold lookup
  rw [List.find?_cons]
  cases h : sameKey e.key k <;> simp

theorem lookup_none {L : List Ent} {k : List UInt8} (h : ∀ e ∈ L, sameKey e.key k = false) : lookup L k = none := by
  unfold lookup
  rw [Option.map_eq_none_iff, List.find?_eq_none]
  exact fun e he => by simp [h e he]

theorem lookup_eraseP (L : List Ent) (p : Ent → Bool) (k : List UInt8)
    (hp : L.Pairwise fun a b => sameKey a.key b.key = false) :
    lookup (L.eraseP p) k =
      if ((L.find? p).any fun e => sameKey e.key k) = true then none else lookup L k := by
  induction L with
  | nil => simp [lookup]
  | cons e L ih =>
    have ⟨h1, h2⟩ := List.pairwise_cons.1 hp
    cases hpe : p e with
    | true =>
      rw [List.eraseP_cons_of_pos hpe, List.find?_cons, hpe, lookup_cons]
      simp only [Option.any_some]
      by_cases hs : sameKey e.key k = true
      · rw [if_pos hs]
        refine lookup_none fun x hx => ?_
        have := h1 x hx
        cases hxk : sameKey x.key k with
        | false => rfl
        | true => rw [sameKey_trans hs (sameKey_symm hxk)] at this; cases this
      · rw [if_neg hs, if_neg hs]
    | false =>
      rw [List.eraseP_cons_of_neg (by simp [hpe]), List.find?_cons, hpe, lookup_cons, lookup_cons, ih h2]
      simp only
      cases hs : sameKey e.key k with
      | false => simp
      | true =>
        simp only [if_true]
        rw [if_neg]
        simp only [Option.any_eq_true, not_exists, not_and, Bool.not_eq_true]
        intro x hx
        have := h1 x (List.mem_of_find?_eq_some hx)
        cases hxk : sameKey x.key k with
        | false => rfl
        | true => rw [sameKey_trans hs (sameKey_symm hxk)] at this; cases this

theorem keys_eraseP (L : List Ent) (bs : List UInt8) (hn : (L.map Ent.key).Nodup) :
    (L.eraseP fun e => cSame e.key bs).map Ent.key = match victim (L.map Ent.key) bs with
      | none => L.map Ent.key
      | some a => (L.map Ent.key).erase a := by
  induction L with
  | nil => rfl
  | cons e L ih =>
    rw [List.map_cons, List.nodup_cons] at hn
    cases hpe : cSame e.key bs with
    | true =>
      rw [List.eraseP_cons_of_pos (by simpa using hpe)]
      simp [victim, hpe]
    | false =>
      rw [List.eraseP_cons_of_neg (by simp [hpe]), List.map_cons, ih hn.2]
      simp only [victim, List.map_cons, List.find?_cons, hpe]
      cases hf : (L.map Ent.key).find? fun a => cSame a bs with
      | none => rfl
      | some a =>
        have hne : e.key ≠ a := fun eq => hn.1 (eq ▸ List.mem_of_find?_eq_some hf)
        simp only
        rw [List.erase_cons_tail (by simpa using hne)]

theorem victim_map (L : List Ent) (bs : List UInt8) : victim (L.map Ent.key) bs = (L.find? fun e => cSame e.key bs).map Ent.key := by
  unfold victim
  rw [List.find?_map]
  rfl

theorem lookup_assign (L : List Ent) (v : Val) (k : List UInt8) {e} (he : e ∈ L)
    (hp : L.Pairwise fun a b => sameKey a.key b.key = false) :
    lookup (assign L e.key v) k = if sameKey e.key k = true then some v else lookup L k := by
  induction L with
  | nil => simp at he
  | cons x L ih =>
    have ⟨h1, h2⟩ := List.pairwise_cons.1 hp
    have : assign (x :: L) e.key v = (if x.key = e.key then { x with val := v } else x) :: assign L e.key v := rfl
    rw [this, lookup_cons, lookup_cons]
    rcases List.mem_cons.1 he with rfl | he
    · simp only [if_true]
      have : assign L e.key v = L := assign_absent v fun y hy eq => by
        have := h1 y hy; rw [eq, sameKey_refl] at this; cases this
      rw [this]
      split <;> rfl
    · have hne : x.key ≠ e.key := fun eq => by have := h1 e he; rw [eq, sameKey_refl] at this; cases this
      rw [if_neg hne, ih he h2]
      cases hx : sameKey x.key k with
      | false => simp
      | true =>
        have : sameKey e.key k = false := by
          cases hek : sameKey e.key k with
          | false => rfl
          | true => have h3 := h1 e he; rw [sameKey_trans hx (sameKey_symm hek)] at h3; cases h3
        simp [this]

theorem lookup_assigned {L L' bs v} (h : Assigned L bs v L') (k : List UInt8)
    (hp : L.Pairwise fun a b => sameKey a.key b.key = false) :
    lookup L' k = if sameKey k bs = true then some v else lookup L k := by
  have hs : ∀ a b, sameKey a b = sameKey b a := fun a b => Bool.eq_iff_iff.2 ⟨sameKey_symm, sameKey_symm⟩
  cases h with
  | @update e he hek => rw [lookup_assign L v k he hp, sameKey_left hek, hs]
  | insert hno => rw [lookup_cons]; simp only [hs bs k]

theorem keys_assigned {L L' bs v} (h : Assigned L bs v L') :
    L'.map Ent.key = if ((L.map Ent.key).all fun a => !sameKey a bs) = true then bs :: L.map Ent.key else L.map Ent.key := by
  cases h with
  | @update e he hek =>
    rw [assign_key, if_neg]
    simp only [List.all_map, List.all_eq_true, Function.comp, Bool.not_eq_eq_eq_not, Bool.not_true]
    intro h
    rw [h e he] at hek
    cases hek
  | insert hno =>
    rw [if_pos]
    · rfl
    · simp only [List.all_map, List.all_eq_true, Function.comp, Bool.not_eq_eq_eq_not, Bool.not_true]
      exact hno

/-! ### The heap represents a history -/

/-- The heap holds the objects of a history with their engineCurrent properties in the engineOrder of creation. -/
structure Sim (h : Heap) (ops : List ObjOp) (A : Nat → Option (List Ent)) (fo fp : List Nat) : Prop where
  inv : HInv h A fo fp
  obj : ∀ v, created ops v → ∃ o L, IsObj v o ∧ A o = some L ∧ L.map Ent.key = engineOrder ops v ∧
    ∀ k, lookup L k = engineCurrent ops v k
  inj : ∀ v w, created ops v → created ops w → getPtrRaw v = getPtrRaw w → v = w

theorem Sim.store {h ops A fo fp} (hs : Sim h ops A fo fp) {st'} (hi' : InvS st') (he : Extends h.str st') :
    Sim { h with str := st' } ops A fo fp := ⟨hs.inv.store hi' he, hs.obj, hs.inj⟩

theorem Sim.new {h ops A fo fp} (hs : Sim h ops A fo fp) {h' v o fo'} (hv : IsObj v o) (ha : A o = none)
    (hi : HInv h' (put A o []) fo' fp) : Sim h' (.new v :: ops) (put A o []) fo' fp := by
  have hne : ∀ w, created ops w → w ≠ v ∧ getPtrRaw w ≠ getPtrRaw v := by
    intro w hw
    obtain ⟨o', L', hio, hA, _⟩ := hs.obj w hw
    have : getPtrRaw w ≠ getPtrRaw v := by
      intro e
      have : o' = o := by rw [← hio.2, ← hv.2, e]
      rw [this, ha] at hA
      cases hA
    exact ⟨fun e => this (by rw [e]), this⟩
  refine ⟨hi, ?_, ?_⟩
  · intro w hw
    rcases hw with rfl | hw
    · exact ⟨o, [], hv, put_same _ _ _, by simp [engineOrder], by simp [lookup, engineCurrent]⟩
    · obtain ⟨o', L', hio, hA, h1, h2⟩ := hs.obj w hw
      have hoo : o' ≠ o := by rintro rfl; rw [ha] at hA; cases hA
      refine ⟨o', L', hio, by rw [put_other _ _ hoo]; exact hA, ?_, ?_⟩
      · rw [h1, engineOrder, if_neg (hne w hw).1]
      · intro k; rw [h2, engineCurrent, if_neg (hne w hw).1]
  · intro u w hu hw e
    rcases hu with rfl | hu <;> rcases hw with rfl | hw
    · rfl
    · exact absurd e.symm (hne w hw).2
    · exact absurd e (hne u hu).2
    · exact hs.inj u w hu hw e

/-- Replacing the property list of one object. -/
theorem Sim.change {h ops A fo fp} (hs : Sim h ops A fo fp) {h' v o L L' op fo' fp'} (hc : created ops v)
    (hv : IsObj v o) (ho : A o = some L) (hi : HInv h' (put A o L') fo' fp')
    (hcr : ∀ w, created (op :: ops) w ↔ created ops w)
    (h1 : L'.map Ent.key = engineOrder (op :: ops) v) (h2 : ∀ k, lookup L' k = engineCurrent (op :: ops) v k)
    (h3 : ∀ w, w ≠ v → engineOrder (op :: ops) w = engineOrder ops w) (h4 : ∀ w k, w ≠ v → engineCurrent (op :: ops) w k = engineCurrent ops w k) :
    Sim h' (op :: ops) (put A o L') fo' fp' := by
  refine ⟨hi, ?_, ?_⟩
  · intro w hw
    rw [hcr] at hw
    by_cases hwv : w = v
    · subst hwv
      exact ⟨o, L', hv, put_same _ _ _, h1, h2⟩
    · obtain ⟨o', L1, hio, hA, k1, k2⟩ := hs.obj w hw
      have hoo : o' ≠ o := by
        rintro rfl
        refine hwv (hs.inj w v hw hc ?_)
        apply BitVec.eq_of_toNat_eq
        rw [hio.2, hv.2]
      refine ⟨o', L1, hio, by rw [put_other _ _ hoo]; exact hA, ?_, ?_⟩
      · rw [k1, h3 w hwv]
      · intro k; rw [k2, h4 w k hwv]
  · intro u w hu hw e
    rw [hcr] at hu hw
    exact hs.inj u w hu hw e

theorem Sim.obj' {h ops A fo fp} (hs : Sim h ops A fo fp) {v} (hc : created ops v) {o L} (hv : IsObj v o) (ho : A o = some L) :
    L.map Ent.key = engineOrder ops v ∧ ∀ k, lookup L k = engineCurrent ops v k := by
  obtain ⟨o', L', hio, hA, h1, h2⟩ := hs.obj v hc
  have : o' = o := by rw [← hio.2, ← hv.2]
  subst this
  rw [ho] at hA
  cases hA
  exact ⟨h1, h2⟩

theorem Sim.assign {h ops A fo fp} (hs : Sim h ops A fo fp) {h' v o L L' bs x fo' fp'} (hc : created ops v)
    (hv : IsObj v o) (ho : A o = some L) (ha : Assigned L bs x L') (hi : HInv h' (put A o L') fo' fp') :
    Sim h' (.set v bs x :: ops) (put A o L') fo' fp' := by
  obtain ⟨h1, h2⟩ := hs.obj' hc hv ho
  refine hs.change hc hv ho hi (fun _ => Iff.rfl) ?_ ?_ ?_ ?_
  · rw [keys_assigned ha, h1, engineOrder]
    simp
  · intro k
    rw [lookup_assigned ha k (hs.inv.keys _ _ ho), h2, engineCurrent]
    simp
  · intro w hw; simp [engineOrder, hw]
  · intro w k hw; simp [engineCurrent, hw]

theorem Sim.remove {h ops A fo fp} (hs : Sim h ops A fo fp) {h' v o L bs fo' fp'} (hc : created ops v)
    (hv : IsObj v o) (ho : A o = some L) (hi : HInv h' (put A o (L.eraseP fun e => cSame e.key bs)) fo' fp') :
    Sim h' (.del v bs :: ops) (put A o (L.eraseP fun e => cSame e.key bs)) fo' fp' := by
  obtain ⟨h1, h2⟩ := hs.obj' hc hv ho
  refine hs.change hc hv ho hi (fun _ => Iff.rfl) ?_ ?_ ?_ ?_
  · rw [keys_eraseP _ _ (hs.inv.nodupKeys ho), h1, engineOrder, if_pos rfl]
    cases victim (engineOrder ops v) bs <;> rfl
  · intro k
    rw [lookup_eraseP _ _ _ (hs.inv.keys _ _ ho), h2, engineCurrent, ← h1, victim_map]
    simp only [Option.any_map, true_and]
  · intro w hw; simp [engineOrder, hw]
  · intro w k hw; simp [engineCurrent, hw]

theorem strlen_spec {cmem : Nat → Option UInt8} {a : Nat} {bs : List UInt8} (h : readC cmem a bs.length = some bs)
    (hn : ∀ c ∈ bs, c ≠ 0) (hz : cmem (a + bs.length) = some 0) : strlen cmem a = some bs.length := by
  induction bs generalizing a with
  | nil =>
    rw [strlen]
    simp only [List.length_nil, Nat.add_zero] at hz
    simp [hz]
  | cons b bs ih =>
    simp only [List.length_cons, readC, Option.bind_eq_bind, Option.bind_eq_some_iff, Option.some.injEq, List.cons.injEq] at h
    obtain ⟨x, hx, xs, hxs, rfl, rfl⟩ := h
    rw [strlen, hx]
    have hb := hn x (by simp)
    have := ih hxs (fun c hc => hn c (by simp [hc])) (by rw [← hz]; congr 1; simp; omega)
    simp only [Option.bind_eq_bind, Option.bind_some, if_neg hb, this, List.length_cons]

end Mjs.Obj
