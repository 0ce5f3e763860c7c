import Verif.Lemmas.Array
import Verif.Props.Object

namespace Mjs.Arr
open Mjs Mjs.Mbuf Mjs.Str Mjs.Arena Mjs.Obj Mjs.Spec Mjs.Props

/-! ### The keys of an array -/

/-- The engine's view of an array. -/
structure View (ops : List ObjOp) (v : Val) (f : Nat → Option Val) : Prop where
  cr : created ops v
  nodup : (engineOrder ops v).Nodup
  key : ∀ k ∈ engineOrder ops v, ∃ i, IsIndex i ∧ Numeral.Nat 10 i k
  cur : ∀ i t, Numeral.Nat 10 i t → engineCurrent ops v t = f i
  mem : ∀ i t, Numeral.Nat 10 i t → (t ∈ engineOrder ops v ↔ f i ≠ none)
  idx : ∀ i, f i ≠ none → IsIndex i

theorem numeral_eq {i j t u} (h : Numeral.Nat 10 i t) (h' : Numeral.Nat 10 j u) : t = u ↔ i = j := by
  constructor
  · rintro rfl
    have h1 := (value_fold h.1).2
    have h2 := (value_fold h'.1).2
    rw [← h1, ← h2]
  · rintro rfl; exact numeral_unique h h'

theorem view_of {v ops f} (h : ArrayOps v ops f) : View ops v f := by
  induction h with
  | new =>
    refine ⟨.inl rfl, ?_, ?_, ?_, ?_, ?_⟩ <;> simp [engineOrder, engineCurrent]
  | @set ops f i t x _ hi hn ih =>
    have hall : ((engineOrder ops v).all (fun a => !sameKey a t)) = true ↔ t ∉ engineOrder ops v := by
      simp only [List.all_eq_true, sameKey_noNul (numeral_noNul hn), Bool.not_eq_eq_eq_not, Bool.not_true, beq_eq_false_iff_ne]
      exact ⟨fun h hm => h t hm rfl, fun h a ha e => h (e ▸ ha)⟩
    have hord : engineOrder (.set v t x :: ops) v = if t ∉ engineOrder ops v then t :: engineOrder ops v else engineOrder ops v := by
      simp only [engineOrder, true_and, hall]
    refine ⟨ih.cr, ?_, ?_, ?_, ?_, ?_⟩
    · rw [hord]; split
      · exact List.nodup_cons.2 ⟨‹_›, ih.nodup⟩
      · exact ih.nodup
    · rw [hord]; intro k hk
      split at hk
      · rcases List.mem_cons.1 hk with rfl | hk
        · exact ⟨i, hi, hn⟩
        · exact ih.key k hk
      · exact ih.key k hk
    · intro j u hu
      simp only [engineCurrent, true_and, sameKey_noNul (numeral_noNul hn), beq_iff_eq, setAt, numeral_eq hu hn]
      split
      · rfl
      · exact ih.cur j u hu
    · intro j u hu
      have : u ∈ engineOrder (.set v t x :: ops) v ↔ u = t ∨ u ∈ engineOrder ops v := by
        rw [hord]; split
        · simp
        · rename_i h
          rw [Decidable.not_not] at h
          exact ⟨.inr, fun h' => h'.elim (fun e => e ▸ h) id⟩
      rw [this, numeral_eq hu hn, ih.mem j u hu, setAt]
      by_cases h : j = i <;> simp [h]
    · intro j hj
      rw [setAt] at hj
      by_cases h : j = i
      · exact h ▸ hi
      · rw [if_neg h] at hj; exact ih.idx j hj
  | @del ops f i t _ hi hn ih =>
    have hvic : victim (engineOrder ops v) t = if t ∈ engineOrder ops v then some t else none := by
      unfold victim
      have hc : (fun a => cSame a t) = fun a => a == t := funext fun a => cSame_noNul (numeral_noNul hn)
      rw [hc]
      split
      · next h =>
        cases hf : (engineOrder ops v).find? fun a => a == t with
        | none => exact absurd (List.find?_eq_none.1 hf t h) (by simp)
        | some a => have := List.find?_some hf; rw [beq_iff_eq] at this; rw [this]
      · next h => rw [List.find?_eq_none]; intro a ha e; exact h (beq_iff_eq.1 e ▸ ha)
    have hord : engineOrder (.del v t :: ops) v = (engineOrder ops v).erase t := by
      simp only [engineOrder, if_true, hvic]
      by_cases h : t ∈ engineOrder ops v
      · simp [h]
      · simp [h, List.erase_of_not_mem h]
    refine ⟨ih.cr, ?_, ?_, ?_, ?_, ?_⟩
    · rw [hord]; exact ih.nodup.erase t
    · rw [hord]; intro k hk; exact ih.key k (List.mem_of_mem_erase hk)
    · intro j u hu
      simp only [engineCurrent, true_and, hvic, setAt]
      by_cases hm : t ∈ engineOrder ops v
      · simp only [if_pos hm, Option.any_some, sameKey_noNul' (numeral_noNul hn), beq_iff_eq, numeral_eq hn hu, eq_comm (a := i)]
        split
        · rfl
        · exact ih.cur j u hu
      · simp only [if_neg hm, Option.any_none, Bool.false_eq_true, if_false]
        rw [ih.cur j u hu]
        split
        · next h =>
          subst h
          have := (not_congr (ih.mem j t hn)).1 hm
          simpa using this
        · rfl
    · intro j u hu
      rw [hord, ih.nodup.mem_erase_iff, ih.mem j u hu, setAt, ne_eq, numeral_eq hu hn]
      by_cases h : j = i <;> simp [h]
    · intro j hj
      rw [setAt] at hj
      by_cases h : j = i
      · simp [h] at hj
      · rw [if_neg h] at hj; exact ih.idx j hj
  | @other ops f op _ hne ih =>
    have h1 : engineOrder (op :: ops) v = engineOrder ops v := by
      cases op <;> simp only [ObjOp.target] at hne <;> simp [engineOrder, Ne.symm hne]
    have h2 : ∀ k, engineCurrent (op :: ops) v k = engineCurrent ops v k := by
      intro k
      cases op <;> simp only [ObjOp.target] at hne <;> simp [engineCurrent, Ne.symm hne]
    refine ⟨?_, by rw [h1]; exact ih.nodup, by rw [h1]; exact ih.key, fun i t ht => by rw [h2]; exact ih.cur i t ht,
      fun i t ht => by rw [h1]; exact ih.mem i t ht, ih.idx⟩
    cases op with
    | new w => exact .inr ih.cr
    | set w k x => exact ih.cr
    | del w k => exact ih.cr

/-! ### The length -/

/-- One step of the length loop. -/
def lenStep (len : Nat) (k : Key) : Nat :=
  match ulong k with
  | some n => if n ≥ len ∧ n < 0xffffffff then n + 1 else len
  | none => len

theorem lengthLoop_spec (h : Heap) (hi : InvS h.str) {p L} (hc : Chain h.props.mem p L)
    (hn : ∀ e ∈ L, Named h.str e.name e.key) (len : Nat) :
    lengthLoop h p len = some ((L.map Ent.key).foldl lenStep len) := by
  induction hc generalizing len with
  | nil => rw [lengthLoop, if_pos rfl]; rfl
  | @cons p c k l h0 hm _ ih =>
    rw [lengthLoop, if_neg h0, hm]
    obtain ⟨n, ok, e1, e2⟩ := strToUlong_spec hi (hn _ (List.mem_cons_self))
    simp only at e1 e2
    simp only [Option.bind_eq_bind, Option.bind_some, e1]
    rw [ih (fun e he => hn e (by simp [he]))]
    congr 1
    rw [List.map_cons, List.foldl_cons]
    congr 1
    simp only [lenStep, ← e2]
    cases ok <;> simp

theorem foldl_lenStep (l : List Key) : ∀ len, len ≤ l.foldl lenStep len ∧
    (∀ k ∈ l, ∀ n, ulong k = some n → n < 0xffffffff → n < l.foldl lenStep len) ∧
    (l.foldl lenStep len = len ∨ ∃ k ∈ l, ∃ n, ulong k = some n ∧ n < 0xffffffff ∧ l.foldl lenStep len = n + 1) := by
  induction l with
  | nil => intro len; simp
  | cons k l ih =>
    intro len
    obtain ⟨i1, i2, i3⟩ := ih (lenStep len k)
    rw [List.foldl_cons]
    have h0 : len ≤ lenStep len k := by
      unfold lenStep; split
      · split <;> omega
      · omega
    have h1 : ∀ n, ulong k = some n → n < 0xffffffff → n < lenStep len k := by
      intro n hn hlt
      simp only [lenStep, hn]
      split <;> omega
    refine ⟨by omega, ?_, ?_⟩
    · intro x hx n hn hlt
      rcases List.mem_cons.1 hx with rfl | hx
      · have := h1 n hn hlt; omega
      · exact i2 x hx n hn hlt
    · rcases i3 with i3 | ⟨x, hx, n, hn, hlt, e⟩
      · unfold lenStep at i3 ⊢
        cases hu : ulong k with
        | none => rw [hu] at i3; left; exact i3
        | some n =>
          rw [hu] at i3
          simp only at i3 ⊢
          split at i3
          · next h => rw [if_pos h]; exact .inr ⟨k, by simp, n, hu, h.2, i3⟩
          · next h => rw [if_neg h]; left; exact i3
      · exact .inr ⟨x, by simp [hx], n, hn, hlt, e⟩

/-- The length of any object: one more than the greatest number among its keys, as `strtoul` reads them. -/
theorem length_engine {cmem numText h ops} (hh : History cmem numText h ops) {v} (hc : created ops v) :
    length h v = some ((engineOrder ops v).foldl lenStep 0) := by
  obtain ⟨A, fo, fp, hs⟩ := hh.sim
  obtain ⟨o, L, hv, hA, h1, _⟩ := hs.obj _ hc
  obtain ⟨_, c, hc, hch⟩ := hs.inv.obj o L hA
  rw [length, if_neg (by simp [hv.1]), getObjectStruct_of hv]
  simp only [Option.bind_eq_bind, Option.bind_some, hc]
  rw [lengthLoop_spec h hs.inv.str hch (hs.inv.names o L hA), h1]

theorem isLength_unique {f n m} (h : IsLength f n) (h' : IsLength f m) : n = m := by
  obtain ⟨a, b⟩ := h
  obtain ⟨a', b'⟩ := h'
  rcases b with rfl | b <;> rcases b' with rfl | b'
  · rfl
  · have := a _ b'; omega
  · have := a' _ b; omega
  · have := a _ b'; have := a' _ b; omega

theorem length_view {cmem numText h ops} (hh : History cmem numText h ops) {v f} (hv : View ops v f) :
    ∃ n, length h v = some n ∧ IsLength f n ∧ n ≤ 2 ^ 32 - 1 := by
  refine ⟨_, length_engine hh hv.cr, ?_, ?_⟩
  · obtain ⟨_, h2, h3⟩ := foldl_lenStep (engineOrder ops v) 0
    refine ⟨?_, ?_⟩
    · intro i hi
      have hx := hv.idx i hi
      unfold IsIndex at hx
      obtain ⟨_, t, _, hn, _⟩ := indexKey_spec i (by omega)
      exact h2 t ((hv.mem i t hn).2 hi) i (ulong_numeral hn (by omega)) (by omega)
    · rcases h3 with h3 | ⟨k, hk, n, hn, hlt, e⟩
      · exact .inl h3
      · right
        obtain ⟨i, hi, hnum⟩ := hv.key k hk
        unfold IsIndex at hi
        rw [ulong_numeral hnum (by omega)] at hn
        obtain rfl : i = n := Option.some.inj hn
        rw [e, Nat.add_sub_cancel]
        exact (hv.mem i k hnum).1 hk
  · obtain ⟨_, _, h3⟩ := foldl_lenStep (engineOrder ops v) 0
    rcases h3 with h3 | ⟨k, hk, n, hn, hlt, e⟩
    · rw [h3]; omega
    · rw [e]; omega

theorem get2_view {cmem numText h ops} (hh : History cmem numText h ops) {v f} (hv : View ops v f) {i} (hi : i < 2 ^ 63) :
    get2 h v i = some ((f i).getD mkUndefined, (f i).isSome) := by
  obtain ⟨A, fo, fp, hs⟩ := hh.sim
  obtain ⟨o, L, hvo, hA, h1, h2⟩ := hs.obj _ hv.cr
  obtain ⟨_, c, hc, hch⟩ := hs.inv.obj o L hA
  obtain ⟨buf, t, e, hn, hk, _⟩ := indexKey_ptr i hi h.str
  rw [get2, if_pos hvo.1, e]
  simp only [Option.bind_eq_bind, Option.bind_some]
  rw [getOwnProperty_spec hs.inv hA hvo hk false (by simp)]
  simp only [Option.bind_some]
  have hlk := (h2 t).trans (hv.cur i t hn)
  have hva := valueAt_locate hs.inv hA t
  rw [hlk] at hva
  rcases find_key (L := L) (bs := t) with ⟨x, hx, hxk, hfe⟩ | ⟨_, hfe⟩
  · have hl : locate L t = x.addr := by rw [locate, hfe]; rfl
    have h0 := (hch.at hx).1
    have hf : f i = some x.val := by rw [← hlk, lookup, hfe]; rfl
    rw [hl] at hva ⊢
    rw [if_pos h0, hva, hf]; rfl
  · have hl : locate L t = 0 := by rw [locate, hfe]; rfl
    have hf : f i = none := by rw [← hlk, lookup, hfe]; rfl
    rw [hl, if_neg (by simp), hf]; rfl

theorem get_view {cmem numText h ops} (hh : History cmem numText h ops) {v f} (hv : View ops v f) {i} (hi : i < 2 ^ 63) :
    Arr.get h v i = some ((f i).getD mkUndefined) := by
  rw [Arr.get, get2_view hh hv hi]; rfl

theorem granted_le {h n m al} (hg : Granted h n al) (hm : m ≤ n) : Granted h m al :=
  ⟨hg.low, hg.grant, by have := hg.room; omega, hg.obj, hg.prop⟩

theorem set_view {cmem numText h ops} (hh : History cmem numText h ops) {v} (hc : created ops v) {i} (hi : i < 2 ^ 63)
    (x : Val) {al} (hg : Granted h 20 al) :
    ∃ h' t, Arr.set h v i x al = some (h', .ok) ∧ Numeral.Nat 10 i t ∧ History cmem numText h' (.set v t x :: ops) ∧
      ∃ buf, KeyPtr h.str buf t ∧ t.length ≤ 20 ∧ Obj.set h v buf t.length x al = some (h', .ok) := by
  obtain ⟨buf, t, e, hn, hk, hl⟩ := indexKey_ptr i hi h.str
  obtain ⟨h', e', hh'⟩ := C15_set_ok hh hc hk x (granted_le hg (by omega))
  obtain ⟨A, fo, fp, hs⟩ := hh.sim
  obtain ⟨o, L, hvo, _⟩ := hs.obj _ hc
  refine ⟨h', t, ?_, hn, hh', buf, hk, by omega, e'⟩
  rw [Arr.set, if_pos hvo.1, e]
  simp only [Option.bind_eq_bind, Option.bind_some]
  exact e'

theorem del_view {cmem numText h ops} (hh : History cmem numText h ops) {v} (hc : created ops v) {i} (hi : i < 2 ^ 63) :
    ∃ h' t, Arr.del h v i = some h' ∧ Numeral.Nat 10 i t ∧ History cmem numText h' (.del v t :: ops) ∧
      ∃ buf b, KeyPtr h.str buf t ∧ t.length ≤ 20 ∧ Obj.del h v buf t.length = some (h', b) := by
  obtain ⟨buf, t, e, hn, hk, hl⟩ := indexKey_ptr i hi h.str
  obtain ⟨A, fo, fp, hs⟩ := hh.sim
  obtain ⟨o, L, hvo, hA, _⟩ := hs.obj _ hc
  obtain ⟨h', b, e', _⟩ := del_spec hs.inv hA hvo hk
  refine ⟨h', t, ?_, hn, .del hh hc hk e', buf, b, hk, by omega, e'⟩
  rw [Arr.del, e]
  simp only [Option.bind_eq_bind, Option.bind_some]
  rw [e']; rfl

end Mjs.Arr
