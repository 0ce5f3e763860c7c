import Verif.Lemmas.ArrayHist

namespace Mjs.Arr
open Mjs Mjs.Mbuf Mjs.Str Mjs.Arena Mjs.Obj Mjs.Spec Mjs.Props

/-- One step of a builtin, with one set of answers of the allocator: a write of a short key, a deletion, a new array, or
nothing. -/
inductive Next (h : Heap) (al : Allocs) : Heap → Prop
  | set {v buf t x h'} : KeyPtr h.str buf t → t.length ≤ 20 → Obj.set h v buf t.length x al = some (h', .ok) → Next h al h'
  | del {v buf t h' b} : KeyPtr h.str buf t → t.length ≤ 20 → Obj.del h v buf t.length = some (h', b) → Next h al h'
  | new {v h'} : mkArray h al = some (h', v) → Next h al h'
  | skip : Next h al h

/-- The allocator grants what `n` steps of a builtin ask for, whatever these steps are. -/
def Supply : Nat → Heap → (Nat → Allocs) → Prop
  | 0, _, _ => True
  | n + 1, h, al => Granted h 20 (al 0) ∧ ∀ h', Next h (al 0) h' → Supply n h' fun k => al (k + 1)

theorem Supply.drop {m : Nat} (n : Nat) {h al} (hs : Supply (m + n) h al) : Supply m h (fun k => al (k + n)) := by
  induction n generalizing al with
  | zero => exact hs
  | succ n ih => exact ih (hs.2 h .skip)

theorem Supply.le {m n : Nat} {h al} (hs : Supply n h al) (hm : m ≤ n) : Supply m h al := by
  induction m generalizing n h al with
  | zero => trivial
  | succ m ih =>
    cases n with
    | zero => omega
    | succ n => exact ⟨hs.1, fun h' hn => ih (hs.2 h' hn) (by omega)⟩

/-- The operations added on top of `ops` are about `v`. -/
def Only (v : Val) (ops ops' : List ObjOp) : Prop := ∃ l, ops' = l ++ ops ∧ ∀ o ∈ l, o.target = v

theorem Only.refl (v : Val) (ops) : Only v ops ops := ⟨[], rfl, by simp⟩

theorem Only.trans {v a b c} (h : Only v a b) (h' : Only v b c) : Only v a c := by
  obtain ⟨l, rfl, h⟩ := h
  obtain ⟨l', rfl, h'⟩ := h'
  exact ⟨l' ++ l, by simp, fun o ho => (List.mem_append.1 ho).elim (h' o) (h o)⟩

theorem Only.cons {v ops} (op : ObjOp) (h : op.target = v) : Only v ops (op :: ops) := ⟨[op], rfl, by simp [h]⟩

theorem Only.other {v w ops ops' g} (h : Only v ops ops') (hne : v ≠ w) (hg : ArrayOps w ops g) : ArrayOps w ops' g := by
  obtain ⟨l, rfl, h⟩ := h
  induction l with
  | nil => exact hg
  | cons o l ih => exact .other (ih fun x hx => h x (by simp [hx])) (by rw [h o (by simp)]; exact hne)

/-! ### Steps -/

variable {cmem : Nat → Option UInt8} {numText : Val → List UInt8}

theorem set_step {h ops v f} (hh : History cmem numText h ops) (ha : ArrayOps v ops f) {i} (hi : IsIndex i) (x : Val) {al}
    (hg : Granted h 20 al) : ∃ h' ops', Arr.set h v i x al = some (h', .ok) ∧ History cmem numText h' ops' ∧
      ArrayOps v ops' (setAt f i (some x)) ∧ Only v ops ops' ∧ Next h al h' := by
  have hi' := hi; unfold IsIndex at hi'
  obtain ⟨h', t, e, hn, hh', buf, hk, hl, e'⟩ := set_view hh (view_of ha).cr (i := i) (by omega) x hg
  exact ⟨h', _, e, hh', .set ha hi hn, .cons _ rfl, .set hk hl e'⟩

theorem del_step {h ops v f} (hh : History cmem numText h ops) (ha : ArrayOps v ops f) {i} (hi : IsIndex i) (al : Allocs) :
    ∃ h' ops', Arr.del h v i = some h' ∧ History cmem numText h' ops' ∧
      ArrayOps v ops' (setAt f i none) ∧ Only v ops ops' ∧ Next h al h' := by
  have hi' := hi; unfold IsIndex at hi'
  obtain ⟨h', t, e, hn, hh', buf, b, hk, hl, e'⟩ := del_view hh (view_of ha).cr (i := i) (by omega)
  exact ⟨h', _, e, hh', .del ha hi hn, .cons _ rfl, .del hk hl e'⟩

theorem isLength_elems (l : List Val) : IsLength (elems l) l.length := by
  refine ⟨fun i hi => ?_, ?_⟩
  · unfold elems at hi
    rcases Nat.lt_or_ge i l.length with h | h
    · exact h
    · exact absurd (List.getElem?_eq_none h) hi
  · cases l with
    | nil => exact .inl rfl
    | cons a l => right; simp [elems]

theorem length_step {h ops v f n} (hh : History cmem numText h ops) (ha : ArrayOps v ops f) (hn : IsLength f n) :
    length h v = some n := by
  obtain ⟨m, e, hm, _⟩ := length_view hh (view_of ha)
  rw [e, isLength_unique hm hn]

theorem push_step {h ops v f n} (hh : History cmem numText h ops) (ha : ArrayOps v ops f) (hn : IsLength f n)
    (hi : IsIndex n) (x : Val) {al} (hg : Granted h 20 al) :
    ∃ h' ops', Arr.push h v x al = some (h', .ok) ∧ History cmem numText h' ops' ∧
      ArrayOps v ops' (setAt f n (some x)) ∧ Only v ops ops' ∧ Next h al h' := by
  obtain ⟨h', ops', e, r⟩ := set_step hh ha hi x hg
  refine ⟨h', ops', ?_, r⟩
  rw [Arr.push, length_step hh ha hn]
  exact e

theorem setAt_push (l : List Val) (x : Val) : setAt (elems l) l.length (some x) = elems (l ++ [x]) := by
  funext j
  unfold setAt elems
  split
  · next h => subst h; simp
  · next h =>
    rcases Nat.lt_or_ge j l.length with hj | hj
    · rw [List.getElem?_append_left hj]
    · rw [List.getElem?_eq_none hj, List.getElem?_eq_none (by simp; omega)]

theorem setAt_isLength {f n} (hn : IsLength f n) (x : Val) : IsLength (setAt f n (some x)) (n + 1) := by
  refine ⟨fun i hi => ?_, .inr ?_⟩
  · unfold setAt at hi
    split at hi
    · omega
    · have := hn.1 i hi; omega
  · simp [setAt]

/-- Elements appended at the length. -/
def append (f : Nat → Option Val) (n : Nat) : List Val → Nat → Option Val
  | [] => f
  | x :: l => append (setAt f n (some x)) (n + 1) l

theorem append_apply (f : Nat → Option Val) (n : Nat) (l : List Val) (hf : ∀ i, n ≤ i → f i = none) (j : Nat) :
    append f n l j = if j < n then f j else l[j - n]? := by
  induction l generalizing f n with
  | nil =>
    simp only [append]
    split
    · rfl
    · rw [hf j (by omega)]; simp
  | cons x l ih =>
    rw [append, ih _ _ (fun i hi => by rw [setAt, if_neg (by omega)]; exact hf i (by omega))]
    by_cases h : j = n
    · subst h; simp [setAt]
    · by_cases h' : j < n
      · rw [if_pos (by omega), if_pos h', setAt, if_neg h]
      · rw [if_neg (by omega), if_neg h', show j - n = (j - (n + 1)) + 1 by omega]; simp

theorem append_isLength {f n} (hn : IsLength f n) (l : List Val) : IsLength (append f n l) (n + l.length) := by
  induction l generalizing f n with
  | nil => exact hn
  | cons x l ih =>
    have := ih (setAt_isLength hn x)
    rw [List.length_cons, show n + (l.length + 1) = n + 1 + l.length by omega]
    exact this

theorem pushAll_step {h ops v f n} (hh : History cmem numText h ops) (ha : ArrayOps v ops f) (hn : IsLength f n)
    (args : List Val) (hi : n + args.length ≤ 2 ^ 32 - 1) {al} (hg : Supply args.length h al) :
    ∃ h' ops', pushAll h v al args = some (h', .ok) ∧ History cmem numText h' ops' ∧
      ArrayOps v ops' (append f n args) ∧ Only v ops ops' := by
  induction args generalizing h ops f n al with
  | nil => exact ⟨h, ops, rfl, hh, ha, .refl _ _⟩
  | cons x args ih =>
    rw [List.length_cons] at hi hg
    obtain ⟨h1, ops1, e, hh1, ha1, ho1, hnx⟩ := push_step hh ha hn (by unfold IsIndex; omega) x hg.1
    obtain ⟨h2, ops2, e2, hh2, ha2, ho2⟩ := ih hh1 ha1 (setAt_isLength hn x) (by omega) (hg.2 h1 hnx)
    refine ⟨h2, ops2, ?_, hh2, ha2, ho1.trans ho2⟩
    simp only [pushAll, Option.bind_eq_bind, e, Option.bind_some, ne_eq, not_true, if_false]
    exact e2

theorem copy_step (n : Nat) : ∀ {h ops v w f r}, History cmem numText h ops → ArrayOps v ops f →
    ArrayOps w ops (elems r) → w ≠ v → ∀ {i m : Nat}, i + n < 2 ^ 63 → r.length + n ≤ 2 ^ 32 - 1 → ∀ {al}, Supply (n + m) h al →
    ∃ h' ops', copyItems h v w i al n = some (h', .ok) ∧ History cmem numText h' ops' ∧
      ArrayOps v ops' f ∧ ArrayOps w ops' (elems (r ++ (List.range n).map fun k => (f (i + k)).getD mkUndefined)) ∧
      Only w ops ops' ∧ Supply m h' fun k => al (k + n) := by
  induction n with
  | zero =>
    intro h ops v w f r hh ha hw _ i m _ _ al hs
    exact ⟨h, ops, rfl, hh, ha, by simpa using hw, .refl _ _, by rw [Nat.zero_add] at hs; exact hs⟩
  | succ n ih =>
    intro h ops v w f r hh ha hw hne i m hi hr al hs
    rw [show n + 1 + m = (n + m) + 1 by omega] at hs
    obtain ⟨h1, ops1, e, hh1, hw1, ho1, hnx⟩ := push_step hh hw (isLength_elems r) (by unfold IsIndex; omega)
      ((f i).getD mkUndefined) hs.1
    rw [setAt_push] at hw1
    obtain ⟨h2, ops2, e2, hh2, ha2, hw2, ho2, hs2⟩ := ih hh1 (ho1.other hne ha) hw1 hne (i := i + 1) (m := m) (by omega)
      (by simp; omega) (hs.2 h1 hnx)
    refine ⟨h2, ops2, ?_, hh2, ha2, ?_, ho1.trans ho2, ?_⟩
    · simp only [copyItems, Option.bind_eq_bind, get_view hh (view_of ha) (show i < 2 ^ 63 by omega), Option.bind_some, e,
        ne_eq, not_true, if_false]
      exact e2
    · rw [List.range_succ_eq_map, List.map_cons, List.map_map]
      have : (fun k => (f (i + 1 + k)).getD mkUndefined) = (fun k => (f (i + k)).getD mkUndefined) ∘ Nat.succ := by
        funext k
        simp only [Function.comp]
        rw [show i + 1 + k = i + k.succ by omega]
      rw [this] at hw2
      simpa using hw2
    · have : (fun k => al (k + n + 1)) = fun k => al (k + (n + 1)) := rfl
      exact hs2

/-- What moving one item does. -/
def moved (f : Nat → Option Val) (a b : Nat) : Nat → Option Val := setAt (setAt f b (some ((f a).getD mkUndefined))) a none

theorem move_step {h ops v f} (hh : History cmem numText h ops) (ha : ArrayOps v ops f) {a b} (hai : IsIndex a)
    (hbi : IsIndex b) {m al} (hs : Supply (m + 2) h al) :
    ∃ h' ops', moveItem h v a b al = some h' ∧ History cmem numText h' ops' ∧ ArrayOps v ops' (moved f a b) ∧
      Only v ops ops' ∧ Supply m h' fun k => al (k + 2) := by
  have ha' := hai; unfold IsIndex at ha'
  obtain ⟨h1, ops1, e1, hh1, ha1, ho1, hn1⟩ := set_step hh ha hbi ((f a).getD mkUndefined) hs.1
  have hs1 := hs.2 h1 hn1
  obtain ⟨h2, ops2, e2, hh2, ha2, ho2, hn2⟩ := del_step hh1 ha1 hai (al 1)
  refine ⟨h2, ops2, ?_, hh2, ha2, ho1.trans ho2, hs1.2 h2 hn2⟩
  simp only [moveItem, Option.bind_eq_bind, get_view hh (view_of ha) (show a < 2 ^ 63 by omega), Option.bind_some, e1]
  exact e2

/-- The array while its tail is being moved down by `d`: indices from `s` up to `i` are done. -/
def downState (l : List Val) (s d i j : Nat) : Option Val :=
  if j < s then l[j]? else if j < i then (if j + d < i then l[j + d]? else none) else l[j]?

theorem down_step (l : List Val) (s d : Nat) (hd : 0 < d) (n : Nat) : ∀ {h ops v i m al}, History cmem numText h ops →
    ArrayOps v ops (downState l s d i) → s ≤ i → i + n = l.length → l.length ≤ 2 ^ 32 - 1 → Supply (2 * n + m) h al →
    ∃ h' ops', moveDown h v (s + d) d i al n = some h' ∧ History cmem numText h' ops' ∧
      ArrayOps v ops' (downState l s d l.length) ∧ Only v ops ops' ∧ Supply m h' fun k => al (k + 2 * n) := by
  induction n with
  | zero =>
    intro h ops v i m al hh ha hsi hl _ hs
    obtain rfl : i = l.length := by omega
    refine ⟨h, ops, rfl, hh, ha, .refl _ _, ?_⟩
    rw [show 2 * 0 + m = m by omega] at hs
    exact hs
  | succ n ih =>
    intro h ops v i m al hh ha hsi hl hb hs
    have hii : IsIndex i := by unfold IsIndex; omega
    rw [show 2 * (n + 1) + m = (2 * n + m) + 2 by omega] at hs
    have hal : (fun k => al (k + 2 * n + 2)) = fun k => al (k + 2 * (n + 1)) := by
      funext k; rw [show k + 2 * n + 2 = k + 2 * (n + 1) by omega]
    by_cases hc : i ≥ s + d
    · obtain ⟨h1, ops1, e1, hh1, ha1, ho1, hs1⟩ := move_step hh ha (a := i) (b := i - d) hii (by unfold IsIndex; omega) hs
      have hst : moved (downState l s d i) i (i - d) = downState l s d (i + 1) := by
        funext j
        have hli : l[i]? = some (l[i]'(by omega)) := List.getElem?_eq_getElem (by omega)
        have h1 : downState l s d i i = some (l[i]'(by omega)) := by simp [downState, show ¬ i < s by omega]
        unfold moved setAt
        rw [h1]
        by_cases hj : j = i
        · subst hj
          rw [if_pos rfl]
          simp [downState, show ¬ j < s by omega]; omega
        · rw [if_neg hj]
          by_cases hj2 : j = i - d
          · rw [if_pos hj2, downState, if_neg (by omega), if_pos (by omega), if_pos (by omega), show j + d = i by omega, hli]
            rfl
          · rw [if_neg hj2]
            unfold downState
            by_cases h2 : j < s
            · simp [h2]
            · simp only [h2, if_false]
              by_cases h3 : j < i
              · simp only [h3, if_true, show j < i + 1 by omega]
                by_cases h4 : j + d < i
                · rw [if_pos h4, if_pos (by omega)]
                · rw [if_neg h4, if_neg (by omega)]
              · rw [if_neg h3, if_neg (by omega)]
      rw [hst] at ha1
      obtain ⟨h2, ops2, e2, hh2, ha2, ho2, hs2⟩ := ih hh1 ha1 (by omega) (by omega) hb hs1
      refine ⟨h2, ops2, ?_, hh2, ha2, ho1.trans ho2, hal ▸ hs2⟩
      simp only [moveDown, if_pos hc, e1, Option.bind_eq_bind, Option.bind_some]
      exact e2
    · obtain ⟨h1, ops1, e1, hh1, ha1, ho1, hn1⟩ := del_step hh ha hii (al 0)
      have hst : setAt (downState l s d i) i none = downState l s d (i + 1) := by
        funext j
        unfold setAt downState
        by_cases hj : j = i
        · subst hj
          rw [if_pos rfl, if_neg (by omega), if_pos (by omega), if_neg (by omega)]
        · rw [if_neg hj]
          by_cases h2 : j < s
          · simp [h2]
          · simp only [h2, if_false]
            by_cases h3 : j < i
            · simp only [h3, if_true, show j < i + 1 by omega]
              rw [if_neg (by omega), if_neg (by omega)]
            · rw [if_neg h3, if_neg (by omega)]
      rw [hst] at ha1
      obtain ⟨h2, ops2, e2, hh2, ha2, ho2, hs2⟩ := ih hh1 ha1 (by omega) (by omega) hb (((hs.2 h1 hn1).2 h1 .skip))
      refine ⟨h2, ops2, ?_, hh2, ha2, ho1.trans ho2, hal ▸ hs2⟩
      simp only [moveDown, if_neg hc, e1, Option.bind_eq_bind, Option.bind_some]
      exact e2

/-- The array while its tail is being moved up by `d`: indices from `s + n` on are done. -/
def upState (l : List Val) (s d n j : Nat) : Option Val :=
  if j < s + n then l[j]? else if j < s + n + d then none else l[j - d]?

theorem up_step (l : List Val) (s d : Nat) (hd : 0 < d) (n : Nat) : ∀ {h ops v m al}, History cmem numText h ops →
    ArrayOps v ops (upState l s d n) → s + n ≤ l.length → l.length + d ≤ 2 ^ 32 - 1 → Supply (2 * n + m) h al →
    ∃ h' ops', moveUp h v s d al n = some h' ∧ History cmem numText h' ops' ∧
      ArrayOps v ops' (upState l s d 0) ∧ Only v ops ops' ∧ Supply m h' fun k => al (k + 2 * n) := by
  induction n with
  | zero =>
    intro h ops v m al hh ha _ _ hs
    refine ⟨h, ops, rfl, hh, ha, .refl _ _, ?_⟩
    rw [show 2 * 0 + m = m by omega] at hs
    exact hs
  | succ n ih =>
    intro h ops v m al hh ha hsn hb hs
    rw [show 2 * (n + 1) + m = (2 * n + m) + 2 by omega] at hs
    have hal : (fun k => al (k + 2 * n + 2)) = fun k => al (k + 2 * (n + 1)) := by
      funext k; rw [show k + 2 * n + 2 = k + 2 * (n + 1) by omega]
    obtain ⟨h1, ops1, e1, hh1, ha1, ho1, hs1⟩ := move_step hh ha (a := s + n) (b := s + n + d) (by unfold IsIndex; omega)
      (by unfold IsIndex; omega) hs
    have hst : moved (upState l s d (n + 1)) (s + n) (s + n + d) = upState l s d n := by
      funext j
      have hli : l[s + n]? = some (l[s + n]'(by omega)) := List.getElem?_eq_getElem (by omega)
      have h1 : upState l s d (n + 1) (s + n) = some (l[s + n]'(by omega)) := by
        rw [upState, if_pos (by omega), hli]
      unfold moved setAt
      rw [h1]
      by_cases hj : j = s + n
      · subst hj
        rw [if_pos rfl, upState, if_neg (by omega), if_pos (by omega)]
      · rw [if_neg hj]
        by_cases hj2 : j = s + n + d
        · rw [if_pos hj2, upState, if_neg (by omega), if_neg (by omega), show j - d = s + n by omega, hli]
          rfl
        · rw [if_neg hj2]
          unfold upState
          by_cases h2 : j < s + n
          · rw [if_pos (by omega), if_pos (by omega)]
          · rw [if_neg (by omega), if_neg h2]
            by_cases h3 : j < s + n + d
            · rw [if_pos (by omega), if_pos h3]
            · rw [if_neg (by omega), if_neg h3]
    rw [hst] at ha1
    obtain ⟨h2, ops2, e2, hh2, ha2, ho2, hs2⟩ := ih hh1 ha1 (by omega) hb hs1
    refine ⟨h2, ops2, ?_, hh2, ha2, ho1.trans ho2, hal ▸ hs2⟩
    simp only [moveUp, e1, Option.bind_eq_bind, Option.bind_some]
    exact e2

/-- Storing a list of items from index `s` on. -/
def stored (f : Nat → Option Val) (s : Nat) (items : List Val) (j : Nat) : Option Val :=
  if s ≤ j ∧ j < s + items.length then items[j - s]? else f j

theorem items_step (items : List Val) : ∀ {h ops v f s m al}, History cmem numText h ops → ArrayOps v ops f →
    s + items.length ≤ 2 ^ 32 - 1 → Supply (items.length + m) h al →
    ∃ h' ops', setItems h v s al items = some h' ∧ History cmem numText h' ops' ∧
      ArrayOps v ops' (stored f s items) ∧ Only v ops ops' := by
  induction items with
  | nil =>
    intro h ops v f s m al hh ha _ _
    refine ⟨h, ops, rfl, hh, ?_, .refl _ _⟩
    have : stored f s [] = f := by funext j; rw [stored, if_neg (by simp only [List.length_nil]; omega)]
    rw [this]; exact ha
  | cons x items ih =>
    intro h ops v f s m al hh ha hi hs
    rw [List.length_cons] at hi
    rw [List.length_cons, show items.length + 1 + m = items.length + m + 1 by omega] at hs
    obtain ⟨h1, ops1, e1, hh1, ha1, ho1, hn1⟩ := set_step hh ha (i := s) (by unfold IsIndex; omega) x hs.1
    obtain ⟨h2, ops2, e2, hh2, ha2, ho2⟩ := ih hh1 ha1 (s := s + 1) (by omega) (hs.2 h1 hn1)
    refine ⟨h2, ops2, ?_, hh2, ?_, ho1.trans ho2⟩
    · simp only [setItems, e1, Option.bind_eq_bind, Option.bind_some]
      exact e2
    · have : stored (setAt f s (some x)) (s + 1) items = stored f s (x :: items) := by
        funext j
        unfold stored setAt
        rw [List.length_cons]
        by_cases h1 : j = s
        · subst h1
          rw [if_neg (by omega), if_pos rfl, if_pos (by omega)]
          simp
        · by_cases h2 : s + 1 ≤ j ∧ j < s + 1 + items.length
          · rw [if_pos h2, if_pos (by omega), show j - s = (j - (s + 1)) + 1 by omega]
            simp
          · rw [if_neg h2, if_neg h1, if_neg (by omega)]
      rw [← this]; exact ha2

end Mjs.Arr
