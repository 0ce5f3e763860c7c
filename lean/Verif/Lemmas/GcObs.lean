import Verif.Lemmas.GcAll
import Verif.Lemmas.Object

namespace Mjs.Gc
open Mjs Mjs.Mbuf Mjs.Varint Mjs.Str Mjs.Arena Mjs.Obj Mjs.Spec.Gc

variable {σ : Type} {m m' : Mem σ} {roots : List Nat} {L L' : List (List UInt8)} {fo fp fs fo' fp' fs' : List Nat}

theorem stringBytes_split (pre : List (List UInt8)) (bs : List UInt8) (post : List (List UInt8)) :
    ∃ rest, stringBytes (pre ++ bs :: post) = stringBytes pre ++ (encodeBytes bs.length ++ bs ++ [0]) ++ rest := by
  refine ⟨post.flatMap fun bs => encodeBytes bs.length ++ bs ++ [0], ?_⟩
  simp [stringBytes]

/-- A value that refers to a string of the buffer reads as this string. -/
theorem refers_getString {st : Store} (hi : InvS st) (hc : st.owned.content = stringBytes L) (hs : st.owned.len < 2 ^ 31) {v pre bs}
    (h : refersTo L v pre bs) :
    getString st v = some (.own (st.owned.addr + (stringBytes pre).length + llen bs.length), bs.length) ∧ ReadsZ st v bs := by
  obtain ⟨⟨post, rfl⟩, ht, ho⟩ := h
  obtain ⟨rest, hr⟩ := stringBytes_split pre bs post
  rw [hr] at hc
  have hcl := content_length hi.1.1
  rw [hc] at hcl
  simp only [List.length_append] at hcl
  have hv : v = mkTagged (stringBytes pre).length tagStringO := by
    refine val_ext (ht.trans (mkTagged_tag _ 8).symm) (ho.trans (mkTagged_offset _ (by omega) 8).symm)
  rw [hv]
  exact owned_reads st hi (stringBytes pre) bs rest (by omega) (by omega) hc

theorem getString_other {st st' : Store} (hf : st'.foreign = st.foreign) {v : Val} (ht : v &&& tagMask ≠ tagStringO) :
    getString st' v = getString st v := by
  simp only [getString, hf, if_neg ht]

theorem getString_other_ptr {st : Store} {v : Val} (ht : v &&& tagMask ≠ tagStringO) {p n} (h : getString st v = some (p, n)) :
    ∀ a, p ≠ .own a := by
  intro a e
  subst e
  simp only [getString, if_neg ht] at h
  split at h
  · cases h
  split at h
  · cases h
  split at h
  · cases h
  split at h
  · split at h
    · split at h
      · split at h
        · cases h
        · cases h
      · cases h
      · cases h
    · cases h
  · cases h

theorem load_other {cmem : Nat → Option UInt8} {b b' : Mbuf} {p : Ptr} (h : ∀ a, p ≠ .own a) (n : Nat) :
    load cmem b' p n = load cmem b p n := by
  cases p with
  | own a => exact absurd rfl (h a)
  | _ => rfl

/-- The value in the same variable after a collection. -/
def After (m m' : Mem σ) (roots : List Nat) (v v' : Val) : Prop :=
  ∃ a, Reach m roots (.slot a) ∧ readSlot m a = some v ∧ readSlot m' a = some v'

theorem after_nonstring (hc : Collected m m' roots L L' fo' fp' fs') {v v'} (h : After m m' roots v v')
    (ht : v &&& tagMask ≠ tagStringO) : v' = v := by
  obtain ⟨a, hr, hv, hv'⟩ := h
  obtain ⟨w, hw, q, _⟩ := hc.vals a v hr hv
  rw [hv'] at hw
  cases hw
  exact q ht

theorem after_string (hs : Sound m roots L fo fp fs) (hc : Collected m m' roots L L' fo' fp' fs') {v v'}
    (h : After m m' roots v v') (ht : v &&& tagMask = tagStringO) : ∃ pre pre' bs, refersTo L v pre bs ∧ refersTo L' v' pre' bs := by
  obtain ⟨a, hr, hv, hv'⟩ := h
  obtain ⟨w, hw, _, q⟩ := hc.vals a v hr hv
  rw [hv'] at hw
  cases hw
  obtain ⟨x, hx, _, _, q2⟩ := hs.slot a hr
  rw [hv] at hx
  cases hx
  obtain ⟨pre, bs, hrf⟩ := q2 ht
  obtain ⟨pre', hrf'⟩ := q pre bs hrf
  exact ⟨pre, pre', bs, hrf, hrf'⟩

/-- Strings read the same after a collection. -/
theorem after_reads (hs : Sound m roots L fo fp fs) (hc : Collected m m' roots L L' fo' fp' fs') {v v'}
    (h : After m m' roots v v') (bs : List UInt8) : Reads m.heap.str v bs ↔ Reads m'.heap.str v' bs := by
  by_cases ht : v &&& tagMask = tagStringO
  · obtain ⟨pre, pre', b, h1, h2⟩ := after_string hs hc h ht
    have r1 := (refers_getString hs.str hs.content hs.small h1).2.reads
    have r2 := (refers_getString hc.sound.str hc.sound.content hc.sound.small h2).2.reads
    constructor
    · intro r
      rw [reads_det r r1]; exact r2
    · intro r
      rw [reads_det r r2]; exact r1
  · have e := after_nonstring hc h ht
    subst e
    have hg := getString_other hc.foreign.1 ht (st' := m'.heap.str)
    unfold Reads
    rw [hg, hc.foreign.2]
    constructor
    · rintro ⟨p, n, q1, q2, q3⟩
      exact ⟨p, n, q1, q2, by rw [load_other (getString_other_ptr ht q1)]; exact q3⟩
    · rintro ⟨p, n, q1, q2, q3⟩
      exact ⟨p, n, q1, q2, by rw [load_other (b := m'.heap.str.owned) (getString_other_ptr ht q1)]; exact q3⟩

/-- Comparing a name with a key the client passes. -/
theorem after_strcmp (hs : Sound m roots L fo fp fs) (hc : Collected m m' roots L L' fo' fp' fs') {v v'}
    (h : After m m' roots v v') {p : Ptr} (hp : ∀ a, p ≠ .own a) (n : Nat) :
    strcmpEq m'.heap.str v' p n = strcmpEq m.heap.str v p n := by
  by_cases ht : v &&& tagMask = tagStringO
  · obtain ⟨pre, pre', b, h1, h2⟩ := after_string hs hc h ht
    obtain ⟨g1, r1⟩ := refers_getString hs.str hs.content hs.small h1
    obtain ⟨g2, r2⟩ := refers_getString hc.sound.str hc.sound.content hc.sound.small h2
    obtain ⟨p1, n1, e1, _, l1⟩ := r1.reads
    obtain ⟨p2, n2, e2, _, l2⟩ := r2.reads
    rw [g1] at e1
    rw [g2] at e2
    cases e1
    cases e2
    simp only [strcmpEq, g1, g2, Option.bind_eq_bind, Option.bind_some]
    by_cases hn : b.length = n
    · subst hn
      rw [if_neg (by simp), if_neg (by simp), l1, l2, hc.foreign.2, load_other hp (b := m.heap.str.owned)]
    · rw [if_pos hn, if_pos hn]
  · have e := after_nonstring hc h ht
    subst e
    have hg := getString_other hc.foreign.1 ht (st' := m'.heap.str)
    simp only [strcmpEq, hg]
    cases hq : getString m.heap.str v' with
    | none => rfl
    | some r =>
      obtain ⟨q, k⟩ := r
      simp only [Option.bind_eq_bind, Option.bind_some]
      rw [hc.foreign.2, load_other (b := m.heap.str.owned) (getString_other_ptr ht hq), load_other hp (b := m.heap.str.owned)]

theorem inline_tag {hr st p n als st' v} (h : mkStringCopy hr st p n als = some (st', v)) (hn : n ≤ 5) :
    v &&& tagMask ≠ tagStringO := by
  unfold mkStringCopy at h
  simp only at h
  split at h
  · simp only [Option.bind_eq_bind, Option.bind_eq_some_iff] at h
    obtain ⟨bs, _, e⟩ := h
    cases e
    rw [show (tagStringI : Val) = makeTag 1 ((6 : Fin 16) : Nat) from rfl, mkTagged_tag _ 6]
    decide
  · split at h
    · simp only [Option.bind_eq_bind, Option.bind_eq_some_iff] at h
      obtain ⟨bs, _, e⟩ := h
      cases e
      rw [show (tagString5 : Val) = makeTag 1 ((7 : Fin 16) : Nat) from rfl, mkTagged_tag _ 7]
      decide
    · omega

theorem prop_cells (hs : Sound m roots L fo fp fs) (hc : Collected m m' roots L L' fo' fp' fs') {p}
    (hp : Reach m roots (.prop p)) : ∃ c c', m.heap.props.mem p = some c ∧ m'.heap.props.mem p = some c' ∧ c'.head = c.head ∧
    After m m' roots c.body.1 c'.body.1 ∧ After m m' roots c.body.2 c'.body.2 := by
  obtain ⟨c, c', h1, h2, h3⟩ := hc.links p hp
  refine ⟨c, c', h1, h2, h3, ⟨p + 8, .name hp, ?_, ?_⟩, ⟨p + 16, .value hp, ?_, ?_⟩⟩
  · exact read_name (Sound.lay hs) h1
  · exact read_name (Sound.lay hc.sound) h2
  · exact read_value (Sound.lay hs) h1
  · exact read_value (Sound.lay hc.sound) h2

/-- The property list of an object that can be reached, from one of its properties on. -/
def ReachList (m : Mem σ) (roots : List Nat) (p : Nat) : Prop := p ≠ 0 → Reach m roots (.prop p)

theorem findShort_after (hs : Sound m roots L fo fp fs) (hc : Collected m m' roots L L' fo' fp' fs') {ss : Val}
    (ht : ss &&& tagMask ≠ tagStringO) {l} : ∀ {p}, FreeList m.heap.props.mem p l → ReachList m roots p →
    findShort m'.heap ss p = findShort m.heap ss p ∧ ∀ q, findShort m.heap ss p = some q → ReachList m roots q := by
  induction l with
  | nil =>
    intro p hl _
    cases hl
    rw [findShort, findShort]
    exact ⟨rfl, fun q h => by cases h; exact fun h => absurd rfl h⟩
  | cons x l ih =>
    intro p hl hr
    obtain ⟨h0, hx, c, hm, hl'⟩ : p ≠ 0 ∧ x = p ∧ ∃ c, m.heap.props.mem p = some c ∧ FreeList m.heap.props.mem c.head l := by
      cases hl with
      | cons a b c => exact ⟨a, rfl, _, b, c⟩
    have hp := hr h0
    obtain ⟨c1, c', e1, e2, e3, e4, e5⟩ := prop_cells hs hc hp
    rw [hm] at e1
    cases e1
    have ih' := ih hl' (fun h => .next hp hm h)
    rw [findShort, findShort, if_neg h0, if_neg h0, hm, e2]
    simp only [Option.bind_eq_bind, Option.bind_some, e3]
    have hb : (c'.body.1 = ss) = (c.body.1 = ss) := by
      by_cases hq : c.body.1 &&& tagMask = tagStringO
      · obtain ⟨_, _, _, _, r⟩ := after_string hs hc e4 hq
        refine propext ⟨fun h => ?_, fun h => ?_⟩
        · rw [← h] at ht; exact absurd r.2.1 ht
        · rw [← h] at ht; exact absurd hq ht
      · rw [after_nonstring hc e4 hq]
    simp only [hb]
    by_cases hq : c.body.1 = ss
    · rw [if_pos hq, if_pos hq]
      exact ⟨rfl, fun q h => by cases h; exact hr⟩
    · rw [if_neg hq, if_neg hq]
      exact ih'

theorem findLong_after (hs : Sound m roots L fo fp fs) (hc : Collected m m' roots L L' fo' fp' fs') {k : Ptr}
    (hk : ∀ a, k ≠ .own a) (n : Nat) {l} : ∀ {p}, FreeList m.heap.props.mem p l → ReachList m roots p →
    findLong m'.heap k n p = findLong m.heap k n p ∧ ∀ q, findLong m.heap k n p = some q → ReachList m roots q := by
  induction l with
  | nil =>
    intro p hl _
    cases hl
    rw [findLong, findLong]
    exact ⟨rfl, fun q h => by cases h; exact fun h => absurd rfl h⟩
  | cons x l ih =>
    intro p hl hr
    obtain ⟨h0, hx, c, hm, hl'⟩ : p ≠ 0 ∧ x = p ∧ ∃ c, m.heap.props.mem p = some c ∧ FreeList m.heap.props.mem c.head l := by
      cases hl with
      | cons a b c => exact ⟨a, rfl, _, b, c⟩
    have hp := hr h0
    obtain ⟨c1, c', e1, e2, e3, e4, e5⟩ := prop_cells hs hc hp
    rw [hm] at e1
    cases e1
    have ih' := ih hl' (fun h => .next hp hm h)
    rw [findLong, findLong, if_neg h0, if_neg h0, hm, e2]
    simp only [Option.bind_eq_bind, Option.bind_some, e3, after_strcmp hs hc e4 hk n]
    cases hq : strcmpEq m.heap.str c.body.1 k n with
    | none => exact ⟨rfl, fun q h => by cases h⟩
    | some b =>
      cases b with
      | true => exact ⟨rfl, fun q h => by cases h; exact hr⟩
      | false => exact ih'

theorem inlineBytes_other {cmem : Nat → Option UInt8} {b b' : Mbuf} {p : Ptr} (h : ∀ a, p ≠ .own a) (n : Nat) :
    inlineBytes cmem b' p n = inlineBytes cmem b p n := by
  unfold inlineBytes
  rw [load_other h]

theorem mkShort_after {st st' : Store} (hf : st'.cmem = st.cmem) {p : Ptr} (h : ∀ a, p ≠ .own a) {n} (hn : n ≤ 5) :
    (mkStringCopy 0 st' p n fun _ => none).map (·.2) = (mkStringCopy 0 st p n fun _ => none).map (·.2) := by
  unfold mkStringCopy
  simp only [hf]
  rw [inlineBytes_other h (b := st.owned)]
  split
  · cases inlineBytes st.cmem st.owned p n <;> rfl
  · split
    · cases inlineBytes st.cmem st.owned p n <;> rfl
    · omega

/-- The search for a property gives the same property after a collection. -/
theorem getOwnProperty_after (hs : Sound m roots L fo fp fs) (hc : Collected m m' roots L L' fo' fp' fs') {v v'}
    (h : After m m' roots v v') {k : Ptr} (hk : ∀ a, k ≠ .own a) (n : Nat) (long : Bool) :
    getOwnProperty m'.heap v' k n long = getOwnProperty m.heap v k n long ∧
    ∀ q, getOwnProperty m.heap v k n long = some q → ReachList m roots q := by
  by_cases ht : v &&& tagMask = tagStringO
  · obtain ⟨_, _, _, r, r'⟩ := after_string hs hc h ht
    have e1 : isObject v = false := not_object_of_tag 8 (by decide) r.2.1
    have e2 : isObject v' = false := not_object_of_tag 8 (by decide) r'.2.1
    simp only [getOwnProperty, e1, e2]
    exact ⟨rfl, fun q h => by cases h; exact fun h => absurd rfl h⟩
  · have e := after_nonstring hc h ht
    subst e
    unfold getOwnProperty
    by_cases ho : isObject v' = true
    · rw [if_neg (by simp [ho]), if_neg (by simp [ho])]
      simp only [getObjectStruct]
      have hn := not_null_of_isObject ho
      · simp only [hn, ho, if_true, Option.bind_eq_bind, Option.bind_some, Bool.false_eq_true, if_false]
        obtain ⟨a, ha, hv, _⟩ := h
        have hr := Reach.obj ha hv ho
        rw [hc.objs _ hr]
        cases hm : m.heap.objs.mem (getPtrRaw v').toNat with
        | none => exact ⟨rfl, fun q h => by cases h⟩
        | some c =>
          simp only [Option.bind_some]
          obtain ⟨l, hl, _, _⟩ := hs.list _ _ hr hm
          have hrl : ReachList m roots c.head := fun h => .first hr hm h
          by_cases hq : n ≤ 5 ∧ long = false
          · rw [if_pos hq, if_pos hq]
            have e := mkShort_after hc.foreign.2 hk hq.1
            cases h1 : mkStringCopy 0 m.heap.str k n fun _ => none with
            | none =>
              rw [h1] at e
              cases h2 : mkStringCopy 0 m'.heap.str k n fun _ => none with
              | none => exact ⟨rfl, fun q h => by cases h⟩
              | some r => rw [h2] at e; cases e
            | some r =>
              rw [h1] at e
              cases h2 : mkStringCopy 0 m'.heap.str k n fun _ => none with
              | none => rw [h2] at e; cases e
              | some r' =>
                rw [h2] at e
                simp only [Option.map_some, Option.some.injEq] at e
                simp only [Option.bind_some, e]
                exact findShort_after hs hc (inline_tag h1 hq.1) hl hrl
          · rw [if_neg hq, if_neg hq]
            exact findLong_after hs hc hk n hl hrl
    · rw [if_pos ho, if_pos ho]
      exact ⟨rfl, fun q h => by cases h; exact fun h => absurd rfl h⟩

/-- Reading a property gives the same value after a collection. -/
theorem get_after (hs : Sound m roots L fo fp fs) (hc : Collected m m' roots L L' fo' fp' fs') {v v'}
    (h : After m m' roots v v') {k : Ptr} (hk : ∀ a, k ≠ .own a) (n : Nat) {x} (hg : Obj.get m.heap v k n = some x) :
    ∃ x', Obj.get m'.heap v' k n = some x' ∧ (After m m' roots x x' ∨ x = mkUndefined ∧ x' = mkUndefined) := by
  obtain ⟨e, q⟩ := getOwnProperty_after hs hc h hk n false
  unfold Obj.get at hg ⊢
  rw [e]
  cases hp : getOwnProperty m.heap v k n with
  | none => rw [hp] at hg; cases hg
  | some p =>
    rw [hp] at hg
    simp only [Option.bind_some, valueAt] at hg ⊢
    by_cases h0 : p = 0
    · rw [if_pos h0] at hg ⊢
      cases hg
      exact ⟨_, rfl, .inr ⟨rfl, rfl⟩⟩
    · rw [if_neg h0] at hg ⊢
      obtain ⟨c, c', e1, e2, _, _, e5⟩ := prop_cells hs hc (q p hp h0)
      rw [e1] at hg
      cases hg
      rw [e2]
      exact ⟨_, rfl, .inl e5⟩

end Mjs.Gc
