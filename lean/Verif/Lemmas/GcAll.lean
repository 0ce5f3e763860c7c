import Verif.Lemmas.GcMarkAll
import Verif.Lemmas.GcCompact
import Verif.Lemmas.Sweep

namespace Mjs.Gc
open Mjs Mjs.Mbuf Mjs.Varint Mjs.Str Mjs.Arena Mjs.Obj Mjs.Spec.Gc

variable {σ : Type} {m0 : Mem σ} {roots : List Nat} {L : List (List UInt8)} {fo fp fs : List Nat}

theorem freeList_heads {α : Type} {mem mem' : Nat → Option (Cell α)} {r l} (h : FreeList mem r l)
    (he : ∀ x ∈ l, (mem' x).map Cell.head = (mem x).map Cell.head) : FreeList mem' r l := by
  induction h with
  | nil => exact .nil
  | @cons r c l h0 hm _ ih =>
    have h1 := he r (by simp)
    rw [hm] at h1
    cases hc : mem' r with
    | none => rw [hc] at h1; simp at h1
    | some c' =>
      rw [hc] at h1
      simp at h1
      refine .cons h0 hc ?_
      rw [h1]
      exact ih fun x hx => he x (by simp [hx])

theorem ok_heads {α : Type} {a a' : Arena α} {fl} (h : Ok a fl) (h1 : a'.cellSize = a.cellSize) (h2 : a'.inc = a.inc)
    (h3 : a'.blocks = a.blocks) (h4 : a'.free = a.free) (hn : ∀ x, a'.mem x = none ↔ a.mem x = none)
    (hh : ∀ x ∈ fl, (a'.mem x).map Cell.head = (a.mem x).map Cell.head) : Ok a' fl := by
  refine ⟨by rw [h1]; exact h.cs, by rw [h1]; exact h.cs8, by rw [h2]; exact h.inc, by rw [h1, h3]; exact h.blk,
    by rw [h1, h3]; exact h.disj, fun x => ?_, ?_, h.nodup⟩
  · rw [h1, h3, ← h.defd x]
    exact not_congr (hn x)
  · rw [h4]; exact freeList_heads h.list hh

/-- Every property that can be reached belongs to an object that can be reached. -/
theorem reach_prop_owner (h : Sound m0 roots L fo fp fs) {p} (hp : Reach m0 roots (.prop p)) :
    ∃ x c l, Reach m0 roots (.obj x) ∧ m0.heap.objs.mem x = some c ∧ FreeList m0.heap.props.mem c.head l ∧ p ∈ l := by
  have key : ∀ n, Reach m0 roots n → ∀ p, n = .prop p →
      ∃ x c l, Reach m0 roots (.obj x) ∧ m0.heap.objs.mem x = some c ∧ FreeList m0.heap.props.mem c.head l ∧ p ∈ l := by
    intro n hn
    induction hn with
    | root => intro p e; cases e
    | obj => intro p e; cases e
    | sig => intro p e; cases e
    | name => intro p e; cases e
    | value => intro p e; cases e
    | @first o c ho hc h0 _ =>
      intro p e
      cases e
      obtain ⟨l, hl, _, _⟩ := h.list o c ho hc
      have hmem : c.head ∈ l := by
        revert hl
        generalize c.head = r at h0
        intro hl
        cases hl with
        | nil => exact absurd rfl h0
        | cons => simp
      exact ⟨o, c, l, ho, hc, hl, hmem⟩
    | @next p c hp hc h0 ih =>
      intro p' e
      cases e
      obtain ⟨x, d, l, q1, q2, q3, q4⟩ := ih p rfl
      have hmem : c.head ∈ l := by
        have : ∀ r l, FreeList m0.heap.props.mem r l → p ∈ l → c.head ∈ l := by
          intro r l hl
          induction hl with
          | nil => simp
          | @cons r d l _ hr hrest ih =>
            intro hp'
            rcases List.mem_cons.1 hp' with rfl | hp'
            · rw [hc] at hr
              cases hr
              revert hrest
              generalize c.head = r at h0
              intro hrest
              cases hrest with
              | nil => exact absurd rfl h0
              | cons => simp
            · exact List.mem_cons_of_mem _ (ih hp')
        exact this _ _ q3 q4
      exact ⟨x, d, l, q1, q2, q3, hmem⟩
  exact key _ hp p rfl

theorem reach_obj_used (h : Sound m0 roots L fo fp fs) {o} (ho : Reach m0 roots (.obj o)) : Used m0.heap.objs fo o := by
  cases ho with
  | obj ha hv hob =>
    obtain ⟨w, hw, h1, _⟩ := h.slot _ ha
    rw [hv] at hw
    cases hw
    exact h1 hob

theorem reach_sig_used (h : Sound m0 roots L fo fp fs) {s} (hs : Reach m0 roots (.sig s)) : Used m0.sigs fs s := by
  cases hs with
  | sig ha hv hob =>
    obtain ⟨w, hw, _, h1, _⟩ := h.slot _ ha
    rw [hv] at hw
    cases hw
    exact h1 hob

theorem reach_prop_used (h : Sound m0 roots L fo fp fs) {p} (hp : Reach m0 roots (.prop p)) : Used m0.heap.props fp p := by
  obtain ⟨x, c, l, h1, h2, h3, h4⟩ := reach_prop_owner h hp
  obtain ⟨l', h5, _, h6⟩ := h.list x c h1 h2
  rw [h3.det h5] at h4
  exact ⟨h5.defined p h4, h6 p h4⟩

/-- A variable that can be reached is outside the properties or in one that can be reached. -/
theorem reach_slot_cases (h : Sound m0 roots L fo fp fs) {a} (ha : Reach m0 roots (.slot a)) :
    m0.vars a ≠ none ∨ ∃ p, Reach m0 roots (.prop p) ∧ (a = p + 8 ∨ a = p + 16) := by
  cases ha with
  | root hr => exact .inl (h.rootVars _ hr)
  | name hp => exact .inr ⟨_, hp, .inl rfl⟩
  | value hp => exact .inr ⟨_, hp, .inr rfl⟩

/-- An arena after marking what can be reached and sweeping. -/
theorem swept {α : Type} [Inhabited α] {a0 a : Arena α} {fl} (R : Nat → Prop) (h0 : Ok a0 fl) (h1 : a.cellSize = a0.cellSize)
    (h2 : a.inc = a0.inc) (h3 : a.blocks = a0.blocks) (h4 : a.free = a0.free)
    (hclean : ∀ x c, a0.mem x = some c → c.head % 2 = 0)
    (hmark : ∀ x, HasMark a.mem x ↔ R x) (hused : ∀ x, R x → Used a0 fl x)
    (hcell : ∀ x, (a.mem x).map Cell.head = (a0.mem x).map Cell.head ∨
      ∃ c c', a0.mem x = some c ∧ a.mem x = some c' ∧ c'.head = c.head + 1 ∧ R x) :
    ∃ a' fl', sweep a = some a' ∧ Ok a' fl' ∧ a'.cellSize = a0.cellSize ∧ (∀ x, Used a' fl' x ↔ R x) ∧
      (∀ x, R x → ∃ c0 c, a0.mem x = some c0 ∧ a.mem x = some c ∧ a'.mem x = some ⟨c0.head, c.body⟩) ∧ Released a0 a' fl' ∧
      (∀ x c, a'.mem x = some c → c.head % 2 = 0) ∧ (∀ x, a0.mem x = none → a'.mem x = none) := by
  have hn : ∀ x, a.mem x = none ↔ a0.mem x = none := by
    intro x
    rcases hcell x with h | ⟨c, c', e1, e2, _⟩
    · cases e1 : a.mem x <;> cases e2 : a0.mem x <;> simp [e1, e2] at h ⊢
    · rw [e1, e2]; simp
  have hok : Ok a fl := ok_heads h0 h1 h2 h3 h4 hn fun x hx => by
    rcases hcell x with h | ⟨_, _, _, _, _, hr⟩
    · exact h
    · exact absurd hx (hused x hr).2
  have hu : ∀ x, Used a fl x ↔ Used a0 fl x := fun x => and_congr_left fun _ => not_congr (hn x)
  have hmk : ∀ x, Marked a.mem x ↔ R x := by
    intro x
    rw [← hmark x]
    simp only [Marked, HasMark, marked, beq_iff_eq]
  obtain ⟨a', fl', e, ok', s1, s2, s3, s4, s5, s6, _⟩ := sweep_spec a fl hok
  have hlive : ∀ x, Used a' fl' x ↔ R x := fun x => by
    rw [s3, hu, hmk]
    exact ⟨fun h => h.2, fun h => ⟨hused x h, h⟩⟩
  have hkeep : ∀ x, R x → ∃ c0 c, a0.mem x = some c0 ∧ a.mem x = some c ∧ a'.mem x = some ⟨c0.head, c.body⟩ := by
    intro x hr
    obtain ⟨c, hc, ho⟩ := (hmark x).2 hr
    have hs := s4 x c ((hu x).2 (hused x hr)) hc (by simp [marked, ho])
    rcases hcell x with h | ⟨c0, c1, e1, e2, e3, _⟩
    · rw [hc] at h
      cases hc0 : a0.mem x with
      | none => rw [hc0] at h; simp at h
      | some c0 =>
        rw [hc0] at h
        simp at h
        have := hclean x c0 hc0
        omega
    · rw [hc] at e2
      cases e2
      refine ⟨c0, c, e1, hc, ?_⟩
      rw [hs]
      have := hclean x c0 e1
      congr 2
      simp only [unmark]
      omega
  refine ⟨a', fl', e, ok', s1.trans h1, hlive, hkeep, ⟨by rw [← h3]; exact s5, by rw [← h1]; exact s6⟩, fun x c hc => ?_, fun x hx => ?_⟩
  · by_cases hx : x ∈ fl'
    · have := (ok'.list.aligned fun y hy => (ok'.cellAddr hy).2.1).2 x hx c hc
      omega
    · obtain ⟨c0, c1, q1, _, q3⟩ := hkeep x ((hlive x).1 ⟨by rw [hc]; simp, hx⟩)
      rw [hc] at q3
      cases q3
      exact hclean x c0 q1
  · refine Decidable.byContradiction fun hne => ?_
    obtain ⟨b, hb, hxb⟩ := (ok'.defd x).1 hne
    refine ((h0.defd x).2 ⟨b, ?_, ?_⟩) hx
    · rw [← h3]; exact s5.subset hb
    · rw [← h1, ← s1]; exact hxb

/-! ### Strings -/

theorem pairwise_of_splits {α : Type} {P : α → α → Prop} : ∀ {l : List α},
    (∀ pre x mid y post, l = pre ++ x :: (mid ++ y :: post) → P x y) → l.Pairwise P
  | [], _ => .nil
  | x :: l, h => List.pairwise_cons.2 ⟨fun y hy => by
      obtain ⟨mid, post, e⟩ := List.append_of_mem hy
      exact h [] x mid y post (by rw [e]; rfl),
    pairwise_of_splits fun pre a mid b post e => h (x :: pre) a mid b post (by rw [e]; rfl)⟩

theorem keepBytes_append (S T : List Item) : keepBytes (S ++ T) = keepBytes S ++ keepBytes T := by
  simp [keepBytes, keep]

theorem keepBytes_le (S : List Item) (h : ∀ it ∈ S, 5 < it.1.length) : (keepBytes S).length ≤ (S.flatMap piece).length := by
  induction S with
  | nil => simp [keepBytes_nil]
  | cons x S ih =>
    have := ih fun it hi => h it (by simp [hi])
    have hp := piece_length (h x (by simp))
    by_cases hx : x.2 = []
    · rw [keepBytes_drop _ _ hx, List.flatMap_cons, List.length_append]; omega
    · rw [keepBytes_cons _ _ hx, List.flatMap_cons, List.length_append]
      simp only [List.length_cons, List.length_append]
      omega

theorem stringBytes_keepBytes (S : List Item) : stringBytes (keep S) = keepBytes S ++ [0] := stringBytes_keep _

theorem compact_spec (h : Sound m0 roots L fo fp fs) {m items} (hs : St m0 roots L m items) :
    ∃ N m', (∀ n, N ≤ n → compactStrings n m = some m') ∧ Same m m' ∧ InvS m'.heap.str ∧
      m'.heap.str.owned.content = stringBytes (keep items) ∧ m'.heap.str.owned.len ≤ m0.heap.str.owned.len ∧
      m'.heap.str.foreign = m0.heap.str.foreign ∧ m'.heap.str.cmem = m0.heap.str.cmem ∧
      (∀ pre it post, items = pre ++ it :: post → ∀ a ∈ it.2, readSlot m' a = some (fromOffset ((keepBytes pre).length + 1))) ∧
      (∀ a, (∀ it ∈ items, a ∉ it.2) → readSlot m' a = readSlot m0 a) := by
  obtain ⟨tail, htl, hstr⟩ := hs.items.str
  have hlong : ∀ it ∈ items, 5 < it.1.length := fun it hi => h.long _ (by
    rw [← hs.items.names]; exact List.mem_map_of_mem hi)
  have hlen := sound_len h hs
  have hpw : items.Pairwise fun x y => ∀ a ∈ x.2, a ∉ y.2 := by
    refine pairwise_of_splits fun pre x mid y post e a hx hy => ?_
    obtain ⟨_, v, hv, _, ho⟩ := hs.items.owner pre x _ e a hx
    obtain ⟨_, w, hw, _, ho'⟩ := hs.items.owner (pre ++ x :: mid) y post (by rw [e]; simp) a hy
    rw [hv] at hw
    cases hw
    rw [ho] at ho'
    simp only [List.flatMap_append, List.flatMap_cons, List.length_append] at ho'
    have := piece_pos x
    omega
  obtain ⟨N, m', tail', e, s, hs', hln, hin, hout⟩ := compactLoop_spec items m [] [] tail (hs.lay (Sound.lay h))
    (by rw [hstr]; rfl) (by rw [hstr]; simp [hlen]) (by rw [hstr]; exact h.small) (fun _ => .inl rfl) hlong hs.items.thread
    hs.items.nodup hpw
  have hkb := keepBytes_le items hlong
  simp only [List.nil_append] at hs' hln hin
  have hml : m.heap.str.owned.mem.length = m0.heap.str.owned.mem.length := by rw [hstr, htl]; simp; omega
  have hne : m0.heap.str.owned.mem ≠ [] := by
    intro h0
    have hc := h.content
    rw [Mbuf.content, h0] at hc
    simp [stringBytes] at hc
  refine ⟨N, m', e, s, ⟨⟨⟨?_, fun h0 => ?_⟩, ?_⟩, ?_⟩, ?_, ?_, ?_, ?_, hin, fun a ha => (hout a ha).trans (hs.items.slots a ha)⟩
  · rw [hs']; simp
  · rw [hs', hstr] at h0
    exact absurd (h.str.1.1.2 h0) hne
  · rw [hs', hstr]; exact h.str.1.2
  · rw [hs', hstr]; exact h.str.2
  · rw [hs', stringBytes_keepBytes]
    simp only [Mbuf.content]
    rw [show keepBytes items ++ 0 :: tail' = (keepBytes items ++ [0]) ++ tail' by simp,
      show (keepBytes items).length + 1 = (keepBytes items ++ [0]).length by simp, take_len_append]
  · rw [hs', hlen]; simp only; omega
  · rw [hs', hstr]
  · rw [hs', hstr]

theorem val_ext {v w : Val} (h1 : v &&& tagMask = w &&& tagMask) (h2 : valToOffset v = valToOffset w) : v = w := by
  have key : ∀ x : Val, x = (x &&& tagMask) ||| (x &&& ~~~tagMask) := by
    intro x
    rw [← BitVec.and_or_distrib_left]
    have : tagMask ||| ~~~tagMask = BitVec.allOnes 64 := by decide
    rw [this, BitVec.and_allOnes]
  rw [key v, key w, h1]
  congr 1
  have low : ∀ x : Val, getPtrRaw x &&& ~~~tagMask = x &&& ~~~tagMask := by
    intro x
    unfold getPtrRaw
    rw [BitVec.and_assoc]
    congr 1
  rw [← low v, ← low w]
  exact BitVec.eq_of_toNat_eq h2

theorem trim_spec (m : Mem σ) (full : Bool) (al : Alloc) (hi : InvS m.heap.str) (ha : AllocLow al) :
    ∃ b, trimStrings m full al = setOwned m b ∧ InvL b ∧ b.content = m.heap.str.owned.content ∧ b.len = m.heap.str.owned.len := by
  unfold trimStrings
  simp only
  split
  · obtain ⟨h1, h2, h3⟩ := resize_addr m.heap.str.owned hi.1 (m.heap.str.owned.len + bufReserve) al ha
    exact ⟨_, rfl, h1, h2, h3⟩
  · exact ⟨m.heap.str.owned, rfl, hi.1, rfl, rfl⟩

/-- Places of strings before and after compaction. -/
theorem keep_split_unique {pre pre' post post' : List Item} {it it' : Item} (h : pre ++ it :: post = pre' ++ it' :: post')
    (hi : it.2 ≠ []) (hi' : it'.2 ≠ []) (ho : (keepBytes pre).length = (keepBytes pre').length) : pre = pre' ∧ it = it' := by
  rcases List.append_eq_append_iff.1 h with ⟨z, h1, h2⟩ | ⟨z, h1, h2⟩
  · cases z with
    | nil => simp at h1 h2; exact ⟨h1.symm, h2.1⟩
    | cons y z =>
      simp at h2
      rw [h1, keepBytes_append, ← h2.1, keepBytes_cons _ _ hi] at ho
      simp at ho
  · cases z with
    | nil => simp at h1 h2; exact ⟨h1, h2.1.symm⟩
    | cons y z =>
      simp at h2
      rw [h1, keepBytes_append, ← h2.1, keepBytes_cons _ _ hi'] at ho
      simp at ho

/-- **A collection from a sound state.** -/
theorem gc_spec [Inhabited σ] (r : Roots) (h : Sound m0 r.all L fo fp fs) (full : Bool) (al : Alloc) (ha : AllocLow al) :
    ∃ N m' L' fo' fp' fs', (∀ n, N ≤ n → mjsGc n m0 r full al = some m') ∧ Collected m0 m' r.all L L' fo' fp' fs' := by
  have hl0 := Sound.lay h
  obtain ⟨N1, m1, items, e1, s1, x1, d1⟩ := markAll_spec h r.all (fun _ h => h) m0 _ (St.start h)
  obtain ⟨rO, rP, rS, rD⟩ := marked_reach h s1 x1 d1
  obtain ⟨N2, m2, e2, sm, hi2, hc2, hlen2, hf2, hcm2, hin, hout⟩ := compact_spec h s1
  have hlong : ∀ it ∈ items, 5 < it.1.length := fun it hi => h.long _ (by
    rw [← s1.items.names]; exact List.mem_map_of_mem hi)
  have hheads : ∀ x, HasMark m2.heap.props.mem x ↔ HasMark m1.heap.props.mem x := by
    intro x
    have := sm.heads x
    constructor
    · rintro ⟨c, q1, q2⟩
      rw [q1] at this
      cases hx : m1.heap.props.mem x with
      | none => rw [hx] at this; simp at this
      | some c' => rw [hx] at this; simp at this; exact ⟨c', hx, by rw [← this]; exact q2⟩
    · rintro ⟨c, q1, q2⟩
      rw [q1] at this
      cases hx : m2.heap.props.mem x with
      | none => rw [hx] at this; simp at this
      | some c' => rw [hx] at this; simp at this; exact ⟨c', hx, by rw [this]; exact q2⟩
  -- the three sweeps
  obtain ⟨ao, fo', eo, oko, cso, lo, ko, bo, co, no⟩ := swept (a0 := m0.heap.objs) (a := m2.heap.objs)
    (fun x => Reach m0 r.all (.obj x)) h.objs (by rw [sm.objs, s1.objShape]) (by rw [sm.objs, s1.objShape])
    (by rw [sm.objs, s1.objShape]) (by rw [sm.objs, s1.objShape]) h.cleanObj (by rw [sm.objs]; exact rO)
    (fun x hx => reach_obj_used h hx) (by
      rw [sm.objs]
      intro x
      rcases s1.obj x with q | ⟨c, q1, q2, q3⟩
      · exact .inl (by rw [q])
      · exact .inr ⟨c, _, q1, q2, rfl, q3⟩)
  obtain ⟨as, fs', es, oks, css, ls, ks, bs, cs, ns⟩ := swept (a0 := m0.sigs) (a := m2.sigs)
    (fun x => Reach m0 r.all (.sig x)) h.sigs (by rw [sm.sigs, s1.sigShape]) (by rw [sm.sigs, s1.sigShape])
    (by rw [sm.sigs, s1.sigShape]) (by rw [sm.sigs, s1.sigShape]) h.cleanSig (by rw [sm.sigs]; exact rS)
    (fun x hx => reach_sig_used h hx) (by
      rw [sm.sigs]
      intro x
      rcases s1.sig x with q | ⟨c, q1, q2, q3⟩
      · exact .inl (by rw [q])
      · exact .inr ⟨c, _, q1, q2, rfl, q3⟩)
  obtain ⟨ap, fp', ep, okp, csp, lp, kp, bp, cp, np⟩ := swept (a0 := m0.heap.props) (a := m2.heap.props)
    (fun x => Reach m0 r.all (.prop x)) h.props (sm.cs.trans s1.propCs) (sm.inc.trans s1.propInc)
    (sm.blocks.trans s1.propBlocks) (sm.free.trans s1.propFree) h.cleanProp (fun x => (hheads x).trans (rP x))
    (fun x hx => reach_prop_used h hx) (by
      intro x
      rcases s1.prop x with q | ⟨c, c', q1, q2, q3, q4⟩
      · exact .inl ((sm.heads x).trans q)
      · have := sm.heads x
        rw [q2] at this
        cases hx : m2.heap.props.mem x with
        | none => rw [hx] at this; simp at this
        | some c2 => rw [hx] at this; simp at this; exact .inr ⟨c, c2, q1, rfl, by rw [this]; exact q3, q4⟩)
  obtain ⟨b, et, bi, bc, bl⟩ := trim_spec { m2 with heap := { m2.heap with objs := ao, props := ap }, sigs := as } full al hi2 ha
  let m' : Mem σ := setOwned { m2 with heap := { m2.heap with objs := ao, props := ap }, sigs := as } b
  have hvars : ∀ x, m'.vars x = none ↔ m0.vars x = none := fun x => (sm.vars x).trans (s1.vars x)
  have hl' : Lay m' := by
    have q : ∀ p, m'.heap.props.mem p ≠ none → m0.heap.props.mem p ≠ none := fun p hp h0 => hp (np p h0)
    refine ⟨fun p hp => hl0.cell p (q p hp), fun p p' hp hp' => hl0.gap p p' (q p hp) (q p' hp'), fun a hv => ?_⟩
    obtain ⟨g1, g2, g3, g4⟩ := hl0.vars a fun h0 => hv ((hvars a).2 h0)
    exact ⟨g1, g2, np _ g3, np _ g4⟩
  have hl2 : Lay m2 := sm.lay (s1.lay hl0)
  -- the values of the variables
  have hslot : ∀ a, Reach m0 r.all (.slot a) → readSlot m' a = readSlot m2 a := by
    intro a hr
    rcases reach_slot_cases h hr with hv | ⟨p, hp, e⟩
    · cases hv2 : m2.vars a with
      | none => exact absurd ((hvars a).1 hv2) hv
      | some v => rw [read_var (m := m') hv2, read_var hv2]
    · obtain ⟨c0, c, q1, q2, q3⟩ := kp p hp
      rcases e with rfl | rfl
      · rw [read_name hl2 q2, read_name (m := m') hl' q3]
      · rw [read_value hl2 q2, read_value (m := m') hl' q3]
  have hnon : ∀ a v, Reach m0 r.all (.slot a) → readSlot m0 a = some v → v &&& tagMask ≠ tagStringO → readSlot m' a = some v := by
    intro a v hr hv ht
    rw [hslot a hr, hout a, hv]
    intro it hi hai
    obtain ⟨pre, post, he⟩ := List.append_of_mem hi
    obtain ⟨_, w, hw, ht', _⟩ := s1.items.owner pre it post he a hai
    rw [hv] at hw
    cases hw
    exact ht ht'
  have hst : ∀ a v, Reach m0 r.all (.slot a) → readSlot m0 a = some v → v &&& tagMask = tagStringO → ∃ pre it post,
      items = pre ++ it :: post ∧ a ∈ it.2 ∧ valToOffset v = (pre.flatMap piece).length + 1 ∧
      readSlot m' a = some (fromOffset ((keepBytes pre).length + 1)) := by
    intro a v hr hv ht
    obtain ⟨it, hi, hai⟩ := (rD a hr v hv).2.2 ht
    obtain ⟨pre, post, he⟩ := List.append_of_mem hi
    obtain ⟨_, w, hw, _, ho⟩ := s1.items.owner pre it post he a hai
    rw [hv] at hw
    cases hw
    exact ⟨pre, it, post, he, hai, ho, by rw [hslot a hr, hin pre it post he a hai]⟩
  have hkl : ∀ pre it post, items = pre ++ it :: post → (keepBytes pre).length + 1 < 2 ^ 48 := by
    intro pre it post he
    have q1 := keepBytes_le pre fun x hx => hlong x (by rw [he]; simp [hx])
    have q2 := sound_len h s1
    have q3 := h.small
    rw [he] at q2
    simp only [List.flatMap_append, List.length_append] at q2
    omega
  have hfrom : ∀ k, k < 2 ^ 48 → fromOffset k &&& tagMask = tagStringO ∧ valToOffset (fromOffset k) = k := by
    intro k hk
    rw [fromOffset_eq k hk]
    exact ⟨mkTagged_tag k 8, mkTagged_offset k hk 8⟩
  have hne2 : ∀ {it : Item} {a}, a ∈ it.2 → it.2 ≠ [] := fun {it a} h h0 => by rw [h0] at h; simp at h
  have hrefers : ∀ pre it post, items = pre ++ it :: post → it.2 ≠ [] →
      refersTo (keep items) (fromOffset ((keepBytes pre).length + 1)) (keep pre) it.1 := by
    intro pre it post he hn
    obtain ⟨q1, q2⟩ := hfrom _ (hkl pre it post he)
    refine ⟨⟨keep post, by rw [he, keep_append]; simp [keep, hn]⟩, q1, ?_⟩
    rw [q2, stringBytes_keepBytes]
    simp
  -- the string a value refers to
  have hitem : ∀ v pre bs ipre it ipost, refersTo L v pre bs → items = ipre ++ it :: ipost →
      valToOffset v = (ipre.flatMap piece).length + 1 → it.1 = bs := by
    rintro v pre bs ipre it ipost ⟨⟨post, hL⟩, _, ho⟩ he ho'
    have hn := s1.items.names
    rw [hL] at hn
    obtain ⟨jpre, rr, j1, j2, j3⟩ := List.map_eq_append_iff.1 hn
    obtain ⟨jt, jpost, j4, j5, j6⟩ := List.map_eq_cons_iff.1 j3
    have hlen : (stringBytes pre).length = (jpre.flatMap piece).length + 1 := by
      rw [stringBytes_eq, List.length_append]
      congr 1
      refine (flatMap_length_congr (by rw [j2]; simp [Function.comp_def]) fun x hx => ?_).symm
      exact hlong x (by rw [j1]; simp [hx])
    have := (split_unique (show jpre ++ jt :: jpost = ipre ++ it :: ipost by rw [← he, j1, j4]) (by omega)).2.1
    rw [← this, j5]
  have hvals : ∀ a v, Reach m0 r.all (.slot a) → readSlot m0 a = some v → ∃ v', readSlot m' a = some v' ∧
      (v &&& tagMask ≠ tagStringO → v' = v) ∧ (v &&& tagMask = tagStringO → v' &&& tagMask = tagStringO) ∧
      ∀ pre bs, refersTo L v pre bs → ∃ pre', refersTo (keep items) v' pre' bs := by
    intro a v hr hv
    by_cases ht : v &&& tagMask = tagStringO
    · obtain ⟨pre, it, post, he, hai, ho, hv'⟩ := hst a v hr hv ht
      refine ⟨_, hv', fun h0 => absurd ht h0, fun _ => (hfrom _ (hkl pre it post he)).1, fun p bs hrf => ?_⟩
      rw [← hitem v p bs pre it post hrf he ho]
      exact ⟨_, hrefers pre it post he (hne2 hai)⟩
    · exact ⟨v, hnon a v hr hv ht, fun _ => rfl, fun h0 => absurd h0 ht, fun p bs hrf => absurd hrf.2.1 ht⟩
  -- what can be reached
  have hobjs : ∀ o, Reach m0 r.all (.obj o) → m'.heap.objs.mem o = m0.heap.objs.mem o := by
    intro o ho
    obtain ⟨c0, c, q1, q2, q3⟩ := ko o ho
    rw [q1]
    exact q3
  have hsigs : ∀ s, Reach m0 r.all (.sig s) → m'.sigs.mem s = m0.sigs.mem s := by
    intro s hs
    obtain ⟨c0, c, q1, q2, q3⟩ := ks s hs
    rw [q1]
    refine q3.trans ?_
    rw [sm.sigs] at q2
    rcases s1.sig s with q | ⟨c', q4, q5, _⟩
    · rw [q, q1] at q2
      cases q2
      rfl
    · rw [q2] at q5
      rw [q1] at q4
      cases q4
      cases q5
      rfl
  have hlinks : ∀ p, Reach m0 r.all (.prop p) → ∃ c c', m0.heap.props.mem p = some c ∧ m'.heap.props.mem p = some c' ∧ c'.head = c.head := by
    intro p hp
    obtain ⟨c0, c, q1, q2, q3⟩ := kp p hp
    exact ⟨c0, _, q1, q3, rfl⟩
  have hreach : ∀ n, Reach m' r.all n ↔ Reach m0 r.all n := by
    intro n
    constructor
    · intro hn
      induction hn with
      | root ha => exact .root ha
      | @obj a v' _ hv' ho ih =>
        obtain ⟨v, hv, _⟩ := h.slot a ih
        obtain ⟨v2, hv2, q1, q2, _⟩ := hvals a v ih hv
        rw [hv'] at hv2
        cases hv2
        by_cases ht : v &&& tagMask = tagStringO
        · have := not_object_of_tag 8 (by decide) (q2 ht)
          rw [ho] at this
          cases this
        · rw [q1 ht] at ho ⊢
          exact .obj ih hv ho
      | @sig a v' _ hv' ho ih =>
        obtain ⟨v, hv, _⟩ := h.slot a ih
        obtain ⟨v2, hv2, q1, q2, _⟩ := hvals a v ih hv
        rw [hv'] at hv2
        cases hv2
        by_cases ht : v &&& tagMask = tagStringO
        · have := not_sig_of_tag 8 (by decide) (q2 ht)
          rw [ho] at this
          cases this
        · rw [q1 ht] at ho ⊢
          exact .sig ih hv ho
      | first _ hc h0 ih => exact .first ih (by rw [← hobjs _ ih]; exact hc) h0
      | next _ hc h0 ih =>
        obtain ⟨c, c', q1, q2, q3⟩ := hlinks _ ih
        rw [hc] at q2
        cases q2
        rw [q3] at h0 ⊢
        exact .next ih q1 h0
      | name _ ih => exact .name ih
      | value _ ih => exact .value ih
    · intro hn
      induction hn with
      | root ha => exact .root ha
      | @obj a v hr hv ho ih =>
        obtain ⟨v', hv', q1, q2, _⟩ := hvals a v hr hv
        have ht : v &&& tagMask ≠ tagStringO := fun ht => by
          have := not_object_of_tag 8 (by decide) ht
          rw [ho] at this
          cases this
        rw [q1 ht] at hv'
        exact .obj ih hv' ho
      | @sig a v hr hv ho ih =>
        obtain ⟨v', hv', q1, q2, _⟩ := hvals a v hr hv
        have ht : v &&& tagMask ≠ tagStringO := fun ht => by
          have := not_sig_of_tag 8 (by decide) ht
          rw [ho] at this
          cases this
        rw [q1 ht] at hv'
        exact .sig ih hv' ho
      | first hr hc h0 ih => exact .first ih (by rw [hobjs _ hr]; exact hc) h0
      | next hr hc h0 ih =>
        obtain ⟨c, c', q1, q2, q3⟩ := hlinks _ hr
        rw [hc] at q1
        cases q1
        rw [← q3] at h0 ⊢
        exact .next ih q2 h0
      | name _ ih => exact .name ih
      | value _ ih => exact .value ih
  have hfl : ∀ o c l, Reach m0 r.all (.obj o) → m0.heap.objs.mem o = some c → FreeList m0.heap.props.mem c.head l →
      FreeList m'.heap.props.mem c.head l := by
    intro o c l ho hc hl
    refine freeList_heads hl fun x hx => ?_
    obtain ⟨c1, c2, q1, q2, q3⟩ := hlinks x (St.reachProp ho hc hl x hx)
    rw [q1, q2]
    simp [q3]
  refine ⟨N1 + N2, m', keep items, fo', fp', fs', fun n hn => ?_, ?_⟩
  · unfold mjsGc
    simp only [Option.bind_eq_bind]
    rw [e1 n (by omega), Option.bind_some, e2 n (by omega), Option.bind_some, eo, Option.bind_some, ep, Option.bind_some, es,
      Option.bind_some, et]
  refine ⟨hobjs, hsigs, hlinks, fun a v hr hv => ?_, ?_, lo, lp, ls, bo, bp, bs, ?_, ?_, ⟨hf2, hcm2⟩, ?_, hreach, ?_⟩
  · obtain ⟨v', q1, q2, _, q3⟩ := hvals a v hr hv
    exact ⟨v', q1, q2, q3⟩
  · intro a b v w v' w' hra hrb hv hw hv' hw'
    constructor
    · intro e
      subst e
      by_cases ht : v &&& tagMask = tagStringO
      · obtain ⟨pre, it, post, he, hai, ho, hq⟩ := hst a v hra hv ht
        by_cases ht2 : w &&& tagMask = tagStringO
        · obtain ⟨pre2, it2, post2, he2, hai2, ho2, hq2⟩ := hst b w hrb hw ht2
          rw [hv'] at hq
          rw [hw'] at hq2
          have : fromOffset ((keepBytes pre).length + 1) = fromOffset ((keepBytes pre2).length + 1) := by
            rw [← Option.some.inj hq, ← Option.some.inj hq2]
          have hk : (keepBytes pre).length + 1 = (keepBytes pre2).length + 1 := by
            rw [← (hfrom _ (hkl pre it post he)).2, this, (hfrom _ (hkl pre2 it2 post2 he2)).2]
          obtain ⟨q1, q2⟩ := keep_split_unique (he.symm.trans he2) (hne2 hai) (hne2 hai2) (by omega)
          exact val_ext (ht.trans ht2.symm) (by rw [ho, ho2, q1])
        · rw [hnon b w hrb hw ht2] at hw'
          cases hw'
          rw [hv'] at hq
          cases hq
          exact absurd (hfrom _ (hkl pre it post he)).1 ht2
      · rw [hnon a v hra hv ht] at hv'
        cases hv'
        by_cases ht2 : w &&& tagMask = tagStringO
        · obtain ⟨pre2, it2, post2, he2, hai2, ho2, hq2⟩ := hst b w hrb hw ht2
          rw [hw'] at hq2
          cases hq2
          exact absurd (hfrom _ (hkl pre2 it2 post2 he2)).1 ht
        · rw [hnon b w hrb hw ht2] at hw'
          cases hw'
          rfl
    · intro e
      subst e
      by_cases ht : v &&& tagMask = tagStringO
      · obtain ⟨pre, it, post, he, hai, ho, hq⟩ := hst a v hra hv ht
        obtain ⟨pre2, it2, post2, he2, hai2, ho2, hq2⟩ := hst b v hrb hw ht
        have := (split_unique (he.symm.trans he2) (by omega)).1
        rw [hv'] at hq
        rw [hw', ← this, ← hq] at hq2
        exact (Option.some.inj hq2).symm
      · rw [hnon a v hra hv ht] at hv'
        rw [hnon b v hrb hw ht] at hw'
        cases hv'
        cases hw'
        rfl
  · have := (List.filter_sublist (p := fun it : Item => !it.2.isEmpty) (l := items)).map Prod.fst
    rw [s1.items.names] at this
    exact this
  · intro pre bs post hL
    obtain ⟨pre1, r1, k1, k2, k3⟩ := List.map_eq_append_iff.1 (show (items.filter fun it => !it.2.isEmpty).map Prod.fst = _ from hL)
    obtain ⟨it, post1, k4, k5, k6⟩ := List.map_eq_cons_iff.1 k3
    -- the item in the full list
    have : ∀ (items : List Item) (pre1 : List Item) (it : Item) (post1 : List Item),
        (items.filter fun it => !it.2.isEmpty) = pre1 ++ it :: post1 → ∃ ipre ipost, items = ipre ++ it :: ipost ∧
          (ipre.filter fun it => !it.2.isEmpty) = pre1 ∧ it.2 ≠ [] := by
      intro items
      induction items with
      | nil => intro pre1 it post1 hh; simp at hh
      | cons x items ih =>
        intro pre1 it post1 hh
        by_cases hx : x.2 = []
        · rw [List.filter_cons_of_neg (by simp [hx])] at hh
          obtain ⟨ipre, ipost, q1, q2, q3⟩ := ih _ _ _ hh
          exact ⟨x :: ipre, ipost, by rw [q1]; rfl, by rw [List.filter_cons_of_neg (by simp [hx]), q2], q3⟩
        · rw [List.filter_cons_of_pos (by simp [hx])] at hh
          cases pre1 with
          | nil => simp at hh; exact ⟨[], items, by rw [← hh.1]; rfl, rfl, by rw [← hh.1]; exact hx⟩
          | cons y pre1 =>
            simp only [List.cons_append, List.cons.injEq] at hh
            obtain ⟨ipre, ipost, q1, q2, q3⟩ := ih _ _ _ hh.2
            exact ⟨x :: ipre, ipost, by rw [q1]; rfl, by rw [List.filter_cons_of_pos (by simp [hx]), q2, hh.1], q3⟩
    obtain ⟨ipre, ipost, q1, q2, q3⟩ := this items pre1 it post1 (by rw [k1, k4])
    obtain ⟨a, l, hal⟩ := List.exists_cons_of_ne_nil q3
    have hai : a ∈ it.2 := by rw [hal]; simp
    obtain ⟨hr, v, hv, ht, ho⟩ := s1.items.owner ipre it ipost q1 a hai
    refine ⟨a, _, hr, by rw [hslot a hr]; exact hin ipre it ipost q1 a hai, ?_⟩
    have := hrefers ipre it ipost q1 q3
    rw [show keep ipre = pre by rw [keep, q2, k2], k5] at this
    exact this
  · intro a hr
    have : readSlot m2 a = readSlot m0 a := hout a fun it hi hai => by
      obtain ⟨pre, post, he⟩ := List.append_of_mem hi
      exact hr (s1.items.owner pre it post he a hai).1
    show m2.vars a = m0.vars a
    cases hv : m2.vars a with
    | none => exact ((hvars a).1 hv).symm
    | some v =>
      cases hv0 : m0.vars a with
      | none => exact absurd (((hvars a).2 hv0).symm.trans hv) (by simp)
      | some w => rw [read_var hv, read_var hv0] at this; exact this
  · refine ⟨⟨bi, hi2.2⟩, bc.trans hc2, ?_, ?_, oko, okp, oks, csp.trans h.propSize, hl'.vars, fun a hr h0 => h.rootVars a hr ((hvars a).1 h0),
      fun a hr => ?_, co, cp, cs, ?_, ?_⟩
    · intro bs hbs
      obtain ⟨it, hi, rfl⟩ := List.mem_map.1 hbs
      exact hlong it ((List.mem_filter.1 hi).1)
    · show b.len < _
      rw [bl]
      have := h.small
      simp only
      omega
    · have hr0 := (hreach _).1 hr
      obtain ⟨v, hv, q1, q2, q3⟩ := h.slot a hr0
      obtain ⟨v', hv', p1, p2, p3⟩ := hvals a v hr0 hv
      refine ⟨v', hv', fun ho => ?_, fun ho => ?_, fun ht => ?_⟩
      · exact (lo _).2 ((hreach _).1 (.obj hr hv' ho))
      · exact (ls _).2 ((hreach _).1 (.sig hr hv' ho))
      · by_cases htv : v &&& tagMask = tagStringO
        · obtain ⟨pre, bs, hrf⟩ := q3 htv
          obtain ⟨pre', hrf'⟩ := p3 pre bs hrf
          exact ⟨pre', bs, hrf'⟩
        · rw [p1 htv] at ht
          exact absurd ht htv
    · intro o c ho hc
      have ho0 := (hreach _).1 ho
      rw [hobjs o ho0] at hc
      obtain ⟨l, q1, q2, q3⟩ := h.list o c ho0 hc
      exact ⟨l, hfl o c l ho0 hc q1, q2, fun p hp => ((lp p).2 (St.reachProp ho0 hc q1 p hp)).2⟩
    · intro o c l o' c' l' ho ho' hc hc' hl1 hl2 p hp hp'
      have ho0 := (hreach _).1 ho
      have ho0' := (hreach _).1 ho'
      rw [hobjs o ho0] at hc
      rw [hobjs o' ho0'] at hc'
      obtain ⟨k, q1, _⟩ := h.list o c ho0 hc
      obtain ⟨k', q1', _⟩ := h.list o' c' ho0' hc'
      rw [hl1.det (hfl o c k ho0 hc q1)] at hp
      rw [hl2.det (hfl o' c' k' ho0' hc' q1')] at hp'
      exact h.apart o c k o' c' k' ho0 ho0' hc hc' q1 q1' p hp hp'

end Mjs.Gc
