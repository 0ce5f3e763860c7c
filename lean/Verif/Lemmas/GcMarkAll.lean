import Verif.Lemmas.GcMark

namespace Mjs.Gc
open Mjs Mjs.Mbuf Mjs.Varint Mjs.Str Mjs.Arena Mjs.Obj Mjs.Spec.Gc

variable {σ : Type}

theorem mark_even {w : Nat} (h : w % 2 = 0) : mark w = w + 1 := by rw [mark, h]; omega
theorem marked_even {w : Nat} (h : w % 2 = 0) : marked w = false := by simp [marked, h]
theorem marked_odd {w : Nat} (h : w % 2 = 1) : marked w = true := by simp [marked, h]

theorem not_object_of_tag {v : Val} (k : Fin 16) (hk : k ≠ 1 ∧ k ≠ 12) (h : v &&& tagMask = makeTag 1 k) : isObject v = false := by
  simp only [isObject, h]
  revert hk; clear h; revert k; decide

theorem not_sig_of_tag {v : Val} (k : Fin 16) (hk : k ≠ 14) (h : v &&& tagMask = makeTag 1 k) : isFfiSig v = false := by
  simp only [isFfiSig, h]
  revert hk; clear h; revert k; decide

section
variable {m0 : Mem σ} {roots : List Nat} {L : List (List UInt8)} {fo fp fs : List Nat}

theorem St.start (h : Sound m0 roots L fo fp fs) : St m0 roots L m0 (L.map fun bs => (bs, [])) := by
  have hin := h.str.1.1
  refine ⟨⟨by simp [Function.comp_def], ?_, fun _ _ => rfl, ?_, ?_, ?_⟩, rfl, fun _ => .inl rfl, rfl, rfl, rfl, rfl, fun _ => .inl rfl, rfl,
    fun _ => .inl rfl, fun _ => .rfl, fun p hp => ?_⟩
  rotate_left 4
  · obtain ⟨c, hc, ho⟩ := hp
    have := h.cleanProp p c hc
    omega
  · have hc := h.content
    rw [stringBytes_eq] at hc
    have hcl := content_length hin
    refine ⟨m0.heap.str.owned.mem.drop m0.heap.str.owned.len, ?_, ?_⟩
    · rw [List.length_drop]
      have h1 : m0.heap.str.owned.len = ((L.map fun bs => ((bs, []) : Item)).flatMap piece).length + 1 := by
        rw [← hcl, hc]; simp
      have := hin.1
      omega
    · have e : m0.heap.str.owned.mem = ((L.map fun bs => ((bs, []) : Item)).flatMap piece) ++ 0 ::
          m0.heap.str.owned.mem.drop m0.heap.str.owned.len := by
        have := List.take_append_drop m0.heap.str.owned.len m0.heap.str.owned.mem
        rw [show m0.heap.str.owned.mem.take m0.heap.str.owned.len = m0.heap.str.owned.content from rfl, hc] at this
        simpa using this.symm
      rw [← e]
  · intro it hi
    obtain ⟨bs, _, rfl⟩ := List.mem_map.1 hi
    trivial
  · intro pre it post he a ha
    have : it ∈ L.map fun bs => ((bs, []) : Item) := by rw [he]; simp
    obtain ⟨bs, _, rfl⟩ := List.mem_map.1 this
    simp at ha
  · intro it hi
    obtain ⟨bs, _, rfl⟩ := List.mem_map.1 hi
    exact List.nodup_nil

theorem sound_len (h : Sound m0 roots L fo fp fs) {m items} (hs : St m0 roots L m items) :
    m0.heap.str.owned.len = (items.flatMap piece).length + 1 := by
  have hcl := content_length h.str.1.1
  have e : (items.flatMap piece).length = ((L.map fun bs => ((bs, []) : Item)).flatMap piece).length :=
    flatMap_length_congr (by rw [hs.items.names]; simp [Function.comp_def])
      (fun it hi => h.long _ (by rw [← hs.items.names]; exact List.mem_map_of_mem hi))
  rw [← hcl, h.content, stringBytes_eq, e]
  simp

theorem St.reachProp {o c l} (ho : Reach m0 roots (.obj o)) (hc : m0.heap.objs.mem o = some c)
    (hf : FreeList m0.heap.props.mem c.head l) : ∀ p ∈ l, Reach m0 roots (.prop p) := by
  have key : ∀ p l, FreeList m0.heap.props.mem p l → (p ≠ 0 → Reach m0 roots (.prop p)) → ∀ q ∈ l, Reach m0 roots (.prop q) := by
    intro p l hl
    induction hl with
    | nil => simp
    | @cons r d l h0 hm _ ih =>
      intro hr q hq
      rcases List.mem_cons.1 hq with rfl | hq
      · exact hr h0
      · exact ih (fun h1 => .next (hr h0) hm h1) q hq
  exact key _ _ hf fun h0 => .first ho hc h0

/-- Marking a signature. -/
theorem markSig_spec (h : Sound m0 roots L fo fp fs) {m items} (hs : St m0 roots L m items) {a v}
    (ha : Reach m0 roots (.slot a)) (hv : readSlot m0 a = some v) (hsig : isFfiSig v = true) :
    ∃ m', markSig m v = some m' ∧ St m0 roots L m' items ∧ Ext m0 (fun _ => False) m items m' items ∧
      HasMark m'.sigs.mem (getPtrRaw v).toNat ∧ (∀ b, readSlot m' b = readSlot m b) := by
  obtain ⟨w, hw, _, hu, _⟩ := h.slot a ha
  rw [hv] at hw; cases hw
  obtain ⟨hu1, hu2⟩ := hu hsig
  have hr := Reach.sig ha hv hsig
  simp only [markSig]
  generalize (getPtrRaw v).toNat = s at *
  have hck : checkPtr m.sigs s = true := by
    rw [checkPtr_shape (a := m0.sigs) (by rw [hs.sigShape]) (by rw [hs.sigShape])]
    exact checkPtr_cell h.sigs hu1
  cases hc : m0.sigs.mem s with
  | none => exact absurd hc hu1
  | some c =>
    have heven := h.cleanSig s c hc
    rcases hs.sig s with h1 | ⟨c1, h1, h2, _⟩
    · rw [hc] at h1
      refine ⟨{ m with sigs := { m.sigs with mem := upd m.sigs.mem s (some ⟨mark c.head, c.body⟩) } }, ?_, ?_, ?_, ?_, ?_⟩
      · rw [if_neg (by simp [hck]), h1, Option.map_some, if_neg (by simp [marked_even heven])]
      · refine ⟨hs.items.congr rfl fun _ => rfl, hs.objShape, hs.obj, hs.propCs, hs.propInc, hs.propBlocks, hs.propFree,
          hs.prop, ?_, ?_, hs.vars, hs.mine⟩
        · rw [hs.sigShape]
        · intro x
          by_cases hx : x = s
          · subst hx
            exact .inr ⟨c, hc, by simp [upd_same, mark_even heven], hr⟩
          · simp only [upd_other _ _ _ _ hx]; exact hs.sig x
      · refine ⟨⟨fun _ h => h, fun _ h => h, fun x hx => ?_, fun _ h => h⟩, fun x h1 h2 => absurd h1 h2, fun x h1 h2 => absurd h1 h2⟩
        by_cases hx' : x = s
        · subst hx'
          exact ⟨_, upd_same _ _ _, by rw [mark_even heven]; simp only; omega⟩
        · obtain ⟨d, h1, h2⟩ := hx
          exact ⟨d, by simp only [upd_other _ _ _ _ hx']; exact h1, h2⟩
      · exact ⟨_, upd_same _ _ _, by rw [mark_even heven]; simp only; omega⟩
      · intro b; rfl
    · rw [hc] at h1
      cases h1
      refine ⟨m, ?_, hs, .refl _ _ _ _, ⟨_, h2, by simp only; omega⟩, fun _ => rfl⟩
      rw [if_neg (by simp [hck]), h2, Option.map_some, if_pos (marked_odd (by simp only; omega))]

/-- What marking from a variable does, when at most `K` objects carry no mark. -/
def SlotSpec (m0 : Mem σ) (roots : List Nat) (L : List (List UInt8)) (K : Nat) : Prop :=
  ∀ m items a, St m0 roots L m items → todo m0 m ≤ K → Reach m0 roots (.slot a) →
    ∃ N m' items', (∀ n, N ≤ n → markVal n m a = some m') ∧ St m0 roots L m' items' ∧
      Ext m0 (fun _ => False) m items m' items' ∧ Done m0 m' items' a

/-- What marking an object does. -/
def ObjSpec (m0 : Mem σ) (roots : List Nat) (L : List (List UInt8)) (K : Nat) : Prop :=
  ∀ m items a v, St m0 roots L m items → todo m0 m ≤ K → Reach m0 roots (.slot a) → readSlot m0 a = some v →
    isObject v = true → ∃ N m' items', (∀ n, N ≤ n → markObject n m v = some m') ∧ St m0 roots L m' items' ∧
      Ext m0 (fun _ => False) m items m' items' ∧ HasMark m'.heap.objs.mem (getPtrRaw v).toNat

theorem St.head {m items} (hs : St m0 roots L m items) {p c} (hc : m0.heap.props.mem p = some c)
    (hn : ¬ HasMark m.heap.props.mem p) (he : c.head % 2 = 0) : ∃ c', m.heap.props.mem p = some c' ∧ c'.head = c.head := by
  rcases hs.prop p with h1 | ⟨c1, c2, h1, h2, h3, _⟩
  · rw [hc] at h1
    cases hp : m.heap.props.mem p with
    | none => rw [hp] at h1; simp at h1
    | some c' => rw [hp] at h1; simp at h1; exact ⟨c', rfl, h1⟩
  · rw [hc] at h1
    cases h1
    exact absurd ⟨c2, h2, by omega⟩ hn

/-- Marking a property cell. -/
theorem St.markProp {m items} (hs : St m0 roots L m items) {p c c'} (hc : m0.heap.props.mem p = some c)
    (hc' : m.heap.props.mem p = some c') (hh : c'.head = c.head) (he : c.head % 2 = 0) (hr : Reach m0 roots (.prop p))
    (hmine : ∃ x c l, HasMark m.heap.objs.mem x ∧ Reach m0 roots (.obj x) ∧
      m0.heap.objs.mem x = some c ∧ FreeList m0.heap.props.mem c.head l ∧ p ∈ l) :
    let m' : Mem σ := { m with heap := { m.heap with props :=
        { m.heap.props with mem := upd m.heap.props.mem p (some ⟨mark c'.head, c'.body⟩) } } }
    St m0 roots L m' items ∧ Ext m0 (fun q => q = p) m items m' items ∧ HasMark m'.heap.props.mem p ∧
      ∀ q, q ≠ p → (HasMark m'.heap.props.mem q ↔ HasMark m.heap.props.mem q) := by
  have hm : HasMark (upd m.heap.props.mem p (some ⟨mark c'.head, c'.body⟩)) p :=
    ⟨_, upd_same _ _ _, by rw [hh, mark_even he]; simp only; omega⟩
  have hother : ∀ q, q ≠ p → (HasMark (upd m.heap.props.mem p (some ⟨mark c'.head, c'.body⟩)) q ↔ HasMark m.heap.props.mem q) := by
    intro q hq
    simp only [HasMark, upd_other _ _ _ _ hq]
  refine ⟨⟨?_, hs.objShape, hs.obj, hs.propCs, hs.propInc, hs.propBlocks, hs.propFree, ?_, hs.sigShape, hs.sig, hs.vars, ?_⟩,
    ⟨⟨fun _ h => h, fun x hx => ?_, fun _ h => h, fun _ h => h⟩, fun x h1 h2 => absurd h1 h2, fun x h1 h2 => ?_⟩, hm, hother⟩
  · refine hs.items.congr rfl fun a => ?_
    apply readSlot_congr
    · rfl
    intro x
    show (upd m.heap.props.mem p (some ⟨mark c'.head, c'.body⟩) x).map Cell.body = _
    by_cases hx : x = p
    · subst hx; simp [upd_same, hc']
    · simp only [upd_other _ _ _ _ hx]
  · intro x
    by_cases hx : x = p
    · subst hx
      exact .inr ⟨c, _, hc, upd_same _ _ _, by simp only; rw [hh, mark_even he], hr⟩
    · simp only [upd_other _ _ _ _ hx]; exact hs.prop x
  · intro x hx
    by_cases hx' : x = p
    · subst hx'; exact hmine
    · exact hs.mine x ((hother x hx').1 hx)
  · by_cases hx' : x = p
    · subst hx'; exact hm
    · exact (hother x hx').2 hx
  · by_cases hx' : x = p
    · exact .inl hx'
    · exact absurd ((hother x hx').1 h1) h2

/-- The loop over the properties. -/
theorem markProps_spec (h : Sound m0 roots L fo fp fs) {K} (hK : SlotSpec m0 roots L K) {x c lf} (hx : Reach m0 roots (.obj x))
    (hc : m0.heap.objs.mem x = some c) (hf : FreeList m0.heap.props.mem c.head lf) :
    ∀ l pre m items p, lf = pre ++ l → FreeList m0.heap.props.mem p l → St m0 roots L m items → todo m0 m ≤ K →
      HasMark m.heap.objs.mem x → (∀ q ∈ l, ¬ HasMark m.heap.props.mem q) →
      ∃ N m' items', (∀ n, N ≤ n → markProps n m p = some m') ∧ St m0 roots L m' items' ∧
        Ext m0 (fun q => q ∈ l) m items m' items' ∧
        ∀ q ∈ l, HasMark m'.heap.props.mem q ∧ Done m0 m' items' (q + 8) ∧ Done m0 m' items' (q + 16) := by
  obtain ⟨l', hl', hnd, hnf⟩ := h.list x c hx hc
  rw [hl'.det hf] at hnd hnf
  intro l
  induction l with
  | nil =>
    intro pre m items p _ hfl hs _ _ _
    cases hfl
    refine ⟨1, m, items, fun n hn => ?_, hs, .refl _ _ _ _, by simp⟩
    obtain ⟨k, rfl⟩ : ∃ k, n = k + 1 := ⟨n - 1, by omega⟩
    rw [markProps, if_pos rfl]
  | cons p l ih =>
    intro pre m items p' hlf hfl hs hK' hxm hun
    cases hfl with
    | @cons _ d _ hp0 hd hrest =>
    have hpl : p ∈ lf := by rw [hlf]; simp
    have hrp := St.reachProp hx hc hf p hpl
    obtain ⟨N1, m1, i1, e1, s1, x1, d1⟩ := hK m items (p + 8) hs hK' (.name hrp)
    have k1 := Nat.le_trans (todo_le hs s1 x1.grows) hK'
    obtain ⟨N2, m2, i2, e2, s2, x2, d2⟩ := hK m1 i1 (p + 16) s1 k1 (.value hrp)
    have x12 := x1.trans x2 (S := fun _ => False) (fun _ h => h) (fun _ h => h)
    have k2 := Nat.le_trans (todo_le s1 s2 x2.grows) k1
    -- the properties of this object are still without mark
    have hun2 : ∀ q ∈ p :: l, ¬ HasMark m2.heap.props.mem q := by
      intro q hq hmq
      rcases x12.newProp q hmq (hun q hq) with hF | ⟨y, cy, ly, hy1, hy2, hy3, hy4, hy5⟩
      · exact hF
      · have hry : Reach m0 roots (.obj y) := by
          rcases s2.obj y with h1 | ⟨_, _, _, h1⟩
          · obtain ⟨cy', h2, h3⟩ := hy1
            rw [h1, hy3] at h2
            cases h2
            have := h.cleanObj y cy hy3
            omega
          · exact h1
        have := h.apart x c lf y cy ly hx hry hc hy3 hf hy4 q (by rw [hlf]; simp only [List.mem_append]; exact .inr hq) hy5
        subst this
        exact hy2 hxm
    have heven := h.cleanProp p d hd
    obtain ⟨d', hd', hhd⟩ := s2.head hd (hun2 p (by simp)) heven
    obtain ⟨s3, x3, hm3, ho3⟩ := s2.markProp hd hd' hhd heven hrp
      ⟨x, c, lf, x12.grows.obj x hxm, hx, hc, hf, hpl⟩
    simp only at s3 x3 hm3 ho3
    have k3 := Nat.le_trans (todo_le s2 s3 x3.grows) k2
    have hnotin : p ∉ l := by
      rw [hlf] at hnd
      have := (List.nodup_append.1 hnd).2.1
      exact (List.nodup_cons.1 this).1
    obtain ⟨N4, m4, i4, e4, s4, x4, d4⟩ := ih (pre ++ [p]) _ i2 d.head (by rw [hlf]; simp) hrest s3 k3
      (x3.grows.obj x (x2.grows.obj x (x1.grows.obj x hxm)))
      (fun q hq hmq => hun2 q (by simp [hq]) ((ho3 q (fun e => hnotin (e ▸ hq))).1 hmq))
    have hcell : m0.heap.props.mem p ≠ none := by rw [hd]; simp
    refine ⟨N1 + N2 + N4 + 1, m4, i4, fun n hn => ?_, s4, ?_, ?_⟩
    · obtain ⟨k, rfl⟩ : ∃ k, n = k + 1 := ⟨n - 1, by omega⟩
      have hck : checkPtr m.heap.props p = true := by
        rw [checkPtr_shape (a := m0.heap.props) hs.propCs hs.propBlocks]
        exact checkPtr_cell h.props hcell
      simp only [markProps, Option.bind_eq_bind]
      rw [if_neg hp0, if_neg (by simp [hck]), e1 k (by omega), Option.bind_some, e2 k (by omega), Option.bind_some, hd',
        Option.bind_some, hhd, ← e4 k (by omega), hhd]
    · have y1 : Ext m0 (fun q => q ∈ p :: l) m items _ i2 := x12.trans x3 (fun _ h => h.elim) (fun q hq => by simp [hq])
      exact y1.trans x4 (fun _ h => h) (fun q hq => by simp [hq])
    · intro q hq
      rcases List.mem_cons.1 hq with rfl | hq
      · exact ⟨x4.grows.prop _ hm3, (d1.mono (x2.grows.trans x3.grows)).mono x4.grows, (d2.mono x3.grows).mono x4.grows⟩
      · exact d4 q hq

theorem objSpec (h : Sound m0 roots L fo fp fs) (K : Nat) (hK : ∀ J, J < K → SlotSpec m0 roots L J) : ObjSpec m0 roots L K := by
  intro m items a v hs hk ha hv hobj
  obtain ⟨w, hw, hu, _⟩ := h.slot a ha
  rw [hv] at hw; cases hw
  obtain ⟨hu1, hu2⟩ := hu hobj
  have hr := Reach.obj ha hv hobj
  have hck : checkPtr m.heap.objs (getPtrRaw v).toNat = true := by
    rw [checkPtr_shape (a := m0.heap.objs) (by rw [hs.objShape]) (by rw [hs.objShape])]
    exact checkPtr_cell h.objs hu1
  have hdef : ∀ n, markObject (n + 1) m v = (m.heap.objs.mem (getPtrRaw v).toNat).bind fun c =>
      if marked c.head then some m
      else markProps n { m with heap := { m.heap with objs :=
        { m.heap.objs with mem := upd m.heap.objs.mem (getPtrRaw v).toNat (some ⟨mark c.head, c.body⟩) } } } c.head := by
    intro n
    simp only [markObject, Option.bind_eq_bind]
    rw [if_neg (by simp [hck])]
  generalize (getPtrRaw v).toNat = o at *
  cases hc : m0.heap.objs.mem o with
  | none => exact absurd hc hu1
  | some c =>
    have heven := h.cleanObj o c hc
    rcases hs.obj o with h1 | ⟨c1, h1, h2, _⟩
    · rw [hc] at h1
      have hmark : HasMark (upd m.heap.objs.mem o (some ⟨mark c.head, c.body⟩)) o :=
        ⟨_, upd_same _ _ _, by rw [mark_even heven]; simp only; omega⟩
      have hother : ∀ x, x ≠ o → (HasMark (upd m.heap.objs.mem o (some ⟨mark c.head, c.body⟩)) x ↔ HasMark m.heap.objs.mem x) := by
        intro x hx
        simp only [HasMark, upd_other _ _ _ _ hx]
      have hno : ¬ HasMark m.heap.objs.mem o := by
        rintro ⟨d, h3, h4⟩
        rw [h1] at h3; cases h3; omega
      let m1 : Mem σ := { m with heap := { m.heap with objs :=
        { m.heap.objs with mem := upd m.heap.objs.mem o (some ⟨mark c.head, c.body⟩) } } }
      have s1 : St m0 roots L m1 items := by
        refine ⟨hs.items.congr rfl fun _ => rfl, ?_, ?_, hs.propCs, hs.propInc, hs.propBlocks, hs.propFree, hs.prop,
          hs.sigShape, hs.sig, hs.vars, ?_⟩
        · show ({ m.heap.objs with mem := _ } : Arena Unit) = _
          rw [hs.objShape]
        · intro x
          show upd m.heap.objs.mem o (some ⟨mark c.head, c.body⟩) x = _ ∨ _
          by_cases hx : x = o
          · subst hx
            exact .inr ⟨c, hc, by show upd m.heap.objs.mem x (some ⟨mark c.head, c.body⟩) x = _; rw [upd_same, mark_even heven], hr⟩
          · have := hs.obj x
            rw [upd_other _ _ _ _ hx]
            refine this.imp_right fun ⟨d, q1, q2, q3⟩ => ⟨d, q1, ?_, q3⟩
            show upd m.heap.objs.mem o (some ⟨mark c.head, c.body⟩) x = _
            rw [upd_other _ _ _ _ hx]; exact q2
        · intro p hp
          obtain ⟨x, d, l, q1, q2⟩ := hs.mine p hp
          refine ⟨x, d, l, ?_, q2⟩
          by_cases hx' : x = o
          · subst hx'; exact hmark
          · exact (hother x hx').2 q1
      have g1 : Grows m items m1 items := by
        refine ⟨fun x hx => ?_, fun _ h => h, fun _ h => h, fun _ h => h⟩
        by_cases hx' : x = o
        · subst hx'; exact hmark
        · exact (hother x hx').2 hx
      have hlt : todo m0 m1 < todo m0 m := by
        refine countP_lt (y := o) (fun x _ => ?_) (mem_allCells h.objs hu1) ?_ ?_
        · exact unmarked_of (g1.obj x) ((s1.objNone x).trans (hs.objNone x).symm)
        · simp [unmarkedB, h1, heven]
        · show unmarkedB (upd m.heap.objs.mem o (some ⟨mark c.head, c.body⟩)) o = false
          simp [unmarkedB, upd_same, mark_even heven]; omega
      obtain ⟨l, hl, hnd, hnf⟩ := h.list o c hr hc
      obtain ⟨N, m', i', e, s', x', d'⟩ := markProps_spec h (hK (todo m0 m1) (by omega)) hr hc hl l [] m1 items c.head rfl hl
        s1 (Nat.le_refl _) hmark (by
          intro q hq hmq
          obtain ⟨x, d, l', q1, q2, q3, q4, q5⟩ := hs.mine q hmq
          have := h.apart o c l x d l' hr q2 hc q3 hl q4 q hq q5
          subst this
          exact hno q1)
      refine ⟨N + 1, m', i', fun n hn => ?_, s', ⟨g1.trans x'.grows, fun x hx hn => ?_, fun p hp hn => ?_⟩, x'.grows.obj _ hmark⟩
      · obtain ⟨k, rfl⟩ : ∃ k, n = k + 1 := ⟨n - 1, by omega⟩
        rw [hdef, h1, Option.bind_some, if_neg (by simp [marked_even heven])]
        exact e k (by omega)
      · by_cases hx' : x = o
        · subst hx'
          intro c' l' hc' hl'
          rw [hc] at hc'
          cases hc'
          rw [hl'.det hl]
          exact d'
        · exact x'.newObj x hx fun h3 => hn ((hother x hx').1 h3)
      · rcases x'.newProp p hp hn with h3 | ⟨x, d, l', q1, q2, q3⟩
        · exact .inr ⟨o, c, l, x'.grows.obj _ hmark, hno, hc, hl, h3⟩
        · exact .inr ⟨x, d, l', q1, fun h4 => q2 (g1.obj x h4), q3⟩
    · rw [hc] at h1
      cases h1
      refine ⟨1, m, items, fun n hn => ?_, hs, .refl _ _ _ _, ⟨_, h2, by simp only; omega⟩⟩
      obtain ⟨k, rfl⟩ : ∃ k, n = k + 1 := ⟨n - 1, by omega⟩
      rw [hdef, h2, Option.bind_some, if_pos (marked_odd (by simp only; omega))]

theorem slotSpec_of_obj (h : Sound m0 roots L fo fp fs) {K} (hK : ObjSpec m0 roots L K) : SlotSpec m0 roots L K := by
  intro m items a hs hk ha
  obtain ⟨v, hv, _, _, hstr⟩ := h.slot a ha
  have hlay := Sound.lay h
  by_cases hO : v &&& tagMask = tagStringO
  · -- a string
    have hno : isObject v = false := not_object_of_tag 8 (by decide) hO
    have hns : isFfiSig v = false := not_sig_of_tag 8 (by decide) hO
    by_cases hlk : Linked items a
    · obtain ⟨it, hit, hai⟩ := hlk
      have hlt : ∀ b ∈ it.2, b < 2 ^ 48 := by
        intro b hb
        obtain ⟨pre, post, he⟩ := List.append_of_mem hit
        obtain ⟨_, w, hw, _⟩ := hs.items.owner pre it post he b hb
        exact (slot_addr hlay hw).2
      have hlong : 5 < it.1.length := h.long _ (by rw [← hs.items.names]; exact List.mem_map_of_mem hit)
      obtain ⟨w, hw, ht⟩ := (hs.items.thread it hit).get hai hlt hlong
      have w1 : isObject w = false := by
        rcases ht with ht | ht
        · exact not_object_of_tag 10 (by decide) ht
        · exact not_object_of_tag 2 (by decide) ht
      have w2 : isFfiSig w = false := by
        rcases ht with ht | ht
        · exact not_sig_of_tag 10 (by decide) ht
        · exact not_sig_of_tag 2 (by decide) ht
      have w3 : w &&& tagMask ≠ tagStringO := by
        rcases ht with ht | ht <;> rw [ht] <;> decide
      refine ⟨1, m, items, fun n hn => ?_, hs, .refl _ _ _ _, fun v' hv' => ?_⟩
      · obtain ⟨k, rfl⟩ : ∃ k, n = k + 1 := ⟨n - 1, by omega⟩
        simp [markVal, hw, w1, w2, w3]
      · rw [hv] at hv'
        cases hv'
        exact ⟨fun h1 => absurd h1 (by simp [hno]), fun h1 => absurd h1 (by simp [hns]), fun _ => ⟨it, hit, hai⟩⟩
    · have hlk' : ∀ it ∈ items, a ∉ it.2 := fun it hi hai => hlk ⟨it, hi, hai⟩
      obtain ⟨pre, bs, ⟨post, hL⟩, _, ho⟩ := hstr hO
      have hw : readSlot m a = some v := by rw [hs.items.slots a hlk']; exact hv
      -- find the item
      obtain ⟨ipre, it, ipost, he, e1, e2⟩ : ∃ ipre it ipost, items = ipre ++ it :: ipost ∧ ipre.map Prod.fst = pre ∧ it.1 = bs := by
        have hn := hs.items.names
        rw [hL] at hn
        obtain ⟨ipre, r, h1, h2, h3⟩ := List.map_eq_append_iff.1 hn
        obtain ⟨it, ipost, h4, h5, h6⟩ := List.map_eq_cons_iff.1 h3
        exact ⟨ipre, it, ipost, by rw [h1, h4], h2, h5⟩
      have hlen : (stringBytes pre).length = (ipre.flatMap piece).length + 1 := by
        rw [stringBytes_eq, List.length_append]
        congr 1
        refine (flatMap_length_congr (by rw [e1]; simp [Function.comp_def]) fun x hx => ?_).symm
        exact h.long _ (by rw [← hs.items.names, he]; simp; exact .inl ⟨_, hx⟩)
      obtain ⟨m', e, s, hi⟩ := hs.items.mark (hs.lay hlay) h.long (sound_len h hs) he hv hO (by rw [ho, hlen]) hlk' ha
      have hgrow : Grows m items m' (ipre ++ (it.1, a :: it.2) :: ipost) := by
        refine ⟨fun x hx => by rw [s.objs]; exact hx, fun x hx => ?_, fun x hx => by rw [s.sigs]; exact hx, fun b hb => ?_⟩
        · obtain ⟨c, h1, h2⟩ := hx
          have := s.heads x
          rw [h1] at this
          cases hx' : m'.heap.props.mem x with
          | none => rw [hx'] at this; simp at this
          | some c' => rw [hx'] at this; simp at this; exact ⟨c', hx', by rw [this]; exact h2⟩
        · obtain ⟨y, hy, hby⟩ := hb
          rw [he] at hy
          rcases List.mem_append.1 hy with hy | hy
          · exact ⟨y, by simp [hy], hby⟩
          · rcases List.mem_cons.1 hy with rfl | hy
            · exact ⟨(y.1, a :: y.2), by simp, by simp [hby]⟩
            · exact ⟨y, by simp [hy], hby⟩
      have hback : ∀ x, HasMark m'.heap.props.mem x → HasMark m.heap.props.mem x := by
        rintro x ⟨c, h1, h2⟩
        have := s.heads x
        rw [h1] at this
        cases hx' : m.heap.props.mem x with
        | none => rw [hx'] at this; simp at this
        | some c' => rw [hx'] at this; simp at this; exact ⟨c', hx', by rw [← this]; exact h2⟩
      refine ⟨1, m', _, fun n hn => ?_, ⟨hi, by rw [s.objs]; exact hs.objShape, by rw [s.objs]; exact hs.obj, s.cs.trans hs.propCs,
        s.inc.trans hs.propInc, s.blocks.trans hs.propBlocks, s.free.trans hs.propFree, fun x => ?_, by rw [s.sigs]; exact hs.sigShape,
        by rw [s.sigs]; exact hs.sig, fun x => (s.vars x).trans (hs.vars x), fun p hp => ?_⟩,
        ⟨hgrow, fun x h1 h2 => absurd (by rw [s.objs] at h1; exact h1) h2, fun p h1 h2 => absurd (hback p h1) h2⟩, fun v' hv' => ?_⟩
      · obtain ⟨k, rfl⟩ : ∃ k, n = k + 1 := ⟨n - 1, by omega⟩
        simp [markVal, hw, hno, hns, hO, e]
      · rcases hs.prop x with h1 | ⟨c, c', h1, h2, h3, h4⟩
        · exact .inl ((s.heads x).trans h1)
        · have := s.heads x
          rw [h2] at this
          cases hx' : m'.heap.props.mem x with
          | none => rw [hx'] at this; simp at this
          | some c2 => rw [hx'] at this; simp at this; exact .inr ⟨c, c2, h1, rfl, by rw [this]; exact h3, h4⟩
      · rw [s.objs]; exact hs.mine p (hback p hp)
      · rw [hv] at hv'
        cases hv'
        exact ⟨fun h1 => absurd h1 (by simp [hno]), fun h1 => absurd h1 (by simp [hns]),
          fun _ => ⟨(it.1, a :: it.2), by simp, by simp⟩⟩
  · -- not a string: the variable keeps its value
    have keep : ∀ m' items', St m0 roots L m' items' → readSlot m' a = some v := by
      intro m' items' hs'
      rw [hs'.items.slots a, hv]
      intro it hit hai
      obtain ⟨pre, post, he⟩ := List.append_of_mem hit
      obtain ⟨_, w, hw, ht, _⟩ := hs'.items.owner pre it post he a hai
      rw [hv] at hw
      cases hw
      exact hO ht
    by_cases hobj : isObject v = true
    · have hns : isFfiSig v = false := by
        simp only [isObject, Bool.or_eq_true, beq_iff_eq] at hobj
        rcases hobj with h1 | h1
        · exact not_sig_of_tag 1 (by decide) h1
        · exact not_sig_of_tag 12 (by decide) h1
      obtain ⟨N, m', i', e, s', x', hm⟩ := hK m items a v hs hk ha hv hobj
      refine ⟨N + 1, m', i', fun n hn => ?_, s', x', fun v' hv' => ?_⟩
      · obtain ⟨k, rfl⟩ : ∃ k, n = k + 1 := ⟨n - 1, by omega⟩
        simp [markVal, keep m items hs, hobj, e k (by omega), keep m' i' s', hns, hO]
      · rw [hv] at hv'
        cases hv'
        exact ⟨fun _ => hm, fun h1 => absurd h1 (by simp [hns]), fun h1 => absurd h1 hO⟩
    · have hno : isObject v = false := by simpa using hobj
      by_cases hsig : isFfiSig v = true
      · obtain ⟨m', e, s', x', hm, _⟩ := markSig_spec h hs ha hv hsig
        refine ⟨1, m', items, fun n hn => ?_, s', x', fun v' hv' => ?_⟩
        · obtain ⟨k, rfl⟩ : ∃ k, n = k + 1 := ⟨n - 1, by omega⟩
          simp [markVal, keep m items hs, hno, hsig, e, keep m' items s', hO]
        · rw [hv] at hv'
          cases hv'
          exact ⟨fun h1 => absurd h1 hobj, fun _ => hm, fun h1 => absurd h1 hO⟩
      · refine ⟨1, m, items, fun n hn => ?_, hs, .refl _ _ _ _, fun v' hv' => ?_⟩
        · obtain ⟨k, rfl⟩ : ∃ k, n = k + 1 := ⟨n - 1, by omega⟩
          simp [markVal, keep m items hs, hno, hsig, hO]
        · rw [hv] at hv'
          cases hv'
          exact ⟨fun h1 => absurd h1 hobj, fun h1 => absurd h1 hsig, fun h1 => absurd h1 hO⟩

theorem slotSpec (h : Sound m0 roots L fo fp fs) (K : Nat) : SlotSpec m0 roots L K := by
  induction K using Nat.strongRecOn with
  | _ K ih => exact slotSpec_of_obj h (objSpec h K ih)

/-- Marking from a list of variables. -/
theorem markAll_spec (h : Sound m0 roots L fo fp fs) : ∀ as : List Nat, (∀ a ∈ as, a ∈ roots) → ∀ m items, St m0 roots L m items →
    ∃ N m' items', (∀ n, N ≤ n → markAll n m as = some m') ∧ St m0 roots L m' items' ∧
      Ext m0 (fun _ => False) m items m' items' ∧ ∀ a ∈ as, Done m0 m' items' a := by
  intro as
  induction as with
  | nil =>
    intro _ m items hs
    exact ⟨0, m, items, fun n _ => rfl, hs, .refl _ _ _ _, by simp⟩
  | cons a as ih =>
    intro hsub m items hs
    obtain ⟨N1, m1, i1, e1, s1, x1, d1⟩ := slotSpec h (todo m0 m) m items a hs (Nat.le_refl _) (.root (hsub a (by simp)))
    obtain ⟨N2, m2, i2, e2, s2, x2, d2⟩ := ih (fun b hb => hsub b (by simp [hb])) m1 i1 s1
    refine ⟨N1 + N2, m2, i2, fun n hn => ?_, s2, x1.trans x2 (fun _ h => h) (fun _ h => h), fun b hb => ?_⟩
    · rw [markAll, List.foldlM_cons, e1 n (by omega)]
      exact e2 n (by omega)
    · rcases List.mem_cons.1 hb with rfl | hb
      · exact d1.mono x2.grows
      · exact d2 b hb

/-- After marking from all roots, exactly what can be reached carries a mark, and the strings that can be reached have
their lists. -/
theorem marked_reach (h : Sound m0 roots L fo fp fs) {m items} (hs : St m0 roots L m items)
    (hx : Ext m0 (fun _ => False) m0 (L.map fun bs => (bs, [])) m items) (hd : ∀ a ∈ roots, Done m0 m items a) :
    (∀ o, HasMark m.heap.objs.mem o ↔ Reach m0 roots (.obj o)) ∧
    (∀ p, HasMark m.heap.props.mem p ↔ Reach m0 roots (.prop p)) ∧
    (∀ s, HasMark m.sigs.mem s ↔ Reach m0 roots (.sig s)) ∧
    (∀ a, Reach m0 roots (.slot a) → Done m0 m items a) := by
  have key : ∀ n, Reach m0 roots n → match n with
      | .slot a => Done m0 m items a
      | .obj o => HasMark m.heap.objs.mem o
      | .prop p => HasMark m.heap.props.mem p ∧ ∃ x c l, Reach m0 roots (.obj x) ∧ m0.heap.objs.mem x = some c ∧
          FreeList m0.heap.props.mem c.head l ∧ p ∈ l ∧ HasMark m.heap.objs.mem x
      | .sig s => HasMark m.sigs.mem s := by
    have closed : ∀ x, HasMark m.heap.objs.mem x → Closed m0 m items x := fun x hm => hx.newObj x hm (by
      rintro ⟨c, h1, h2⟩
      have := h.cleanObj x c h1
      omega)
    intro n hn
    induction hn with
    | root ha => exact hd _ ha
    | obj _ hv ho ih => exact (ih _ hv).1 ho
    | sig _ hv ho ih => exact (ih _ hv).2.1 ho
    | @first o c ho hc h0 ih =>
      obtain ⟨l, hl, _, _⟩ := h.list o c ho hc
      have hmem : c.head ∈ l := by
        revert hl
        generalize c.head = r at h0
        intro hl
        cases hl with
        | nil => exact absurd rfl h0
        | cons => simp
      exact ⟨(closed o ih c l hc hl _ hmem).1, o, c, l, ho, hc, hl, hmem, ih⟩
    | @next p c hp hc h0 ih =>
      obtain ⟨_, x, d, l, q1, q2, q3, q4, q5⟩ := ih
      have hmem : c.head ∈ l := by
        have : ∀ r l, FreeList m0.heap.props.mem r l → p ∈ l → c.head ∈ l := by
          intro r l hl
          induction hl with
          | nil => simp
          | @cons r d l _ hr hrest ih =>
            intro hp'
            rcases List.mem_cons.1 hp' with rfl | hp'
            · rw [hc] at hr
              cases hr
              revert hrest
              generalize c.head = r at h0
              intro hrest
              cases hrest with
              | nil => exact absurd rfl h0
              | cons => simp
            · exact List.mem_cons_of_mem _ (ih hp')
        exact this _ _ q3 q4
      exact ⟨(closed x q5 d l q2 q3 _ hmem).1, x, d, l, q1, q2, q3, hmem, q5⟩
    | name _ ih =>
      obtain ⟨_, x, d, l, q1, q2, q3, q4, q5⟩ := ih
      exact (closed x q5 d l q2 q3 _ q4).2.1
    | value _ ih =>
      obtain ⟨_, x, d, l, q1, q2, q3, q4, q5⟩ := ih
      exact (closed x q5 d l q2 q3 _ q4).2.2
  refine ⟨fun o => ⟨?_, fun hr => key _ hr⟩, fun p => ⟨?_, fun hr => (key _ hr).1⟩, fun s => ⟨?_, fun hr => key _ hr⟩,
    fun a hr => key _ hr⟩
  · rintro ⟨c, h1, h2⟩
    rcases hs.obj o with h3 | ⟨_, _, _, h3⟩
    · rw [h1] at h3
      have := h.cleanObj o c h3.symm
      omega
    · exact h3
  · rintro ⟨c, h1, h2⟩
    rcases hs.prop p with h3 | ⟨_, _, _, _, _, h3⟩
    · rw [h1] at h3
      cases hp : m0.heap.props.mem p with
      | none => rw [hp] at h3; simp at h3
      | some d =>
        rw [hp] at h3; simp at h3
        have := h.cleanProp p d hp
        omega
    · exact h3
  · rintro ⟨c, h1, h2⟩
    rcases hs.sig s with h3 | ⟨_, _, _, h3⟩
    · rw [h1] at h3
      have := h.cleanSig s c h3.symm
      omega
    · exact h3

end
end Mjs.Gc
