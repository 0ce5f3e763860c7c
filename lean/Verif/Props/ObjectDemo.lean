import Verif.Props.Object

/-!
# Histories exist

The theorems about histories speak of many: any sequence of up to 2^19 operations can be performed on a fresh engine, with
the allocator answers given here.
-/

namespace Mjs.Props
open Mjs Mjs.Mbuf Mjs.Str Mjs.Arena Mjs.Obj Mjs.Spec

/-- Allocator answers when everything lies below `k`. -/
def alFor (k : Nat) : Allocs := ⟨0, fun _ => some (4096, fun _ => 0), some (k), some (k)⟩

/-- Everything lies below `k`. -/
structure Room (h : Heap) (k : Nat) : Prop where
  al8 : k % 8 = 0
  low : 16 ≤ k
  ocs : h.objs.cellSize = 8
  oinc : h.objs.inc = 10
  oblk : ∀ b ∈ h.objs.blocks, b.1 + b.2 * 8 ≤ k
  pcs : h.props.cellSize = 24
  pinc : h.props.inc = 10
  pblk : ∀ b ∈ h.props.blocks, b.1 + b.2 * 24 ≤ k
  str : h.str.owned.len ≤ k
  forn : h.str.foreign.len ≤ k

theorem Room.granted {h k} (hr : Room h k) (hk : k < 1099511627776) {n} (hn : n < 524288) : Granted h n (alFor k) := by
  refine ⟨?_, by simp [alFor], ?_, ?_, ?_⟩
  · intro i r hr
    cases hr
    exact ⟨by decide, by decide⟩
  · have := hr.str; omega
  · intro _
    refine ⟨_, rfl, by have := hr.low; omega, by have := hr.al8; omega, by rw [hr.ocs, hr.oinc]; omega, fun c hc => ?_⟩
    have := hr.oblk c hc
    rw [hr.ocs]; omega
  · intro _
    refine ⟨_, rfl, by have := hr.low; omega, by have := hr.al8; omega, by rw [hr.pcs, hr.pinc]; omega, fun c hc => ?_⟩
    have := hr.pblk c hc
    rw [hr.pcs]; omega

theorem newBlock_shape {α : Type} [Inhabited α] {a : Arena α} {n base a'} (h : newBlock a n base = some a') :
    a'.cellSize = a.cellSize ∧ a'.inc = a.inc ∧ ∃ b, base = some b ∧ a'.blocks = (b, n) :: a.blocks := by
  have hadd : ∀ n cur (a : Arena α), (addCells a cur n).cellSize = a.cellSize ∧ (addCells a cur n).inc = a.inc := by
    intro n
    induction n with
    | zero => intro cur a; exact ⟨rfl, rfl⟩
    | succ n ih => intro cur a; exact ih _ _
  simp only [newBlock, Option.map_eq_some_iff] at h
  obtain ⟨b, hb, rfl⟩ := h
  exact ⟨(hadd _ _ _).1, (hadd _ _ _).2, b, hb, rfl⟩

theorem allocCell_shape {α : Type} [Inhabited α] {a : Arena α} {base a' r g} (h : allocCell a base = some (a', r, g)) :
    a'.cellSize = a.cellSize ∧ a'.inc = a.inc ∧
      (a'.blocks = a.blocks ∨ ∃ b, base = some b ∧ a'.blocks = (b, a.inc) :: a.blocks) := by
  have ht : ∀ (a1 : Arena α) a' r g, takeCell a1 = some (a', r, g) →
      a'.cellSize = a1.cellSize ∧ a'.inc = a1.inc ∧ a'.blocks = a1.blocks := by
    intro a1 a' r g h
    simp only [takeCell, Option.bind_eq_some_iff, Option.map_eq_some_iff] at h
    obtain ⟨c, _, x, _, h⟩ := h
    cases h
    exact ⟨rfl, rfl, rfl⟩
  simp only [allocCell, Option.bind_eq_some_iff] at h
  obtain ⟨a1, h1, h2⟩ := h
  obtain ⟨t1, t2, t3⟩ := ht _ _ _ _ h2
  unfold refill at h1
  split at h1
  · obtain ⟨s1, s2, b, hb, s3⟩ := newBlock_shape h1
    exact ⟨t1.trans s1, t2.trans s2, .inr ⟨b, hb, t3.trans s3⟩⟩
  · cases h1
    exact ⟨t1, t2, .inl t3⟩

theorem plain_of_objectToValue {p v : Val} (h : objectToValue p = some v) : isArray v = false := by
  unfold objectToValue at h
  split at h
  · cases h; decide
  · split at h
    · cases h
      have ht : (pointerToValue p ||| tagObject) &&& tagMask = tagObject := tag_mk p tagObject (by decide)
      rw [isArray, ht]; decide
    · cases h

theorem grow_new {numText h ops k} (hh : History demoMem numText h ops) (hr : Room h k) (hk : k < 1099511627776) :
    ∃ h' v, History demoMem numText h' (.new v :: ops) ∧ Room h' (k + 1048576) ∧ ¬ created ops v ∧ isArray v = false := by
  obtain ⟨A, fo, fp, hs⟩ := hh.sim
  have hg := (hr.granted hk (n := 0) (by decide)).obj
  obtain ⟨h', v, o, fo', e, hv, hA, _⟩ := mkObject_spec hs.inv hg
  have hnc : ¬ created ops v := by
    intro hc
    obtain ⟨o', L, hv', hA', _⟩ := hs.obj _ hc
    have := hv.2.symm.trans hv'.2
    cases this
    rw [hA] at hA'
    cases hA'
  refine ⟨h', v, .newObject hh hg e, ?_, hnc, ?_⟩
  rotate_left
  · simp only [mkObject, Option.bind_eq_bind, Option.bind_eq_some_iff] at e
    obtain ⟨_, _, c, _, v', hv', e⟩ := e
    cases e
    exact plain_of_objectToValue hv'
  simp only [mkObject, Option.bind_eq_bind, Option.bind_eq_some_iff] at e
  obtain ⟨⟨a, r, g⟩, ha, c, _, v', _, e⟩ := e
  cases e
  obtain ⟨s1, s2, s3⟩ := allocCell_shape ha
  have ho := hr.oblk
  refine ⟨by have := hr.al8; omega, by have := hr.low; omega, by simp only [s1, hr.ocs], by simp only [s2, hr.oinc], ?_, hr.pcs, hr.pinc,
    fun b hb => Nat.le_trans (hr.pblk b hb) (by omega), by have := hr.str; simp only; omega, by have := hr.forn; simp only; omega⟩
  intro b hb
  rcases s3 with s3 | ⟨x, hx, s3⟩
  · simp only [s3] at hb
    have := ho b hb; omega
  · simp only [s3] at hb
    rcases List.mem_cons.1 hb with rfl | hb
    · cases hx
      simp only [hr.oinc]; omega
    · have := ho b hb; omega

theorem setInternal_shape {h v name bs x al long h' e} (hs : setInternal h v none name bs x al long = some (h', e)) {st' nv}
    (hp : propName h none name bs al = some ({ h with str := st' }, nv)) :
    h'.objs.cellSize = h.objs.cellSize ∧ h'.objs.inc = h.objs.inc ∧ h'.objs.blocks = h.objs.blocks ∧
    h'.props.cellSize = h.props.cellSize ∧ h'.props.inc = h.props.inc ∧
    (h'.props.blocks = h.props.blocks ∨ ∃ b, al.prop = some b ∧ h'.props.blocks = (b, h.props.inc) :: h.props.blocks) ∧
    (h'.str = h.str ∨ h'.str = st') := by
  simp only [setInternal, Option.bind_eq_bind, Option.bind_eq_some_iff] at hs
  obtain ⟨p, _, hs⟩ := hs
  split at hs
  · split at hs
    · cases hs
      exact ⟨rfl, rfl, rfl, rfl, rfl, .inl rfl, .inl rfl⟩
    · simp only [Option.bind_eq_some_iff, hp] at hs
      obtain ⟨_, hx, o, _, ⟨h2, q⟩, ha, h3, hv, hs⟩ := hs
      cases hx; cases hs
      simp only [setValue, Option.map_eq_some_iff] at hv
      obtain ⟨_, _, rfl⟩ := hv
      simp only [addProperty, Option.bind_eq_bind, Option.bind_eq_some_iff] at ha
      obtain ⟨⟨a, r, g⟩, ha, _, _, _, _, hb⟩ := ha
      cases hb
      obtain ⟨s1, s2, s3⟩ := allocCell_shape ha
      exact ⟨rfl, rfl, rfl, s1, s2, s3, .inr rfl⟩
  · simp only [Option.bind_eq_some_iff] at hs
    obtain ⟨h1, hv, hs⟩ := hs
    cases hs
    simp only [setValue, Option.map_eq_some_iff] at hv
    obtain ⟨_, _, rfl⟩ := hv
    exact ⟨rfl, rfl, rfl, rfl, rfl, .inl rfl, .inl rfl⟩

theorem grow_set {numText h ops k v} (hh : History demoMem numText h ops) (hr : Room h k) (hk : k < 1099511627776)
    (hc : created ops v) (bs : List UInt8) (hb : bs.length < 524288) (x : Val) :
    ∃ h', History demoMem numText h' (.set v bs x :: ops) ∧ Room h' (k + 1048576) := by
  obtain ⟨A, fo, fp, hs⟩ := hh.sim
  have hg := hr.granted hk hb
  have hkp : KeyPtr h.str (.loc bs) bs := ⟨rfl, loc_load _ _, by omega⟩
  obtain ⟨h', e, hh'⟩ := C15_set_ok hh hc hkp x hg
  refine ⟨h', hh', ?_⟩
  obtain ⟨st', v', bs', ec, _, _, _, _, _, hf, _, hl, _⟩ :=
    mkStringCopy_core (alFor k).hr h.str hs.inv.str (.loc bs) bs.length (alFor k).strs (.inr ⟨bs, hkp.bytes⟩) hg.room hg.low hg.grant
  obtain ⟨s1, s2, s3, s4, s5, s6, s7⟩ := setInternal_shape e (st' := st') (nv := v') (by simp [propName, ec])
  have hp := hr.pblk
  have hstr := hr.str
  have hfor := hr.forn
  refine ⟨by have := hr.al8; omega, by have := hr.low; omega, s1.trans hr.ocs, s2.trans hr.oinc, fun b hb => Nat.le_trans (hr.oblk b (s3 ▸ hb)) (by omega), s4.trans hr.pcs,
    s5.trans hr.pinc, ?_, ?_, ?_⟩
  · intro b hb
    rcases s6 with s6 | ⟨y, hy, s6⟩
    · rw [s6] at hb
      have := hp b hb; omega
    · rw [s6] at hb
      rcases List.mem_cons.1 hb with rfl | hb
      · cases hy
        simp only [hr.pinc]; omega
      · have := hp b hb; omega
  · rcases s7 with s7 | s7
    · rw [s7]; omega
    · rw [s7]; omega
  · rcases s7 with s7 | s7
    · rw [s7]; omega
    · rw [s7, hf]; omega

/-- A fresh engine. -/
theorem demo_start (numText : Val → List UInt8) : ∃ h, History demoMem numText h [] ∧ Room h 65536 := by
  have hlow : AllocLow (some (4096, fun _ => 0)) := by intro r hr; cases hr; exact ⟨by decide, by decide⟩
  have hd : (createHeap 0 demoMem (some (4096, fun _ => 0)) (some (4096, fun _ => 0)) (some 8192) (some 16384)).map
      (fun h => ([h.objs.cellSize, h.objs.inc, h.props.cellSize, h.props.inc, h.str.owned.len, h.str.foreign.len],
        [h.objs.blocks, h.props.blocks])) = some ([8, 10, 24, 10, 1, 0], [[(8192, 20)], [(16384, 20)]]) := by
    decide +kernel
  simp only [Option.map_eq_some_iff] at hd
  obtain ⟨h, hc, hp⟩ := hd
  simp only [Prod.mk.injEq, List.cons.injEq, and_true] at hp
  obtain ⟨⟨p1, p2, p4, p5, p7, p8⟩, p3, p6⟩ := hp
  exact ⟨h, .create hlow hlow (by simp) (by simp) hc, by decide, by decide, p1, p2, by rw [p3]; simp, p4, p5, by rw [p6]; simp, by omega, by omega⟩

theorem grow_del {numText h ops v} (hh : History demoMem numText h ops)
    (hc : created ops v) (bs : List UInt8) (hb : bs.length < 524288) :
    ∃ h', History demoMem numText h' (.del v bs :: ops) ∧ h'.str = h.str := by
  obtain ⟨A, fo, fp, hs⟩ := hh.sim
  obtain ⟨o, L, hv, hA, _⟩ := hs.obj _ hc
  have hkp : KeyPtr h.str (.loc bs) bs := ⟨rfl, loc_load _ _, by omega⟩
  obtain ⟨h', b, e, _, hst, _⟩ := del_spec hs.inv hA hv hkp
  exact ⟨h', .del hh hc hkp e, hst⟩

end Mjs.Props
