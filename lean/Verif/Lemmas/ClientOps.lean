import Verif.Lemmas.ClientGc

namespace Mjs.Client
open Mjs Mjs.Mbuf Mjs.Varint Mjs.Str Mjs.Arena Mjs.Obj Mjs.Spec Mjs.Spec.Gc Mjs.Gc Mjs.Spec.Client

variable {σ : Type} {m m' : Mem σ} {w : World} {L L' : List (List UInt8)} {A : Nat → Option (List Ent)} {g : Nat → Option Nat}
  {fo fp fs fo' fp' fs' : List Nat} {roots : List Nat}

/-! ### Variables -/

/-- Writing a variable. -/
theorem Holds.write (h : Holds m w L A g fo fp fs) {a v x}
    (hl : 0 < a ∧ a < 2 ^ 48 ∧ m.heap.props.mem (a - 8) = none ∧ m.heap.props.mem (a - 16) = none)
    (hr : Rep m.heap.str L g v x) : Holds { m with vars := upd m.vars a (some v) } (w.assign a x) L A g fo fp fs := by
  refine ⟨h.inv, h.content, h.long, h.sigs, h.cleanSig, h.size, h.cleanObj, h.cleanProp, ?_, h.dom, h.inj, h.lt, h.lists, h.names, ?_⟩
  · intro b hb
    by_cases e : b = a
    · rw [e]; exact hl
    · simp only [upd_other _ _ _ _ e] at hb
      exact h.layout b hb
  · intro b y hy
    simp only [World.assign] at hy
    by_cases e : b = a
    · rw [if_pos e] at hy
      cases hy
      rw [e]
      exact ⟨v, upd_same _ _ _, hr⟩
    · rw [if_neg e] at hy
      obtain ⟨u, hu, hr'⟩ := h.vars b y hy
      exact ⟨u, by simp only [upd_other _ _ _ _ e]; exact hu, hr'⟩

theorem Holds.place (h : Holds m w L A g fo fp fs) {a} (ha : w.vars a ≠ none) :
    0 < a ∧ a < 2 ^ 48 ∧ m.heap.props.mem (a - 8) = none ∧ m.heap.props.mem (a - 16) = none := by
  cases hx : w.vars a with
  | none => exact absurd hx ha
  | some x =>
    obtain ⟨v, hv, _⟩ := h.vars a x hx
    exact h.layout a (by simp [hv])

/-- Registrations are not part of the representation. -/
theorem Holds.reg (h : Holds m w L A g fo fp fs) (l : List Nat) : Holds m { w with owned := l } L A g fo fp fs :=
  ⟨h.inv, h.content, h.long, h.sigs, h.cleanSig, h.size, h.cleanObj, h.cleanProp, h.layout, h.dom, h.inj, h.lt, h.lists, h.names, h.vars⟩

/-! ### Strings -/

theorem Holds.store (h : Holds m w L A g fo fp fs) {st' L'} (hi : InvS st') (he : Extends m.heap.str st')
    (hL : ∃ e, L' = L ++ e) (hc : st'.owned.content = stringBytes L') (hl : ∀ b ∈ L', 5 < b.length) :
    Holds { m with heap := { m.heap with str := st' } } w L' A g fo fp fs := by
  have mono : ∀ v x, Rep m.heap.str L g v x → Rep st' L' g v x := fun v x hr => hr.mono h.inv.str hi he hL fun _ _ h => h
  refine ⟨h.inv.store hi he, hc, hl, h.sigs, h.cleanSig, h.size, h.cleanObj, h.cleanProp, h.layout, h.dom, h.inj, h.lt, ?_, ?_, ?_⟩
  · intro o Ls i ho hi
    exact (h.lists o Ls i ho hi).imp fun e q hq => ⟨hq.1, mono _ _ hq.2⟩
  · intro o Ls ho e he
    obtain ⟨x, rfl⟩ := hL
    exact ⟨(h.names o Ls ho e he).1.mono, (h.names o Ls ho e he).2⟩
  · intro a x hx
    obtain ⟨v, hv, hr⟩ := h.vars a x hx
    exact ⟨v, hv, mono _ _ hr⟩

/-! ### Objects -/

theorem mkObject_inv {h : Heap} {al h' v} (he : mkObject h al = some (h', v)) :
    ∃ a o gc c, allocCell h.objs al.obj = some (a, o, gc) ∧ a.mem o = some c ∧ objectToValue (BitVec.ofNat 64 o) = some v ∧
      h' = { h with objs := { a with mem := upd a.mem o (some ⟨0, c.body⟩) } } := by
  simp only [mkObject, Option.bind_eq_bind, Option.bind_eq_some_iff] at he
  obtain ⟨⟨a, o, gc⟩, h1, c, h2, u, h3, h4⟩ := he
  simp only [Option.some.injEq, Prod.mk.injEq] at h4
  exact ⟨a, o, gc, c, h1, h2, by rw [← h4.2]; exact h3, h4.1.symm⟩

theorem objectToValue_tag {p v : Val} (h : objectToValue p = some v) (ho : isObject v = true) : v &&& tagMask = tagObject := by
  unfold objectToValue at h
  split at h
  · cases h
    rw [show isObject mkNull = false by decide] at ho
    cases ho
  · split at h
    · cases h
      exact tag_mk p tagObject (by decide)
    · cases h

theorem Holds.newObj (h : Holds m w L A g fo fp fs) {al h' v} (hg : CallocOk m.heap.objs al.obj) (he : mkObject m.heap al = some (h', v)) :
    ∃ o fo', Holds { m with heap := h' } { (w.setObj w.next []) with next := w.next + 1 } L (put A o []) (put g o w.next) fo' fp fs ∧
      Rep h'.str L (put g o w.next) v (.obj w.next) := by
  obtain ⟨h1, v1, o, fo', e, hv, hA, hst, hi⟩ := mkObject_spec h.inv hg
  rw [he] at e
  cases e
  obtain ⟨a, o1, gc, c, e1, e2, eo, rfl⟩ := mkObject_inv he
  obtain ⟨ev, _, _, _, _⟩ := allocCell_even h.inv.objs (fun q => hg.fresh h.inv.objs q) h.cleanObj e1
  have hgo : g o = none := (h.dom o).1 hA
  have hsub : ∀ o' i, g o' = some i → put g o w.next o' = some i := by
    intro o' i hgi
    rw [put_other]
    · exact hgi
    · rintro rfl; rw [hgo] at hgi; cases hgi
  have mono : ∀ v x, Rep m.heap.str L g v x → Rep m.heap.str L (put g o w.next) v x :=
    fun v x hr => hr.mono h.inv.str h.inv.str (Extends.refl _) ⟨[], by simp⟩ hsub
  refine ⟨o, fo', ⟨hi, h.content, h.long, h.sigs, h.cleanSig, h.size, ?_, h.cleanProp, h.layout, ?_, ?_, ?_, ?_, ?_, ?_⟩, ?_⟩
  · intro x c' hx
    simp only at hx
    by_cases e : x = o1
    · rw [e, upd_same] at hx; cases hx; rfl
    · rw [upd_other _ _ _ _ e] at hx
      exact ev x c' hx
  · intro x
    by_cases e : x = o
    · rw [e, put_same, put_same]; simp
    · rw [put_other _ _ e, put_other _ _ e]; exact h.dom x
  · intro x y i h1 h2
    rcases put_cases h1 with ⟨rfl, rfl⟩ | ⟨_, k1⟩ <;> rcases put_cases h2 with ⟨rfl, e2⟩ | ⟨_, k2⟩
    · rfl
    · exact absurd (h.lt _ _ k2) (Nat.lt_irrefl _)
    · subst e2; exact absurd (h.lt _ _ k1) (Nat.lt_irrefl _)
    · exact h.inj x y i k1 k2
  · intro x i h1
    show i < w.next + 1
    rcases put_cases h1 with ⟨rfl, rfl⟩ | ⟨_, k1⟩
    · omega
    · have := h.lt x i k1; omega
  · intro x Ls i h1 h2
    rcases put_cases h1 with ⟨rfl, rfl⟩ | ⟨ne, k1⟩
    · rw [put_same] at h2
      cases h2
      simp only [World.setObj, if_true]
      exact .nil
    · rw [put_other _ _ ne] at h2
      have hne : i ≠ w.next := by have := h.lt x i h2; omega
      simp only [World.setObj, if_neg hne]
      exact (h.lists x Ls i k1 h2).imp fun e q hq => ⟨hq.1, mono _ _ hq.2⟩
  · intro x Ls h1
    rcases put_cases h1 with ⟨rfl, rfl⟩ | ⟨ne, k1⟩
    · intro e he; cases he
    · exact h.names x Ls k1
  · intro b y hy
    obtain ⟨u, hu, hr⟩ := h.vars b y hy
    exact ⟨u, hu, mono _ _ hr⟩
  · exact ⟨objectToValue_tag eo hv.1, by rw [hv.2, put_same]⟩

/-- Changing the property list of one object. -/
theorem Holds.change (h : Holds m w L A g fo fp fs) {h' : Heap} {L' o Ls Ls' i l fp'} (hA : A o = some Ls) (hg : g o = some i)
    (hi : HInv h' (put A o Ls') fo fp') (hst : Extends m.heap.str h'.str) (hL : ∃ e, L' = L ++ e)
    (hc : h'.str.owned.content = stringBytes L') (hl : ∀ b ∈ L', 5 < b.length) (hsz : h'.props.cellSize = 24)
    (hco : ∀ o c, h'.objs.mem o = some c → c.head % 2 = 0) (hcp : ∀ p c, h'.props.mem p = some c → c.head % 2 = 0)
    (hlay : ∀ a, m.vars a ≠ none → 0 < a ∧ a < 2 ^ 48 ∧ h'.props.mem (a - 8) = none ∧ h'.props.mem (a - 16) = none)
    (hp : Pairs (RepEnt h'.str L' g) Ls' l) (hn : ∀ e ∈ Ls', StrGood L' e.name ∧ (0 : UInt8) ∉ e.key) :
    Holds { m with heap := h' } (w.setObj i l) L' (put A o Ls') g fo fp' fs := by
  have mono : ∀ v x, Rep m.heap.str L g v x → Rep h'.str L' g v x := fun v x hr => hr.mono h.inv.str hi.str hst hL fun _ _ h => h
  refine ⟨hi, hc, hl, h.sigs, h.cleanSig, hsz, hco, hcp, hlay, ?_, h.inj, h.lt, ?_, ?_, ?_⟩
  · intro x
    by_cases e : x = o
    · rw [e, put_same, hg]; simp
    · rw [put_other _ _ e]; exact h.dom x
  · intro x K j h1 h2
    rcases put_cases h1 with ⟨rfl, rfl⟩ | ⟨ne, k1⟩
    · rw [hg] at h2
      cases h2
      simp only [World.setObj, if_true]
      exact hp
    · have hne : j ≠ i := fun e => ne (h.inj x o i (e ▸ h2) hg)
      simp only [World.setObj, if_neg hne]
      exact (h.lists x K j k1 h2).imp fun e q hq => ⟨hq.1, mono _ _ hq.2⟩
  · intro x K h1
    rcases put_cases h1 with ⟨rfl, rfl⟩ | ⟨ne, k1⟩
    · exact hn
    · obtain ⟨y, rfl⟩ := hL
      exact fun e he => ⟨(h.names x K k1 e he).1.mono, (h.names x K k1 e he).2⟩
  · intro b y hy
    obtain ⟨u, hu, hr⟩ := h.vars b y hy
    exact ⟨u, hu, mono _ _ hr⟩

/-! ### Assigning a property -/

theorem setInternal_inv {h : Heap} {v o name n val al h'} (hv : IsObj v o) (he : setInternal h v none name n val al = some (h', .ok)) :
    (∃ p c, h.props.mem p = some c ∧
      h' = { h with props := { h.props with mem := upd h.props.mem p (some ⟨c.head, (c.body.1, val)⟩) } }) ∨
    (∃ st' nv a p gc co, mkStringCopy al.hr h.str name n al.strs = some (st', nv) ∧ allocCell h.props al.prop = some (a, p, gc) ∧
      h.objs.mem o = some co ∧ h'.str = st' ∧ h'.objs = { h.objs with mem := upd h.objs.mem o (some ⟨p, co.body⟩) } ∧
      h'.props.cellSize = a.cellSize ∧ h'.props.mem p = some ⟨co.head, (nv, val)⟩ ∧ ∀ x, x ≠ p → h'.props.mem x = a.mem x) := by
  simp only [setInternal, Option.bind_eq_bind, Option.bind_eq_some_iff] at he
  obtain ⟨p, hp, he⟩ := he
  by_cases h0 : p = 0
  · rw [if_pos h0, if_neg (by simp [hv.1])] at he
    simp only [Option.bind_eq_some_iff, getObjectStruct_of hv] at he
    obtain ⟨⟨h1, nv⟩, e1, o', e2, ⟨h2, q⟩, e3, h3, e4, e5⟩ := he
    cases e2
    cases e5
    right
    simp only [propName, Option.map_eq_some_iff] at e1
    obtain ⟨⟨st', nv'⟩, e6, e7⟩ := e1
    cases e7
    simp only [addProperty, Option.bind_eq_bind, Option.bind_eq_some_iff] at e3
    obtain ⟨⟨a, q', gc⟩, e8, c, e9, co, e10, e11⟩ := e3
    cases e11
    simp only [setValue, Option.map_eq_some_iff] at e4
    obtain ⟨c', e12, rfl⟩ := e4
    simp only [upd_same] at e12
    cases e12
    refine ⟨st', nv', a, q', gc, co, e6, e8, e10, rfl, rfl, rfl, by simp [upd_same], fun x hx => ?_⟩
    simp only [upd_other _ _ _ _ hx]
  · rw [if_neg h0] at he
    simp only [Option.bind_eq_some_iff] at he
    obtain ⟨h1, e1, e2⟩ := he
    cases e2
    left
    simp only [setValue, Option.map_eq_some_iff] at e1
    obtain ⟨c, e3, e4⟩ := e1
    exact ⟨p, c, e3, e4.symm⟩

theorem pairs_any {st L g Ls l} (h : Pairs (RepEnt st L g) Ls l) (k : List UInt8) : (l.any fun q => q.1 == k) = Ls.any fun e => e.key == k := by
  induction h with
  | nil => rfl
  | cons r _ ih => simp only [List.any_cons, ih, r.1]

theorem pairs_update {st L g Ls l v x k} (h : Pairs (RepEnt st L g) Ls l) (hr : Rep st L g v x) :
    Pairs (RepEnt st L g) (assign Ls k v) (l.map fun q => if q.1 == k then (k, x) else q) := by
  induction h with
  | nil => exact .nil
  | @cons e q l1 l2 r _ ih =>
    simp only [assign, List.map_cons]
    refine .cons ?_ ih
    by_cases hk : e.key = k
    · rw [if_pos hk, if_pos (by rw [← r.1]; simpa using hk)]
      exact ⟨hk, hr⟩
    · rw [if_neg hk, if_neg (by rw [← r.1]; simpa using hk)]
      exact r

theorem pairs_value {st L g Ls l} (h : Pairs (RepEnt st L g) Ls l) {k : List UInt8} (hk : (0 : UInt8) ∉ k) :
    Rep st L g ((lookup Ls k).getD mkUndefined) (valueOf l k) := by
  induction h with
  | nil => exact ⟨rfl, by decide, by decide, by decide⟩
  | @cons e q l1 l2 r _ ih =>
    rw [lookup_cons, sameKey_noNul hk]
    simp only [valueOf, List.find?_cons]
    rw [← r.1]
    cases he : e.key == k with
    | true => exact r.2
    | false => exact ih

theorem pairs_filter {st L g Ls l} (h : Pairs (RepEnt st L g) Ls l) (k : List UInt8) :
    Pairs (RepEnt st L g) (Ls.filter fun e => !(e.key == k)) (l.filter fun q => !(q.1 == k)) := by
  induction h with
  | nil => exact .nil
  | @cons e q l1 l2 r _ ih =>
    rw [List.filter_cons, List.filter_cons, ← r.1]
    cases e.key == k with
    | true => exact ih
    | false => exact .cons r ih

/-- Room for a new block of properties: it contains no variable. -/
def Clear (m : Mem σ) (al : Allocs) : Prop :=
  ∀ b, al.prop = some b → ∀ a, m.vars a ≠ none → a < b ∨ b + m.heap.props.inc * 24 ≤ a

theorem Holds.set (h : Holds m w L A g fo fp fs) {v i name bs val x al h' er} (hv : Rep m.heap.str L g v (.obj i))
    (hk : KeyPtr m.heap.str name bs) (h0 : (0 : UInt8) ∉ bs) (hx : Rep m.heap.str L g val x) (hg : Granted m.heap bs.length al)
    (hcl : Clear m al) (he : Obj.set m.heap v name bs.length val al = some (h', er)) :
    er = .ok ∧ ∃ L' A' fp', Holds { m with heap := h' } (w.setObj i (assignTo (w.objs i) bs x)) L' A' g fo fp' fs := by
  obtain ⟨hvo, hgi⟩ := hv
  have hvo := isObject_tag hvo
  have hio : IsObj v (getPtrRaw v).toNat := ⟨hvo, rfl⟩
  generalize (getPtrRaw v).toNat = o at hgi hio
  cases hA : A o with
  | none => rw [(h.dom o).1 hA] at hgi; cases hgi
  | some Ls =>
  obtain ⟨h1, Ls', fp', e1, has, hi', hex, _, _⟩ := setInternal_spec h.inv hA hio hk (nameV := none) (by intro v hv; cases hv) val hg false (by simp)
  rw [Obj.set, e1] at he
  cases he
  refine ⟨rfl, ?_⟩
  have hp := h.lists o Ls i hA hgi
  have hnm := h.names o Ls hA
  have hkeys : ∀ e ∈ Ls, sameKey e.key bs = (e.key == bs) := fun e _ => sameKey_noNul h0
  have hco : ∃ c, m.heap.objs.mem o = some c := by
    obtain ⟨_, c, hc, _⟩ := h.inv.obj o Ls hA
    exact ⟨c, hc⟩
  rcases setInternal_inv hio e1 with ⟨p, c, hpc, rfl⟩ | ⟨st', nv, a, p, gc, co, hmk, hal, hco, rfl, ho', hcs, hpm, hoth⟩
  · -- a property with this key exists
    have hcase : ∃ e ∈ Ls, e.key = bs ∧ Ls' = assign Ls bs val := by
      cases has with
      | @update e he hek =>
        rw [hkeys e he, beq_iff_eq] at hek
        exact ⟨e, he, hek, by rw [hek]⟩
      | @insert q n hno =>
        -- the head of the list of `o` did not change
        exfalso
        obtain ⟨_, c1, hc1, hch1⟩ := h.inv.obj o Ls hA
        obtain ⟨_, c2, hc2, hch2⟩ := hi'.obj o _ (put_same _ _ _)
        simp only at hc2
        rw [hc1] at hc2
        cases hc2
        have := freeList_det (chain_free hch2) (l' := Ls.map Ent.addr) (by
          refine freeList_heads (chain_free hch1) ?_
          intro y hy
          simp only
          by_cases e : y = p
          · rw [e, upd_same, hpc]; rfl
          · rw [upd_other _ _ _ _ e])
        have := congrArg List.length this
        simp at this
    obtain ⟨e, he, hek, rfl⟩ := hcase
    refine ⟨L, _, fp', h.change hA hgi hi' hex ⟨[], by simp⟩ h.content h.long h.size h.cleanObj ?_ ?_ ?_ ?_⟩
    · intro q c' hq
      simp only at hq
      by_cases eq : q = p
      · rw [eq, upd_same] at hq
        cases hq
        exact h.cleanProp p c hpc
      · rw [upd_other _ _ _ _ eq] at hq
        exact h.cleanProp q c' hq
    · intro b hb
      have := h.layout b hb
      refine ⟨this.1, this.2.1, ?_, ?_⟩
      · simp only
        rw [upd_other _ _ _ _ (fun e => by rw [e, hpc] at this; cases this.2.2.1)]
        exact this.2.2.1
      · simp only
        rw [upd_other _ _ _ _ (fun e => by rw [e, hpc] at this; cases this.2.2.2)]
        exact this.2.2.2
    · unfold assignTo
      rw [if_pos]
      · exact pairs_update hp hx
      · rw [pairs_any hp, List.any_eq_true]
        exact ⟨e, he, by simpa using hek⟩
    · intro y hy
      obtain ⟨y', hy', _, e2, e3⟩ := mem_assign hy
      rw [e2, e3]
      exact hnm y' hy'
  · -- a new property
    obtain ⟨hst, hex', hz, L', hL', hcont, hlong, hgood⟩ :=
      copy_good h.inv.str h.content h.long hk.notNull hk.bytes hg.room hg.low hg.grant hmk
    obtain ⟨ev, hp8, hzero, hcs', hinc'⟩ := allocCell_even h.inv.props (fun q => hg.prop.fresh h.inv.props q) h.cleanProp hal
    obtain ⟨_, c2, hc2, hch2⟩ := hi'.obj o _ (put_same _ _ _)
    rw [ho'] at hc2
    simp only [upd_same] at hc2
    cases hc2
    simp only at hch2
    have mono : ∀ v x, Rep m.heap.str L g v x → Rep h'.str L' g v x := fun v x hr => hr.mono h.inv.str hst hex' hL' fun _ _ h => h
    have hcase : (∀ e ∈ Ls, sameKey e.key bs = false) ∧ Ls' = ⟨p, nv, bs, val⟩ :: Ls := by
      cases has with
      | @update e he hek =>
        exfalso
        -- the new cell would be in use already
        have hh := hch2.head
        have hne : assign Ls e.key val ≠ [] := by
          intro e'
          have := congrArg List.length e'
          simp only [assign, List.length_map, List.length_nil, List.length_eq_zero_iff] at this
          rw [this] at he
          cases he
        obtain ⟨y, ys, hys⟩ := List.exists_cons_of_ne_nil hne
        rw [hys] at hh
        have hy : y ∈ assign Ls e.key val := by rw [hys]; exact List.mem_cons_self
        obtain ⟨y', hy', e2, _⟩ := mem_assign hy
        obtain ⟨_, _, _, _, e, _, _, _, nu, _⟩ := allocCell_spec m.heap.props fp al.prop h.inv.props (fun q => hg.prop.fresh h.inv.props q)
        rw [hal] at e
        cases e
        apply nu
        have : p = y'.addr := by rw [hh, ← e2]; rfl
        rw [this]
        exact h.inv.used o Ls hA y' hy'
      | @insert q n hno =>
        refine ⟨hno, ?_⟩
        have hh := hch2.head
        have hq : q = p := hh.symm
        subst hq
        obtain ⟨_, c3, hc3, hb3⟩ := hch2.at (e := ⟨q, n, bs, val⟩) List.mem_cons_self
        simp only at hc3
        rw [hpm] at hc3
        cases hc3
        simp only [Prod.mk.injEq] at hb3
        rw [hb3.1]
    obtain ⟨hno, rfl⟩ := hcase
    refine ⟨L', _, fp', h.change hA hgi hi' hex hL' hcont hlong (by rw [hcs, hcs', h.size]) ?_ ?_ ?_ ?_ ?_⟩
    · intro x c hx
      rw [ho'] at hx
      simp only at hx
      by_cases e : x = o
      · rw [e, upd_same] at hx
        cases hx
        show p % 2 = 0
        omega
      · rw [upd_other _ _ _ _ e] at hx
        exact h.cleanObj x c hx
    · intro x c hx
      by_cases e : x = p
      · rw [e, hpm] at hx
        cases hx
        exact h.cleanObj o co hco
      · rw [hoth x e] at hx
        exact ev x c hx
    · intro b hb
      have hlb := h.layout b hb
      refine ⟨hlb.1, hlb.2.1, ?_⟩
      have key : ∀ d, 0 < d → d < 24 → m.heap.props.mem (b - d) = none → h'.props.mem (b - d) = none := by
        intro d hd0 hd hn
        cases hq : h'.props.mem (b - d) with
        | none => rfl
        | some c =>
          exfalso
          have ham : a.mem (b - d) ≠ none := by
            by_cases e : b - d = p
            · rw [e, hzero]; simp
            · rw [← hoth _ e, hq]; simp
          rcases allocCell_mem hal _ ham with h1 | ⟨bb, hbb, h2, h3⟩
          · exact h1 hn
          · have hlow : 0 < bb := by
              obtain ⟨_, _, _, _, e, _, _, ok, _⟩ := allocCell_spec m.heap.props fp al.prop h.inv.props (fun q => hg.prop.fresh h.inv.props q)
              rw [hal] at e
              cases e
              by_cases hfree : fp = []
              · obtain ⟨b', e', hf⟩ := hg.prop.fresh h.inv.props hfree
                rw [hbb] at e'
                cases e'
                exact hf.1
              · -- no block was made
                exfalso
                have hfr : m.heap.props.free ≠ 0 := by
                  intro e0
                  have := h.inv.props.list
                  rw [e0] at this
                  cases this with
                  | nil => exact hfree rfl
                  | cons h0 => exact h0 rfl
                simp only [allocCell, refill, if_neg hfr, Option.bind_some, takeCell, Option.bind_eq_some_iff, Option.map_eq_some_iff] at hal
                obtain ⟨cc, hcc, gg, _, e'⟩ := hal
                cases e'
                apply ham
                simp only
                by_cases ef : b - d = m.heap.props.free
                · rw [ef] at hn
                  rw [hn] at hcc
                  cases hcc
                · rw [upd_other _ _ _ _ ef, upd_other _ _ _ _ ef]
                  exact hn
            rw [h.size] at h3
            rcases hcl bb hbb b hb with h4 | h4 <;> omega
      exact ⟨key 8 (by omega) (by omega) hlb.2.2.1, key 16 (by omega) (by omega) hlb.2.2.2⟩
    · unfold assignTo
      rw [if_neg]
      · exact .cons ⟨rfl, mono _ _ hx⟩ (hp.imp fun e q hq => ⟨hq.1, mono _ _ hq.2⟩)
      · rw [pairs_any hp, List.any_eq_true]
        rintro ⟨e, he, hek⟩
        have := hno e he
        rw [hkeys e he, hek] at this
        cases this
    · intro y hy
      rcases List.mem_cons.1 hy with rfl | hy
      · exact ⟨hgood, h0⟩
      · obtain ⟨z, rfl⟩ := hL'
        exact ⟨(hnm y hy).1.mono, (hnm y hy).2⟩

/-! ### Reading and deleting properties -/

theorem Holds.get (h : Holds m w L A g fo fp fs) {v i name bs y} (hv : Rep m.heap.str L g v (.obj i))
    (hk : KeyPtr m.heap.str name bs) (h0 : (0 : UInt8) ∉ bs) (he : Obj.get m.heap v name bs.length = some y) :
    Rep m.heap.str L g y (valueOf (w.objs i) bs) := by
  obtain ⟨hvo, hgi⟩ := hv
  have hvo := isObject_tag hvo
  have hio : IsObj v (getPtrRaw v).toNat := ⟨hvo, rfl⟩
  generalize (getPtrRaw v).toNat = o at hgi hio
  cases hA : A o with
  | none => rw [(h.dom o).1 hA] at hgi; cases hgi
  | some Ls =>
    rw [get_spec h.inv hA hio hk] at he
    cases he
    exact pairs_value (h.lists o Ls i hA hgi) h0

/-- What deleting does not change. -/
structure Tidy (h h' : Heap) : Prop where
  objs : (∀ o c, h.objs.mem o = some c → c.head % 2 = 0) → ∀ o c, h'.objs.mem o = some c → c.head % 2 = 0
  props : ∀ p c, h'.props.mem p = some c → c.head % 2 = 0
  none : ∀ p, h'.props.mem p = none ↔ h.props.mem p = none
  size : h'.props.cellSize = h.props.cellSize

theorem unlink_tidy {h : Heap} {o prev x h'} (hx : x % 2 = 0) (hp : ∀ p c, h.props.mem p = some c → c.head % 2 = 0)
    (he : unlink h o prev x = some h') : Tidy h h' := by
  unfold unlink at he
  split at he
  · simp only [Option.map_eq_some_iff] at he
    obtain ⟨c, hc, rfl⟩ := he
    refine ⟨fun h => h, ?_, ?_, rfl⟩
    · intro p c' hq
      simp only at hq
      by_cases e : p = prev
      · rw [e, upd_same] at hq; cases hq; exact hx
      · rw [upd_other _ _ _ _ e] at hq; exact hp p c' hq
    · intro p
      simp only
      by_cases e : p = prev
      · rw [e, upd_same, hc]; simp
      · rw [upd_other _ _ _ _ e]
  · simp only [Option.map_eq_some_iff] at he
    obtain ⟨c, hc, rfl⟩ := he
    refine ⟨fun h p c' hq => ?_, hp, fun _ => Iff.rfl, rfl⟩
    simp only at hq
    by_cases e : p = o
    · rw [e, upd_same] at hq; cases hq; exact hx
    · rw [upd_other _ _ _ _ e] at hq; exact h p c' hq

theorem delLoop_tidy {h : Heap} {o name n h' b} (hp : ∀ p c, h.props.mem p = some c → c.head % 2 = 0) {l} :
    ∀ {p prev}, Chain h.props.mem p l → delLoop h o name n prev p = some (h', b) → Tidy h h' := by
  induction l with
  | nil =>
    intro p prev hc he
    cases hc
    rw [delLoop, if_pos rfl] at he
    cases he
    exact ⟨fun h => h, hp, fun _ => Iff.rfl, rfl⟩
  | cons e l ih =>
    intro p prev hc he
    cases hc with
    | @cons _ c k _ h0 hm hch =>
      rw [delLoop, if_neg h0, hm] at he
      simp only [Option.bind_eq_bind, Option.bind_some, Option.bind_eq_some_iff] at he
      obtain ⟨q, _, he⟩ := he
      split at he
      · simp only [Option.map_eq_some_iff] at he
        obtain ⟨h1, e1, e2⟩ := he
        cases e2
        exact unlink_tidy (hp p c hm) hp e1
      · exact ih hch he

theorem eraseP_filter {Ls : List Ent} {k : List UInt8} (hn : (Ls.map Ent.key).Nodup) :
    (Ls.eraseP fun e => e.key == k) = Ls.filter fun e => !(e.key == k) := by
  induction Ls with
  | nil => rfl
  | cons e l ih =>
    rw [List.map_cons, List.nodup_cons] at hn
    cases he : e.key == k with
    | true =>
      rw [List.eraseP_cons_of_pos (by simpa using he), List.filter_cons, he]
      simp only [Bool.not_true, Bool.false_eq_true, if_false]
      rw [List.filter_eq_self.2]
      intro x hx
      simp only [Bool.not_eq_eq_eq_not, Bool.not_true, beq_eq_false_iff_ne]
      intro eq
      apply hn.1
      rw [beq_iff_eq] at he
      rw [he, ← eq]
      exact List.mem_map_of_mem hx
    | false =>
      rw [List.eraseP_cons_of_neg (by simp [he]), List.filter_cons, he, ih hn.2]
      rfl

theorem Holds.del (h : Holds m w L A g fo fp fs) {v i name bs h' b} (hv : Rep m.heap.str L g v (.obj i))
    (hk : KeyPtr m.heap.str name bs) (h0 : (0 : UInt8) ∉ bs) (he : Obj.del m.heap v name bs.length = some (h', b)) :
    (b = (w.objs i).any fun q => q.1 == bs) ∧
    ∃ A', Holds { m with heap := h' } (w.setObj i ((w.objs i).filter fun q => !(q.1 == bs))) L A' g fo fp fs := by
  obtain ⟨hvo, hgi⟩ := hv
  have hvo := isObject_tag hvo
  have hio : IsObj v (getPtrRaw v).toNat := ⟨hvo, rfl⟩
  generalize (getPtrRaw v).toNat = o at hgi hio
  cases hA : A o with
  | none => rw [(h.dom o).1 hA] at hgi; cases hgi
  | some Ls =>
    obtain ⟨h1, b1, e1, hb, hst, hi'⟩ := del_spec h.inv hA hio hk
    rw [he] at e1
    cases e1
    have hp := h.lists o Ls i hA hgi
    obtain ⟨_, c0, hc0, hch⟩ := h.inv.obj o Ls hA
    have ht : Tidy m.heap h' := by
      rw [Obj.del, if_neg (by simp [hvo]), getObjectStruct_of hio] at he
      simp only [Option.bind_eq_bind, Option.bind_some, hc0] at he
      exact delLoop_tidy h.cleanProp hch he
    have hcs : ∀ e : Ent, cSame e.key bs = (e.key == bs) := fun e => cSame_noNul h0
    have hfil : (Ls.eraseP fun e => cSame e.key bs) = Ls.filter fun e => !(e.key == bs) := by
      simp only [hcs]
      exact eraseP_filter (h.inv.nodupKeys hA)
    rw [hfil] at hi'
    refine ⟨?_, _, h.change hA hgi hi' (by rw [hst]; exact Extends.refl _) ⟨[], by simp⟩ (by rw [hst]; exact h.content) h.long
      (by rw [ht.size]; exact h.size) (ht.objs h.cleanObj) ht.props ?_ ?_ ?_⟩
    · rw [Bool.eq_iff_iff, hb, pairs_any hp, List.any_eq_true]
      simp only [hcs]
    · intro a ha
      have := h.layout a ha
      exact ⟨this.1, this.2.1, (ht.none _).2 this.2.2.1, (ht.none _).2 this.2.2.2⟩
    · rw [hst]
      exact pairs_filter hp bs
    · intro e hem
      exact h.names o Ls hA e (List.mem_filter.1 hem).1

end Mjs.Client
