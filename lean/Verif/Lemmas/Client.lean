import Verif.Lemmas.GcObs
import Verif.Lemmas.ObjectHist
import Verif.Spec.Client

namespace Mjs.Client
open Mjs Mjs.Mbuf Mjs.Varint Mjs.Str Mjs.Arena Mjs.Obj Mjs.Spec Mjs.Spec.Gc Mjs.Gc Mjs.Spec.Client

variable {σ : Type}

/-- A string value that refers to a whole string of the buffer. -/
def StrGood (L : List (List UInt8)) (v : Val) : Prop := v &&& tagMask = tagStringO → ∃ pre bs, refersTo L v pre bs

/-- The value `v` of the engine is the value `x` of the description; `g` gives the identity of the object in a cell. -/
def Rep (st : Store) (L : List (List UInt8)) (g : Nat → Option Nat) (v : Val) : AVal → Prop
  | .prim w => v = w ∧ IsPrim w
  | .str bs => isString v = true ∧ Reads st v bs ∧ StrGood L v
  | .obj i => v &&& tagMask = tagObject ∧ g (getPtrRaw v).toNat = some i

/-- Two lists that correspond element by element. -/
inductive Pairs {α β : Type} (R : α → β → Prop) : List α → List β → Prop
  | nil : Pairs R [] []
  | cons {a b l k} : R a b → Pairs R l k → Pairs R (a :: l) (b :: k)

theorem Pairs.imp {α β : Type} {R S : α → β → Prop} (h : ∀ a b, R a b → S a b) {l k} (hp : Pairs R l k) : Pairs S l k := by
  induction hp with
  | nil => exact .nil
  | cons r _ ih => exact .cons (h _ _ r) ih

/-- The property `e` is the property `q` of the description. -/
def RepEnt (st : Store) (L : List (List UInt8)) (g : Nat → Option Nat) (e : Ent) (q : List UInt8 × AVal) : Prop :=
  e.key = q.1 ∧ Rep st L g e.val q.2

/-- The state of the engine holds the world of the description. -/
structure Holds (m : Mem σ) (w : World) (L : List (List UInt8)) (A : Nat → Option (List Ent)) (g : Nat → Option Nat)
    (fo fp fs : List Nat) : Prop where
  inv : HInv m.heap A fo fp
  content : m.heap.str.owned.content = stringBytes L
  long : ∀ bs ∈ L, 5 < bs.length
  sigs : Ok m.sigs fs
  cleanSig : ∀ s c, m.sigs.mem s = some c → c.head % 2 = 0
  size : m.heap.props.cellSize = 24
  cleanObj : ∀ o c, m.heap.objs.mem o = some c → c.head % 2 = 0
  cleanProp : ∀ p c, m.heap.props.mem p = some c → c.head % 2 = 0
  layout : ∀ a, m.vars a ≠ none → 0 < a ∧ a < 2 ^ 48 ∧ m.heap.props.mem (a - 8) = none ∧ m.heap.props.mem (a - 16) = none
  dom : ∀ o, A o = none ↔ g o = none
  inj : ∀ o o' i, g o = some i → g o' = some i → o = o'
  lt : ∀ o i, g o = some i → i < w.next
  lists : ∀ o Ls i, A o = some Ls → g o = some i → Pairs (RepEnt m.heap.str L g) Ls (w.objs i)
  names : ∀ o Ls, A o = some Ls → ∀ e ∈ Ls, StrGood L e.name ∧ (0 : UInt8) ∉ e.key
  vars : ∀ a x, w.vars a = some x → ∃ v, m.vars a = some v ∧ Rep m.heap.str L g v x

theorem reads_isString {st v bs} (h : Reads st v bs) : isString v = true := by
  obtain ⟨p, n, h1, h2, _⟩ := h
  cases hs : isString v with
  | true => rfl
  | false =>
    rw [getString, if_pos (by simp [hs])] at h1
    cases h1
    simp [Ptr.isNull] at h2

theorem string_not_object {v : Val} (h : isString v = true) : isObject v = false ∧ isFfiSig v = false := by
  have key : ∀ t : Val, (t = tagStringI ∨ t = tagStringF ∨ t = tagStringO ∨ t = tagString5 ∨ t = tagStringD) →
      (t == tagObject || t == tagArray) = false ∧ (t == tagFunctionFfi) = false := by
    rintro t (rfl | rfl | rfl | rfl | rfl) <;> decide
  simp only [isString, Bool.or_eq_true, beq_iff_eq] at h
  simp only [isObject, isFfiSig]
  exact key _ (by rcases h with (((h | h) | h) | h) | h <;> simp [h])

theorem object_not {v : Val} (h : isObject v = true) : isString v = false ∧ isFfiSig v = false ∧ v &&& tagMask ≠ tagStringO := by
  have key : ∀ t : Val, (t = tagObject ∨ t = tagArray) →
      (t == tagStringI || t == tagStringF || t == tagStringO || t == tagString5 || t == tagStringD) = false ∧
        (t == tagFunctionFfi) = false ∧ t ≠ tagStringO := by
    rintro t (rfl | rfl) <;> decide
  simp only [isObject, Bool.or_eq_true, beq_iff_eq] at h
  simp only [isString, isFfiSig]
  exact key _ h

theorem prim_not {v : Val} (h : IsPrim v) : v &&& tagMask ≠ tagStringO := by
  intro e
  have := isString_tagged (v := v) 8 (by decide) e
  rw [h.2.1] at this
  cases this

theorem isObject_tag {v : Val} (h : v &&& tagMask = tagObject) : isObject v = true := by simp [isObject, h]

/-! ### Growing -/

theorem StrGood.mono {L e v} (h : StrGood L v) : StrGood (L ++ e) v := by
  intro ht
  obtain ⟨pre, bs, ⟨post, rfl⟩, h1, h2⟩ := h ht
  exact ⟨pre, bs, ⟨post ++ e, by simp⟩, h1, h2⟩

theorem Rep.mono {st st' L L' g g' v x} (h : Rep st L g v x) (hi : InvS st) (hi' : InvS st') (he : Extends st st')
    (hL : ∃ e, L' = L ++ e) (hg : ∀ o i, g o = some i → g' o = some i) : Rep st' L' g' v x := by
  cases x with
  | prim w => exact h
  | str bs =>
    obtain ⟨e, rfl⟩ := hL
    exact ⟨h.1, reads_mono hi hi' he h.2.1, h.2.2.mono⟩
  | obj i => exact ⟨h.1, hg _ _ h.2⟩

theorem stringBytes_snoc (L : List (List UInt8)) (bs : List UInt8) :
    stringBytes (L ++ [bs]) = stringBytes L ++ (encodeBytes bs.length ++ bs ++ [0]) := by
  simp [stringBytes]

/-- A string made by copying. -/
theorem copy_good {hr st p bs als st' v L} (hi : InvS st) (hc : st.owned.content = stringBytes L) (hl : ∀ b ∈ L, 5 < b.length)
    (hp : p.isNull = false) (hb : load st.cmem st.owned p bs.length = some bs)
    (hsz : st.owned.len + bs.length + 11 < 2 ^ 48) (hal : ∀ i, AllocLow (als i)) (hg : als 1 ≠ none)
    (h : mkStringCopy hr st p bs.length als = some (st', v)) :
    InvS st' ∧ Extends st st' ∧ ReadsZ st' v bs ∧ ∃ L', (∃ e, L' = L ++ e) ∧ st'.owned.content = stringBytes L' ∧
      (∀ b ∈ L', 5 < b.length) ∧ StrGood L' v := by
  obtain ⟨st1, v1, bs1, e, i, ex, hbl, hld, hz, _, _, _, hcase⟩ := mkStringCopy_core hr st hi p bs.length als (.inr ⟨bs, hb⟩) hsz hal hg
  rw [h] at e
  cases e
  have hbs : bs1 = bs := by
    have := hld hp
    rw [hb] at this
    exact (Option.some.inj this).symm
  subst hbs
  refine ⟨i, ex, hz, ?_⟩
  by_cases h5 : bs1.length ≤ 5
  · refine ⟨L, ⟨[], by simp⟩, ?_, hl, fun ht => absurd ht (inline_tag h h5)⟩
    rcases hcase with ⟨_, e, _⟩ | ⟨_, e, _⟩ | ⟨h6, _⟩
    · rw [e]; exact hc
    · rw [e]; exact hc
    · omega
  · rcases hcase with ⟨h6, _⟩ | ⟨h6, _⟩ | ⟨h6, hv, hcont⟩
    · omega
    · omega
    refine ⟨L ++ [bs1], ⟨_, rfl⟩, by rw [hcont, hc, stringBytes_snoc], ?_, ?_⟩
    · intro b hbm
      rcases List.mem_append.1 hbm with hbm | hbm
      · exact hl b hbm
      · simp only [List.mem_singleton] at hbm; subst hbm; exact h6
    · intro _
      refine ⟨L, bs1, ⟨[], by simp⟩, by rw [hv]; exact mkTagged_tag _ 8, ?_⟩
      have hcl := content_length hi.1.1
      rw [hv]
      have : valToOffset (mkTagged st.owned.len tagStringO) = st.owned.len := mkTagged_offset _ (by omega) 8
      rw [this, ← hcl, hc]

/-! ### Allocation -/

theorem ok_even {α : Type} {a : Arena α} {fl} (h : Ok a fl) {x} (hx : x ∈ fl) {c} (hc : a.mem x = some c) : c.head % 2 = 0 := by
  have := (FreeList.aligned h.list fun x hx => (h.cellAddr hx).2.1).2 x hx c hc
  omega

theorem allocCell_even {α : Type} [Inhabited α] {a : Arena α} {fl base a' r g} (h : Ok a fl)
    (hb : fl = [] → ∃ b, base = some b ∧ Fresh a b a.inc) (he : ∀ x c, a.mem x = some c → c.head % 2 = 0)
    (hal : allocCell a base = some (a', r, g)) : (∀ x c, a'.mem x = some c → c.head % 2 = 0) ∧ r % 8 = 0 ∧ a'.mem r = some ⟨0, default⟩ ∧
      a'.cellSize = a.cellSize ∧ a'.inc = a.inc := by
  obtain ⟨a1, r1, g1, fl', e, cs, inc, ok, nu, up, mp, old, new, _⟩ := allocCell_spec a fl base h hb
  rw [hal] at e
  cases e
  refine ⟨?_, (ok.cellAddr up.1).2.1, mp, cs, inc⟩
  intro x c hx
  by_cases hf : x ∈ fl'
  · exact ok_even ok hf hx
  · rcases new x ⟨by simp [hx], hf⟩ with rfl | hu
    · rw [mp] at hx; cases hx; rfl
    · rw [(old x hu).2] at hx
      exact he x c hx

theorem addCells_mem {α : Type} [Inhabited α] (n : Nat) : ∀ (a : Arena α) (cur x : Nat), (addCells a cur n).mem x ≠ none →
    a.mem x ≠ none ∨ (cur ≤ x ∧ x + a.cellSize ≤ cur + n * a.cellSize) := by
  induction n with
  | zero => intro a cur x h; exact .inl h
  | succ n ih =>
    intro a cur x h
    rw [addCells] at h
    rcases ih _ _ _ h with h1 | ⟨h1, h2⟩
    · simp only at h1
      by_cases hx : x = cur
      · right
        subst hx
        refine ⟨Nat.le_refl _, ?_⟩
        rw [Nat.succ_mul]
        omega
      · left
        rw [upd_other _ _ _ _ hx] at h1
        exact h1
    · right
      simp only at h1 h2
      rw [Nat.succ_mul]
      omega

/-- Cells after an allocation: those before, and those of a new block. -/
theorem allocCell_mem {α : Type} [Inhabited α] {a : Arena α} {base a' r g} (h : allocCell a base = some (a', r, g)) (x : Nat)
    (hx : a'.mem x ≠ none) : a.mem x ≠ none ∨ ∃ b, base = some b ∧ b ≤ x ∧ x + a.cellSize ≤ b + a.inc * a.cellSize := by
  simp only [allocCell, Option.bind_eq_some_iff] at h
  obtain ⟨a1, h1, h2⟩ := h
  have hx1 : a1.mem x ≠ none := by
    simp only [takeCell, Option.bind_eq_some_iff, Option.map_eq_some_iff] at h2
    obtain ⟨c, hc, g', _, e⟩ := h2
    cases e
    simp only at hx
    by_cases hxf : x = a1.free
    · rw [hxf, hc]; simp
    · rw [upd_other _ _ _ _ hxf, upd_other _ _ _ _ hxf] at hx
      exact hx
  unfold refill at h1
  split at h1
  · simp only [newBlock, Option.map_eq_some_iff] at h1
    obtain ⟨b, hb, e⟩ := h1
    cases e
    rcases addCells_mem _ _ _ _ hx1 with h | h
    · exact .inl h
    · exact .inr ⟨b, hb, h⟩
  · cases h1
    exact .inl hx1

/-! ### Sound states -/

theorem chain_free {mem : Nat → Option (Cell (Val × Val))} {p L} (h : Chain mem p L) : FreeList mem p (L.map Ent.addr) := by
  induction h with
  | nil => exact .nil
  | cons h0 hm _ ih => exact .cons h0 hm ih

theorem freeList_det {α : Type} {mem : Nat → Option (Cell α)} {p l l'} (h : FreeList mem p l) (h' : FreeList mem p l') : l = l' := by
  induction h generalizing l' with
  | nil =>
    cases h' with
    | nil => rfl
    | cons h0 => exact absurd rfl h0
  | @cons r c l h0 hm _ ih =>
    cases h' with
    | nil => exact absurd rfl h0
    | cons h0 hm' hl' =>
      rw [hm] at hm'
      cases hm'
      rw [ih hl']

variable {m : Mem σ} {w : World} {L : List (List UInt8)} {A : Nat → Option (List Ent)} {g : Nat → Option Nat} {fo fp fs : List Nat}

theorem Pairs.mem {α β : Type} {R : α → β → Prop} {l k} (h : Pairs R l k) {a} (ha : a ∈ l) : ∃ b ∈ k, R a b := by
  induction h with
  | nil => cases ha
  | cons r _ ih =>
    rcases List.mem_cons.1 ha with rfl | ha
    · exact ⟨_, List.mem_cons_self, r⟩
    · obtain ⟨b, hb, hr⟩ := ih ha
      exact ⟨b, List.mem_cons_of_mem _ hb, hr⟩

theorem lay_of {m : Mem σ} {fp} (h : Ok m.heap.props fp) (hs : m.heap.props.cellSize = 24)
    (hv : ∀ a, m.vars a ≠ none → 0 < a ∧ a < 2 ^ 48 ∧ m.heap.props.mem (a - 8) = none ∧ m.heap.props.mem (a - 16) = none) : Lay m := by
  refine ⟨fun p hp => ?_, fun p q hp hq hne => ?_, hv⟩
  · have := h.cellAddr hp
    exact ⟨this.1, this.2.2⟩
  · have := cells_apart h hp hq hne
    rw [hs] at this
    exact this

theorem Holds.lay (h : Holds m w L A g fo fp fs) : Lay m := lay_of h.inv.props h.size h.layout

/-- What holds of a value that stands for a value of the description. -/
def Fit (L : List (List UInt8)) (A : Nat → Option (List Ent)) (v : Val) : Prop :=
  (isObject v = true → A (getPtrRaw v).toNat ≠ none) ∧ isFfiSig v = false ∧ StrGood L v

theorem Holds.fit (h : Holds m w L A g fo fp fs) {v x} (hr : Rep m.heap.str L g v x) : Fit L A v := by
  cases x with
  | prim u =>
    obtain ⟨rfl, hp⟩ := hr
    exact ⟨fun e => (by rw [hp.1] at e; cases e), hp.2.2, fun e => absurd e (prim_not hp)⟩
  | str bs => exact ⟨fun e => absurd ((string_not_object hr.1).1.symm.trans e) (by simp), (string_not_object hr.1).2, hr.2.2⟩
  | obj i =>
    have ho := isObject_tag hr.1
    refine ⟨fun _ e => ?_, (object_not ho).2.1, fun e => absurd e (object_not ho).2.2⟩
    exact absurd (hr.2.symm.trans ((h.dom _).1 e)) (by simp)

theorem Holds.fitEnt (h : Holds m w L A g fo fp fs) {o Ls e} (ho : A o = some Ls) (he : e ∈ Ls) : Fit L A e.name ∧ Fit L A e.val := by
  constructor
  · have hn := reads_isString (h.inv.names o Ls ho e he).1
    exact ⟨fun q => (by rw [(string_not_object hn).1] at q; cases q), (string_not_object hn).2, (h.names o Ls ho e he).1⟩
  · cases hg : g o with
    | none => rw [(h.dom o).2 hg] at ho; cases ho
    | some i =>
      obtain ⟨q, _, hq⟩ := (h.lists o Ls i ho hg).mem he
      exact h.fit hq.2

/-- What can be reached is described by the property lists. -/
def Known (m : Mem σ) (L : List (List UInt8)) (A : Nat → Option (List Ent)) : Node → Prop
  | .slot a => ∃ v, readSlot m a = some v ∧ Fit L A v
  | .obj o => A o ≠ none
  | .prop p => ∃ o Ls pre e post, A o = some Ls ∧ Ls = pre ++ e :: post ∧ e.addr = p
  | .sig _ => False

theorem Holds.known (h : Holds m w L A g fo fp fs) {roots} (hr : ∀ a ∈ roots, w.vars a ≠ none) {n} (hn : Reach m roots n) : Known m L A n := by
  induction hn with
  | @root a ha =>
    cases hx : w.vars a with
    | none => exact absurd hx (hr a ha)
    | some x =>
      obtain ⟨v, hv, hrep⟩ := h.vars a x hx
      exact ⟨v, read_var hv, h.fit hrep⟩
  | obj _ hv ho ih =>
    obtain ⟨v', hv', hf⟩ := ih
    rw [hv] at hv'
    cases hv'
    exact hf.1 ho
  | sig _ hv ho ih =>
    obtain ⟨v', hv', hf⟩ := ih
    rw [hv] at hv'
    cases hv'
    rw [hf.2.1] at ho
    cases ho
  | @first o c _ hm h0 ih =>
    cases ho : A o with
    | none => exact absurd ho ih
    | some Ls =>
      obtain ⟨_, c', hc', hch⟩ := h.inv.obj o Ls ho
      rw [hm] at hc'
      cases hc'
      have hh := hch.head
      cases Ls with
      | nil => exact absurd hh h0
      | cons e l => exact ⟨o, _, [], e, l, ho, rfl, by rw [hh]; rfl⟩
  | @next p c _ hm h0 ih =>
    obtain ⟨o, Ls, pre, e, post, ho, rfl, rfl⟩ := ih
    obtain ⟨_, c', hc', hch⟩ := h.inv.obj o _ ho
    obtain ⟨ce, hce, _, _, hch2⟩ := hch.split
    rw [hm] at hce
    cases hce
    have hh := hch2.head
    cases post with
    | nil => exact absurd hh h0
    | cons e' l => exact ⟨o, _, pre ++ [e], e', l, ho, by simp, by rw [hh]; rfl⟩
  | @name p _ ih =>
    obtain ⟨o, Ls, pre, e, post, ho, rfl, rfl⟩ := ih
    obtain ⟨_, c', hc', hch⟩ := h.inv.obj o _ ho
    obtain ⟨ce, hce, hb, _, _⟩ := hch.split
    refine ⟨_, read_name h.lay hce, ?_⟩
    rw [hb]
    exact (h.fitEnt ho (by simp)).1
  | @value p _ ih =>
    obtain ⟨o, Ls, pre, e, post, ho, rfl, rfl⟩ := ih
    obtain ⟨_, c', hc', hch⟩ := h.inv.obj o _ ho
    obtain ⟨ce, hce, hb, _, _⟩ := hch.split
    refine ⟨_, read_value h.lay hce, ?_⟩
    rw [hb]
    exact (h.fitEnt ho (by simp)).2

/-- A collection may start. -/
theorem Holds.sound (h : Holds m w L A g fo fp fs) {roots} (hr : ∀ a ∈ roots, w.vars a ≠ none) (hs : m.heap.str.owned.len < 2 ^ 31) :
    Sound m roots L fo fp fs := by
  have hlist : ∀ o c, Reach m roots (.obj o) → m.heap.objs.mem o = some c → ∃ Ls, A o = some Ls ∧ Chain m.heap.props.mem c.head Ls := by
    intro o c hro hm
    cases ho : A o with
    | none => exact absurd ho (h.known hr hro)
    | some Ls =>
      obtain ⟨_, c', hc', hch⟩ := h.inv.obj o Ls ho
      rw [hm] at hc'
      cases hc'
      exact ⟨Ls, rfl, hch⟩
  refine ⟨h.inv.str, h.content, h.long, hs, h.inv.objs, h.inv.props, h.sigs, h.size, h.layout, ?_, ?_, h.cleanObj, h.cleanProp,
    h.cleanSig, ?_, ?_⟩
  · intro a ha e
    cases hx : w.vars a with
    | none => exact hr a ha hx
    | some x =>
      obtain ⟨v, hv, _⟩ := h.vars a x hx
      rw [e] at hv
      cases hv
  · intro a ha
    obtain ⟨v, hv, f1, f2, f3⟩ := h.known hr ha
    refine ⟨v, hv, fun ho => ?_, fun q => (by rw [f2] at q; cases q), f3⟩
    cases hA : A (getPtrRaw v).toNat with
    | none => exact absurd hA (f1 ho)
    | some Ls => exact (h.inv.obj _ _ hA).1
  · intro o c hro hm
    obtain ⟨Ls, ho, hch⟩ := hlist o c hro hm
    refine ⟨_, chain_free hch, h.inv.nodup o Ls ho, ?_⟩
    intro p hp
    obtain ⟨e, he, rfl⟩ := List.mem_map.1 hp
    exact (h.inv.used o Ls ho e he).2
  · intro o c l o' c' l' hro hro' hm hm' hl hl' p hp hp'
    obtain ⟨Ls, ho, hch⟩ := hlist o c hro hm
    obtain ⟨Ls', ho', hch'⟩ := hlist o' c' hro' hm'
    rw [freeList_det hl (chain_free hch)] at hp
    rw [freeList_det hl' (chain_free hch')] at hp'
    obtain ⟨e, he, e1⟩ := List.mem_map.1 hp
    obtain ⟨e', he', e2⟩ := List.mem_map.1 hp'
    exact h.inv.sep _ _ _ _ ho ho' e he e' he' (e1.trans e2.symm)

end Mjs.Client
