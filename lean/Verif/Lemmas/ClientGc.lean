import Verif.Lemmas.Client

namespace Mjs.Client
open Mjs Mjs.Mbuf Mjs.Varint Mjs.Str Mjs.Arena Mjs.Obj Mjs.Spec Mjs.Spec.Gc Mjs.Gc Mjs.Spec.Client

variable {σ : Type} {m m' : Mem σ} {w : World} {L L' : List (List UInt8)} {A : Nat → Option (List Ent)} {g : Nat → Option Nat}
  {fo fp fs fo' fp' fs' : List Nat} {roots : List Nat}

/-- The property `e` as it is in the state `m`. -/
def moveEnt (m : Mem σ) (e : Ent) : Ent :=
  match m.heap.props.mem e.addr with
  | some c => { e with name := c.body.1, val := c.body.2 }
  | none => e

theorem moveEnt_addr (m : Mem σ) (e : Ent) : (moveEnt m e).addr = e.addr := by
  unfold moveEnt
  split <;> rfl

theorem moveEnt_key (m : Mem σ) (e : Ent) : (moveEnt m e).key = e.key := by
  unfold moveEnt
  split <;> rfl

theorem moved_addr (m : Mem σ) (l : List Ent) : (l.map (moveEnt m)).map Ent.addr = l.map Ent.addr := by
  rw [List.map_map]
  exact List.map_congr_left fun e _ => moveEnt_addr m e

theorem chain_reach {p l} (h : Chain m.heap.props.mem p l) (hr : p ≠ 0 → Reach m roots (.prop p)) :
    ∀ e ∈ l, Reach m roots (.prop e.addr) := by
  induction h with
  | nil => intro e he; cases he
  | @cons p c k l h0 hm _ ih =>
    intro e he
    rcases List.mem_cons.1 he with rfl | he
    · exact hr h0
    · exact ih (fun h => .next (hr h0) hm h) e he

theorem after_readsZ (hs : Sound m roots L fo fp fs) (hc : Collected m m' roots L L' fo' fp' fs') {v v'}
    (h : After m m' roots v v') {bs : List UInt8} (hz : ReadsZ m.heap.str v bs) : ReadsZ m'.heap.str v' bs := by
  by_cases ht : v &&& tagMask = tagStringO
  · obtain ⟨pre, pre', b, h1, h2⟩ := after_string hs hc h ht
    have r1 := (refers_getString hs.str hs.content hs.small h1).2
    have r2 := (refers_getString hc.sound.str hc.sound.content hc.sound.small h2).2
    rw [reads_det hz.reads r1.reads]
    exact r2
  · have e := after_nonstring hc h ht
    subst e
    obtain ⟨p, n, q1, q2, q3, q4, q5⟩ := hz
    refine ⟨p, n, (getString_other hc.foreign.1 ht).trans q1, q2, q3, ?_, ?_⟩
    · rw [load_other (getString_other_ptr ht q1) (b := m.heap.str.owned), hc.foreign.2]; exact q4
    · rw [load_other (getString_other_ptr ht q1) (b := m.heap.str.owned), hc.foreign.2]; exact q5

theorem inlineVal_tag (bs : List UInt8) : inlineVal bs &&& tagMask ≠ tagStringO := by
  unfold inlineVal
  split
  · rw [show (tagStringI : Val) = makeTag 1 ((6 : Fin 16) : Nat) from rfl, mkTagged_tag _ 6]
    decide
  · rw [show (tagString5 : Val) = makeTag 1 ((7 : Fin 16) : Nat) from rfl, mkTagged_tag _ 7]
    decide

theorem after_named (hs : Sound m roots L fo fp fs) (hc : Collected m m' roots L L' fo' fp' fs') {v v'}
    (h : After m m' roots v v') {bs : List UInt8} (hn : Named m.heap.str v bs) : Named m'.heap.str v' bs := by
  refine ⟨(after_reads hs hc h bs).1 hn.1, fun h5 => ?_, hn.2.2.1, fun hq => after_readsZ hs hc h (hn.2.2.2 hq)⟩
  have e := hn.2.1 h5
  rw [after_nonstring hc h (by rw [e]; exact inlineVal_tag bs)]
  exact e

theorem after_good (hs : Sound m roots L fo fp fs) (hc : Collected m m' roots L L' fo' fp' fs') {v v'}
    (h : After m m' roots v v') : StrGood L' v' := by
  intro ht'
  by_cases ht : v &&& tagMask = tagStringO
  · obtain ⟨_, pre', b, _, h2⟩ := after_string hs hc h ht
    exact ⟨pre', b, h2⟩
  · rw [after_nonstring hc h ht] at ht'
    exact absurd ht' ht

open Classical in
/-- What can be reached of a map on objects. -/
noncomputable def only {β : Type} (m : Mem σ) (roots : List Nat) (f : Nat → Option β) (o : Nat) : Option β :=
  if Reach m roots (.obj o) then f o else none

theorem only_some {β : Type} {f : Nat → Option β} {o x} (h : only m roots f o = some x) : Reach m roots (.obj o) ∧ f o = some x := by
  unfold only at h
  split at h
  · exact ⟨‹_›, h⟩
  · cases h

theorem only_of {β : Type} {f : Nat → Option β} {o} (h : Reach m roots (.obj o)) : only m roots f o = f o := by
  unfold only
  exact if_pos h

theorem after_rep (hs : Sound m roots L fo fp fs) (hc : Collected m m' roots L L' fo' fp' fs') {v v'}
    (h : After m m' roots v v') {x} (hr : Rep m.heap.str L g v x) : Rep m'.heap.str L' (only m roots g) v' x := by
  cases x with
  | prim u =>
    obtain ⟨rfl, hp⟩ := hr
    exact ⟨after_nonstring hc h (prim_not hp), hp⟩
  | str bs =>
    have hr' := (after_reads hs hc h bs).1 hr.2.1
    exact ⟨reads_isString hr', hr', after_good hs hc h⟩
  | obj i =>
    have e := after_nonstring hc h (object_not (isObject_tag hr.1)).2.2
    subst e
    refine ⟨hr.1, ?_⟩
    obtain ⟨a, ha, hv, _⟩ := h
    rw [only_of (.obj ha hv (isObject_tag hr.1))]
    exact hr.2

/-- What becomes of one property. -/
theorem move_after (hs : Sound m roots L fo fp fs) (hc : Collected m m' roots L L' fo' fp' fs') {e : Ent} {c}
    (hr : Reach m roots (.prop e.addr)) (hm : m.heap.props.mem e.addr = some c) (hb : c.body = (e.name, e.val)) :
    ∃ c', m'.heap.props.mem e.addr = some c' ∧ c'.head = c.head ∧ c'.body = ((moveEnt m' e).name, (moveEnt m' e).val) ∧
      After m m' roots e.name (moveEnt m' e).name ∧ After m m' roots e.val (moveEnt m' e).val := by
  obtain ⟨c1, c', e1, e2, e3, e4, e5⟩ := prop_cells hs hc hr
  rw [hm] at e1
  cases e1
  rw [hb] at e4 e5
  have : moveEnt m' e = { e with name := c'.body.1, val := c'.body.2 } := by
    unfold moveEnt
    rw [e2]
  rw [this]
  exact ⟨c', e2, e3, rfl, e4, e5⟩

theorem chain_moved (hs : Sound m roots L fo fp fs) (hc : Collected m m' roots L L' fo' fp' fs') {p l}
    (h : Chain m.heap.props.mem p l) (hr : ∀ e ∈ l, Reach m roots (.prop e.addr)) : Chain m'.heap.props.mem p (l.map (moveEnt m')) := by
  induction h with
  | nil => exact .nil
  | @cons p c k l h0 hm _ ih =>
    have he := hr ⟨p, c.body.1, k, c.body.2⟩ List.mem_cons_self
    obtain ⟨c', h1, h2, h3, _⟩ := move_after hs hc (e := ⟨p, c.body.1, k, c.body.2⟩) he hm rfl
    have ih' := ih fun e hx => hr e (List.mem_cons_of_mem _ hx)
    rw [List.map_cons]
    have : moveEnt m' ⟨p, c.body.1, k, c.body.2⟩ = ⟨p, c'.body.1, k, c'.body.2⟩ := by
      unfold moveEnt
      simp only
      rw [show m'.heap.props.mem p = some c' from h1]
    rw [this]
    exact .cons h0 h1 (by rw [h2]; exact ih')

theorem pairs_map {α β γ : Type} {R : α → β → Prop} {S : γ → β → Prop} (f : α → γ) {l k} (h : Pairs R l k)
    (hf : ∀ a ∈ l, ∀ b, R a b → S (f a) b) : Pairs S (l.map f) k := by
  induction h with
  | nil => exact .nil
  | cons r _ ih => exact .cons (hf _ List.mem_cons_self _ r) (ih fun a ha => hf a (List.mem_cons_of_mem _ ha))

/-- The world after a collection: variables that are not registered lose strings and objects. -/
def collected (w : World) (reg : Nat → Prop) [DecidablePred reg] : World :=
  { w with vars := fun a => match w.vars a with
      | some (.prim v) => some (.prim v)
      | x => if reg a then x else none }

theorem Holds.gc (h : Holds m w L A g fo fp fs) (hr : ∀ a ∈ roots, w.vars a ≠ none) (hs : Sound m roots L fo fp fs)
    (hc : Collected m m' roots L L' fo' fp' fs') (reg : Nat → Prop) [DecidablePred reg] (hreg : ∀ a, reg a → a ∈ roots) :
    Holds m' (collected w reg) L' (only m roots fun o => (A o).map fun l => l.map (moveEnt m')) (only m roots g) fo' fp' fs' := by
  -- property lists of objects that can be reached
  have hA : ∀ o Ls', only m roots (fun o => (A o).map fun l => l.map (moveEnt m')) o = some Ls' →
      Reach m roots (.obj o) ∧ ∃ Ls c, A o = some Ls ∧ Ls' = Ls.map (moveEnt m') ∧ m.heap.objs.mem o = some c ∧
        Chain m.heap.props.mem c.head Ls ∧ ∀ e ∈ Ls, Reach m roots (.prop e.addr) := by
    intro o Ls' ho
    obtain ⟨h1, h2⟩ := only_some ho
    simp only [Option.map_eq_some_iff] at h2
    obtain ⟨Ls, h3, h4⟩ := h2
    obtain ⟨_, c, hm, hch⟩ := h.inv.obj o Ls h3
    exact ⟨h1, Ls, c, h3, h4.symm, hm, hch, chain_reach hch fun h0 => .first h1 hm h0⟩
  have hE : ∀ o Ls, A o = some Ls → (∀ e ∈ Ls, Reach m roots (.prop e.addr)) → ∀ e ∈ Ls,
      After m m' roots e.name (moveEnt m' e).name ∧ After m m' roots e.val (moveEnt m' e).val := by
    intro o Ls ho hre e he
    obtain ⟨_, c0, _, hch⟩ := h.inv.obj o Ls ho
    obtain ⟨_, c, hm, hb⟩ := hch.at he
    obtain ⟨_, _, _, _, h4⟩ := move_after hs hc (hre e he) hm hb
    exact h4
  refine ⟨⟨hc.sound.str, hc.sound.objs, hc.sound.props, ?_, ?_, ?_, ?_, ?_, ?_⟩, hc.sound.content, hc.sound.long, hc.sound.sigs,
    hc.sound.cleanSig, hc.sound.propSize, hc.sound.cleanObj, hc.sound.cleanProp, hc.sound.vars, ?_, ?_, ?_, ?_, ?_, ?_⟩
  · intro o Ls' ho
    obtain ⟨h1, Ls, c, _, rfl, hm, hch, hre⟩ := hA o Ls' ho
    exact ⟨(hc.liveObj o).2 h1, c, by rw [hc.objs o h1]; exact hm, chain_moved hs hc hch hre⟩
  · intro o Ls' ho e' he'
    obtain ⟨h1, Ls, c, _, rfl, hm, hch, hre⟩ := hA o Ls' ho
    obtain ⟨e, he, rfl⟩ := List.mem_map.1 he'
    rw [moveEnt_addr]
    exact (hc.liveProp _).2 (hre e he)
  · intro o Ls' ho
    obtain ⟨_, Ls, _, h3, rfl, _⟩ := hA o Ls' ho
    rw [moved_addr]
    exact h.inv.nodup o Ls h3
  · intro o1 L1 o2 L2 h1 h2 e1 he1 e2 he2 eq
    obtain ⟨_, K1, _, k1, rfl, _⟩ := hA o1 L1 h1
    obtain ⟨_, K2, _, k2, rfl, _⟩ := hA o2 L2 h2
    obtain ⟨d1, hd1, rfl⟩ := List.mem_map.1 he1
    obtain ⟨d2, hd2, rfl⟩ := List.mem_map.1 he2
    rw [moveEnt_addr, moveEnt_addr] at eq
    exact h.inv.sep _ _ _ _ k1 k2 d1 hd1 d2 hd2 eq
  · intro o Ls' ho e' he'
    obtain ⟨_, Ls, _, h3, rfl, _, _, hre⟩ := hA o Ls' ho
    obtain ⟨e, he, rfl⟩ := List.mem_map.1 he'
    rw [moveEnt_key]
    exact after_named hs hc (hE o Ls h3 hre e he).1 (h.inv.names o Ls h3 e he)
  · intro o Ls' ho
    obtain ⟨_, Ls, _, h3, rfl, _⟩ := hA o Ls' ho
    rw [List.pairwise_map]
    simp only [moveEnt_key]
    exact h.inv.keys o Ls h3
  · intro o
    have := h.dom o
    unfold only
    split
    · rw [← this, Option.map_eq_none_iff]
    · simp
  · intro o o' i h1 h2
    exact h.inj o o' i (only_some h1).2 (only_some h2).2
  · intro o i h1
    exact h.lt o i (only_some h1).2
  · intro o Ls' i ho hi
    obtain ⟨_, Ls, _, h3, rfl, _, _, hre⟩ := hA o Ls' ho
    refine pairs_map _ (h.lists o Ls i h3 (only_some hi).2) fun e he q hq => ⟨?_, ?_⟩
    · rw [moveEnt_key]; exact hq.1
    · exact after_rep hs hc (hE o Ls h3 hre e he).2 hq.2
  · intro o Ls' ho e' he'
    obtain ⟨_, Ls, _, h3, rfl, _, _, hre⟩ := hA o Ls' ho
    obtain ⟨e, he, rfl⟩ := List.mem_map.1 he'
    refine ⟨after_good hs hc (hE o Ls h3 hre e he).1, ?_⟩
    rw [moveEnt_key]
    exact (h.names o Ls h3 e he).2
  · intro a x hx
    have hroot : a ∈ roots → ∀ y, w.vars a = some y → ∃ v, m'.vars a = some v ∧ Rep m'.heap.str L' (only m roots g) v y := by
      intro ha y hy
      obtain ⟨v, hv, hrep⟩ := h.vars a y hy
      have hrr : Reach m roots (.slot a) := .root ha
      obtain ⟨v', hv', _⟩ := hc.vals a v hrr (read_var hv)
      cases hq : m'.vars a with
      | none => exact absurd hq (hc.sound.rootVars a ha)
      | some u =>
        rw [read_var hq] at hv'
        cases hv'
        exact ⟨_, rfl, after_rep hs hc ⟨a, hrr, read_var hv, read_var hq⟩ hrep⟩
    simp only [collected] at hx
    split at hx
    · next u hu =>
      cases hx
      by_cases ha : a ∈ roots
      · exact hroot ha _ hu
      · obtain ⟨v, hv, hrep⟩ := h.vars a _ hu
        refine ⟨v, ?_, hrep⟩
        rw [hc.others a ?_]
        · exact hv
        · intro hra
          cases hra with
          | root hr => exact ha hr
          | @name p hp =>
            have := (reach_prop_used hs hp).1
            have hl := (h.layout (p + 8) (by simp [hv])).2.2.1
            exact this (by simpa using hl)
          | @value p hp =>
            have := (reach_prop_used hs hp).1
            have hl := (h.layout (p + 16) (by simp [hv])).2.2.2
            exact this (by simpa using hl)
    · split at hx
      · next hra => exact hroot (hreg a hra) x hx
      · cases hx

end Mjs.Client
