import Verif.Model.Object
import Verif.Lemmas.StrStore
import Verif.Lemmas.Arena
import Verif.Lemmas.ObjMap

namespace Mjs.Obj
open Mjs Mjs.Mbuf Mjs.Str Mjs.Arena Mjs.Spec

/-- A property: its cell, its name (the value and the bytes it stands for) and its value. -/
structure Ent where
  addr : Nat
  name : Val
  key : List UInt8
  val : Val

/-- The property list that starts at a cell. -/
inductive Chain (mem : Nat → Option (Cell (Val × Val))) : Nat → List Ent → Prop
  | nil : Chain mem 0 []
  | cons {p c k l} : p ≠ 0 → mem p = some c → Chain mem c.head l → Chain mem p (⟨p, c.body.1, k, c.body.2⟩ :: l)

theorem Chain.congr {mem mem' : Nat → Option (Cell (Val × Val))} {p L} (h : Chain mem p L)
    (he : ∀ e ∈ L, mem' e.addr = mem e.addr) : Chain mem' p L := by
  induction h with
  | nil => exact .nil
  | cons h0 hm _ ih => exact .cons h0 ((he _ List.mem_cons_self).trans hm) (ih fun e hx => he e (by simp [hx]))

theorem Chain.head {mem : Nat → Option (Cell (Val × Val))} {p L} (h : Chain mem p L) :
    p = (L.head?.map Ent.addr).getD 0 := by
  cases h <;> rfl

theorem Chain.at {mem : Nat → Option (Cell (Val × Val))} {p L} (h : Chain mem p L) {e} (he : e ∈ L) :
    e.addr ≠ 0 ∧ ∃ c, mem e.addr = some c ∧ c.body = (e.name, e.val) := by
  induction h with
  | nil => simp at he
  | cons h0 hm _ ih =>
    rcases List.mem_cons.1 he with rfl | he
    · exact ⟨h0, _, hm, rfl⟩
    · exact ih he

/-- The inline value of a short string. -/
def inlineVal (bs : List UInt8) : Val :=
  if bs.length ≤ 4 then mkTagged (packLE (UInt8.ofNat bs.length :: bs)) tagStringI else mkTagged (packLE bs) tagString5

/-- `v` is a name for the bytes `bs`: it reads as `bs`, is inline if it is short (only short strings made without
copying are not), and a name that may be a number is NUL-terminated (only strings made without copying may not be). -/
def Named (st : Store) (v : Val) (bs : List UInt8) : Prop :=
  Reads st v bs ∧ (bs.length ≤ 5 → v = inlineVal bs) ∧ bs.length < 2 ^ 32 ∧ (numberish bs = true → ReadsZ st v bs)

/-- Objects of the heap with their property lists. -/
structure HInv (h : Heap) (A : Nat → Option (List Ent)) (fo fp : List Nat) : Prop where
  str : InvS h.str
  objs : Ok h.objs fo
  props : Ok h.props fp
  obj : ∀ o L, A o = some L → Used h.objs fo o ∧ ∃ c, h.objs.mem o = some c ∧ Chain h.props.mem c.head L
  used : ∀ o L, A o = some L → ∀ e ∈ L, Used h.props fp e.addr
  nodup : ∀ o L, A o = some L → (L.map Ent.addr).Nodup
  sep : ∀ o L o' L', A o = some L → A o' = some L' → ∀ e ∈ L, ∀ e' ∈ L', e.addr = e'.addr → o = o'
  names : ∀ o L, A o = some L → ∀ e ∈ L, Named h.str e.name e.key
  keys : ∀ o L, A o = some L → L.Pairwise fun a b => sameKey a.key b.key = false

/-- `v` is the object (or array) value with the cell `o`. -/
def IsObj (v : Val) (o : Nat) : Prop := isObject v = true ∧ (getPtrRaw v).toNat = o

theorem not_null_of_isObject {v : Val} (h : isObject v = true) : isNull v = false := by
  unfold isNull
  rw [beq_eq_false_iff_ne]
  intro e; subst e
  revert h; decide

theorem getObjectStruct_of {v : Val} {o : Nat} (h : IsObj v o) : getObjectStruct v = some o := by
  simp [getObjectStruct, not_null_of_isObject h.1, h.1, h.2]

/-! ### Searching -/

theorem findShort_spec (h : Heap) (ss : Val) (p : Nat) (L : List Ent) (hc : Chain h.props.mem p L) :
    findShort h ss p = some (((L.find? fun e => e.name == ss).map Ent.addr).getD 0) := by
  induction hc with
  | nil => rw [findShort, if_pos rfl]; rfl
  | @cons p c k l h0 hm _ ih =>
    rw [findShort, if_neg h0, hm]
    simp only [Option.bind_eq_bind, Option.bind_some, List.find?_cons]
    by_cases hs : c.body.1 = ss
    · simp [hs]
    · have hs' : (c.body.1 == ss) = false := beq_eq_false_iff_ne.2 hs
      rw [if_neg hs, ih, hs']

theorem strncmpEq_takeWhile (x y : List UInt8) (hl : x.length = y.length) :
    strncmpEq x y = (x.takeWhile (· ≠ 0) == y.takeWhile (· ≠ 0)) := by
  induction x generalizing y with
  | nil => cases y with
    | nil => simp [strncmpEq]
    | cons => simp at hl
  | cons a x ih => cases y with
    | nil => simp at hl
    | cons b y =>
      have := ih y (by simpa using hl)
      rw [strncmpEq, this, Bool.eq_iff_iff]
      by_cases ha : a = 0
      · subst ha
        by_cases hb : b = 0
        · subst hb; simp
        · rw [List.takeWhile_cons_of_neg (by simp), List.takeWhile_cons_of_pos (by simpa using hb)]
          simp only [ne_eq, beq_iff_eq, Bool.and_eq_true, reduceCtorEq, iff_false, not_and]
          exact fun h => absurd h.symm hb
      · rw [List.takeWhile_cons_of_pos (by simpa using ha)]
        by_cases hb : b = 0
        · subst hb; rw [List.takeWhile_cons_of_neg (by simp)]; simp [ha]
        · rw [List.takeWhile_cons_of_pos (by simpa using hb)]; simp [ha]

theorem strncmpEq_cSame (x y : List UInt8) : (x.length == y.length && strncmpEq x y) = cSame x y := by
  unfold cSame
  by_cases hl : x.length = y.length
  · rw [strncmpEq_takeWhile x y hl]
  · have : (x.length == y.length) = false := beq_eq_false_iff_ne.2 hl
    rw [this, Bool.false_and, Bool.false_and]

theorem strcmpEq_spec (st : Store) (hi : InvS st) (v : Val) (k bs : List UInt8) (b : Ptr) (hk : Named st v k)
    (hb : load st.cmem st.owned b bs.length = some bs) (hl : bs.length < 2 ^ 32) :
    strcmpEq st v b bs.length = some (cSame k bs) := by
  rw [← strncmpEq_cSame]
  obtain ⟨⟨p, n, h1, h2, h4⟩, _, h6, _⟩ := hk
  have h3 := (load_length hi.1.1 h4).symm
  simp only [strcmpEq, h1, Option.bind_eq_bind, Option.bind_some]
  subst h3
  by_cases hlen : k.length = bs.length
  · rw [if_neg (by simpa using hlen)]
    have h8 : (k.length == bs.length) = true := beq_iff_eq.2 hlen
    rw [h8, Bool.true_and]
    rw [← hlen] at hb ⊢
    simp only [h4, hb, Option.bind_some]
  · rw [if_pos hlen, Nat.mod_eq_of_lt h6, Nat.mod_eq_of_lt hl]
    have h8 : (k.length == bs.length) = false := beq_eq_false_iff_ne.2 hlen
    rw [h8, Bool.false_and]

theorem findLong_spec (h : Heap) (hi : InvS h.str) (name : Ptr) (bs : List UInt8) (p : Nat) (L : List Ent)
    (hc : Chain h.props.mem p L) (hnm : ∀ e ∈ L, Named h.str e.name e.key)
    (hb : load h.str.cmem h.str.owned name bs.length = some bs) (hl : bs.length < 2 ^ 32) :
    findLong h name bs.length p =
      some (((L.find? fun e => cSame e.key bs).map Ent.addr).getD 0) := by
  induction hc with
  | nil => rw [findLong, if_pos rfl]; rfl
  | @cons p c k l h0 hm _ ih =>
    rw [findLong, if_neg h0, hm]
    have hk0 : Named h.str c.body.1 k := hnm ⟨p, c.body.1, k, c.body.2⟩ List.mem_cons_self
    have := strcmpEq_spec h.str hi c.body.1 k bs name hk0 hb hl
    simp only [Option.bind_eq_bind, Option.bind_some, this, List.find?_cons]
    cases cSame k bs
    · simp only [Bool.false_eq_true, if_false]
      exact ih fun e he => hnm e (by simp [he])
    · simp

theorem mkShort_spec (hr : Nat) (st : Store) (name : Ptr) (bs : List UInt8) (als : Nat → Alloc) (hs : bs.length ≤ 5)
    (hp : name.isNull = false) (hb : load st.cmem st.owned name bs.length = some bs) :
    mkStringCopy hr st name bs.length als = some (st, inlineVal bs) := by
  have hin : inlineBytes st.cmem st.owned name bs.length = some bs := by rw [inlineBytes, if_neg (by simp [hp]), hb]
  unfold inlineVal
  by_cases h4 : bs.length ≤ 4
  · simp only [mkStringCopy, if_pos h4, hin, Option.bind_eq_bind, Option.bind_some]
  · have h5 : bs.length = 5 := by omega
    simp only [mkStringCopy, if_neg h4, if_pos h5, hin, Option.bind_eq_bind, Option.bind_some]

theorem inlineVal_reads (st : Store) (bs : List UInt8) (hs : bs.length ≤ 5) : ReadsZ st (inlineVal bs) bs := by
  unfold inlineVal
  split
  · next h => exact inline4_reads st bs h
  · exact inline5_reads st bs (by omega)

theorem reads_det {st v a b} (h1 : Reads st v a) (h2 : Reads st v b) : a = b := by
  obtain ⟨p, n, e1, _, l1⟩ := h1
  obtain ⟨p', n', e2, _, l2⟩ := h2
  rw [e1] at e2; cases e2; rw [l1] at l2; cases l2; rfl

theorem named_eq_inline {st v k bs} (h : Named st v k) (hs : bs.length ≤ 5) : (v == inlineVal bs) = (k == bs) := by
  rw [Bool.eq_iff_iff, beq_iff_eq, beq_iff_eq]
  constructor
  · intro e
    exact reads_det h.1 (e ▸ (inlineVal_reads st bs hs).reads)
  · intro e
    subst e
    exact h.2.1 hs

/-- Where the property with a key is. -/
def locate (L : List Ent) (bs : List UInt8) : Nat := ((L.find? fun e => sameKey e.key bs).map Ent.addr).getD 0

/-- A key as the caller passes it: readable, not NULL, of reasonable length. -/
structure KeyPtr (st : Store) (name : Ptr) (bs : List UInt8) : Prop where
  notNull : name.isNull = false
  bytes : load st.cmem st.owned name bs.length = some bs
  len : bs.length < 2 ^ 32

theorem getOwnProperty_spec {h A fo fp} (hi : HInv h A fo fp) {o L v} (ho : A o = some L) (hv : IsObj v o)
    {name bs} (hk : KeyPtr h.str name bs) (long : Bool) (hlong : long = true → (0 : UInt8) ∉ bs) :
    getOwnProperty h v name bs.length long = some (locate L bs) := by
  obtain ⟨hu, c, hc, hch⟩ := hi.obj o L ho
  rw [getOwnProperty, if_neg (by simp [hv.1]), getObjectStruct_of hv]
  simp only [Option.bind_eq_bind, Option.bind_some, hc]
  split
  · next hs =>
    rw [mkShort_spec 0 h.str name bs _ hs.1 hk.notNull hk.bytes]
    simp only [Option.bind_some, findShort_spec h _ _ L hch, locate]
    have : L.find? (fun e => e.name == inlineVal bs) = L.find? (fun e => sameKey e.key bs) := by
      have hnm := hi.names o L ho
      clear hch ho
      have hsk : ∀ k, sameKey k bs = (k == bs) := fun k => by rw [sameKey, if_pos hs.1]
      induction L with
      | nil => rfl
      | cons e L ih =>
        rw [List.find?_cons, List.find?_cons, named_eq_inline (hnm e (by simp)) hs.1, hsk,
          ih fun e he => hnm e (by simp [he])]
    rw [this]
  · next hs =>
    rw [findLong_spec h hi.str name bs _ L hch (hi.names o L ho) hk.bytes hk.len]
    have : (fun e : Ent => cSame e.key bs) = fun e => sameKey e.key bs := by
      funext e
      by_cases h5 : bs.length ≤ 5
      · have hl : long = true := by
          cases long
          · exact absurd ⟨h5, rfl⟩ hs
          · rfl
        rw [sameKey_noNul (hlong hl), cSame_noNul (hlong hl)]
      · rw [sameKey, if_neg h5]
    rw [this]
    rfl

/-- The value stored under a key. -/
def lookup (L : List Ent) (bs : List UInt8) : Option Val := (L.find? fun e => sameKey e.key bs).map Ent.val

theorem valueAt_locate {h A fo fp} (hi : HInv h A fo fp) {o L} (ho : A o = some L) (bs : List UInt8) :
    valueAt h (locate L bs) = some ((lookup L bs).getD mkUndefined) := by
  obtain ⟨_, c, hc, hch⟩ := hi.obj o L ho
  unfold locate lookup valueAt
  cases hf : L.find? fun e => sameKey e.key bs with
  | none => simp
  | some e =>
    obtain ⟨h0, c', hc', hb⟩ := hch.at (List.mem_of_find?_eq_some hf)
    simp [h0, hc', hb]

theorem get_spec {h A fo fp} (hi : HInv h A fo fp) {o L v} (ho : A o = some L) (hv : IsObj v o)
    {name bs} (hk : KeyPtr h.str name bs) : get h v name bs.length = some ((lookup L bs).getD mkUndefined) := by
  rw [get, getOwnProperty_spec hi ho hv hk false (by simp), Option.bind_some, valueAt_locate hi ho]

/-! ### Changing the heap -/

/-- Change one entry of a map. -/
def put {β : Type} (A : Nat → Option β) (o : Nat) (x : β) : Nat → Option β := fun o' => if o' = o then some x else A o'

theorem named_mono {st st' : Store} (hi : InvS st) (hi' : InvS st') (he : Extends st st') {v bs} (h : Named st v bs) :
    Named st' v bs :=
  ⟨reads_mono hi hi' he h.1, h.2.1, h.2.2.1, fun hn => readsZ_mono hi hi' he (h.2.2.2 hn)⟩

theorem HInv.store {h A fo fp} (hi : HInv h A fo fp) {st'} (hi' : InvS st') (he : Extends h.str st') :
    HInv { h with str := st' } A fo fp :=
  ⟨hi', hi.objs, hi.props, hi.obj, hi.used, hi.nodup, hi.sep,
    fun o L ho e hem => named_mono hi.str hi' he (hi.names o L ho e hem), hi.keys⟩

theorem ok_upd {α : Type} {a : Arena α} {fl x} {c : Cell α} (h : Ok a fl) (hu : Used a fl x) :
    Ok { a with mem := upd a.mem x (some c) } fl := by
  refine ⟨h.cs, h.cs8, h.inc, h.blk, h.disj, ?_, ?_, h.nodup⟩
  · intro y
    simp only
    by_cases hy : y = x
    · subst hy; rw [upd_same, ← h.defd]; simp [hu.1]
    · rw [upd_other _ _ _ _ hy]; exact h.defd y
  · exact h.list.congr fun y hy => upd_other _ _ _ _ fun e => hu.2 (e ▸ hy)

theorem used_upd {α : Type} {a : Arena α} {fl x y} {c : Cell α} (hu : Used a fl x) :
    Used { a with mem := upd a.mem x (some c) } fl y ↔ Used a fl y := by
  unfold Used
  simp only
  by_cases hy : y = x
  · subst hy; rw [upd_same]; simp [hu.1]
  · rw [upd_other _ _ _ _ hy]

theorem HInv.nodupKeys {h A fo fp} (hi : HInv h A fo fp) {o L} (ho : A o = some L) : (L.map Ent.key).Nodup := by
  rw [List.Nodup, List.pairwise_map]
  refine (hi.keys o L ho).imp fun {a b} h e => ?_
  rw [e, sameKey_refl] at h
  cases h

/-- A list with the value of one key replaced. -/
def assign (L : List Ent) (bs : List UInt8) (v : Val) : List Ent := L.map fun e => if e.key = bs then { e with val := v } else e

theorem chain_setValue {mem : Nat → Option (Cell (Val × Val))} {p L} (h : Chain mem p L)
    (hn : (L.map Ent.addr).Nodup) (hk : (L.map Ent.key).Nodup) {e c} (he : e ∈ L) (hc : mem e.addr = some c) (v : Val) :
    Chain (upd mem e.addr (some ⟨c.head, (c.body.1, v)⟩)) p (assign L e.key v) := by
  induction h with
  | nil => simp at he
  | @cons p c' k l h0 hm hch ih =>
    rw [List.map_cons, List.nodup_cons] at hn hk
    simp only [List.mem_map, not_exists, not_and] at hn hk
    rcases List.mem_cons.1 he with rfl | he
    · simp only [assign, List.map_cons, if_true]
      replace hc : mem p = some c := hc
      rw [hm] at hc; injection hc with hc; subst hc
      have : l.map (fun e => if e.key = k then { e with val := v } else e) = l := by
        conv => rhs; rw [← List.map_id l]
        refine List.map_congr_left fun x hx => if_neg (hk.1 x hx)
      rw [this]
      refine Chain.cons (c := ⟨c'.head, (c'.body.1, v)⟩) h0 (upd_same _ _ _) (hch.congr fun x hx => ?_)
      exact upd_other _ _ _ _ (hn.1 x hx)
    · simp only [assign, List.map_cons]
      have hne : k ≠ e.key := fun h => hk.1 e he h.symm
      have hne' : p ≠ e.addr := fun h => hn.1 e he h.symm
      rw [if_neg hne]
      exact Chain.cons h0 (by rw [upd_other _ _ _ _ hne']; exact hm) (ih hn.2 hk.2 he)

theorem assign_addr (L bs v) : (assign L bs v).map Ent.addr = L.map Ent.addr := by
  simp only [assign, List.map_map]
  refine List.map_congr_left fun e _ => ?_
  simp only [Function.comp]; split <;> rfl

theorem assign_key (L bs v) : (assign L bs v).map Ent.key = L.map Ent.key := by
  simp only [assign, List.map_map]
  refine List.map_congr_left fun e _ => ?_
  simp only [Function.comp]; split <;> rfl

theorem assign_pairwise {L : List Ent} {bs v} (h : L.Pairwise fun a b => sameKey a.key b.key = false) :
    (assign L bs v).Pairwise fun a b => sameKey a.key b.key = false := by
  unfold assign
  rw [List.pairwise_map]
  refine h.imp fun {a b} h => ?_
  split <;> split <;> exact h

theorem mem_assign {L bs v e} (h : e ∈ assign L bs v) : ∃ e' ∈ L, e.addr = e'.addr ∧ e.name = e'.name ∧ e.key = e'.key := by
  simp only [assign, List.mem_map] at h
  obtain ⟨e', h, rfl⟩ := h
  refine ⟨e', h, ?_⟩
  split <;> simp

/-- Overwriting the value of a property. -/
theorem setValue_spec {h A fo fp} (hi : HInv h A fo fp) {o L} (ho : A o = some L) {e} (he : e ∈ L) (v : Val) :
    ∃ h', setValue h e.addr v = some h' ∧ h'.str = h.str ∧ HInv h' (put A o (assign L e.key v)) fo fp := by
  obtain ⟨hu, c0, hc0, hch⟩ := hi.obj o L ho
  obtain ⟨h0, c, hc, hb⟩ := hch.at he
  have hue := hi.used o L ho e he
  refine ⟨{ h with props := { h.props with mem := upd h.props.mem e.addr (some ⟨c.head, (c.body.1, v)⟩) } },
    by simp [setValue, hc], rfl, ?_⟩
  have hA : ∀ o' L', put A o (assign L e.key v) o' = some L' →
      (o' = o ∧ L' = assign L e.key v) ∨ (o' ≠ o ∧ A o' = some L') := by
    intro o' L' h
    unfold put at h
    split at h
    · cases h; exact .inl ⟨‹_›, rfl⟩
    · exact .inr ⟨‹_›, h⟩
  refine ⟨hi.str, hi.objs, ok_upd hi.props hue, ?_, ?_, ?_, ?_, ?_, ?_⟩
  · intro o' L' h'
    rcases hA o' L' h' with ⟨rfl, rfl⟩ | ⟨hne, h'⟩
    · exact ⟨hu, c0, hc0, chain_setValue hch (hi.nodup _ _ ho) (hi.nodupKeys ho) he hc v⟩
    · obtain ⟨hu', c1, hc1, hch1⟩ := hi.obj o' L' h'
      refine ⟨hu', c1, hc1, hch1.congr fun e' he' => upd_other _ _ _ _ fun eq => ?_⟩
      exact hne (hi.sep o' L' o L h' ho e' he' e he eq)
  · intro o' L' h' e' he'
    rw [used_upd hue]
    rcases hA o' L' h' with ⟨rfl, rfl⟩ | ⟨hne, h'⟩
    · obtain ⟨e1, he1, ea, _⟩ := mem_assign he'
      rw [ea]; exact hi.used _ _ ho e1 he1
    · exact hi.used o' L' h' e' he'
  · intro o' L' h'
    rcases hA o' L' h' with ⟨rfl, rfl⟩ | ⟨hne, h'⟩
    · rw [assign_addr]; exact hi.nodup _ _ ho
    · exact hi.nodup o' L' h'
  · intro o1 L1 o2 L2 h1 h2 e1 he1 e2 he2 eq
    obtain ⟨L1', k1, m1⟩ : ∃ L1', A o1 = some L1' ∧ ∃ x ∈ L1', e1.addr = x.addr := by
      rcases hA o1 L1 h1 with ⟨rfl, rfl⟩ | ⟨hne, h1⟩
      · obtain ⟨x, hx, ea, _⟩ := mem_assign he1; exact ⟨L, ho, x, hx, ea⟩
      · exact ⟨L1, h1, e1, he1, rfl⟩
    obtain ⟨L2', k2, m2⟩ : ∃ L2', A o2 = some L2' ∧ ∃ x ∈ L2', e2.addr = x.addr := by
      rcases hA o2 L2 h2 with ⟨rfl, rfl⟩ | ⟨hne, h2⟩
      · obtain ⟨x, hx, ea, _⟩ := mem_assign he2; exact ⟨L, ho, x, hx, ea⟩
      · exact ⟨L2, h2, e2, he2, rfl⟩
    obtain ⟨x, hx, ex⟩ := m1
    obtain ⟨y, hy, ey⟩ := m2
    exact hi.sep o1 L1' o2 L2' k1 k2 x hx y hy (by rw [← ex, ← ey, eq])
  · intro o' L' h' e' he'
    rcases hA o' L' h' with ⟨rfl, rfl⟩ | ⟨hne, h'⟩
    · obtain ⟨e1, he1, _, en, ek⟩ := mem_assign he'
      rw [en, ek]; exact hi.names _ _ ho e1 he1
    · exact hi.names o' L' h' e' he'
  · intro o' L' h'
    rcases hA o' L' h' with ⟨rfl, rfl⟩ | ⟨hne, h'⟩
    · exact assign_pairwise (hi.keys _ _ ho)
    · exact hi.keys o' L' h'

end Mjs.Obj
