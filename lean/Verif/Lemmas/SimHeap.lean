import Verif.Lemmas.ClientOps
import Verif.Lemmas.StrConcat
import Verif.Spec.Invisible

namespace Mjs.Spec.Invisible
open Mjs Mjs.Mbuf Mjs.Varint Mjs.Str Mjs.Arena Mjs.Obj Mjs.Spec Mjs.Spec.Gc Mjs.Gc Mjs.Spec.Invisible
open Mjs.Client (Pairs stringBytes_snoc allocCell_even mkObject_inv objectToValue_tag freeList_det chain_free)

/-- More strings and objects. -/
structure Grows (L : List (List UInt8)) (g : Nat → Option Nat) (L' : List (List UInt8)) (g' : Nat → Option Nat) : Prop where
  strs : ∃ e, L' = L ++ e
  objs : ∀ o i, g o = some i → g' o = some i

theorem Grows.refl (L g) : Grows L g L g := ⟨⟨[], by simp⟩, fun _ _ h => h⟩

theorem Grows.trans {L g L' g' L'' g''} (h : Grows L g L' g') (h' : Grows L' g' L'' g'') : Grows L g L'' g'' := by
  obtain ⟨⟨e, rfl⟩, h2⟩ := h
  obtain ⟨⟨e', rfl⟩, h4⟩ := h'
  exact ⟨⟨e ++ e', by simp⟩, fun o i h => h4 o i (h2 o i h)⟩

theorem StrRep.mono {L e v bs} (h : StrRep L v bs) : StrRep (L ++ e) v bs := by
  rcases h with h | ⟨pre, ⟨post, rfl⟩, h1, h2⟩
  · exact .inl h
  · exact .inr ⟨pre, ⟨post ++ e, by simp⟩, h1, h2⟩

theorem Rep.mono {L g L' g' v x} (h : Rep L g v x) (hg : Grows L g L' g') : Rep L' g' v x := by
  cases x with
  | imm w => exact h
  | str bs =>
    obtain ⟨e, rfl⟩ := hg.strs
    exact StrRep.mono h
  | obj t i => exact ⟨h.1, h.2.1, hg.objs _ _ h.2.2⟩

variable {h : Heap} {w : World} {L : List (List UInt8)} {g : Nat → Option Nat} {A : Nat → Option (List Ent)} {fo fp : List Nat}

/-! ### Strings -/

theorem inlineVal_string (bs : List UInt8) : isString (inlineVal bs) = true := by
  unfold inlineVal
  split
  · exact isString_tagged 6 (by decide) (mkTagged_tag _ 6)
  · exact isString_tagged 7 (by decide) (mkTagged_tag _ 7)

theorem StrRep.string {v bs} (h : StrRep L v bs) : isString v = true := by
  rcases h with ⟨_, rfl⟩ | ⟨_, _, ht, _⟩
  · exact inlineVal_string bs
  · exact isString_tagged 8 (by decide) ht

theorem refers_reads {st : Store} (hi : InvS st) (hc : st.owned.content = stringBytes L) (hs : st.owned.len < 2 ^ 48) {v pre bs}
    (h : refersTo L v pre bs) : ReadsZ st v bs := by
  obtain ⟨⟨post, rfl⟩, ht, ho⟩ := h
  obtain ⟨rest, hr⟩ := stringBytes_split pre bs post
  rw [hr] at hc
  have hcl := content_length hi.1.1
  rw [hc] at hcl
  simp only [List.length_append] at hcl
  have hv : v = mkTagged (stringBytes pre).length tagStringO := by
    refine val_ext (ht.trans (mkTagged_tag _ 8).symm) (ho.trans (mkTagged_offset _ (by omega) 8).symm)
  rw [hv]
  exact (owned_reads st hi (stringBytes pre) bs rest (by omega) (by omega) hc).2

theorem StrRep.readsZ {st : Store} (hi : InvS st) (hc : st.owned.content = stringBytes L) (hs : st.owned.len < 2 ^ 48) {v bs}
    (h : StrRep L v bs) : ReadsZ st v bs := by
  rcases h with ⟨h5, rfl⟩ | ⟨pre, h⟩
  · exact inlineVal_reads st bs h5
  · exact refers_reads hi hc hs h

theorem refers_long (hl : ∀ b ∈ L, 5 < b.length) {v pre bs} (h : refersTo L v pre bs) : 5 < bs.length := by
  obtain ⟨⟨post, rfl⟩, _⟩ := h
  exact hl bs (by simp)

theorem StrRep.named {st : Store} (hi : InvS st) (hc : st.owned.content = stringBytes L) (hs : st.owned.len < 2 ^ 48)
    (hl : ∀ b ∈ L, 5 < b.length) {v bs} (h : StrRep L v bs) (hb : bs.length < 2 ^ 32) : Named st v bs := by
  have hr := h.readsZ hi hc hs
  refine ⟨hr.reads, fun h5 => ?_, hb, fun _ => hr⟩
  rcases h with ⟨_, rfl⟩ | ⟨pre, h⟩
  · rfl
  · have := refers_long hl h
    omega

/-- The bytes of a string of the buffer are no longer than the buffer. -/
theorem StrRep.short {st : Store} (hi : InvS st) (hc : st.owned.content = stringBytes L) {v bs} (h : StrRep L v bs) :
    bs.length ≤ st.owned.len + 5 := by
  rcases h with ⟨h5, rfl⟩ | ⟨pre, ⟨post, rfl⟩, _⟩
  · omega
  · obtain ⟨rest, hr⟩ := stringBytes_split pre bs post
    have hcl := content_length hi.1.1
    rw [hc, hr] at hcl
    simp only [List.length_append] at hcl
    omega

theorem Side.readsZ (s : Side h w L g A fo fp) {v bs} (hr : StrRep L v bs) : ReadsZ h.str v bs :=
  hr.readsZ s.inv.str s.content s.room

/-- A text as the caller passes it to the engine. -/
theorem ReadsZ.keyPtr {st : Store} {v bs} (hz : ReadsZ st v bs) (hl : bs.length < 2 ^ 32) :
    ∃ p, getString st v = some (p, bs.length) ∧ KeyPtr st p bs := by
  obtain ⟨p, n, h1, h2, rfl, h4, _⟩ := hz
  exact ⟨p, h1, h2, h4, hl⟩

/-- Making a string by copying. -/
theorem copy_rep {hr st p bs als} (hi : InvS st) (hc : st.owned.content = stringBytes L) (hl : ∀ b ∈ L, 5 < b.length)
    (hp : p.isNull = false) (hb : load st.cmem st.owned p bs.length = some bs)
    (hsz : st.owned.len + bs.length + 11 < 2 ^ 48) (hal : ∀ i, AllocLow (als i)) (hg : als 1 ≠ none) :
    ∃ st' v L', mkStringCopy hr st p bs.length als = some (st', v) ∧ InvS st' ∧ Extends st st' ∧ (∃ e, L' = L ++ e) ∧
      st'.owned.content = stringBytes L' ∧ (∀ b ∈ L', 5 < b.length) ∧ StrRep L' v bs ∧
      st'.owned.len ≤ st.owned.len + bs.length + 11 ∧ st'.cmem = st.cmem := by
  obtain ⟨st', v, bs1, e, i, ex, hbl, hld, hz, _, hcm, hlen, hcase⟩ := mkStringCopy_core hr st hi p bs.length als (.inr ⟨bs, hb⟩) hsz hal hg
  have hbs : bs1 = bs := by
    have := hld hp
    rw [hb] at this
    exact (Option.some.inj this).symm
  subst hbs
  have hcl := content_length hi.1.1
  rcases hcase with ⟨h4, rfl, rfl, _⟩ | ⟨h5, rfl, rfl, _⟩ | ⟨h6, rfl, hcont⟩
  · exact ⟨st', _, L, e, i, ex, ⟨[], by simp⟩, hc, hl, .inl ⟨by omega, by rw [inlineVal, if_pos h4]⟩, hlen, hcm⟩
  · exact ⟨st', _, L, e, i, ex, ⟨[], by simp⟩, hc, hl, .inl ⟨by omega, by rw [inlineVal, if_neg (by omega)]⟩, hlen, hcm⟩
  · refine ⟨st', _, L ++ [bs1], e, i, ex, ⟨_, rfl⟩, by rw [hcont, hc, stringBytes_snoc], ?_, .inr ⟨L, ⟨[], by simp⟩, mkTagged_tag _ 8, ?_⟩, hlen, hcm⟩
    · intro b hbm
      rcases List.mem_append.1 hbm with hbm | hbm
      · exact hl b hbm
      · simp only [List.mem_singleton] at hbm; subst hbm; exact h6
    · have : valToOffset (mkTagged st.owned.len tagStringO) = st.owned.len := mkTagged_offset _ (by omega) 8
      rw [this, ← hcl, hc]

/-- Joining two strings. -/
theorem concat_rep {hr st a b x y als} (hi : InvS st) (hc : st.owned.content = stringBytes L) (hl : ∀ b ∈ L, 5 < b.length)
    (ha : Reads st a x) (hb : Reads st b y) (hsz : st.owned.len + (x.length + y.length) + 11 < 2 ^ 48)
    (hal : ∀ i, AllocLow (als i)) (hg : als 1 ≠ none) :
    ∃ st' v L', sConcat hr st a b als = some (st', v) ∧ InvS st' ∧ Extends st st' ∧ (∃ e, L' = L ++ e) ∧
      st'.owned.content = stringBytes L' ∧ (∀ b ∈ L', 5 < b.length) ∧ StrRep L' v (x ++ y) ∧
      st'.owned.len ≤ st.owned.len + (x.length + y.length) + 11 ∧ st'.cmem = st.cmem := by
  obtain ⟨st', v, e, i, ex, hz, _, hlen, hcase⟩ := sConcat_full hr st hi a b x y als ha hb hsz hal hg
  have hcl := content_length hi.1.1
  have hxy : (x ++ y).length = x.length + y.length := List.length_append
  rcases hcase with ⟨h4, rfl, rfl⟩ | ⟨h5, rfl, rfl⟩ | ⟨h6, rfl, hcont⟩
  · exact ⟨st', _, L, e, i, ex, ⟨[], by simp⟩, hc, hl, .inl ⟨by omega, by rw [inlineVal, if_pos (by omega), hxy]⟩, hlen, rfl⟩
  · exact ⟨st', _, L, e, i, ex, ⟨[], by simp⟩, hc, hl, .inl ⟨by omega, by rw [inlineVal, if_neg (by omega)]⟩, hlen, rfl⟩
  · refine ⟨st', _, L ++ [x ++ y], e, i, ex, ⟨_, rfl⟩, by rw [hcont, hc, stringBytes_snoc, hxy], ?_, .inr ⟨L, ⟨[], by simp⟩, mkTagged_tag _ 8, ?_⟩, hlen, ex.2.2⟩
    · intro b hbm
      rcases List.mem_append.1 hbm with hbm | hbm
      · exact hl b hbm
      · simp only [List.mem_singleton] at hbm; subst hbm; omega
    · have : valToOffset (mkTagged st.owned.len tagStringO) = st.owned.len := mkTagged_offset _ (by omega) 8
      rw [this, ← hcl, hc]

/-- New strings leave the objects alone. -/
theorem Side.store (s : Side h w L g A fo fp) {st' L'} (hi : InvS st') (he : Extends h.str st') (hL : ∃ e, L' = L ++ e)
    (hc : st'.owned.content = stringBytes L') (hl : ∀ b ∈ L', 5 < b.length) (hr : st'.owned.len < 2 ^ 48) :
    Side { h with str := st' } w L' g A fo fp := by
  have hg : Grows L g L' g := ⟨hL, fun _ _ h => h⟩
  refine ⟨s.inv.store hi he, hc, hl, hr, s.size, s.cleanObj, s.cleanProp, s.dom, s.inj, s.lt, ?_, ?_⟩
  · intro o Ls i ho hi
    exact (s.lists o Ls i ho hi).imp fun e q hq => ⟨hq.1, hq.2.mono hg⟩
  · intro o Ls ho e he
    obtain ⟨x, rfl⟩ := hL
    exact (s.names o Ls ho e he).mono

theorem Held.copy (s : Held h w L g) {p bs al} (hp : p.isNull = false) (hb : load h.str.cmem h.str.owned p bs.length = some bs)
    (hbl : bs.length ≤ 2 ^ 31) (hg : Granted h (2 ^ 31) al) :
    ∃ st' v L', mkStringCopy al.hr h.str p bs.length al.strs = some (st', v) ∧ Held { h with str := st' } w L' g ∧ Grows L g L' g ∧
      StrRep L' v bs ∧ st'.cmem = h.str.cmem := by
  obtain ⟨A, fo, fp, s⟩ := s
  have hroom := hg.room
  obtain ⟨st', v, L', e, i, ex, hL, hc, hl, hs, hlen, hcm⟩ :=
    copy_rep (hr := al.hr) s.inv.str s.content s.long hp hb (by omega) hg.low hg.grant
  exact ⟨st', v, L', e, ⟨A, fo, fp, s.store i ex hL hc hl (by omega)⟩, ⟨hL, fun _ _ h => h⟩, hs, hcm⟩

theorem Held.concat (s : Held h w L g) {a b x y al} (ha : StrRep L a x) (hb : StrRep L b y) (hxy : x.length + y.length ≤ 2 ^ 31)
    (hg : Granted h (2 ^ 31) al) :
    ∃ st' v L', sConcat al.hr h.str a b al.strs = some (st', v) ∧ Held { h with str := st' } w L' g ∧ Grows L g L' g ∧
      StrRep L' v (x ++ y) ∧ st'.cmem = h.str.cmem := by
  obtain ⟨A, fo, fp, s⟩ := s
  have hroom := hg.room
  obtain ⟨st', v, L', e, i, ex, hL, hc, hl, hs, hlen, hcm⟩ :=
    concat_rep (hr := al.hr) s.inv.str s.content s.long (s.readsZ ha).reads (s.readsZ hb).reads (by omega) hg.low hg.grant
  exact ⟨st', v, L', e, ⟨A, fo, fp, s.store i ex hL hc hl (by omega)⟩, ⟨hL, fun _ _ h => h⟩, hs, hcm⟩

/-! ### Objects -/

theorem Held.new (s : Held h w L g) {al} (hg : CallocOk h.objs al.obj) :
    ∃ h' v g', mkObject h al = some (h', v) ∧ Held h' w.new L g' ∧ Grows L g L g' ∧ Rep L g' v (.obj tagObject w.next) ∧
      g' (getPtrRaw v).toNat = some w.next ∧ h'.str = h.str := by
  obtain ⟨A, fo, fp, s⟩ := s
  obtain ⟨h', v, o, fo', he, hv, hA, hst, hi⟩ := mkObject_spec s.inv hg
  obtain ⟨a, o1, gc, c, e1, e2, eo, rfl⟩ := mkObject_inv he
  obtain ⟨ev, _, _, _, _⟩ := allocCell_even s.inv.objs (fun q => hg.fresh s.inv.objs q) s.cleanObj e1
  have hgo : g o = none := (s.dom o).1 hA
  have hsub : ∀ o' i, g o' = some i → put g o w.next o' = some i := by
    intro o' i hgi
    rw [put_other]
    · exact hgi
    · rintro rfl; rw [hgo] at hgi; cases hgi
  have hgr : Grows L g L (put g o w.next) := ⟨⟨[], by simp⟩, hsub⟩
  refine ⟨_, v, put g o w.next, he, ⟨put A o [], fo', fp, hi, s.content, s.long, s.room, s.size, ?_, s.cleanProp, ?_, ?_, ?_, ?_, ?_⟩, hgr,
    ⟨hv.1, objectToValue_tag eo hv.1, by rw [hv.2, put_same]⟩, by rw [hv.2, put_same], hst⟩
  · intro x c' hx
    simp only at hx
    by_cases e : x = o1
    · rw [e, upd_same] at hx; cases hx; rfl
    · rw [upd_other _ _ _ _ e] at hx
      exact ev x c' hx
  · intro x
    by_cases e : x = o
    · rw [e, put_same, put_same]; simp
    · rw [put_other _ _ e, put_other _ _ e]; exact s.dom x
  · intro x y i h1 h2
    rcases put_cases h1 with ⟨rfl, rfl⟩ | ⟨_, k1⟩ <;> rcases put_cases h2 with ⟨rfl, e2⟩ | ⟨_, k2⟩
    · rfl
    · exact absurd (s.lt _ _ k2) (Nat.lt_irrefl _)
    · subst e2; exact absurd (s.lt _ _ k1) (Nat.lt_irrefl _)
    · exact s.inj x y i k1 k2
  · intro x i h1
    show i < w.next + 1
    rcases put_cases h1 with ⟨rfl, rfl⟩ | ⟨_, k1⟩
    · omega
    · have := s.lt x i k1; omega
  · intro x Ls i h1 h2
    rcases put_cases h1 with ⟨rfl, rfl⟩ | ⟨ne, k1⟩
    · rw [put_same] at h2
      cases h2
      simp only [World.new, World.setObj, if_true]
      exact .nil
    · rw [put_other _ _ ne] at h2
      have hne : i ≠ w.next := by have := s.lt x i h2; omega
      simp only [World.new, World.setObj, if_neg hne]
      exact (s.lists x Ls i k1 h2).imp fun e q hq => ⟨hq.1, hq.2.mono hgr⟩
  · intro x Ls h1
    rcases put_cases h1 with ⟨rfl, rfl⟩ | ⟨ne, k1⟩
    · intro e he; cases he
    · exact s.names x Ls k1

/-- Changing the property list of one object. -/
theorem Side.change (s : Side h w L g A fo fp) {h' : Heap} {L' o Ls Ls' i l fp'} (hA : A o = some Ls) (hg : g o = some i)
    (hi : HInv h' (put A o Ls') fo fp') (hL : ∃ e, L' = L ++ e)
    (hc : h'.str.owned.content = stringBytes L') (hl : ∀ b ∈ L', 5 < b.length) (hr : h'.str.owned.len < 2 ^ 48) (hsz : h'.props.cellSize = 24)
    (hco : ∀ o c, h'.objs.mem o = some c → c.head % 2 = 0) (hcp : ∀ p c, h'.props.mem p = some c → c.head % 2 = 0)
    (hp : Pairs (RepEnt L' g) Ls' l) (hn : ∀ e ∈ Ls', StrRep L' e.name e.key) :
    Side h' (w.setObj i l) L' g (put A o Ls') fo fp' := by
  have hgr : Grows L g L' g := ⟨hL, fun _ _ h => h⟩
  refine ⟨hi, hc, hl, hr, hsz, hco, hcp, ?_, s.inj, s.lt, ?_, ?_⟩
  · intro x
    by_cases e : x = o
    · rw [e, put_same, hg]; simp
    · rw [put_other _ _ e]; exact s.dom x
  · intro x K j h1 h2
    rcases put_cases h1 with ⟨rfl, rfl⟩ | ⟨ne, k1⟩
    · rw [hg] at h2
      cases h2
      simp only [World.setObj, if_true]
      exact hp
    · have hne : j ≠ i := fun e => ne (s.inj x o i (e ▸ h2) hg)
      simp only [World.setObj, if_neg hne]
      exact (s.lists x K j k1 h2).imp fun e q hq => ⟨hq.1, hq.2.mono hgr⟩
  · intro x K h1
    rcases put_cases h1 with ⟨rfl, rfl⟩ | ⟨ne, k1⟩
    · exact hn
    · obtain ⟨y, rfl⟩ := hL
      exact fun e he => (s.names x K k1 e he).mono

theorem pairs_find {Ls : List Ent} {l : AObj} (hp : Pairs (RepEnt L g) Ls l) (k : List UInt8) :
    (∃ e q, Ls.find? (fun e => sameKey e.key k) = some e ∧ l.find? (fun q => sameKey q.1 k) = some q ∧ RepEnt L g e q) ∨
    (Ls.find? (fun e => sameKey e.key k) = none ∧ l.find? (fun q => sameKey q.1 k) = none) := by
  induction hp with
  | nil => exact .inr ⟨rfl, rfl⟩
  | @cons e q l1 l2 r _ ih =>
    rw [List.find?_cons, List.find?_cons, ← r.1]
    cases he : sameKey e.key k with
    | true => exact .inl ⟨e, q, rfl, rfl, r⟩
    | false => exact ih

theorem pairs_update {Ls : List Ent} {l : AObj} (hp : Pairs (RepEnt L g) Ls l) {k : List UInt8} {v x} (hr : Rep L g v x) :
    Pairs (RepEnt L g) (assign Ls k v) (l.map fun q => if q.1 = k then (q.1, x) else q) := by
  induction hp with
  | nil => exact .nil
  | @cons e q l1 l2 r _ ih =>
    simp only [assign, List.map_cons]
    refine .cons ?_ ih
    by_cases hk : e.key = k
    · rw [if_pos hk, if_pos (by rw [← r.1]; exact hk)]
      exact ⟨r.1, hr⟩
    · rw [if_neg hk, if_neg (by rw [← r.1]; exact hk)]
      exact r

/-- The property list of an object value. -/
theorem Side.obj (s : Side h w L g A fo fp) {v t i} (hv : Rep L g v (.obj t i)) :
    ∃ o Ls, IsObj v o ∧ A o = some Ls ∧ g o = some i ∧ Pairs (RepEnt L g) Ls (w.objs i) := by
  refine ⟨(getPtrRaw v).toNat, ?_⟩
  cases hA : A (getPtrRaw v).toNat with
  | none =>
    have hg := hv.2.2
    rw [(s.dom _).1 hA] at hg
    cases hg
  | some Ls => exact ⟨Ls, ⟨hv.1, rfl⟩, rfl, hv.2.2, s.lists _ _ _ hA hv.2.2⟩

theorem imm_undefined : IsImm mkUndefined := by unfold IsImm; decide

/-- Reading a property. -/
theorem Held.own (s : Held h w L g) {v t i} (hv : Rep L g v (.obj t i)) {name bs} (hk : KeyPtr h.str name bs) :
    ∃ p y, getOwnProperty h v name bs.length = some p ∧ (p = 0 ↔ (w.objs i).find? (fun q => sameKey q.1 bs) = none) ∧
      valueAt h p = some y ∧ Rep L g y (aget (w.objs i) bs) := by
  obtain ⟨A, fo, fp, s⟩ := s
  obtain ⟨o, Ls, hio, hA, hg, hp⟩ := s.obj hv
  refine ⟨locate Ls bs, (lookup Ls bs).getD mkUndefined, getOwnProperty_spec s.inv hA hio hk false (by simp), ?_, valueAt_locate s.inv hA bs, ?_⟩
  · rcases pairs_find hp bs with ⟨e, q, h1, h2, _⟩ | ⟨h1, h2⟩
    · have := (s.inv.used o Ls hA e (List.mem_of_find?_eq_some h1))
      have hne : e.addr ≠ 0 := (s.inv.props.cellAddr this.1).1 |> fun h => by omega
      simp [locate, h1, h2, hne]
    · simp [locate, h1, h2]
  · rcases pairs_find hp bs with ⟨e, q, h1, h2, r⟩ | ⟨h1, h2⟩
    · simp only [lookup, h1, aget, h2]
      exact r.2
    · simp only [lookup, h1, aget, h2]
      exact ⟨rfl, imm_undefined⟩

/-! ### Assigning a property -/

theorem setInternal_inv {h : Heap} {v o nameV name n val al h' long} (hv : IsObj v o) (he : setInternal h v nameV name n val al long = some (h', .ok)) :
    (∃ p c, h.props.mem p = some c ∧
      h' = { h with props := { h.props with mem := upd h.props.mem p (some ⟨c.head, (c.body.1, val)⟩) } }) ∨
    (∃ st' nv a p gc co, propName h nameV name n al = some ({ h with str := st' }, nv) ∧ allocCell h.props al.prop = some (a, p, gc) ∧
      h.objs.mem o = some co ∧ h'.str = st' ∧ h'.objs = { h.objs with mem := upd h.objs.mem o (some ⟨p, co.body⟩) } ∧
      h'.props.cellSize = a.cellSize ∧ h'.props.mem p = some ⟨co.head, (nv, val)⟩ ∧ ∀ x, x ≠ p → h'.props.mem x = a.mem x) := by
  simp only [setInternal, Option.bind_eq_bind, Option.bind_eq_some_iff] at he
  obtain ⟨p, hp, he⟩ := he
  by_cases h0 : p = 0
  · rw [if_pos h0, if_neg (by simp [hv.1])] at he
    simp only [Option.bind_eq_some_iff, getObjectStruct_of hv] at he
    obtain ⟨⟨h1, nv⟩, e1, o', e2, ⟨h2, q⟩, e3, h3, e4, e5⟩ := he
    cases e2
    cases e5
    right
    have hh1 : ∃ st', h1 = { h with str := st' } := by
      unfold propName at e1
      split at e1
      · split at e1
        · cases e1; exact ⟨h.str, rfl⟩
        · simp only [Option.map_eq_some_iff] at e1
          obtain ⟨r, _, e7⟩ := e1
          cases e7
          exact ⟨_, rfl⟩
      · simp only [Option.map_eq_some_iff] at e1
        obtain ⟨r, _, e7⟩ := e1
        cases e7
        exact ⟨_, rfl⟩
    obtain ⟨st', rfl⟩ := hh1
    simp only [addProperty, Option.bind_eq_bind, Option.bind_eq_some_iff] at e3
    obtain ⟨⟨a, q', gc⟩, e8, c, e9, co, e10, e11⟩ := e3
    cases e11
    simp only [setValue, Option.map_eq_some_iff] at e4
    obtain ⟨c', e12, rfl⟩ := e4
    simp only [upd_same] at e12
    cases e12
    refine ⟨st', nv, a, q', gc, co, e1, e8, e10, rfl, rfl, rfl, by simp [upd_same], fun x hx => ?_⟩
    simp only [upd_other _ _ _ _ hx]
  · rw [if_neg h0] at he
    simp only [Option.bind_eq_some_iff] at he
    obtain ⟨h1, e1, e2⟩ := he
    cases e2
    left
    simp only [setValue, Option.map_eq_some_iff] at e1
    obtain ⟨c, e3, e4⟩ := e1
    exact ⟨p, c, e3, e4.symm⟩

/-- The name of a property: the string given, or a copy of the text. -/
def GoodKey (L : List (List UInt8)) (nameV : Option Val) (bs : List UInt8) : Prop :=
  ∀ v, nameV = some v → isString v = true → StrRep L v bs

theorem propName_rep {nameV name bs al} (s : Side h w L g A fo fp) (hk : KeyPtr h.str name bs) (hn : GoodKey L nameV bs)
    (hbl : bs.length ≤ 2 ^ 31) (hg : Granted h (2 ^ 31) al) {st' nv} (he : propName h nameV name bs.length al = some ({ h with str := st' }, nv)) :
    ∃ L', (∃ e, L' = L ++ e) ∧ st'.owned.content = stringBytes L' ∧ (∀ b ∈ L', 5 < b.length) ∧ StrRep L' nv bs ∧ st'.owned.len < 2 ^ 48 := by
  have hroom := hg.room
  have copy : ∀ r, mkStringCopy al.hr h.str name bs.length al.strs = some r → (({ h with str := r.1 }, r.2) : Heap × Val) = ({ h with str := st' }, nv) →
      ∃ L', (∃ e, L' = L ++ e) ∧ st'.owned.content = stringBytes L' ∧ (∀ b ∈ L', 5 < b.length) ∧ StrRep L' nv bs ∧ st'.owned.len < 2 ^ 48 := by
    intro r hr e
    obtain ⟨st1, v1, L', e1, i, ex, hL, hc, hl, hs, hlen, hcm⟩ :=
      copy_rep (hr := al.hr) s.inv.str s.content s.long hk.notNull hk.bytes (by omega) hg.low hg.grant
    rw [e1] at hr
    cases hr
    simp only [Prod.mk.injEq, Heap.mk.injEq, and_true] at e
    obtain ⟨rfl, rfl⟩ := e
    exact ⟨L', hL, hc, hl, hs, by omega⟩
  unfold propName at he
  split at he
  · next v =>
    split at he
    · next hs =>
      simp only [Option.some.injEq, Prod.mk.injEq] at he
      obtain ⟨e1, rfl⟩ := he
      have : st' = h.str := by
        have := congrArg Heap.str e1
        exact this.symm
      subst this
      exact ⟨L, ⟨[], by simp⟩, s.content, s.long, hn v rfl hs, s.room⟩
    · rw [Option.map_eq_some_iff] at he
      obtain ⟨r, hr, e⟩ := he
      exact copy r hr e
  · rw [Option.map_eq_some_iff] at he
    obtain ⟨r, hr, e⟩ := he
    exact copy r hr e

theorem same_key_eq {Ls : List Ent} (hk : Ls.Pairwise fun a b => sameKey a.key b.key = false) {e e'} (he : e ∈ Ls) (he' : e' ∈ Ls)
    (hs : sameKey e.key e'.key = true) : e = e' := by
  induction hk with
  | nil => cases he
  | @cons a l ha _ ih =>
    rcases List.mem_cons.1 he with rfl | h1 <;> rcases List.mem_cons.1 he' with rfl | h2
    · rfl
    · rw [ha _ h2] at hs; cases hs
    · rw [sameKey_symm_false (ha _ h1)] at hs; cases hs
    · exact ih h1 h2
where
  sameKey_symm_false {a b : Key} (h : sameKey a b = false) : sameKey b a = false := by
    cases hb : sameKey b a with
    | false => rfl
    | true => rw [sameKey_symm hb] at h; cases h

theorem Held.set (s : Held h w L g) {v t i} (hv : Rep L g v (.obj t i)) {nameV name bs val x al} (hk : KeyPtr h.str name bs)
    (hn : GoodKey L nameV bs) (hbl : bs.length ≤ 2 ^ 31) (hx : Rep L g val x) (hg : Granted h (2 ^ 31) al)
    (long : Bool := false) (hlong : long = true → (0 : UInt8) ∉ bs := by simp) :
    ∃ h' L', setInternal h v nameV name bs.length val al long = some (h', .ok) ∧ Held h' (w.setObj i (aset (w.objs i) bs x)) L' g ∧
      Grows L g L' g ∧ h'.str.cmem = h.str.cmem := by
  obtain ⟨A, fo, fp, s⟩ := s
  obtain ⟨o, Ls, hio, hA, hgi, hp⟩ := s.obj hv
  have hgr : Granted h bs.length al :=
    ⟨hg.low, hg.grant, by have := hg.room; omega, hg.obj, hg.prop⟩
  have hgn : GoodName h nameV bs := fun v hv hs => (hn v hv hs).named s.inv.str s.content s.room s.long (by omega)
  obtain ⟨h', Ls', fp', e1, has, hi', hex, hcm, _⟩ := setInternal_spec s.inv hA hio hk hgn val hgr long hlong
  have hnm := s.names o Ls hA
  rcases setInternal_inv hio e1 with ⟨p, c, hpc, rfl⟩ | ⟨st', nv, a, p, gc, co, hmk, hal, hco, rfl, ho', hcs, hpm, hoth⟩
  · -- a property with this key exists
    have hcase : ∃ e ∈ Ls, sameKey e.key bs = true ∧ Ls' = assign Ls e.key val := by
      cases has with
      | @update e he hek => exact ⟨e, he, hek, rfl⟩
      | @insert q n hno =>
        -- the head of the list of `o` did not change
        exfalso
        obtain ⟨_, c1, hc1, hch1⟩ := s.inv.obj o Ls hA
        obtain ⟨_, c2, hc2, hch2⟩ := hi'.obj o _ (put_same _ _ _)
        simp only at hc2
        rw [hc1] at hc2
        cases hc2
        have := freeList_det (chain_free hch2) (l' := Ls.map Ent.addr) (by
          refine freeList_heads (chain_free hch1) ?_
          intro y hy
          simp only
          by_cases e : y = p
          · rw [e, upd_same, hpc]; rfl
          · rw [upd_other _ _ _ _ e])
        have := congrArg List.length this
        simp at this
    obtain ⟨e, he, hek, rfl⟩ := hcase
    refine ⟨_, L, e1, ⟨_, fo, fp', s.change hA hgi hi' ⟨[], by simp⟩ s.content s.long s.room s.size s.cleanObj ?_ ?_ ?_⟩, .refl _ _, rfl⟩
    · intro q c' hq
      simp only at hq
      by_cases eq : q = p
      · rw [eq, upd_same] at hq
        cases hq
        exact s.cleanProp p c hpc
      · rw [upd_other _ _ _ _ eq] at hq
        exact s.cleanProp q c' hq
    · unfold aset
      rcases pairs_find hp bs with ⟨e', q, h1, h2, r⟩ | ⟨h1, h2⟩
      · have he' := List.mem_of_find?_eq_some h1
        have hs' : sameKey e'.key bs = true := by simpa using List.find?_some h1
        have := same_key_eq (s.inv.keys o Ls hA) he he' (sameKey_trans hek (sameKey_symm hs'))
        subst this
        rw [h2]
        simp only
        rw [← r.1]
        exact pairs_update hp hx
      · have := List.find?_eq_none.1 h1 e he
        rw [hek] at this
        exact absurd rfl this
    · intro y hy
      obtain ⟨y', hy', _, e2, e3⟩ := mem_assign hy
      rw [e2, e3]
      exact hnm y' hy'
  · -- a new property
    obtain ⟨L', hL', hcont, hlong, hgood, hroom'⟩ := propName_rep s hk hn hbl hg hmk
    obtain ⟨ev, hp8, hzero, hcs', hinc'⟩ := allocCell_even s.inv.props (fun q => hgr.prop.fresh s.inv.props q) s.cleanProp hal
    obtain ⟨_, c2, hc2, hch2⟩ := hi'.obj o _ (put_same _ _ _)
    rw [ho'] at hc2
    simp only [upd_same] at hc2
    cases hc2
    simp only at hch2
    have hgrow : Grows L g L' g := ⟨hL', fun _ _ h => h⟩
    have hcase : (∀ e ∈ Ls, sameKey e.key bs = false) ∧ Ls' = ⟨p, nv, bs, val⟩ :: Ls := by
      cases has with
      | @update e he hek =>
        exfalso
        -- the new cell would be in use already
        have hh := hch2.head
        have hne : assign Ls e.key val ≠ [] := by
          intro e'
          have := congrArg List.length e'
          simp only [assign, List.length_map, List.length_nil, List.length_eq_zero_iff] at this
          rw [this] at he
          cases he
        obtain ⟨y, ys, hys⟩ := List.exists_cons_of_ne_nil hne
        rw [hys] at hh
        have hy : y ∈ assign Ls e.key val := by rw [hys]; exact List.mem_cons_self
        obtain ⟨y', hy', e2, _⟩ := mem_assign hy
        obtain ⟨_, _, _, _, e, _, _, _, nu, _⟩ := allocCell_spec h.props fp al.prop s.inv.props (fun q => hgr.prop.fresh s.inv.props q)
        rw [hal] at e
        cases e
        apply nu
        have : p = y'.addr := by rw [hh, ← e2]; rfl
        rw [this]
        exact s.inv.used o Ls hA y' hy'
      | @insert q n hno =>
        refine ⟨hno, ?_⟩
        have hh := hch2.head
        have hq : q = p := hh.symm
        subst hq
        obtain ⟨_, c3, hc3, hb3⟩ := hch2.at (e := ⟨q, n, bs, val⟩) List.mem_cons_self
        simp only at hc3
        rw [hpm] at hc3
        cases hc3
        simp only [Prod.mk.injEq] at hb3
        rw [hb3.1]
    obtain ⟨hno, rfl⟩ := hcase
    refine ⟨h', L', e1, ⟨_, fo, fp', s.change hA hgi hi' hL' hcont hlong hroom' (by rw [hcs, hcs', s.size]) ?_ ?_ ?_ ?_⟩, hgrow, hcm⟩
    · intro x c hx
      rw [ho'] at hx
      simp only at hx
      by_cases e : x = o
      · rw [e, upd_same] at hx
        cases hx
        show p % 2 = 0
        omega
      · rw [upd_other _ _ _ _ e] at hx
        exact s.cleanObj x c hx
    · intro x c hx
      by_cases e : x = p
      · rw [e, hpm] at hx
        cases hx
        exact s.cleanObj o co hco
      · rw [hoth x e] at hx
        exact ev x c hx
    · unfold aset
      rcases pairs_find hp bs with ⟨e', q, h1, h2, r⟩ | ⟨h1, h2⟩
      · have he' := List.mem_of_find?_eq_some h1
        have hs' : sameKey e'.key bs = true := by simpa using List.find?_some h1
        rw [hno e' he'] at hs'
        cases hs'
      · rw [h2]
        exact .cons ⟨rfl, hx.mono hgrow⟩ (hp.imp fun e q hq => ⟨hq.1, hq.2.mono hgrow⟩)
    · intro y hy
      rcases List.mem_cons.1 hy with rfl | hy
      · exact hgood
      · obtain ⟨z, rfl⟩ := hL'
        exact (hnm y hy).mono

end Mjs.Spec.Invisible
