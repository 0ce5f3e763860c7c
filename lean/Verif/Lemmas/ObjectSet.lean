import Verif.Lemmas.Object
import Verif.Props.Value

namespace Mjs.Obj
open Mjs Mjs.Mbuf Mjs.Str Mjs.Arena Mjs.Spec Mjs.Props

theorem put_cases {β : Type} {A : Nat → Option β} {o x o' y} (h : put A o x o' = some y) :
    (o' = o ∧ y = x) ∨ (o' ≠ o ∧ A o' = some y) := by
  unfold put at h
  split at h
  · cases h; exact .inl ⟨‹_›, rfl⟩
  · exact .inr ⟨‹_›, h⟩

theorem put_same {β : Type} (A : Nat → Option β) (o x) : put A o x o = some x := by simp [put]

theorem put_other {β : Type} (A : Nat → Option β) {o o' : Nat} (x) (h : o' ≠ o) : put A o x o' = A o' := by simp [put, h]

/-- Adding a property in front. -/
theorem addProperty_spec {h A fo fp} (hi : HInv h A fo fp) {o L} (ho : A o = some L) {name key} (val : Val)
    (hn : Named h.str name key) (hk : ∀ e ∈ L, sameKey key e.key = false) (al : Allocs)
    (hb : fp = [] → ∃ b, al.prop = some b ∧ Fresh h.props b h.props.inc) :
    ∃ h' p fp', addProperty h o name val al = some (h', p) ∧ p ≠ 0 ∧ h'.str = h.str ∧ h'.objs.cellSize = h.objs.cellSize ∧
      h'.objs.inc = h.objs.inc ∧ h'.props.cellSize = h.props.cellSize ∧ h'.props.inc = h.props.inc ∧
      HInv h' (put A o (⟨p, name, key, val⟩ :: L)) fo fp' := by
  obtain ⟨hu, c0, hc0, hch⟩ := hi.obj o L ho
  obtain ⟨a', p, g, fp', e, cs, inc, ok, nu, up, mp, old, _, _⟩ := allocCell_spec h.props fp al.prop hi.props hb
  have hp0 : p ≠ 0 := by have := ok.cellAddr up.1; omega
  refine ⟨{ h with
    props := { a' with mem := upd a'.mem p (some ⟨c0.head, (name, val)⟩) }
    objs := { h.objs with mem := upd h.objs.mem o (some ⟨p, c0.body⟩) } }, p, fp',
    by simp [addProperty, e, mp, hc0], hp0, rfl, rfl, rfl, cs, inc, ?_⟩
  have hne : ∀ o' L', A o' = some L' → ∀ e ∈ L', e.addr ≠ p := fun o' L' h' e he eq => nu (eq ▸ hi.used o' L' h' e he)
  have hcongr : ∀ o' L', A o' = some L' → ∀ q, Chain h.props.mem q L' →
      Chain (upd a'.mem p (some ⟨c0.head, (name, val)⟩)) q L' := by
    intro o' L' h' q hq
    refine hq.congr fun x hx => ?_
    rw [upd_other _ _ _ _ (hne o' L' h' x hx)]
    exact (old _ (hi.used o' L' h' x hx)).2
  refine ⟨hi.str, ok_upd hi.objs hu, ok_upd ok up, ?_, ?_, ?_, ?_, ?_, ?_⟩
  · intro o' L' h'
    rcases put_cases h' with ⟨rfl, rfl⟩ | ⟨hno, h'⟩
    · refine ⟨(used_upd hu).2 hu, ⟨p, c0.body⟩, upd_same _ _ _, ?_⟩
      exact Chain.cons (c := ⟨c0.head, (name, val)⟩) hp0 (upd_same _ _ _) (hcongr _ _ ho _ hch)
    · obtain ⟨hu', c1, hc1, hch1⟩ := hi.obj o' L' h'
      exact ⟨(used_upd hu).2 hu', c1, by simp only; rw [upd_other _ _ _ _ hno]; exact hc1, hcongr _ _ h' _ hch1⟩
  · intro o' L' h' e' he'
    rw [used_upd up]
    rcases put_cases h' with ⟨rfl, rfl⟩ | ⟨hno, h'⟩
    · rcases List.mem_cons.1 he' with rfl | he'
      · exact up
      · exact (old _ (hi.used _ _ ho _ he')).1
    · exact (old _ (hi.used o' L' h' e' he')).1
  · intro o' L' h'
    rcases put_cases h' with ⟨rfl, rfl⟩ | ⟨hno, h'⟩
    · rw [List.map_cons, List.nodup_cons]
      refine ⟨?_, hi.nodup _ _ ho⟩
      simp only [List.mem_map, not_exists, not_and]
      exact fun x hx => hne _ _ ho x hx
    · exact hi.nodup o' L' h'
  · intro o1 L1 o2 L2 h1 h2 e1 he1 e2 he2 eq
    rcases put_cases h1 with ⟨rfl, rfl⟩ | ⟨n1, k1⟩ <;> rcases put_cases h2 with ⟨rfl, rfl⟩ | ⟨n2, k2⟩
    · rfl
    · rcases List.mem_cons.1 he1 with rfl | he1
      · exact absurd eq.symm (hne _ _ k2 _ he2)
      · exact hi.sep _ _ _ _ ho k2 _ he1 _ he2 eq
    · rcases List.mem_cons.1 he2 with rfl | he2
      · exact absurd eq (hne _ _ k1 _ he1)
      · exact hi.sep _ _ _ _ k1 ho _ he1 _ he2 eq
    · exact hi.sep _ _ _ _ k1 k2 _ he1 _ he2 eq
  · intro o' L' h' e' he'
    rcases put_cases h' with ⟨rfl, rfl⟩ | ⟨hno, h'⟩
    · rcases List.mem_cons.1 he' with rfl | he'
      · exact hn
      · exact hi.names _ _ ho _ he'
    · exact hi.names o' L' h' e' he'
  · intro o' L' h'
    rcases put_cases h' with ⟨rfl, rfl⟩ | ⟨hno, h'⟩
    · exact List.pairwise_cons.2 ⟨hk, hi.keys _ _ ho⟩
    · exact hi.keys o' L' h'

/-- What an assignment makes of a property list: the value of the key replaced, or a new property in front. -/
inductive Assigned (L : List Ent) (bs : List UInt8) (v : Val) : List Ent → Prop
  | update {e} : e ∈ L → sameKey e.key bs = true → Assigned L bs v (assign L e.key v)
  | insert {p n} : (∀ e ∈ L, sameKey e.key bs = false) → Assigned L bs v (⟨p, n, bs, v⟩ :: L)

/-- `calloc` returns a usable block when an arena has to grow. -/
def CallocOk {α : Type} (a : Arena α) (base : Option Nat) : Prop := a.free = 0 → ∃ b, base = some b ∧ Fresh a b a.inc

/-- The C allocator grants what an operation that makes a string of `need` bytes, an object or a property asks for. -/
structure Granted (h : Heap) (need : Nat) (al : Allocs) : Prop where
  low : ∀ i, AllocLow (al.strs i)
  grant : al.strs 1 ≠ none
  room : h.str.owned.len + need + 11 < 2 ^ 48
  obj : CallocOk h.objs al.obj
  prop : CallocOk h.props al.prop

theorem CallocOk.fresh {α : Type} {a : Arena α} {base fl} (h : CallocOk a base) (hok : Ok a fl) (hfl : fl = []) :
    ∃ b, base = some b ∧ Fresh a b a.inc := by
  refine h ?_
  have := hok.list.head
  rw [hfl] at this
  exact this

theorem assign_self (L : List Ent) (bs : List UInt8) (v : Val) : assign (⟨p, n, bs, v⟩ :: L) bs v = ⟨p, n, bs, v⟩ :: assign L bs v := by
  simp [assign]

theorem assign_absent {L : List Ent} {bs : List UInt8} (v : Val) (h : ∀ e ∈ L, e.key ≠ bs) : assign L bs v = L := by
  unfold assign
  conv => rhs; rw [← List.map_id L]
  exact List.map_congr_left fun e he => if_neg (h e he)

theorem find_key {L : List Ent} {bs : List UInt8} :
    (∃ e ∈ L, sameKey e.key bs = true ∧ L.find? (fun e => sameKey e.key bs) = some e) ∨
      ((∀ e ∈ L, sameKey e.key bs = false) ∧ L.find? (fun e => sameKey e.key bs) = none) := by
  cases hf : L.find? fun e => sameKey e.key bs with
  | none =>
    refine .inr ⟨fun e he => ?_, rfl⟩
    simpa using List.find?_eq_none.1 hf e he
  | some e => exact .inl ⟨e, List.mem_of_find?_eq_some hf, by simpa using List.find?_some hf, rfl⟩

/-- The name for a new property is good. -/
def GoodName (h : Heap) (nameV : Option Val) (bs : List UInt8) : Prop :=
  ∀ v, nameV = some v → isString v = true → Named h.str v bs

theorem copy_named {h : Heap} (hi : InvS h.str) {name bs} (hk : KeyPtr h.str name bs) {al : Allocs}
    (low : ∀ i, AllocLow (al.strs i)) (grant : al.strs 1 ≠ none) (room : h.str.owned.len + bs.length + 11 < 2 ^ 48) :
    ∃ st' nv, mkStringCopy al.hr h.str name bs.length al.strs = some (st', nv) ∧ InvS st' ∧ Extends h.str st' ∧
      Named st' nv bs ∧ st'.cmem = h.str.cmem ∧ st'.owned.len ≤ h.str.owned.len + bs.length + 11 := by
  obtain ⟨st', v, bs', e, i', ex, hl, hsrc, hz, _, hc, hlen, hcase⟩ :=
    mkStringCopy_core al.hr h.str hi name bs.length al.strs (.inr ⟨bs, hk.bytes⟩) room low grant
  have hbs : bs' = bs := by
    have := hsrc hk.notNull
    rw [hk.bytes] at this
    exact (Option.some.inj this).symm
  subst hbs
  refine ⟨st', v, e, i', ex, ⟨hz.reads, ?_, hk.len, fun _ => hz⟩, hc, hlen⟩
  intro hs
  unfold inlineVal
  rcases hcase with ⟨h4, _, hv, _⟩ | ⟨h5, _, hv, _⟩ | ⟨h6, _⟩
  · rw [if_pos h4]; exact hv
  · rw [if_neg (by omega)]; exact hv
  · omega

theorem propName_spec {h : Heap} (hi : InvS h.str) {nameV name bs} (hk : KeyPtr h.str name bs) (hg : GoodName h nameV bs)
    {al : Allocs} (low : ∀ i, AllocLow (al.strs i)) (grant : al.strs 1 ≠ none)
    (room : h.str.owned.len + bs.length + 11 < 2 ^ 48) :
    ∃ st' nv, propName h nameV name bs.length al = some ({ h with str := st' }, nv) ∧ InvS st' ∧ Extends h.str st' ∧
      Named st' nv bs ∧ st'.cmem = h.str.cmem ∧ st'.owned.len ≤ h.str.owned.len + bs.length + 11 := by
  obtain ⟨st', nv, e, i', ex, hn, hc, hl⟩ := copy_named hi hk low grant room
  unfold propName
  cases nameV with
  | none => exact ⟨st', nv, by simp [e], i', ex, hn, hc, hl⟩
  | some v =>
    by_cases hv : isString v = true
    · exact ⟨h.str, v, by simp [hv], hi, Extends.refl _, hg v rfl hv, rfl, by omega⟩
    · exact ⟨st', nv, by simp [hv, e], i', ex, hn, hc, hl⟩

/-- Assigning to a key that is not found. -/
theorem setInternal_insert {h A fo fp} (hi : HInv h A fo fp) {o L v} (ho : A o = some L) (hv : IsObj v o)
    {nameV name bs} (hk : KeyPtr h.str name bs) (hg : GoodName h nameV bs) (val : Val) {al : Allocs}
    (gr : Granted h bs.length al) (long : Bool) (hgp : getOwnProperty h v name bs.length long = some 0)
    (hno : ∀ e ∈ L, sameKey e.key bs = false) :
    ∃ h' L' fp', setInternal h v nameV name bs.length val al long = some (h', .ok) ∧ Assigned L bs val L' ∧
      HInv h' (put A o L') fo fp' ∧ Extends h.str h'.str ∧ h'.str.cmem = h.str.cmem ∧
      h'.str.owned.len ≤ h.str.owned.len + bs.length + 11 := by
  obtain ⟨_, c0, hc0, hch⟩ := hi.obj o L ho
  obtain ⟨st', nv, e1, i', ex, hn, hc, hl⟩ := propName_spec hi.str hk hg gr.low gr.grant gr.room
  have hi1 := hi.store i' ex
  have hno' : ∀ e ∈ L, sameKey bs e.key = false := fun e he => by
    cases hsk : sameKey bs e.key with
    | false => rfl
    | true => have := sameKey_symm hsk; rw [hno e he] at this; cases this
  have hne : ∀ e ∈ L, e.key ≠ bs := fun e he eq => by
    have := hno e he; rw [eq, sameKey_refl] at this; cases this
  obtain ⟨h2, p, fp', e2, hp0, e3, _, _, _, _, hi2⟩ :=
    addProperty_spec hi1 ho val hn hno' al (fun e => gr.prop.fresh hi.props e)
  have he : (⟨p, nv, bs, val⟩ : Ent) ∈ (⟨p, nv, bs, val⟩ :: L : List Ent) := List.mem_cons_self
  obtain ⟨h3, e4, e5, hi3⟩ := setValue_spec hi2 (put_same _ _ _) he val
  refine ⟨h3, ⟨p, nv, bs, val⟩ :: L, fp', ?_, .insert hno, ?_, ?_, ?_, ?_⟩
  · rw [setInternal, hgp, Option.bind_eq_bind, Option.bind_some, if_pos rfl, if_neg (by simp [hv.1]), e1]
    simp only [Option.bind_eq_bind, Option.bind_some, getObjectStruct_of hv, e2, e4]
  · simp only [assign_self, assign_absent val hne] at hi3
    have : put (put A o (⟨p, nv, bs, val⟩ :: L)) o (⟨p, nv, bs, val⟩ :: L) = put A o (⟨p, nv, bs, val⟩ :: L) := by
      funext x; unfold put; split <;> simp_all
    rw [this] at hi3
    exact hi3
  · rw [e5, e3]; exact ex
  · rw [e5, e3]; exact hc
  · rw [e5, e3]; exact hl

/-- Assigning a property. -/
theorem setInternal_spec {h A fo fp} (hi : HInv h A fo fp) {o L v} (ho : A o = some L) (hv : IsObj v o)
    {nameV name bs} (hk : KeyPtr h.str name bs) (hg : GoodName h nameV bs) (val : Val) {al : Allocs}
    (gr : Granted h bs.length al) (long : Bool) (hlong : long = true → (0 : UInt8) ∉ bs) :
    ∃ h' L' fp', setInternal h v nameV name bs.length val al long = some (h', .ok) ∧ Assigned L bs val L' ∧
      HInv h' (put A o L') fo fp' ∧ Extends h.str h'.str ∧ h'.str.cmem = h.str.cmem ∧
      h'.str.owned.len ≤ h.str.owned.len + bs.length + 11 := by
  have hgp := getOwnProperty_spec hi ho hv hk long hlong
  obtain ⟨_, c0, hc0, hch⟩ := hi.obj o L ho
  rcases find_key (L := L) (bs := bs) with ⟨e, he, hek, hf⟩ | ⟨hno, hf⟩
  · have hloc : locate L bs = e.addr := by simp [locate, hf]
    obtain ⟨h', e1, e2, hi'⟩ := setValue_spec hi ho he val
    refine ⟨h', assign L e.key val, fp, ?_, .update he hek, hi', ?_, ?_, ?_⟩
    · rw [setInternal, hgp, Option.bind_eq_bind, Option.bind_some, hloc, if_neg (hch.at he).1, e1]
      rfl
    · rw [e2]; exact Extends.refl _
    · rw [e2]
    · rw [e2]; omega
  · have hloc : locate L bs = 0 := by simp [locate, hf]
    exact setInternal_insert hi ho hv hk hg val gr long (hloc ▸ hgp) hno

/-! ### Deleting -/

theorem delMatch_spec (st : Store) (hi : InvS st) (v : Val) (k bs : List UInt8) (b : Ptr) (hk : Named st v k)
    (hb : load st.cmem st.owned b bs.length = some bs) :
    delMatch st v b bs.length = some (cSame k bs) := by
  rw [← strncmpEq_cSame]
  obtain ⟨⟨p, n, h1, h2, h4⟩, _, h6⟩ := hk
  have h3 := (load_length hi.1.1 h4).symm
  simp only [delMatch, h1, Option.bind_eq_bind, Option.bind_some]
  subst h3
  by_cases hlen : k.length = bs.length
  · rw [if_pos hlen]
    have h8 : (k.length == bs.length) = true := beq_iff_eq.2 hlen
    rw [h8, Bool.true_and]
    rw [← hlen] at hb ⊢
    simp only [h4, hb, Option.bind_some]
  · rw [if_neg hlen]
    have h8 : (k.length == bs.length) = false := beq_eq_false_iff_ne.2 hlen
    rw [h8, Bool.false_and]

/-- The link that leads to a property: of the object or of the property before it. -/
def lastAddr (pre : List Ent) : Nat := (pre.getLast?.map Ent.addr).getD 0

theorem lastAddr_snoc (pre : List Ent) (e : Ent) : lastAddr (pre ++ [e]) = e.addr := by simp [lastAddr]

theorem Chain.split {mem : Nat → Option (Cell (Val × Val))} {p pre e rest} (h : Chain mem p (pre ++ e :: rest)) :
    ∃ c, mem e.addr = some c ∧ c.body = (e.name, e.val) ∧ e.addr ≠ 0 ∧ Chain mem c.head rest := by
  induction pre generalizing p with
  | nil => cases h with | cons h0 hm hc => exact ⟨_, hm, rfl, h0, hc⟩
  | cons x pre ih => cases h with | cons h0 hm hc => exact ih hc

theorem chain_unlink {mem : Nat → Option (Cell (Val × Val))} {p pre x e rest c cx} (h : Chain mem p (pre ++ x :: e :: rest))
    (hn : ((pre ++ x :: e :: rest).map Ent.addr).Nodup) (hc : mem e.addr = some c) (hx : mem x.addr = some cx) :
    Chain (upd mem x.addr (some ⟨c.head, cx.body⟩)) p (pre ++ x :: rest) := by
  induction pre generalizing p with
  | nil =>
    simp only [List.nil_append] at h hn ⊢
    have hp : p = x.addr := h.head
    obtain ⟨c1, hc1, hb1, h01, hr⟩ := Chain.split (pre := []) h
    obtain ⟨c2, hc2, hb2, h02, hr2⟩ := Chain.split (pre := []) hr
    rw [hx] at hc1; cases hc1
    rw [hc] at hc2; cases hc2
    subst hp
    have he : x = ⟨x.addr, cx.body.1, x.key, cx.body.2⟩ := by rw [hb1]
    conv => arg 3; rw [he]
    refine Chain.cons (c := ⟨c.head, cx.body⟩) h01 (upd_same _ _ _) (hr2.congr fun y hy => upd_other _ _ _ _ ?_)
    simp only [List.map_cons, List.nodup_cons, List.mem_cons, List.mem_map, not_or, not_exists, not_and] at hn
    exact hn.1.2 y hy
  | cons y pre ih =>
    simp only [List.cons_append, List.map_cons, List.nodup_cons] at h hn ⊢
    cases h with
    | @cons _ c1 k _ h0 hm hc1 =>
      refine Chain.cons h0 ?_ (ih hc1 hn.2)
      rw [upd_other]
      · exact hm
      · intro eq
        exact hn.1 (List.mem_map.2 ⟨x, by simp, eq.symm⟩)

/-- Removing one property keeps the invariant. -/
theorem unlink_spec {h A fo fp} (hi : HInv h A fo fp) {o pre e rest} (ho : A o = some (pre ++ e :: rest)) {c}
    (hc : h.props.mem e.addr = some c) :
    ∃ h', unlink h o (lastAddr pre) c.head = some h' ∧ h'.str = h.str ∧ HInv h' (put A o (pre ++ rest)) fo fp := by
  obtain ⟨hu, c0, hc0, hch⟩ := hi.obj o _ ho
  have hnd := hi.nodup o _ ho
  have hsub : ∀ y ∈ pre ++ rest, y ∈ pre ++ e :: rest := by
    intro y hy; simp only [List.mem_append, List.mem_cons] at hy ⊢; exact hy.imp_right .inr
  have hsl : (pre ++ rest).Sublist (pre ++ e :: rest) := List.Sublist.append_left (List.sublist_cons_self e rest) pre
  -- the parts of the invariant that do not speak of memory
  have fin : ∀ h' : Heap, h'.str = h.str → Ok h'.objs fo → Ok h'.props fp →
      (∀ x, Used h.objs fo x → Used h'.objs fo x) → (∀ x, Used h.props fp x → Used h'.props fp x) →
      (∀ o' L', put A o (pre ++ rest) o' = some L' → ∃ c, h'.objs.mem o' = some c ∧ Chain h'.props.mem c.head L') →
      HInv h' (put A o (pre ++ rest)) fo fp := by
    intro h' hs hok1 hok2 hu1 hu2 hchain
    refine ⟨hs ▸ hi.str, hok1, hok2, ?_, ?_, ?_, ?_, ?_, ?_⟩
    · intro o' L' h''
      refine ⟨hu1 _ ?_, hchain o' L' h''⟩
      rcases put_cases h'' with ⟨rfl, rfl⟩ | ⟨_, h''⟩
      · exact hu
      · exact (hi.obj _ _ h'').1
    · intro o' L' h'' y hy
      refine hu2 _ ?_
      rcases put_cases h'' with ⟨rfl, rfl⟩ | ⟨_, h''⟩
      · exact hi.used _ _ ho _ (hsub y hy)
      · exact hi.used _ _ h'' _ hy
    · intro o' L' h''
      rcases put_cases h'' with ⟨rfl, rfl⟩ | ⟨_, h''⟩
      · exact (hsl.map _).nodup hnd
      · exact hi.nodup _ _ h''
    · intro o1 L1 o2 L2 h1 h2 e1 he1 e2 he2 eq
      rcases put_cases h1 with ⟨rfl, rfl⟩ | ⟨n1, k1⟩ <;> rcases put_cases h2 with ⟨rfl, rfl⟩ | ⟨n2, k2⟩
      · rfl
      · exact hi.sep _ _ _ _ ho k2 _ (hsub _ he1) _ he2 eq
      · exact hi.sep _ _ _ _ k1 ho _ he1 _ (hsub _ he2) eq
      · exact hi.sep _ _ _ _ k1 k2 _ he1 _ he2 eq
    · intro o' L' h'' y hy
      rw [hs]
      rcases put_cases h'' with ⟨rfl, rfl⟩ | ⟨_, h''⟩
      · exact hi.names _ _ ho _ (hsub y hy)
      · exact hi.names _ _ h'' _ hy
    · intro o' L' h''
      rcases put_cases h'' with ⟨rfl, rfl⟩ | ⟨_, h''⟩
      · exact (hi.keys _ _ ho).sublist hsl
      · exact hi.keys _ _ h''
  rcases List.eq_nil_or_concat pre with rfl | ⟨pre', x, rfl⟩
  · refine ⟨{ h with objs := { h.objs with mem := upd h.objs.mem o (some ⟨c.head, c0.body⟩) } }, ?_, rfl, ?_⟩
    · simp [unlink, lastAddr, hc0]
    · refine fin _ rfl (ok_upd hi.objs hu) hi.props (fun x hx => (used_upd hu).2 hx) (fun _ hx => hx) ?_
      intro o' L' h'
      rcases put_cases h' with ⟨rfl, rfl⟩ | ⟨hne, h'⟩
      · obtain ⟨c', hc', _, _, hr⟩ := hch.split
        rw [hc] at hc'; cases hc'
        exact ⟨_, upd_same _ _ _, hr⟩
      · obtain ⟨_, c1, hc1, hch1⟩ := hi.obj o' L' h'
        exact ⟨c1, by simp only; rw [upd_other _ _ _ _ hne]; exact hc1, hch1⟩
  · simp only [List.concat_eq_append] at *
    have hxm : x ∈ pre' ++ [x] ++ e :: rest := by simp
    obtain ⟨hx0, cx, hcx, _⟩ := hch.at hxm
    have hux := hi.used _ _ ho _ hxm
    refine ⟨{ h with props := { h.props with mem := upd h.props.mem x.addr (some ⟨c.head, cx.body⟩) } }, ?_, rfl, ?_⟩
    · rw [unlink, lastAddr_snoc, if_pos hx0, hcx]; rfl
    · refine fin _ rfl hi.objs (ok_upd hi.props hux) (fun _ hx => hx) (fun y hy => (used_upd hux).2 hy) ?_
      intro o' L' h'
      rcases put_cases h' with ⟨rfl, rfl⟩ | ⟨hne, h'⟩
      · refine ⟨c0, hc0, ?_⟩
        rw [List.append_assoc] at hch hnd ⊢
        exact chain_unlink hch hnd hc hcx
      · obtain ⟨_, c1, hc1, hch1⟩ := hi.obj o' L' h'
        refine ⟨c1, hc1, hch1.congr fun y hy => upd_other _ _ _ _ fun eq => ?_⟩
        exact hne (hi.sep _ _ _ _ h' ho _ hy _ hxm eq)

theorem delLoop_spec {h A fo fp} (hi : HInv h A fo fp) {o pre post} (ho : A o = some (pre ++ post)) {name bs}
    (hk : KeyPtr h.str name bs) (hpre : ∀ e ∈ pre, cSame e.key bs = false) {p} (hc : Chain h.props.mem p post) :
    ∃ h' b, delLoop h o name bs.length (lastAddr pre) p = some (h', b) ∧
      (b = true ↔ ∃ e ∈ pre ++ post, cSame e.key bs = true) ∧
      h'.str = h.str ∧ HInv h' (put A o ((pre ++ post).eraseP fun e => cSame e.key bs)) fo fp := by
  induction post generalizing pre p with
  | nil =>
    cases hc
    refine ⟨h, false, by rw [delLoop, if_pos rfl], ?_, rfl, ?_⟩
    · simp only [List.append_nil]
      constructor
      · intro h; cases h
      · rintro ⟨e, he, hek⟩; rw [hpre e he] at hek; cases hek
    · have hf : (pre ++ []).eraseP (fun e => cSame e.key bs) = pre := by
        simp only [List.append_nil]
        exact List.eraseP_of_forall_not fun e he => by simp [hpre e he]
      rw [hf]
      have : put A o pre = A := by
        funext x; unfold put; split
        · next h => subst h; simpa using ho.symm
        · rfl
      rw [this]; exact hi
  | cons e post ih =>
    have hnm := hi.names _ _ ho e (by simp)
    have hdm := delMatch_spec h.str hi.str e.name e.key bs name hnm hk.bytes
    cases hc with
    | @cons _ c k _ h0 hm hch =>
      rw [delLoop, if_neg h0, hm]
      simp only [Option.bind_eq_bind, Option.bind_some]
      simp only at hdm
      rw [hdm]
      simp only [Option.bind_some]
      cases hkb : cSame k bs with
      | true =>
        obtain ⟨h', e1, e2, hi'⟩ := unlink_spec hi ho (c := c) hm
        refine ⟨h', true, by simp [e1], ?_, e2, ?_⟩
        · simp only [true_iff]
          exact ⟨_, by simp; exact .inr (.inl rfl), hkb⟩
        · have hf : (pre ++ ⟨p, c.body.1, k, c.body.2⟩ :: post).eraseP (fun e => cSame e.key bs) = pre ++ post := by
            rw [List.eraseP_append_right _ (fun e he => by simp [hpre e he]), List.eraseP_cons_of_pos (by simpa using hkb)]
          rw [hf]; exact hi'
      | false =>
        have := ih (pre := pre ++ [⟨p, c.body.1, k, c.body.2⟩]) (by simpa using ho) (by
          intro y hy
          rcases List.mem_append.1 hy with hy | hy
          · exact hpre y hy
          · simp only [List.mem_singleton] at hy; subst hy; exact hkb) hch
        rw [lastAddr_snoc] at this
        simpa using this

/-- `mjs_del`. -/
theorem del_spec {h A fo fp} (hi : HInv h A fo fp) {o L v} (ho : A o = some L) (hv : IsObj v o) {name bs}
    (hk : KeyPtr h.str name bs) :
    ∃ h' b, del h v name bs.length = some (h', b) ∧ (b = true ↔ ∃ e ∈ L, cSame e.key bs = true) ∧
      h'.str = h.str ∧ HInv h' (put A o (L.eraseP fun e => cSame e.key bs)) fo fp := by
  obtain ⟨_, c0, hc0, hch⟩ := hi.obj o L ho
  obtain ⟨h', b, e, r⟩ := delLoop_spec hi (pre := []) (post := L) ho hk (by simp) hch
  refine ⟨h', b, ?_, by simpa using r⟩
  rw [del, if_neg (by simp [hv.1]), getObjectStruct_of hv]
  simp only [Option.bind_eq_bind, Option.bind_some, hc0]
  exact e

/-! ### Creating objects -/

theorem objectToValue_isObj {o : Nat} (h0 : 0 < o) (h1 : o < 2 ^ 47) :
    ∃ v, objectToValue (BitVec.ofNat 64 o) = some v ∧ IsObj v o := by
  have ht : (BitVec.ofNat 64 o).toNat = o := by rw [BitVec.toNat_ofNat]; omega
  have hs : (BitVec.ofNat 64 o).toNat < 2 ^ 48 := by omega
  have hne : BitVec.ofNat 64 o ≠ 0#64 := by
    intro e
    have := congrArg BitVec.toNat e
    rw [ht] at this
    simp at this; omega
  have hm := small_and_mask _ hs
  have he : objectToValue (BitVec.ofNat 64 o) = some (pointerToValue (BitVec.ofNat 64 o) ||| tagObject) := by
    simp [objectToValue, hne, isPointerLegit, hm]
  refine ⟨_, he, ((C04_constructors.2.2.2.2.2.2.1 _ _ hne he).1 .object).2 rfl, ?_⟩
  have : getPtrRaw (pointerToValue (BitVec.ofNat 64 o) ||| tagObject) = BitVec.ofNat 64 o := by
    simp only [getPtrRaw, pointerToValue, not_tagMask, and_compl_of_zero _ hm]
    exact payload_mk _ tagObject (by decide) hm
  rw [this, ht]

theorem toArrayTag_isObj {v o} (h : IsObj v o) : IsObj (toArrayTag v) o := by
  have hb : ∀ x : Val, isObject (toArrayTag x) = true ∧ getPtrRaw (toArrayTag x) = getPtrRaw x := by
    intro x
    have ht : toArrayTag x &&& tagMask = tagArray := tag_mk x tagArray (by decide)
    refine ⟨by simp [isObject, ht], ?_⟩
    apply BitVec.eq_of_getLsbD_eq
    intro i hi
    have hm : ∀ j : Fin 64, ((0xFFFFFFFFFFFF#64 : Val).getLsbD j.val = true →
        tagMask.getLsbD j.val = false ∧ tagArray.getLsbD j.val = false) := by decide
    have := hm ⟨i, hi⟩
    simp only [getPtrRaw, toArrayTag, BitVec.getLsbD_and, BitVec.getLsbD_or, BitVec.getLsbD_not, hi, decide_true,
      Bool.true_and]
    cases h1 : (0xFFFFFFFFFFFF#64 : Val).getLsbD i
    · simp
    · obtain ⟨h2, h3⟩ := this h1
      simp [h2, h3]
  exact ⟨(hb v).1, by rw [(hb v).2]; exact h.2⟩

/-- `mjs_mk_object`. -/
theorem mkObject_spec {h A fo fp} (hi : HInv h A fo fp) {al : Allocs} (gr : CallocOk h.objs al.obj) :
    ∃ h' v o fo', mkObject h al = some (h', v) ∧ IsObj v o ∧ A o = none ∧ h'.str = h.str ∧
      HInv h' (put A o []) fo' fp := by
  obtain ⟨a', o, g, fo', e, cs, inc, ok, nu, uo, mo, old, _, _⟩ :=
    allocCell_spec h.objs fo al.obj hi.objs (fun e => gr.fresh hi.objs e)
  have hca := ok.cellAddr uo.1
  obtain ⟨v, hv, hio⟩ := objectToValue_isObj hca.1 hca.2.2
  have hAo : A o = none := by
    cases hA : A o with
    | none => rfl
    | some L => exact absurd (hi.obj o L hA).1 nu
  refine ⟨{ h with objs := { a' with mem := upd a'.mem o (some ⟨0, default⟩) } }, v, o, fo',
    by simp [mkObject, e, mo, hv], hio, hAo, rfl, ?_⟩
  refine ⟨hi.str, ok_upd ok uo, hi.props, ?_, ?_, ?_, ?_, ?_, ?_⟩
  · intro o' L' h'
    rcases put_cases h' with ⟨rfl, rfl⟩ | ⟨hne, h'⟩
    · exact ⟨(used_upd uo).2 uo, _, upd_same _ _ _, .nil⟩
    · obtain ⟨hu, c, hc, hch⟩ := hi.obj o' L' h'
      refine ⟨(used_upd uo).2 (old _ hu).1, c, ?_, hch⟩
      simp only
      rw [upd_other _ _ _ _ hne, (old _ hu).2]
      exact hc
  · intro o' L' h' e' he'
    rcases put_cases h' with ⟨rfl, rfl⟩ | ⟨hne, h'⟩
    · simp at he'
    · exact hi.used _ _ h' _ he'
  · intro o' L' h'
    rcases put_cases h' with ⟨rfl, rfl⟩ | ⟨hne, h'⟩
    · simp
    · exact hi.nodup _ _ h'
  · intro o1 L1 o2 L2 h1 h2 e1 he1 e2 he2 eq
    rcases put_cases h1 with ⟨rfl, rfl⟩ | ⟨n1, k1⟩
    · simp at he1
    · rcases put_cases h2 with ⟨rfl, rfl⟩ | ⟨n2, k2⟩
      · simp at he2
      · exact hi.sep _ _ _ _ k1 k2 _ he1 _ he2 eq
  · intro o' L' h' e' he'
    rcases put_cases h' with ⟨rfl, rfl⟩ | ⟨hne, h'⟩
    · simp at he'
    · exact hi.names _ _ h' _ he'
  · intro o' L' h'
    rcases put_cases h' with ⟨rfl, rfl⟩ | ⟨hne, h'⟩
    · simp
    · exact hi.keys _ _ h'

/-! ### Iterating -/

theorem foreign_addr {p : Nat} (h0 : 0 < p) (h1 : p < 2 ^ 47) :
    (getPtrRaw (mkForeign (BitVec.ofNat 64 p)).1).toNat = p ∧ (mkForeign (BitVec.ofNat 64 p)).1 ≠ mkUndefined := by
  have ht : (BitVec.ofNat 64 p).toNat = p := by rw [BitVec.toNat_ofNat]; omega
  have hs : (BitVec.ofNat 64 p).toNat < 2 ^ 48 := by omega
  have hf : isForeign (mkForeign (BitVec.ofNat 64 p)).1 = true := (C04_constructors.2.2.2.2.1 _ .foreign).2 rfl
  have := (C06_foreign_roundtrip_partial _ hs).1
  rw [getPtr, if_pos hf] at this
  refine ⟨by rw [this, ht], ?_⟩
  intro e
  rw [e] at hf
  revert hf; decide

/-- `mjs_next` at the start of the list: the first property. -/
theorem next_start {h A fo fp} (hi : HInv h A fo fp) {o L v} (ho : A o = some L) (hv : IsObj v o) :
    next h v mkUndefined = some (match L with
      | [] => (mkUndefined, mkUndefined)
      | e :: _ => (e.name, (mkForeign (BitVec.ofNat 64 e.addr)).1)) := by
  obtain ⟨_, c, hc, hch⟩ := hi.obj o L ho
  rw [next, if_pos rfl, getObjectStruct_of hv]
  simp only [Option.bind_eq_bind, Option.bind_some, hc, Option.map_some]
  generalize c.head = q at hch
  cases hch with
  | nil => simp [mkUndefined]
  | cons h0 hm _ => simp [h0, hm]

/-- `mjs_next` at a property: the one after it. -/
theorem next_step {h A fo fp} (hi : HInv h A fo fp) {o pre e post} (ho : A o = some (pre ++ e :: post)) (v : Val) :
    next h v (mkForeign (BitVec.ofNat 64 e.addr)).1 = some (match post with
      | [] => (mkUndefined, mkUndefined)
      | e' :: _ => (e'.name, (mkForeign (BitVec.ofNat 64 e'.addr)).1)) := by
  obtain ⟨_, c, hc, hch⟩ := hi.obj o _ ho
  obtain ⟨ce, hce, _, h0, hr⟩ := hch.split
  have hu := hi.used _ _ ho e (by simp)
  have ha := hi.props.cellAddr hu.1
  obtain ⟨f1, f2⟩ := foreign_addr ha.1 ha.2.2
  rw [next, if_neg f2, f1]
  simp only [Option.bind_eq_bind, hce, Option.map_some, Option.bind_some]
  generalize ce.head = q at hr
  cases hr with
  | nil => simp [mkUndefined]
  | cons h0 hm _ => simp [h0, hm]

end Mjs.Obj
