import Verif.Lemmas.SimExec
import Verif.Lemmas.ClientGc

/-!
# Collections in an engine, seen without addresses
-/

namespace Mjs.Spec.Invisible
open Mjs Mjs.Mbuf Mjs.Varint Mjs.Str Mjs.Arena Mjs.Obj Mjs.Spec Mjs.Spec.Gc Mjs.Gc Mjs.Core Mjs.Exec
open Mjs.Client (Pairs Fit Known StrGood only only_of only_some moveEnt moveEnt_addr moveEnt_key moved_addr chain_reach after_named move_after chain_moved
  pairs_map chain_free freeList_det lay_of inlineVal_tag string_not_object object_not)

variable {σ : Type} {m m' : Mem σ} {w : World} {L L' : List (List UInt8)} {A : Nat → Option (List Ent)} {g : Nat → Option Nat}
  {fo fp fs fo' fp' fs' : List Nat} {roots : List Nat}

/-- A memory that holds the objects of the world and variables with values of it. -/
structure Roomy (m : Mem σ) (w : World) (L : List (List UInt8)) (g : Nat → Option Nat) (A : Nat → Option (List Ent))
    (fo fp fs roots : List Nat) : Prop where
  side : Side m.heap w L g A fo fp
  sigs : Ok m.sigs fs
  cleanSig : ∀ s c, m.sigs.mem s = some c → c.head % 2 = 0
  layout : ∀ a, m.vars a ≠ none → 0 < a ∧ a < 2 ^ 48 ∧ m.heap.props.mem (a - 8) = none ∧ m.heap.props.mem (a - 16) = none
  roots : ∀ a ∈ roots, ∃ v x, m.vars a = some v ∧ Rep L g v x

theorem Roomy.lay (h : Roomy m w L g A fo fp fs roots) : Lay m := lay_of h.side.inv.props h.side.size h.layout

theorem StrRep.good {v bs} (h : StrRep L v bs) : StrGood L v := by
  intro ht
  rcases h with ⟨_, rfl⟩ | ⟨pre, hp⟩
  · exact absurd ht (inlineVal_tag bs)
  · exact ⟨pre, bs, hp⟩

theorem imm_not {v : Val} (h : IsImm v) : v &&& tagMask ≠ tagStringO := by
  intro e
  have := isString_tagged (v := v) 8 (by decide) e
  rw [h.2.1] at this
  cases this

theorem Side.fit {h : Heap} (s : Side h w L g A fo fp) {v x} (hr : Rep L g v x) : Fit L A v := by
  cases x with
  | imm u =>
    obtain ⟨rfl, hp⟩ := hr
    exact ⟨fun e => (by rw [hp.1] at e; cases e), hp.2.2, fun e => absurd e (imm_not hp)⟩
  | str bs => exact ⟨fun e => absurd ((string_not_object hr.string).1.symm.trans e) (by simp), (string_not_object hr.string).2, hr.good⟩
  | obj t i =>
    have ho := hr.1
    refine ⟨fun _ e => ?_, (object_not ho).2.1, fun e => absurd e (object_not ho).2.2⟩
    exact absurd (hr.2.2.symm.trans ((s.dom _).1 e)) (by simp)

theorem Side.fitEnt {h : Heap} (s : Side h w L g A fo fp) {o Ls e} (ho : A o = some Ls) (he : e ∈ Ls) : Fit L A e.name ∧ Fit L A e.val := by
  constructor
  · exact s.fit (x := .str e.key) (s.names o Ls ho e he)
  · cases hg : g o with
    | none => rw [(s.dom o).2 hg] at ho; cases ho
    | some i =>
      obtain ⟨q, _, hq⟩ := (s.lists o Ls i ho hg).mem he
      exact s.fit hq.2

theorem Roomy.known (h : Roomy m w L g A fo fp fs roots) {n} (hn : Reach m roots n) : Known m L A n := by
  induction hn with
  | @root a ha =>
    obtain ⟨v, x, hv, hrep⟩ := h.roots a ha
    exact ⟨v, read_var hv, h.side.fit hrep⟩
  | obj _ hv ho ih =>
    obtain ⟨v', hv', hf⟩ := ih
    rw [hv] at hv'
    cases hv'
    exact hf.1 ho
  | sig _ hv ho ih =>
    obtain ⟨v', hv', hf⟩ := ih
    rw [hv] at hv'
    cases hv'
    rw [hf.2.1] at ho
    cases ho
  | @first o c _ hm h0 ih =>
    cases ho : A o with
    | none => exact absurd ho ih
    | some Ls =>
      obtain ⟨_, c', hc', hch⟩ := h.side.inv.obj o Ls ho
      rw [hm] at hc'
      cases hc'
      have hh := hch.head
      cases Ls with
      | nil => exact absurd hh h0
      | cons e l => exact ⟨o, _, [], e, l, ho, rfl, by rw [hh]; rfl⟩
  | @next p c _ hm h0 ih =>
    obtain ⟨o, Ls, pre, e, post, ho, rfl, rfl⟩ := ih
    obtain ⟨_, c', hc', hch⟩ := h.side.inv.obj o _ ho
    obtain ⟨ce, hce, _, _, hch2⟩ := hch.split
    rw [hm] at hce
    cases hce
    have hh := hch2.head
    cases post with
    | nil => exact absurd hh h0
    | cons e' l => exact ⟨o, _, pre ++ [e], e', l, ho, by simp, by rw [hh]; rfl⟩
  | @name p _ ih =>
    obtain ⟨o, Ls, pre, e, post, ho, rfl, rfl⟩ := ih
    obtain ⟨_, c', hc', hch⟩ := h.side.inv.obj o _ ho
    obtain ⟨ce, hce, hb, _, _⟩ := hch.split
    refine ⟨_, read_name h.lay hce, ?_⟩
    rw [hb]
    exact (h.side.fitEnt ho (by simp)).1
  | @value p _ ih =>
    obtain ⟨o, Ls, pre, e, post, ho, rfl, rfl⟩ := ih
    obtain ⟨_, c', hc', hch⟩ := h.side.inv.obj o _ ho
    obtain ⟨ce, hce, hb, _, _⟩ := hch.split
    refine ⟨_, read_value h.lay hce, ?_⟩
    rw [hb]
    exact (h.side.fitEnt ho (by simp)).2

/-- A collection may start. -/
theorem Roomy.sound (h : Roomy m w L g A fo fp fs roots) (hs : m.heap.str.owned.len < 2 ^ 31) : Sound m roots L fo fp fs := by
  have hlist : ∀ o c, Reach m roots (.obj o) → m.heap.objs.mem o = some c → ∃ Ls, A o = some Ls ∧ Chain m.heap.props.mem c.head Ls := by
    intro o c hro hm
    cases ho : A o with
    | none => exact absurd ho (h.known hro)
    | some Ls =>
      obtain ⟨_, c', hc', hch⟩ := h.side.inv.obj o Ls ho
      rw [hm] at hc'
      cases hc'
      exact ⟨Ls, rfl, hch⟩
  refine ⟨h.side.inv.str, h.side.content, h.side.long, hs, h.side.inv.objs, h.side.inv.props, h.sigs, h.side.size, h.layout, ?_, ?_,
    h.side.cleanObj, h.side.cleanProp, h.cleanSig, ?_, ?_⟩
  · intro a ha e
    obtain ⟨v, x, hv, _⟩ := h.roots a ha
    rw [e] at hv
    cases hv
  · intro a ha
    obtain ⟨v, hv, f1, f2, f3⟩ := h.known ha
    refine ⟨v, hv, fun ho => ?_, fun q => (by rw [f2] at q; cases q), f3⟩
    cases hA : A (getPtrRaw v).toNat with
    | none => exact absurd hA (f1 ho)
    | some Ls => exact (h.side.inv.obj _ _ hA).1
  · intro o c hro hm
    obtain ⟨Ls, ho, hch⟩ := hlist o c hro hm
    refine ⟨_, chain_free hch, h.side.inv.nodup o Ls ho, ?_⟩
    intro p hp
    obtain ⟨e, he, rfl⟩ := List.mem_map.1 hp
    exact (h.side.inv.used o Ls ho e he).2
  · intro o c l o' c' l' hro hro' hm hm' hl hl' p hp hp'
    obtain ⟨Ls, ho, hch⟩ := hlist o c hro hm
    obtain ⟨Ls', ho', hch'⟩ := hlist o' c' hro' hm'
    rw [freeList_det hl (chain_free hch)] at hp
    rw [freeList_det hl' (chain_free hch')] at hp'
    obtain ⟨e, he, e1⟩ := List.mem_map.1 hp
    obtain ⟨e', he', e2⟩ := List.mem_map.1 hp'
    exact h.side.inv.sep _ _ _ _ ho ho' e he e' he' (e1.trans e2.symm)

theorem after_str (hc : Collected m m' roots L L' fo' fp' fs') {v v'}
    (h : After m m' roots v v') {bs} (hr : StrRep L v bs) : StrRep L' v' bs := by
  rcases hr with ⟨h5, e⟩ | ⟨pre, hp⟩
  · refine .inl ⟨h5, ?_⟩
    rw [after_nonstring hc h (by rw [e]; exact inlineVal_tag bs)]
    exact e
  · obtain ⟨a, ha, hv, hv'⟩ := h
    obtain ⟨u, hu, _, hq⟩ := hc.vals a v ha hv
    rw [hv'] at hu
    cases hu
    exact .inr (hq pre bs hp)

theorem after_rep (hc : Collected m m' roots L L' fo' fp' fs') {v v'}
    (h : After m m' roots v v') {x} (hr : Rep L g v x) : Rep L' (only m roots g) v' x := by
  cases x with
  | imm u =>
    obtain ⟨rfl, hp⟩ := hr
    exact ⟨after_nonstring hc h (imm_not hp), hp⟩
  | str bs => exact after_str hc h hr
  | obj t i =>
    have e := after_nonstring hc h (object_not hr.1).2.2
    subst e
    refine ⟨hr.1, hr.2.1, ?_⟩
    obtain ⟨a, ha, hv, _⟩ := h
    rw [only_of (.obj ha hv hr.1)]
    exact hr.2.2

theorem Side.gc (h : Side m.heap w L g A fo fp) (hs : Sound m roots L fo fp fs) (hc : Collected m m' roots L L' fo' fp' fs') :
    Side m'.heap w L' (only m roots g) (only m roots fun o => (A o).map fun l => l.map (moveEnt m')) fo' fp' := by
  have hA : ∀ o Ls', only m roots (fun o => (A o).map fun l => l.map (moveEnt m')) o = some Ls' →
      Reach m roots (.obj o) ∧ ∃ Ls c, A o = some Ls ∧ Ls' = Ls.map (moveEnt m') ∧ m.heap.objs.mem o = some c ∧
        Chain m.heap.props.mem c.head Ls ∧ ∀ e ∈ Ls, Reach m roots (.prop e.addr) := by
    intro o Ls' ho
    obtain ⟨h1, h2⟩ := only_some ho
    simp only [Option.map_eq_some_iff] at h2
    obtain ⟨Ls, h3, h4⟩ := h2
    obtain ⟨_, c, hm, hch⟩ := h.inv.obj o Ls h3
    exact ⟨h1, Ls, c, h3, h4.symm, hm, hch, chain_reach hch fun h0 => .first h1 hm h0⟩
  have hE : ∀ o Ls, A o = some Ls → (∀ e ∈ Ls, Reach m roots (.prop e.addr)) → ∀ e ∈ Ls,
      After m m' roots e.name (moveEnt m' e).name ∧ After m m' roots e.val (moveEnt m' e).val := by
    intro o Ls ho hre e he
    obtain ⟨_, c0, _, hch⟩ := h.inv.obj o Ls ho
    obtain ⟨_, c, hm, hb⟩ := hch.at he
    obtain ⟨_, _, _, _, h4⟩ := move_after hs hc (hre e he) hm hb
    exact h4
  refine ⟨⟨hc.sound.str, hc.sound.objs, hc.sound.props, ?_, ?_, ?_, ?_, ?_, ?_⟩, hc.sound.content, hc.sound.long,
    Nat.lt_trans hc.sound.small (by decide), hc.sound.propSize, hc.sound.cleanObj, hc.sound.cleanProp, ?_, ?_, ?_, ?_, ?_⟩
  · intro o Ls' ho
    obtain ⟨h1, Ls, c, _, rfl, hm, hch, hre⟩ := hA o Ls' ho
    exact ⟨(hc.liveObj o).2 h1, c, by rw [hc.objs o h1]; exact hm, chain_moved hs hc hch hre⟩
  · intro o Ls' ho e' he'
    obtain ⟨h1, Ls, c, _, rfl, hm, hch, hre⟩ := hA o Ls' ho
    obtain ⟨e, he, rfl⟩ := List.mem_map.1 he'
    rw [moveEnt_addr]
    exact (hc.liveProp _).2 (hre e he)
  · intro o Ls' ho
    obtain ⟨_, Ls, _, h3, rfl, _⟩ := hA o Ls' ho
    rw [moved_addr]
    exact h.inv.nodup o Ls h3
  · intro o1 L1 o2 L2 h1 h2 e1 he1 e2 he2 eq
    obtain ⟨_, K1, _, k1, rfl, _⟩ := hA o1 L1 h1
    obtain ⟨_, K2, _, k2, rfl, _⟩ := hA o2 L2 h2
    obtain ⟨d1, hd1, rfl⟩ := List.mem_map.1 he1
    obtain ⟨d2, hd2, rfl⟩ := List.mem_map.1 he2
    rw [moveEnt_addr, moveEnt_addr] at eq
    exact h.inv.sep _ _ _ _ k1 k2 d1 hd1 d2 hd2 eq
  · intro o Ls' ho e' he'
    obtain ⟨_, Ls, _, h3, rfl, _, _, hre⟩ := hA o Ls' ho
    obtain ⟨e, he, rfl⟩ := List.mem_map.1 he'
    rw [moveEnt_key]
    exact after_named hs hc (hE o Ls h3 hre e he).1 (h.inv.names o Ls h3 e he)
  · intro o Ls' ho
    obtain ⟨_, Ls, _, h3, rfl, _⟩ := hA o Ls' ho
    rw [List.pairwise_map]
    simp only [moveEnt_key]
    exact h.inv.keys o Ls h3
  · intro o
    have := h.dom o
    unfold only
    split
    · rw [← this, Option.map_eq_none_iff]
    · simp
  · intro o o' i h1 h2
    exact h.inj o o' i (only_some h1).2 (only_some h2).2
  · intro o i h1
    exact h.lt o i (only_some h1).2
  · intro o Ls' i ho hi
    obtain ⟨_, Ls, _, h3, rfl, _, _, hre⟩ := hA o Ls' ho
    refine pairs_map _ (h.lists o Ls i h3 (only_some hi).2) fun e he q hq => ⟨?_, ?_⟩
    · rw [moveEnt_key]; exact hq.1
    · exact after_rep hc (hE o Ls h3 hre e he).2 hq.2
  · intro o Ls' ho e' he'
    obtain ⟨_, Ls, _, h3, rfl, _, _, hre⟩ := hA o Ls' ho
    obtain ⟨e, he, rfl⟩ := List.mem_map.1 he'
    rw [moveEnt_key]
    exact after_str hc (hE o Ls h3 hre e he).1 (h.names o Ls h3 e he)

/-! ### The variables of an engine -/

theorem fold_read : ∀ {l : List (Nat × Val)}, (l.map (·.1)).Nodup → ∀ {a v}, (a, v) ∈ l →
    l.foldr (fun s f => upd f s.1 (some s.2)) (fun _ => none) a = some v := by
  intro l
  induction l with
  | nil => intro _ a v h; cases h
  | cons x l ih =>
    intro hn a v h
    rw [List.map_cons, List.nodup_cons] at hn
    rw [List.foldr_cons]
    rcases List.mem_cons.1 h with rfl | h
    · exact upd_same _ _ _
    · rw [upd_other _ _ _ _ (fun e => hn.1 (by rw [← e]; exact List.mem_map_of_mem h))]
      exact ih hn.2 h

theorem fold_some : ∀ {l : List (Nat × Val)} {a v}, l.foldr (fun s f => upd f s.1 (some s.2)) (fun _ => none) a = some v → (a, v) ∈ l := by
  intro l
  induction l with
  | nil => intro a v h; cases h
  | cons x l ih =>
    intro a v h
    rw [List.foldr_cons] at h
    by_cases e : a = x.1
    · subst e
      rw [upd_same] at h
      cases h
      exact List.mem_cons_self
    · rw [upd_other _ _ _ _ e] at h
      exact List.mem_cons_of_mem _ (ih h)

theorem bufSlots_addr : ∀ {l l' : List Val} {base : Nat}, l'.length = l.length → (bufSlots base l').map (·.1) = (bufSlots base l).map (·.1) := by
  intro l
  induction l with
  | nil => intro l' _ h; cases l' with | nil => rfl | cons => cases h
  | cons x l ih =>
    intro l' base h
    cases l' with
    | nil => cases h
    | cons y l' =>
      simp only [bufSlots, List.map_cons]
      rw [ih (by simpa using h)]

/-- The values of a stack, slot by slot. -/
theorem bufSlots_pairs {R : Val → AVal → Prop} {R' : Val → AVal → Prop} {l : List Val} {xs : List AVal} (h : Pairs R l xs) : ∀ {base : Nat} {l' : List Val},
    l'.length = l.length → (∀ a v v' x, (a, v) ∈ bufSlots base l → (a, v') ∈ bufSlots base l' → R v x → R' v' x) → Pairs R' l' xs := by
  induction h with
  | nil => intro _ l' hl _; cases l' with | nil => exact .nil | cons => cases hl
  | @cons a b l k r _ ih =>
    intro base l' hl hf
    cases l' with
    | nil => cases hl
    | cons y l' =>
      refine .cons (hf base a y b (by simp [bufSlots]) (by simp [bufSlots]) r) (ih (base := base + 8) (by simpa using hl) ?_)
      intro a' v v' x h1 h2
      exact hf a' v v' x (by simp [bufSlots, h1]) (by simp [bufSlots, h2])

theorem bufSlots_rep {l : List Val} {xs : List AVal} (h : Pairs (Rep L g) l xs) : ∀ {base : Nat} {a v}, (a, v) ∈ bufSlots base l → ∃ x, Rep L g v x := by
  induction h with
  | nil => intro _ a v hm; cases hm
  | cons r _ ih =>
    intro base a v hm
    simp only [bufSlots, List.mem_cons] at hm
    rcases hm with e | hm
    · cases e; exact ⟨_, r⟩
    · exact ih hm

theorem Shows.slot {vm s} (h : Shows vm s L g) {pl : Places} (hd : pl.dataviewVal = mkUndefined) {a v} (hm : (a, v) ∈ slotsOf pl vm) : ∃ x, Rep L g v x := by
  simp only [slotsOf, valSlots, List.mem_append, List.mem_cons, List.not_mem_nil, or_false] at hm
  rcases hm with ((hm | hm) | hm) | hm
  · rcases hm with e | e | e
    · cases e; exact ⟨_, h.this⟩
    · cases e; exact ⟨.imm mkUndefined, by rw [hd]; exact Rep.imm imm_undefined⟩
    · cases e; exact ⟨_, h.lastGetprop⟩
  · exact bufSlots_rep h.scopes hm
  · exact bufSlots_rep h.stack hm
  · exact bufSlots_rep h.callStack hm

theorem mem_roots {pl : Places} {vm : Vm} (a : Nat) : a ∈ (rootsOf pl vm).all ↔ a ∈ (slotsOf pl vm).map (·.1) := by
  have e : (rootsOf pl vm).all = ((valSlots pl vm).map (·.1)) ++ ([] ++ ((bufSlots pl.scopes vm.scopes).map (·.1) ++
      ((bufSlots pl.stack vm.stack).map (·.1) ++ ((bufSlots pl.callStack vm.callStack).map (·.1) ++ [])))) := by
    simp [Roots.all, rootsOf]
  rw [e]
  simp only [slotsOf, List.map_append, List.mem_append, List.not_mem_nil, or_false, false_or, or_assoc]

/-- **A collection.** The engine is in the same state after it. -/
theorem Shows.collect {vm vm' s} (h : Shows vm s L g) (hc : Collection vm vm') : ∃ L' g', Shows vm' s L' g' := by
  obtain ⟨pl, sigs, fs, full, al, m', hnd, hlay, hdv, hok, hcl, hal, ⟨N, hrun⟩, hm', harg⟩ := hc.collects
  obtain ⟨A, fo, fp, side⟩ := h.heap
  have hroom : Roomy (memOf pl vm sigs) s.world L g A fo fp fs (rootsOf pl vm).all := by
    refine ⟨side, hok, hcl, ?_, ?_⟩
    · intro a ha
      cases hv : (memOf pl vm sigs).vars a with
      | none => exact absurd hv ha
      | some v => exact hlay (a, v) (fold_some hv)
    · intro a ha
      obtain ⟨⟨a', v⟩, hs, rfl⟩ := List.mem_map.1 ((mem_roots a).1 ha)
      obtain ⟨x, hx⟩ := h.slot hdv hs
      exact ⟨v, x, fold_read hnd hs, hx⟩
  have hsound := hroom.sound hc.small
  obtain ⟨N', m1, L', fo', fp', fs', hrun', hcol⟩ := gc_spec (rootsOf pl vm) hsound full al hal
  have e : m1 = m' := Option.some.inj ((hrun' (max N N') (Nat.le_max_right _ _)).symm.trans (hrun (max N N') (Nat.le_max_left _ _)))
  subst e
  have hside := side.gc hsound hcol
  have hheap : m1.heap = vm'.heap := by rw [← hm']; rfl
  have haddr : (slotsOf pl vm').map (·.1) = (slotsOf pl vm).map (·.1) := by
    simp only [slotsOf, List.map_append, bufSlots_addr hc.scopes, bufSlots_addr hc.stack, bufSlots_addr hc.callStack, valSlots, List.map_cons, List.map_nil]
  have key : ∀ a v v' x, (a, v) ∈ slotsOf pl vm → (a, v') ∈ slotsOf pl vm' → Rep L g v x →
      Rep L' (only (memOf pl vm sigs) (rootsOf pl vm).all g) v' x := by
    intro a v v' x h1 h2 hr
    refine after_rep hcol ⟨a, .root ((mem_roots a).2 (List.mem_map_of_mem (f := (·.1)) h1)), read_var (fold_read hnd h1), ?_⟩ hr
    refine read_var ?_
    rw [← hm']
    exact fold_read (by rw [haddr]; exact hnd) h2
  refine ⟨L', only (memOf pl vm sigs) (rootsOf pl vm).all g, ?_⟩
  exact {
    heap := ⟨_, fo', fp', by rw [← hheap]; exact hside⟩
    stack := bufSlots_pairs (base := pl.stack) h.stack hc.stack fun a v v' x h1 h2 => key a v v' x (by simp [slotsOf, h1]) (by simp [slotsOf, h2])
    callStack := bufSlots_pairs (base := pl.callStack) h.callStack hc.callStack fun a v v' x h1 h2 => key a v v' x (by simp [slotsOf, h1]) (by simp [slotsOf, h2])
    argStack := by
      rw [hc.argStack]
      have := pairs_map (S := Rep L' (only (memOf pl vm sigs) (rootsOf pl vm).all g)) id h.argStack fun v hv x hr => by
        obtain ⟨h1, h2⟩ := harg v hv
        cases x with
        | imm u => exact hr
        | str bs =>
          rcases hr with hr | ⟨pre, hp⟩
          · exact .inl hr
          · exact absurd hp.2.1 h1
        | obj t i => exact ⟨hr.1, hr.2.1, by show only _ _ g _ = _; rw [id, only_of (h2 hr.1)]; exact hr.2.2⟩
      simpa using this
    scopes := bufSlots_pairs (base := pl.scopes) h.scopes hc.scopes fun a v v' x h1 h2 => key a v v' x (by simp [slotsOf, h1]) (by simp [slotsOf, h2])
    this := key pl.this _ _ _ (by simp [slotsOf, valSlots]) (by simp [slotsOf, valSlots]) h.this
    lastGetprop := key pl.last _ _ _ (by simp [slotsOf, valSlots]) (by simp [slotsOf, valSlots]) h.lastGetprop
    loopAddrs := hc.loopAddrs.trans h.loopAddrs
    parts := hc.parts.trans h.parts
    bcodeLen := hc.bcodeLen.trans h.bcodeLen
    error := hc.error.trans h.error
    msg := hc.msg.trans h.msg
    cmem := by rw [← hheap, hcol.foreign.2]; exact h.cmem }

end Mjs.Spec.Invisible
