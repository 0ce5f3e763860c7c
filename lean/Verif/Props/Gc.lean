import Verif.Lemmas.GcObs
import Verif.Props.Client

/-!
# C24, C25, C27: what a collection keeps and what it reclaims

`Reach` and `Sound` are in `Verif/Spec/Gc.lean`.  That the states of a C program that uses the engine are `Sound` is
`C63_sound` of `Verif/Props/Client.lean`, and the example at the end of this file.
-/

namespace Mjs.Props
open Mjs Mjs.Mbuf Mjs.Varint Mjs.Str Mjs.Arena Mjs.Obj Mjs.Spec Mjs.Spec.Gc Mjs.Gc

variable {σ : Type} [Inhabited σ]

/-- `mjs_gc(mjs, full)` ends and leaves `m'`. -/
def Collects (m : Mem σ) (r : Roots) (full : Bool) (al : Alloc) (m' : Mem σ) : Prop :=
  ∃ N, ∀ n, N ≤ n → mjsGc n m r full al = some m'

theorem Collects.unique {m : Mem σ} {r full al m1 m2} (h1 : Collects m r full al m1) (h2 : Collects m r full al m2) : m1 = m2 := by
  obtain ⟨N1, h1⟩ := h1
  obtain ⟨N2, h2⟩ := h2
  have := (h1 (max N1 N2) (Nat.le_max_left _ _)).symm.trans (h2 (max N1 N2) (Nat.le_max_right _ _))
  exact Option.some.inj this

theorem Collects.spec {m : Mem σ} {r full al m' L fo fp fs} (h : Sound m r.all L fo fp fs) (ha : AllocLow al)
    (hc : Collects m r full al m') : ∃ L' fo' fp' fs', Collected m m' r.all L L' fo' fp' fs' := by
  obtain ⟨N, m1, L', fo', fp', fs', hrun, hcol⟩ := gc_spec r h full al ha
  have : m1 = m' := Collects.unique ⟨N, hrun⟩ hc
  subst this
  exact ⟨L', fo', fp', fs', hcol⟩

/-- **C24.** A collection ends, without `abort`, failed assertion or access outside a block, and the next one can start. -/
theorem C24_collects {m : Mem σ} {r : Roots} {L fo fp fs} (h : Sound m r.all L fo fp fs) (full : Bool) {al} (ha : AllocLow al) :
    ∃ m' L' fo' fp' fs', Collects m r full al m' ∧ Sound m' r.all L' fo' fp' fs' ∧
      ∀ n, Reach m' r.all n ↔ Reach m r.all n := by
  obtain ⟨N, m', L', fo', fp', fs', hrun, hcol⟩ := gc_spec r h full al ha
  exact ⟨m', L', fo', fp', fs', ⟨N, hrun⟩, hcol.sound, hcol.reach⟩

/-- **C24.** Every object, property and FFI signature that can be reached from the registered variables stays in its cell:
objects and signatures with all their contents, properties with their place in the list and with name and value, which
are the same unless they are strings of the buffer (for those see C27). -/
theorem C24_kept {m m' : Mem σ} {r : Roots} {full al L fo fp fs} (h : Sound m r.all L fo fp fs) (ha : AllocLow al)
    (hc : Collects m r full al m') :
    (∀ o, Reach m r.all (.obj o) → m.heap.objs.mem o ≠ none ∧ m'.heap.objs.mem o = m.heap.objs.mem o) ∧
    (∀ s, Reach m r.all (.sig s) → m.sigs.mem s ≠ none ∧ m'.sigs.mem s = m.sigs.mem s) ∧
    (∀ p, Reach m r.all (.prop p) → ∃ c c', m.heap.props.mem p = some c ∧ m'.heap.props.mem p = some c' ∧ c'.head = c.head ∧
      (c.body.1 &&& tagMask ≠ tagStringO → c'.body.1 = c.body.1) ∧ (c.body.2 &&& tagMask ≠ tagStringO → c'.body.2 = c.body.2)) ∧
    (∀ a v, Reach m r.all (.slot a) → readSlot m a = some v → ∃ v', readSlot m' a = some v' ∧ (v &&& tagMask ≠ tagStringO → v' = v)) ∧
    (∀ a, ¬ Reach m r.all (.slot a) → m'.vars a = m.vars a) := by
  obtain ⟨L', fo', fp', fs', hcol⟩ := hc.spec h ha
  refine ⟨fun o ho => ⟨?_, hcol.objs o ho⟩, fun s hs => ⟨?_, hcol.sigs s hs⟩, ?_, ?_, hcol.others⟩
  · rw [← hcol.objs o ho]
    exact ((hcol.liveObj o).2 ho).1
  · rw [← hcol.sigs s hs]
    exact ((hcol.liveSig s).2 hs).1
  · intro p hp
    obtain ⟨c, c', h1, h2, h3, h4, h5⟩ := prop_cells h hcol hp
    exact ⟨c, c', h1, h2, h3, after_nonstring hcol h4, after_nonstring hcol h5⟩
  · intro a v hr hv
    obtain ⟨v', h1, h2, _⟩ := hcol.vals a v hr hv
    exact ⟨v', h1, h2⟩

/-- **C24.** `mjs_get` gives the same results after a collection: for any value that the program could get at, whatever the
key (its bytes not in the engine's own buffer, which moves), the same value, or for a string the value of the same variable,
which has the same bytes by C27. -/
theorem C24_get {m m' : Mem σ} {r : Roots} {full al L fo fp fs} (h : Sound m r.all L fo fp fs) (ha : AllocLow al)
    (hc : Collects m r full al m') {a v v'} (hr : Reach m r.all (.slot a)) (hv : readSlot m a = some v) (hv' : readSlot m' a = some v')
    {k : Ptr} (hk : ∀ a, k ≠ .own a) (n : Nat) {x} (hg : Obj.get m.heap v k n = some x) :
    ∃ x', Obj.get m'.heap v' k n = some x' ∧ (x &&& tagMask ≠ tagStringO → x' = x) ∧ ∀ bs, Reads m.heap.str x bs ↔ Reads m'.heap.str x' bs := by
  obtain ⟨L', fo', fp', fs', hcol⟩ := hc.spec h ha
  obtain ⟨x', h1, h2 | ⟨rfl, rfl⟩⟩ := get_after h hcol ⟨a, hr, hv, hv'⟩ hk n hg
  · exact ⟨x', h1, after_nonstring hcol h2, after_reads h hcol h2⟩
  · refine ⟨_, h1, fun _ => rfl, fun bs => ?_⟩
    have hu : ∀ st : Store, getString st mkUndefined = some (.null, 0) := by
      intro st
      simp [getString, show mkUndefined &&& tagMask ≠ tagStringI from by decide, show mkUndefined &&& tagMask ≠ tagString5 from by decide,
        show mkUndefined &&& tagMask ≠ tagStringO from by decide, show mkUndefined &&& tagMask ≠ tagStringF from by decide,
        show isString mkUndefined = false from by decide]
    constructor
    · rintro ⟨p, n, e, hh⟩
      rw [hu] at e
      cases e
      exact ⟨_, _, hu _, hh⟩
    · rintro ⟨p, n, e, hh⟩
      rw [hu] at e
      cases e
      exact ⟨_, _, hu _, hh⟩

/-- **C25.** After a collection every cell that could not be reached is on the free list, from which allocation takes
cells, every cell that could be reached is not, and blocks without a cell in use are given back, except for the oldest. -/
theorem C25_reclaimed {m m' : Mem σ} {r : Roots} {full al L fo fp fs} (h : Sound m r.all L fo fp fs) (ha : AllocLow al)
    (hc : Collects m r full al m') : ∃ fo' fp' fs',
    (FreeList m'.heap.objs.mem m'.heap.objs.free fo' ∧ fo'.Nodup ∧
      ∀ x, m'.heap.objs.mem x ≠ none → (x ∈ fo' ↔ ¬ Reach m r.all (.obj x))) ∧
    (FreeList m'.heap.props.mem m'.heap.props.free fp' ∧ fp'.Nodup ∧
      ∀ x, m'.heap.props.mem x ≠ none → (x ∈ fp' ↔ ¬ Reach m r.all (.prop x))) ∧
    (FreeList m'.sigs.mem m'.sigs.free fs' ∧ fs'.Nodup ∧
      ∀ x, m'.sigs.mem x ≠ none → (x ∈ fs' ↔ ¬ Reach m r.all (.sig x))) ∧
    Released m.heap.objs m'.heap.objs fo' ∧ Released m.heap.props m'.heap.props fp' ∧ Released m.sigs m'.sigs fs' := by
  obtain ⟨L', fo', fp', fs', hcol⟩ := hc.spec h ha
  have key : ∀ {p q : Prop} {Q : Prop}, p → ((p ∧ ¬ q) ↔ Q) → (q ↔ ¬ Q) := by
    intro p q Q hp hq
    by_cases hh : q
    · exact ⟨fun _ hQ => (hq.2 hQ).2 hh, fun _ => hh⟩
    · exact ⟨fun h => absurd h hh, fun hn => absurd (hq.1 ⟨hp, hh⟩) hn⟩
  exact ⟨fo', fp', fs', ⟨hcol.sound.objs.list, hcol.sound.objs.nodup, fun x hx => key hx (hcol.liveObj x)⟩,
    ⟨hcol.sound.props.list, hcol.sound.props.nodup, fun x hx => key hx (hcol.liveProp x)⟩,
    ⟨hcol.sound.sigs.list, hcol.sound.sigs.nodup, fun x hx => key hx (hcol.liveSig x)⟩, hcol.blockObj, hcol.blockProp, hcol.blockSig⟩

/-- **C27.** Every string that the program could get at reads back with the same bytes, wherever it was moved. -/
theorem C27_strings {m m' : Mem σ} {r : Roots} {full al L fo fp fs} (h : Sound m r.all L fo fp fs) (ha : AllocLow al)
    (hc : Collects m r full al m') {a v} (hr : Reach m r.all (.slot a)) (hv : readSlot m a = some v) :
    ∃ v', readSlot m' a = some v' ∧ ∀ bs, Reads m.heap.str v bs ↔ Reads m'.heap.str v' bs := by
  obtain ⟨L', fo', fp', fs', hcol⟩ := hc.spec h ha
  obtain ⟨v', h1, _⟩ := hcol.vals a v hr hv
  exact ⟨v', h1, after_reads h hcol ⟨a, hr, hv, h1⟩⟩

/-- **C27.** Two variables with the same value (the same string at the same place, the same object) have the same value
afterwards, and two with different values have different ones. -/
theorem C27_sharing {m m' : Mem σ} {r : Roots} {full al L fo fp fs} (h : Sound m r.all L fo fp fs) (ha : AllocLow al)
    (hc : Collects m r full al m') {a b v w v' w'} (hra : Reach m r.all (.slot a)) (hrb : Reach m r.all (.slot b))
    (hv : readSlot m a = some v) (hw : readSlot m b = some w) (hv' : readSlot m' a = some v') (hw' : readSlot m' b = some w') :
    v' = w' ↔ v = w := by
  obtain ⟨L', fo', fp', fs', hcol⟩ := hc.spec h ha
  exact hcol.share a b v w v' w' hra hrb hv hw hv' hw'

/-- **C27.** The buffer holds, in the same order as before, only strings that some variable refers to. -/
theorem C27_compact {m m' : Mem σ} {r : Roots} {full al L fo fp fs} (h : Sound m r.all L fo fp fs) (ha : AllocLow al)
    (hc : Collects m r full al m') : ∃ L', m'.heap.str.owned.content = stringBytes L' ∧ L'.Sublist L ∧
    ∀ pre bs post, L' = pre ++ bs :: post → ∃ a v', Reach m r.all (.slot a) ∧ readSlot m' a = some v' ∧ refersTo L' v' pre bs := by
  obtain ⟨L', fo', fp', fs', hcol⟩ := hc.spec h ha
  exact ⟨L', hcol.sound.content, hcol.sub, hcol.strings⟩

/-- The hypotheses are met: the program of `demo_run` (an object with a string property in a registered variable), in which a
further collection can start. -/
example : ∃ (m m' : Mem Unit) (r : Roots) (L : List (List UInt8)) (fo fp fs : List Nat) (al : Alloc) (v : Val), Sound m r.all L fo fp fs ∧
    AllocLow al ∧ Collects m r true al m' ∧ Reach m r.all (.slot 32768) ∧ readSlot m 32768 = some v ∧
    Reach m r.all (.obj (getPtrRaw v).toNat) := by
  obtain ⟨E, w, hr, hroots, ha, _, _, hl⟩ := demo_run
  obtain ⟨L, fo, fp, fs, hs⟩ := C63_sound hr hl
  obtain ⟨v, hv, hsees⟩ := C63_variables hr ha
  have hal : AllocLow (some (4096, fun _ => 0)) := by intro r hr; cases hr; exact ⟨by decide, by decide⟩
  obtain ⟨m', _, _, _, _, hc, _⟩ := C24_collects hs true hal
  have hroot : Reach E.mem E.roots.all (.slot 32768) := .root (by rw [hroots]; simp)
  have hread : readSlot E.mem 32768 = some v := by simp [readSlot, hv]
  exact ⟨E.mem, m', E.roots, L, fo, fp, fs, _, v, hs, hal, hc, hroot, hread, .obj hroot hread hsees.1⟩

end Mjs.Props
