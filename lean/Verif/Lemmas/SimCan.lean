import Verif.Lemmas.SimRun
import Verif.Model.GcBuiltin

/-!
# Collections are possible
-/

namespace Mjs.Spec.Invisible
open Mjs Mjs.Mbuf Mjs.Varint Mjs.Str Mjs.Arena Mjs.Obj Mjs.Spec Mjs.Spec.Gc Mjs.Gc Mjs.Core Mjs.Exec
open Mjs.Client (Pairs)

theorem bufSlots_map (f : Nat → Val) : ∀ (l : List Val) (base : Nat), bufSlots base ((bufSlots base l).map fun s => f s.1) =
    (bufSlots base l).map fun s => (s.1, f s.1) := by
  intro l
  induction l with
  | nil => intro _; rfl
  | cons x l ih => intro base; simp only [bufSlots, List.map_cons, ih]

theorem bufSlots_length : ∀ (l : List Val) (base : Nat), (bufSlots base l).length = l.length := by
  intro l
  induction l with
  | nil => intro _; rfl
  | cons x l ih => intro base; simp [bufSlots, ih]

/-- There can be a collection in every state of the engine, if `arg_stack` allows it; what is no long string keeps its bits. -/
theorem Shows.collected {vm : Vm} {s L g} (h : Shows vm s L g) {pl : Places} {sigs : Arena Unit} {fs : List Nat} (full : Bool) {al : Alloc}
    (hnd : ((slotsOf pl vm).map (·.1)).Nodup)
    (hlay : ∀ s ∈ slotsOf pl vm, 0 < s.1 ∧ s.1 < 2 ^ 48 ∧ vm.heap.props.mem (s.1 - 8) = none ∧ vm.heap.props.mem (s.1 - 16) = none)
    (hdv : pl.dataviewVal = mkUndefined) (hok : Ok sigs fs) (hcl : ∀ a c, sigs.mem a = some c → c.head % 2 = 0) (hal : AllocLow al)
    (harg : ∀ v ∈ vm.argStack, v &&& tagMask ≠ tagStringO ∧
      (isObject v = true → Reach (memOf pl vm sigs) (rootsOf pl vm).all (.obj (getPtrRaw v).toNat)))
    (hsm : vm.heap.str.owned.len < 2 ^ 31) : ∃ N m', (∀ n, N ≤ n → mjsGc n (memOf pl vm sigs) (rootsOf pl vm) full al = some m') ∧
      Collection vm (vmOf pl vm m') ∧ ∀ s ∈ slotsOf pl vm, s.2 &&& tagMask ≠ tagStringO → (m'.vars s.1).getD 0 = s.2 := by
  obtain ⟨A, fo, fp, side⟩ := h.heap
  have hroom : Roomy (memOf pl vm sigs) s.world L g A fo fp fs (rootsOf pl vm).all := by
    refine ⟨side, hok, hcl, ?_, ?_⟩
    · intro a ha
      cases hv : (memOf pl vm sigs).vars a with
      | none => exact absurd hv ha
      | some v => exact hlay (a, v) (fold_some hv)
    · intro a ha
      obtain ⟨⟨a', v⟩, hs, rfl⟩ := List.mem_map.1 ((mem_roots a).1 ha)
      obtain ⟨x, hx⟩ := h.slot hdv hs
      exact ⟨v, x, fold_read hnd hs, hx⟩
  have hsound := hroom.sound hsm
  obtain ⟨N, m', L', fo', fp', fs', hrun, hcol⟩ := gc_spec (rootsOf pl vm) hsound full al hal
  let rd : Nat → Val := fun a => (m'.vars a).getD 0
  have hkeep : ∀ s ∈ slotsOf pl vm, s.2 &&& tagMask ≠ tagStringO → (m'.vars s.1).getD 0 = s.2 := by
    intro s hmem ht
    have hroot : s.1 ∈ (rootsOf pl vm).all := (mem_roots _).2 (List.mem_map_of_mem (f := (·.1)) hmem)
    cases hv : m'.vars s.1 with
    | none => exact absurd hv (hcol.sound.rootVars _ hroot)
    | some u => exact after_nonstring hcol ⟨_, .root hroot, read_var (fold_read hnd hmem), read_var hv⟩ ht
  have hdat : rd pl.dataview = mkUndefined :=
    (hkeep (pl.dataview, pl.dataviewVal) (by simp [slotsOf, valSlots]) (by show pl.dataviewVal &&& _ ≠ _; rw [hdv]; decide)).trans hdv
  refine ⟨N, m', hrun, ⟨⟨pl, sigs, fs, full, al, m', hnd, hlay, hdv, hok, hcl, hal, ⟨N, hrun⟩, ?_, harg⟩, hsm, ?_, ?_, ?_, rfl, rfl, rfl, rfl, rfl, rfl⟩, hkeep⟩
  · have hsl : ∀ vm' : Vm, vm'.this = rd pl.this → vm'.lastGetprop = rd pl.last → vm'.scopes = (bufSlots pl.scopes vm.scopes).map (fun s => rd s.1) →
        vm'.stack = (bufSlots pl.stack vm.stack).map (fun s => rd s.1) → vm'.callStack = (bufSlots pl.callStack vm.callStack).map (fun s => rd s.1) →
        slotsOf pl vm' = (slotsOf pl vm).map fun s => (s.1, rd s.1) := by
      intro vm' e1 e2 e3 e4 e5
      simp only [slotsOf, valSlots, e1, e2, e3, e4, e5, bufSlots_map, List.map_append, List.map_cons, List.map_nil, hdat, hdv]
    have hvars : ((slotsOf pl vm).map fun s => (s.1, rd s.1)).foldr (fun s f => upd f s.1 (some s.2)) (fun _ => none) = m'.vars := by
      have hn' : (((slotsOf pl vm).map fun s => (s.1, rd s.1)).map (·.1)).Nodup := by
        rw [List.map_map]
        exact hnd
      funext a
      by_cases ha : a ∈ (slotsOf pl vm).map (·.1)
      · obtain ⟨x, hx, rfl⟩ := List.mem_map.1 ha
        rw [fold_read hn' (List.mem_map_of_mem (f := fun s : Nat × Val => (s.1, rd s.1)) hx)]
        cases hv : m'.vars x.1 with
        | none => exact absurd hv (hcol.sound.rootVars _ ((mem_roots _).2 ha))
        | some u => show some ((m'.vars x.1).getD 0) = _; rw [hv]; rfl
      · have e1 : ∀ l : List (Nat × Val), (∀ s ∈ l, s.1 ≠ a) → l.foldr (fun s f => upd f s.1 (some s.2)) (fun _ => none) a = none := by
          intro l hl
          cases hq : l.foldr (fun s f => upd f s.1 (some s.2)) (fun _ => none) a with
          | none => rfl
          | some u => exact absurd rfl (hl _ (fold_some hq))
        rw [e1 _ (by
          intro s hs e
          obtain ⟨x, hx, rfl⟩ := List.mem_map.1 hs
          exact ha (List.mem_map.2 ⟨x, hx, e⟩))]
        by_cases hr : Reach (memOf pl vm sigs) (rootsOf pl vm).all (.slot a)
        · cases hv : m'.vars a with
          | none => rfl
          | some u =>
            have hl := hcol.sound.vars a (by rw [hv]; simp)
            cases hr with
            | root hr => exact absurd ((mem_roots a).1 hr) ha
            | @name p hp =>
              have := ((hcol.liveProp p).2 hp).1
              exact absurd (by simpa using hl.2.2.1) this
            | @value p hp =>
              have := ((hcol.liveProp p).2 hp).1
              exact absurd (by simpa using hl.2.2.2) this
        · rw [hcol.others a hr]
          exact (e1 _ fun s hs e => ha (List.mem_map.2 ⟨s, hs, e⟩)).symm
    show (⟨m'.heap, m'.sigs, (slotsOf pl _).foldr (fun s f => upd f s.1 (some s.2)) fun _ => none⟩ : Mem Unit) = m'
    rw [hsl _ rfl rfl rfl rfl rfl, hvars]
  · simp [vmOf, bufSlots_length]
  · simp [vmOf, bufSlots_length]
  · simp [vmOf, bufSlots_length]

/-- The values of a stack whose variables were not changed are there as before. -/
theorem bufSlots_get {f : Nat → Val} : ∀ {l : List Val} {base i : Nat} {v : Val}, l[i]? = some v →
    (∀ a, (a, v) ∈ bufSlots base l → f a = v) → ((bufSlots base l).map fun s => f s.1)[i]? = some v := by
  intro l
  induction l with
  | nil => intro _ _ _ h; cases h
  | cons x l ih =>
    intro base i v h hf
    cases i with
    | zero =>
      rw [List.getElem?_cons_zero] at h
      cases h
      simp only [bufSlots, List.map_cons, List.getElem?_cons_zero]
      rw [hf base (by simp [bufSlots])]
    | succ i =>
      simp only [bufSlots, List.map_cons, List.getElem?_cons_succ] at h ⊢
      exact ih h fun a ha => hf a (by simp [bufSlots, ha])

end Mjs.Spec.Invisible
