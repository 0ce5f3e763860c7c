import Verif.Props.Invisible
import Verif.Props.GcExec

/-!
# `gc()` called by a script (C73)

Properties of `mjs_do_gc` (src/mjs_builtin.c).  `Alike` (Spec/Invisible): two engines that differ only in where their strings and
objects are in memory.
-/

namespace Mjs.Props
open Mjs Mjs.Mbuf Mjs.Varint Mjs.Str Mjs.Arena Mjs.Obj Mjs.Spec Mjs.Spec.Gc Mjs.Gc Mjs.Core Mjs.Exec Mjs.Create
open Mjs.Spec.Invisible
open Mjs.Client (Pairs)

/-- **C73 (partial).** A call of `gc`, with an argument that is no string of more than five bytes, or without one, leaves an engine
that differs only in where things are in memory from the one that only returns the argument.  Missing: longer strings, for which
this is false (`C73_stale`). -/
theorem C73_partial {vm u : Vm} {pl : Places} {sigs : Arena Unit} {al : Alloc} {a : Val} (h : Alike vm vm) (hp : Placed pl sigs vm) (hal : AllocLow al)
    (hsm : vm.heap.str.owned.len < 2 ^ 31) (ha : arg vm 0 = some a) (hs : a &&& tagMask ≠ tagStringO) (hu : ret vm a = some u) :
    ∃ r sg N, (∀ n, N ≤ n → doGc n pl sigs al vm = some (r, sg)) ∧ Alike r u := by
  obtain ⟨st, L, g, _, _, s, _⟩ := id h
  obtain ⟨fs, hok⟩ := hp.sigsOk
  obtain ⟨N, m', hrun, hc, hkeep⟩ := s.collected (isBoolean a && getBool a) (al := al) hp.apart hp.outside hp.dataview hok hp.clean hal hp.waiting hsm
  obtain ⟨k, hk⟩ := (h.collect hc).rel
  have r0 : Rel 0 k vm (vmOf pl vm m') := hk 0 trivial trivial
  have hpos := getretvalpos_eq r0
  have ha' : arg (vmOf pl vm m') 0 = some a := by
    unfold arg at ha ⊢
    rw [← hpos, ← r0.stack.len]
    cases e : getretvalpos vm with
    | none => rw [e] at ha; cases ha
    | some pos =>
      rw [e] at ha
      simp only [Option.bind_eq_bind, Option.bind_some] at ha ⊢
      split
      · rename_i hif
        rw [if_pos hif] at ha
        unfold at? vptr at ha ⊢
        rw [← r0.stack.len]
        cases e2 : vptrIdx (cInt vm.stack.length) (pos + 1 + 0) with
        | none => rw [e2] at ha; cases ha
        | some i =>
          rw [e2] at ha
          simp only [Option.bind_some] at ha ⊢
          exact bufSlots_get ha fun x hx => hkeep (x, a) (by simp [slotsOf, hx]) hs
      · rename_i hif
        rw [if_neg hif] at ha
        exact ha
  obtain ⟨a2, e2, hv⟩ := arg_did r0 0 a ha
  rw [ha'] at e2
  cases e2
  have hr : ∃ r, ret (vmOf pl vm m') a = some r ∧ Alike r u := by
    unfold ret at hu ⊢
    rw [← hpos]
    cases e : getretvalpos vm with
    | none => rw [e] at hu; cases hu
    | some pos =>
      rw [e] at hu
      simp only [Option.bind_eq_bind, Option.bind_some] at hu ⊢
      split at hu
      · cases hu
      · rename_i hn
        cases hu
        rw [if_neg hn]
        refine ⟨_, rfl, Alike.symm (Rel.alike (n := 0) (k := k) { r0 with stack := ?_ })⟩
        exact (r0.stack.take _).append (.cons hv .nil)
  obtain ⟨r, er, hal'⟩ := hr
  refine ⟨r, m'.sigs, N, fun n hn => ?_, hal'⟩
  unfold doGc
  simp only [ha, Option.bind_eq_bind, Option.bind_some, hrun n hn, er]

/-- `gc(65)` in a new engine, with everything that it can call. -/
example : ∃ vm r sg u N, (∀ n, N ≤ n → doGc n highPlaces noSigs none vm = some (r, sg)) ∧ arg vm 0 = some (mkInt 65) ∧ ret vm (mkInt 65) = some u ∧ Alike r u := by
  obtain ⟨vm, L, g, _, s, _, hl⟩ := lib_shows 65536 (by decide) (by decide) 8 (by decide)
  have sh : Shows (inCall vm) { newState libFns libMem with stack := [.imm mkUndefined, .imm (mkInt 65)], callStack := [.imm (mkInt 1)] } L g :=
    ⟨s.heap, .cons (.imm imm_undefined) (.cons (.imm (imm_int _)) .nil), .cons (.imm (imm_int _)) .nil, s.argStack, s.scopes, s.this, s.lastGetprop,
      s.loopAddrs, s.parts, s.bcodeLen, s.error, s.msg, s.cmem⟩
  have ha : Alike (inCall vm) (inCall vm) := ⟨_, _, _, _, _, sh, sh⟩
  have e1 : getretvalpos (inCall vm) = some 0 := by
    unfold getretvalpos at?
    show (((vptr [mkInt 1] (-1)).bind fun i => [mkInt 1][i]?).bind fun ppos => if ¬ isNumber ppos then none else
      if (BitVec.ofInt 32 (getInt ppos - 1)).toInt < cInt [mkUndefined, mkInt 65].length then some (BitVec.ofInt 32 (getInt ppos - 1)).toInt else none) = some 0
    decide +kernel
  have e2 : arg (inCall vm) 0 = some (mkInt 65) := by
    unfold arg
    rw [e1]
    simp only [Option.bind_eq_bind, Option.bind_some]
    show (if (0 : Int) + 1 > 0 ∧ (0 : Int) + 1 + 0 < cInt 2 then at? [mkUndefined, mkInt 65] (0 + 1 + 0) else some mkUndefined) = _
    decide +kernel
  obtain ⟨u, e3⟩ : ∃ u, ret (inCall vm) (mkInt 65) = some u := by
    unfold ret
    rw [e1]
    exact ⟨_, rfl⟩
  have hp : Placed highPlaces noSigs (inCall vm) := high_placed ha (by
    have := s.argStack
    show vm.argStack = []
    cases hv : vm.argStack with
    | nil => rfl
    | cons a l => rw [hv] at this; cases this)
    (by show vm.scopes.length < _; rw [s.scopes.len]; decide) (by show 2 < 2 ^ 24; decide) (by show 1 < 2 ^ 24; decide)
  obtain ⟨r, sg, N, h1, h2⟩ := C73_partial (al := none) ha hp (by intro r h; cases h) (by show vm.heap.str.owned.len < _; omega) e2 (by decide +kernel) e3
  exact ⟨_, r, sg, u, N, h1, e2, e3, h2⟩

/-! ### Where it fails -/

/-- A new engine's heap with three strings of eight bytes; the first is garbage. -/
def threeStrings : Option (Heap × Val × Val) := do
  let h ← createHeap 0 demoMem (some (4096, fun _ => 0)) (some (4096, fun _ => 0)) (some 8192) (some 16384)
  let (st, _) ← mkStringCopy 0 h.str (.loc (txt "garbage!")) 8 (fun _ => some (4096, fun _ => 0))
  let (st, a) ← mkStringCopy 0 st (.loc (txt "AAAAAAAA")) 8 (fun _ => some (4096, fun _ => 0))
  let (st, b) ← mkStringCopy 0 st (.loc (txt "BBBBBBBB")) 8 (fun _ => some (4096, fun _ => 0))
  pure ({ h with str := st }, a, b)

/-- The engine in the call of `gc` in `b + gc(a)`. -/
def staleVm (h : Heap) (a b : Val) : Vm := { heap := h, stack := [b, mkUndefined, a], callStack := [mkInt 2] }

/-- `doGc` with bounds, to compute with. -/
def doGcN (k n : Nat) (vm : Vm) : Option (Vm × Arena Unit) := do
  let arg0 ← arg vm 0
  let m ← gcN k n (memOf lostPlaces vm lostSigs) (rootsOf lostPlaces vm) (isBoolean arg0 && getBool arg0) none
  let vm' ← ret (vmOf lostPlaces vm m) arg0
  some (vm', m.sigs)

theorem doGcN_eq {k n n' : Nat} {vm : Vm} {r} (h : doGcN k n vm = some r) (hn : n ≤ n') : doGc n' lostPlaces lostSigs none vm = some r := by
  simp only [doGcN, Option.bind_eq_bind, Option.bind_eq_some_iff] at h
  obtain ⟨a, h1, m, h2, v, h3, h4⟩ := h
  simp only [doGc, h1, Option.bind_eq_bind, Option.bind_some, mjsGc_mono (gcN_eq h2) hn, h3, h4]

/-- **C73, where it fails.** `mjs_do_gc` keeps its argument in a local variable that the collection does not see.  In `b + gc(a)`
with two strings of eight bytes, made after a third one that is garbage, `a` is moved to the place of the garbage and `b` to that of
`a`: the call of `gc` returns `b`. -/
theorem C73_stale : ∃ (h : Heap) (a b : Val) (r : Vm) (sg : Arena Unit) (x v : Val), threeStrings = some (h, a, b) ∧
    arg (staleVm h a b) 0 = some a ∧ strBytes h.str a = some (txt "AAAAAAAA") ∧ strBytes h.str b = some (txt "BBBBBBBB") ∧
    (∀ n, 60 ≤ n → doGc n lostPlaces lostSigs none (staleVm h a b) = some (r, sg)) ∧
    r.stack = [x, v] ∧ strBytes r.heap.str x = some (txt "BBBBBBBB") ∧ strBytes r.heap.str v = some (txt "BBBBBBBB") := by
  have hd : (threeStrings.bind fun t => (doGcN 60 60 (staleVm t.1 t.2.1 t.2.2)).map fun r =>
      (decide (arg (staleVm t.1 t.2.1 t.2.2) 0 = some t.2.1), decide (strBytes t.1.str t.2.1 = some (txt "AAAAAAAA")),
        decide (strBytes t.1.str t.2.2 = some (txt "BBBBBBBB")),
        decide (r.1.stack.map (fun v => strBytes r.1.heap.str v) = [some (txt "BBBBBBBB"), some (txt "BBBBBBBB")]))) =
      some (true, true, true, true) := by decide +kernel
  cases e : threeStrings with
  | none => rw [e] at hd; cases hd
  | some t =>
    obtain ⟨h, a, b⟩ := t
    rw [e] at hd
    simp only [Option.bind_some] at hd
    cases er : doGcN 60 60 (staleVm h a b) with
    | none => rw [er] at hd; cases hd
    | some r =>
      obtain ⟨r, sg⟩ := r
      rw [er] at hd
      simp only [Option.map_some, Option.some.injEq, Prod.mk.injEq, decide_eq_true_eq] at hd
      obtain ⟨h1, h2, h3, h4⟩ := hd
      obtain ⟨x, l, hx, e1, h5⟩ := List.map_eq_cons_iff.1 h4
      obtain ⟨v, l', rfl, e2, h6⟩ := List.map_eq_cons_iff.1 h5
      rw [List.map_eq_nil_iff.1 h6] at hx
      exact ⟨h, a, b, r, sg, x, v, rfl, h1, h2, h3, fun n hn => doGcN_eq er hn, hx, e1, e2⟩

end Mjs.Props
