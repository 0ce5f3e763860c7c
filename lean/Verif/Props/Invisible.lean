import Verif.Lemmas.SimNative
import Verif.Lemmas.SimCan
import Verif.Spec.GcBuiltin
import Verif.Lemmas.SimCreate
import Verif.Props.NumText

/-!
# Collections do not change what scripts do (C72)

Properties of `mjs_execute`, with `mjs_gc` between the instructions.  Two engines are `Alike` (Spec/Invisible) if they differ only in
where their strings and objects are in memory: both show one state, in which objects have numbers and strings are bytes.
-/

namespace Mjs.Props
open Mjs Mjs.Mbuf Mjs.Varint Mjs.Str Mjs.Arena Mjs.Obj Mjs.Spec Mjs.Spec.Gc Mjs.Gc Mjs.Core Mjs.Exec Mjs.Create
open Mjs.Spec.Invisible
open Mjs.Client (Pairs)

variable {E : Env} {n : Nat}

/-- **C72, results.** Code is executed in two engines that are alike.  In either of them collections may happen between any two
instructions, and the allocator may place things as it likes.  Then both end with the same error and the same message, and with values
that the host cannot tell apart, however deep it looks; and the engines are alike again, for what is executed next.

Missing: `for`-`in` (an iterator is the address of a property, which a collection does not know), values that only wait in
`arg_stack` during a collection (C26), FFI signatures, and what C functions do is assumed to be alike (`Respects`). -/
theorem C72_same_partial (ht : ∀ v, (E.numText v).length ≤ 2 ^ 30) (hf : Respects (n + 2) E.ffi) (hc : ∀ p, Respects (n + 2) (E.cfun p))
    {f1 f2 : Bool} {vm1 vm2 r1 r2 : Vm} {off : Nat} {v1 v2 : Val} (ha : Alike vm1 vm2)
    (h1 : Executes f1 E (n + 2) vm1 off r1 v1) (h2 : Executes f2 E (n + 2) vm2 off r2 v2) :
    r1.error = r2.error ∧ r1.msg = r2.msg ∧ (∀ d, Same d r1.heap v1 r2.heap v2) ∧ Alike r1 r2 := by
  obtain ⟨bp, x1, i1, p1, a1, b1, c1, d1, e1⟩ := h1
  obtain ⟨bp', x2, i2, p2, a2, b2, c2, d2, e2⟩ := h2
  rw [← (ha.part off).1, a1] at a2
  cases a2
  rw [← ha.save] at b2
  have hx := run_alike ht hf hc b1 b2 (ha.err _ _) rfl rfl rfl
  obtain ⟨_, q1, q2, q3⟩ := hx.part off
  rw [← q1, c1] at c2
  cases c2
  rw [← q2, d1] at d2
  cases d2
  obtain ⟨hs, hal⟩ := (hx.res i1 (p := { p1 with execRes := some x1.error }) (q := { p1 with execRes := some x2.error }) (by rw [q3])).popped
  rw [← e1, ← e2] at hs hal
  obtain ⟨s, _, _, _, _, s1, s2⟩ := id hal
  exact ⟨s1.error.trans s2.error.symm, s1.msg.trans s2.msg.symm, hs, hal⟩

/-- Without collections these executions are those of the interpreter. -/
theorem executes_execute {vm r : Vm} {off : Nat} {v : Val} (h : Executes false E n vm off r v) : execute E vm off = some (r, v) := by
  obtain ⟨bp, x, i, p, h1, h2, h3, h4, h5⟩ := h
  unfold execute
  simp only [h1, h2.loop, h3, h4, Option.bind_eq_bind, Option.bind_some]
  rw [← h5]

/-- **C72, endings.** If code, with collections wherever they happen, comes to an end in one engine, then it comes to an end in an engine
that is alike, in the interpreter without any collection and with the same results, unless memory runs out there. -/
theorem C72_ends_partial (ht : ∀ v, (E.numText v).length ≤ 2 ^ 30) (hf : Respects (n + 2) E.ffi) (hc : ∀ p, Respects (n + 2) (E.cfun p))
    {f1 : Bool} {vm1 vm2 r1 : Vm} {off : Nat} {v1 : Val} (ha : Alike vm1 vm2) (h1 : Executes f1 E (n + 2) vm1 off r1 v1) :
    (∃ r2 v2, execute E vm2 off = some (r2, v2) ∧ r1.error = r2.error ∧ r1.msg = r2.msg ∧ (∀ d, Same d r1.heap v1 r2.heap v2) ∧ Alike r1 r2) ∨
      RunsOut E (n + 2) vm2 off := by
  obtain ⟨bp, x1, i1, p1, a1, b1, c1, d1, e1⟩ := id h1
  rcases run_ends ht hf hc b1 (m2 := { vm := setErrorf vm2 .ok none, bp := bp, i := wrap ((off : Int) - bp.startIdx) }) (ha.err _ _) rfl rfl rfl with ⟨x2, b2⟩ | hst
  · have hx := run_alike ht hf hc b1 b2 (ha.err _ _) rfl rfl rfl
    obtain ⟨_, q1, q2, q3⟩ := hx.part off
    rw [ha.save] at b2
    have h2 : Executes false E (n + 2) vm2 off (pop { x2 with parts := x2.parts.set i1 { p1 with execRes := some x2.error } }).2
        (pop { x2 with parts := x2.parts.set i1 { p1 with execRes := some x2.error } }).1 :=
      ⟨bp, x2, i1, p1, by rw [← (ha.part off).1]; exact a1, b2, by rw [← q1]; exact c1, by rw [← q2]; exact d1, rfl⟩
    exact .inl ⟨_, _, executes_execute h2, C72_same_partial ht hf hc ha h1 h2⟩
  · exact .inr ⟨bp, by rw [← (ha.part off).1]; exact a1, hst⟩

/-- **C72, new engines.** Two engines made by `mjs_create` are alike, wherever the allocator places what they need. -/
theorem C72_created {lit : List UInt8 → Nat} {f : Fns} {hr hr' : Nat} {cmem : Nat → Option UInt8} {al1 al2 al1' al2' : Alloc} {bo bp bo' bp' : Option Nat}
    {al al' : Nat → Allocs} {h h' : Heap} (hlit : Literals cmem lit) (h1 : AllocLow al1) (h2 : AllocLow al2) (h3 : al1 ≠ none)
    (ho : ∀ b, bo = some b → 0 < b ∧ b % 8 = 0 ∧ b + 20 * 8 < 2 ^ 47) (hp : ∀ b, bp = some b → 0 < b ∧ b % 8 = 0 ∧ b + 20 * 24 < 2 ^ 47)
    (hc : createHeap hr cmem al1 al2 bo bp = some h) (ha : Supplied 21 h al)
    (h1' : AllocLow al1') (h2' : AllocLow al2') (h3' : al1' ≠ none)
    (ho' : ∀ b, bo' = some b → 0 < b ∧ b % 8 = 0 ∧ b + 20 * 8 < 2 ^ 47) (hp' : ∀ b, bp' = some b → 0 < b ∧ b % 8 = 0 ∧ b + 20 * 24 < 2 ^ 47)
    (hc' : createHeap hr' cmem al1' al2' bo' bp' = some h') (ha' : Supplied 21 h' al') :
    ∃ vm vm', create lit f hr cmem al1 al2 bo bp al = some vm ∧ create lit f hr' cmem al1' al2' bo' bp' al' = some vm' ∧ Alike vm vm' := by
  obtain ⟨vm, L, g, e, s, _⟩ := create_shows (f := f) (n := 0) hlit h1 h2 h3 ho hp hc ha
  obtain ⟨vm', L', g', e', s', _⟩ := create_shows (f := f) (n := 0) hlit h1' h2' h3' ho' hp' hc' ha'
  exact ⟨vm, vm', e, e', _, L, g, L', g', s, s'⟩

/-- **C72, built-in functions.** The functions of the library that are modelled (other than `splice` and those of `JSON`), called in
engines that are alike and have memory for them, leave engines that are alike. -/
theorem C72_builtin {lit : Nat} {b : Builtin.Body} (h : InLibrary lit b) : Respects (n + 4) (Builtin.cfunction b) := by
  cases h
  · exact body_respects charCodeAt_rel (fun i => by show 2 * 0 ≤ n + 4 + 2 * i; omega)
  · exact body_respects indexOf_rel (fun i => by show 2 * 0 ≤ n + 4 + 2 * i; omega)
  · exact body_respects slice_rel (fun i => by show 2 * 1 ≤ n + 4 + 2 * i; omega)
  · exact body_respects push_rel (fun i => by show 2 * i ≤ n + 4 + 2 * i; omega)
  · exact body_respects chr_rel (fun i => by show 2 * 1 ≤ n + 4 + 2 * i; omega)
  · exact body_respects isNaN_rel (fun i => by show 2 * 0 ≤ n + 4 + 2 * i; omega)
  · exact body_respects die_rel (fun i => by show 2 * 0 ≤ n + 4 + 2 * i; omega)
  · exact body_respects (objectCreate_rel lit) (fun i => by show 2 * 2 ≤ n + 4 + 2 * i; omega)

theorem nothing_respects : Respects n fun _ => none := fun _ _ _ _ _ _ h => by cases h

/-- **C72, scripts that use the library.** As `C72_same_partial`, with nothing assumed of C functions: every C function that scripts can
call is one of these functions of the library (or its outcome is left open), and numbers are written as the engine writes them.

Missing: as for `C72_same_partial`; `splice`, the functions of `JSON` and FFI calls. -/
theorem C72_library_partial {lit : Nat} (hn : E.numText = Print.numText) (hf : E.ffi = fun _ => none)
    (hc : ∀ p, E.cfun p = (fun _ => none) ∨ ∃ b, InLibrary lit b ∧ E.cfun p = Builtin.cfunction b)
    {f1 f2 : Bool} {vm1 vm2 r1 r2 : Vm} {off : Nat} {v1 v2 : Val} (ha : Alike vm1 vm2)
    (h1 : Executes f1 E (n + 4) vm1 off r1 v1) (h2 : Executes f2 E (n + 4) vm2 off r2 v2) :
    r1.error = r2.error ∧ r1.msg = r2.msg ∧ (∀ d, Same d r1.heap v1 r2.heap v2) ∧ Alike r1 r2 := by
  refine C72_same_partial (n := n + 2) (fun v => ?_) ?_ (fun p => ?_) ha h1 h2
  · rw [hn]; exact Nat.le_trans (numText_short v).1 (by decide)
  · rw [hf]; exact nothing_respects
  · rcases hc p with e | ⟨b, hb, e⟩ <;> rw [e]
    · exact nothing_respects
    · exact C72_builtin hb

/-! ### Collections are possible -/

theorem bufSlots_addr : ∀ (l : List Val) (base : Nat), ∀ s ∈ bufSlots base l, base ≤ s.1 ∧ s.1 < base + 8 * l.length := by
  intro l
  induction l with
  | nil => intro base s hs; cases hs
  | cons v l ih =>
    intro base s hs
    simp only [List.length_cons]
    rcases List.mem_cons.1 hs with rfl | hs
    · exact ⟨Nat.le_refl _, by show base < _; omega⟩
    · have := ih _ s hs; omega

theorem bufSlots_nodup : ∀ (l : List Val) (base : Nat), ((bufSlots base l).map (·.1)).Nodup := by
  intro l
  induction l with
  | nil => intro base; exact List.nodup_nil
  | cons v l ih =>
    intro base
    refine List.nodup_cons.2 ⟨fun hm => ?_, ih _⟩
    obtain ⟨s, hs, e⟩ := List.mem_map.1 hm
    have := bufSlots_addr l _ s hs
    have e : s.1 = base := e
    omega

/-- Variables and stacks above the heap. -/
def highPlaces : Places where
  this := 2 ^ 47 + 16
  dataview := 2 ^ 47 + 24
  dataviewVal := mkUndefined
  last := 2 ^ 47 + 32
  scopes := 2 ^ 47 + 2 ^ 30
  stack := 2 ^ 47 + 2 ^ 31
  callStack := 2 ^ 47 + 2 ^ 32

/-- No FFI signatures. -/
def noSigs : Arena Unit := { cellSize := 8, inc := 1, blocks := [], mem := fun _ => none, free := 0 }

/-- An engine may have its variables there. -/
theorem high_placed {vm : Vm} (h : Alike vm vm) (harg : vm.argStack = []) (h1 : vm.scopes.length < 2 ^ 24) (h2 : vm.stack.length < 2 ^ 24)
    (h3 : vm.callStack.length < 2 ^ 24) : Placed highPlaces noSigs vm := by
  obtain ⟨st, L, g, _, _, s, _⟩ := id h
  obtain ⟨A, fo, fp, sd⟩ := s.heap
  have hin : ∀ x ∈ slotsOf highPlaces vm, 2 ^ 47 + 16 ≤ x.1 ∧ x.1 < 2 ^ 48 := by
    intro x hx
    simp only [slotsOf, valSlots, List.mem_append, List.mem_cons, List.not_mem_nil, or_false] at hx
    rcases hx with ((((rfl | rfl | rfl) | hx) | hx) | hx)
    · show _ ≤ (2 ^ 47 + _ : Nat) ∧ (2 ^ 47 + _ : Nat) < _
      omega
    · show _ ≤ (2 ^ 47 + _ : Nat) ∧ (2 ^ 47 + _ : Nat) < _
      omega
    · show _ ≤ (2 ^ 47 + _ : Nat) ∧ (2 ^ 47 + _ : Nat) < _
      omega
    · have := bufSlots_addr _ _ x hx; simp only [highPlaces] at this; omega
    · have := bufSlots_addr _ _ x hx; simp only [highPlaces] at this; omega
    · have := bufSlots_addr _ _ x hx; simp only [highPlaces] at this; omega
  have hnd : ((slotsOf highPlaces vm).map (·.1)).Nodup := by
    have b1 := bufSlots_addr vm.scopes highPlaces.scopes
    have b2 := bufSlots_addr vm.stack highPlaces.stack
    have b3 := bufSlots_addr vm.callStack highPlaces.callStack
    have hv : ∀ x ∈ (valSlots highPlaces vm).map (·.1), x < 2 ^ 47 + 2 ^ 30 := by
      show ∀ x ∈ [highPlaces.this, highPlaces.dataview, highPlaces.last], _
      decide
    simp only [highPlaces] at b1 b2 b3
    unfold slotsOf
    simp only [List.map_append]
    refine List.nodup_append.2 ⟨List.nodup_append.2 ⟨List.nodup_append.2 ⟨?_, bufSlots_nodup _ _, ?_⟩, bufSlots_nodup _ _, ?_⟩, bufSlots_nodup _ _, ?_⟩
    · show [highPlaces.this, highPlaces.dataview, highPlaces.last].Nodup
      decide
    · intro a ha b hb e
      obtain ⟨y, hy, rfl⟩ := List.mem_map.1 hb
      have := hv a ha; have := b1 y hy; omega
    · intro a ha b hb e
      obtain ⟨y, hy, rfl⟩ := List.mem_map.1 hb
      have := b2 y hy
      rcases List.mem_append.1 ha with ha | ha
      · have := hv a ha; omega
      · obtain ⟨z, hz, rfl⟩ := List.mem_map.1 ha
        have := b1 z hz; omega
    · intro a ha b hb e
      obtain ⟨y, hy, rfl⟩ := List.mem_map.1 hb
      have := b3 y hy
      rcases List.mem_append.1 ha with ha | ha
      · rcases List.mem_append.1 ha with ha | ha
        · have := hv a ha; omega
        · obtain ⟨z, hz, rfl⟩ := List.mem_map.1 ha
          have := b1 z hz; omega
      · obtain ⟨z, hz, rfl⟩ := List.mem_map.1 ha
        have := b2 z hz; omega
  have hnone : ∀ a, 2 ^ 47 ≤ a → vm.heap.props.mem a = none := by
    intro a ha
    cases hm : vm.heap.props.mem a with
    | none => rfl
    | some c =>
      have := (sd.inv.props.cellAddr (x := a) (by rw [hm]; simp)).2.2
      omega
  exact ⟨hnd, fun x hx => by
      have := hin x hx
      exact ⟨by omega, by omega, hnone _ (by omega), hnone _ (by omega)⟩, rfl,
    ⟨[], by decide, by decide, by decide, by simp [noSigs], .nil, by intro x; simp [IsCell, noSigs], FreeList.nil, List.nodup_nil⟩, (by intro a c h; cases h),
    by rw [harg]; intro v hv; cases hv⟩

/-- **C72, collections are possible.** In an engine that shows a state, with nothing waiting in `arg_stack`, a collection can happen. -/
theorem C72_possible {vm : Vm} (h : Alike vm vm) (harg : vm.argStack = []) (hs : vm.heap.str.owned.len < 2 ^ 31) (h1 : vm.scopes.length < 2 ^ 24)
    (h2 : vm.stack.length < 2 ^ 24) (h3 : vm.callStack.length < 2 ^ 24) : ∃ vm', Collection vm vm' ∧ Alike vm vm' := by
  obtain ⟨st, L, g, _, _, s, _⟩ := id h
  have p := high_placed h harg h1 h2 h3
  obtain ⟨fs, hok⟩ := p.sigsOk
  obtain ⟨_, m', _, hc, _⟩ := s.collected true (al := none) p.apart p.outside p.dataview hok p.clean (by intro r h; cases h) p.waiting hs
  exact ⟨_, hc, h.collect hc⟩

/-! ### An engine, a script and a collection -/

/-- New engines with memory from `k` on. -/
theorem lib_shows (k : Nat) (h8 : k % 8 = 0) (hk : 65536 ≤ k) (n : Nat) (hn : k + (n + 21) * 4294967296 < 2 ^ 46) : ∃ vm L g,
    create libLit libFns 0 libMem (some (4096, fun _ => 0)) (some (4096, fun _ => 0)) (some 8192) (some 16384) (wide k) = some vm ∧
    Shows vm (newState libFns libMem) L g ∧ Supplied n vm.heap vm.al ∧ vm.heap.str.owned.len < 2 ^ 29 := by
  have hlow : AllocLow (some (4096, fun _ => 0)) := by intro r hr; cases hr; exact ⟨by decide, by decide⟩
  have hd : (createHeap 0 libMem (some (4096, fun _ => 0)) (some (4096, fun _ => 0)) (some 8192) (some 16384)).map
      (fun h => ([h.objs.cellSize, h.objs.inc, h.props.cellSize, h.props.inc, h.str.owned.len, h.str.foreign.len],
        [h.objs.blocks, h.props.blocks])) = some ([8, 10, 24, 10, 1, 0], [[(8192, 20)], [(16384, 20)]]) := by
    decide +kernel
  simp only [Option.map_eq_some_iff] at hd
  obtain ⟨h, hc, hp⟩ := hd
  simp only [Prod.mk.injEq, List.cons.injEq, and_true] at hp
  obtain ⟨⟨p1, p2, p4, p5, p7, p8⟩, p3, p6⟩ := hp
  have hr : Spaced h k :=
    ⟨h8, by omega, p1, p2, by rw [p3]; simp; omega, p4, p5, by rw [p6]; simp; omega, by omega⟩
  obtain ⟨vm, L, g, e, s, hs, hl⟩ := create_shows (f := libFns) (n := n) lib_literals hlow hlow (by simp) (by simp) (by simp) hc (supplied_spaced (n + 21) hr hn)
  exact ⟨vm, L, g, e, s, hs, by omega⟩

/-- The engine with the code of the script `{}`. -/
def withObject (vm : Vm) : Vm := { vm with parts := [⟨0, [PUSH_OBJ], none⟩], bcodeLen := 1 }

theorem withObject_shows {vm : Vm} {st L g} (h : Shows vm st L g) :
    Shows (withObject vm) { st with parts := [⟨0, [PUSH_OBJ], none⟩], bcodeLen := 1 } L g :=
  ⟨h.heap, h.stack, h.callStack, h.argStack, h.scopes, h.this, h.lastGetprop, h.loopAddrs, rfl, rfl, h.error, h.msg, h.cmem⟩

/-- The engine after `{}`. -/
def afterObject (vm : Vm) (h : Heap) (v : Val) : Vm :=
  { withObject vm with heap := h, stack := [v], error := .ok, msg := none, al := fun k => vm.al (k + 1) }

/-- The instruction of `{}`, in a new engine. -/
theorem object_step {vm : Vm} {L g} (s : Shows vm (newState libFns libMem) L g) (hs : Supplied 2 vm.heap vm.al) (hl : vm.heap.str.owned.len < 2 ^ 29) :
    ∃ h v, Alike (afterObject vm h v) (afterObject vm h v) ∧ h.str = vm.heap.str ∧ ∀ {f sv r},
      Invisible.Run f demoEnv 2 sv { vm := afterObject vm h v, bp := ⟨0, [PUSH_OBJ], none⟩, i := 1, op := PUSH_OBJ } r →
      Invisible.Run f demoEnv 2 sv { vm := setErrorf (withObject vm) .ok none, bp := ⟨0, [PUSH_OBJ], none⟩, i := 0 } r := by
  obtain ⟨h1, v, g1, e1, s1, gr, r1, _, st1⟩ := s.heap.new hs.1.obj
  have h0 : vm.stack = [] := by
    have := s.stack
    cases hv : vm.stack with
    | nil => rfl
    | cons a l => rw [hv] at this; cases this
  have hsh : Shows (afterObject vm h1 v) { newState libFns libMem with
      world := (newState libFns libMem).world.new, stack := [.obj tagObject (newState libFns libMem).world.next], parts := [⟨0, [PUSH_OBJ], none⟩], bcodeLen := 1 } L g1 :=
    ⟨s1, .cons r1 .nil, s.callStack.imp fun _ _ h => h.mono gr, s.argStack.imp fun _ _ h => h.mono gr, s.scopes.imp fun _ _ h => h.mono gr,
      s.this.mono gr, s.lastGetprop.mono gr, s.loopAddrs, rfl, rfl, rfl, rfl, by show h1.str.cmem = _; rw [st1]; exact s.cmem⟩
  refine ⟨h1, v, ⟨_, _, _, _, _, hsh, hsh⟩, st1, fun {f sv r} hr => ?_⟩
  refine Invisible.Run.step (op := PUSH_OBJ) (m' := { vm := afterObject vm h1 v, bp := ⟨0, [PUSH_OBJ], none⟩, i := 0, op := PUSH_OBJ }) (by show 0 < 1; decide) rfl ⟨(by show Supplied (2 + 2 * vm.stack.length) vm.heap vm.al; rw [h0]; exact hs), hl⟩ (by decide) ?_ rfl hr
  have e2 : mkObj (setErrorf (withObject vm) .ok none) = some ({ setErrorf (withObject vm) .ok none with heap := h1, al := fun k => vm.al (k + 1) }, v) := by
    unfold mkObj
    show (mkObject vm.heap (vm.al 0)).map _ = _
    rw [e1]
    rfl
  show (mkObj (setErrorf (withObject vm) .ok none)).bind _ = _
  rw [e2]
  show some (Next.go _) = some (Next.go _)
  simp only [Core.push, setErrorf, withObject, afterObject, h0, List.nil_append]

/-- The end of the execution of `{}`. -/
theorem object_end {f : Bool} {vm r : Vm} (h : Invisible.Run f demoEnv 2 (save (withObject vm)) { vm := setErrorf (withObject vm) .ok none, bp := ⟨0, [PUSH_OBJ], none⟩, i := 0 } r)
    (hp : r.parts = [⟨0, [PUSH_OBJ], none⟩]) (hb : r.bcodeLen = 1) : ∃ r' v, Executes f demoEnv 2 (withObject vm) 0 r' v ∧ r'.heap = r.heap := by
  refine ⟨_, _, ⟨⟨0, [PUSH_OBJ], none⟩, r, 0, ⟨0, [PUSH_OBJ], none⟩, rfl, h, ?_, by rw [hp]; rfl, rfl⟩, ?_⟩
  · unfold partIdx
    rw [hp, hb]
    rfl
  · split <;> rfl

/-- The script `{}` is executed in two new engines, which are in different places.  In the second one there is a collection after it. -/
theorem object_run : ∃ vm vm' x y r r' v v', Alike vm vm' ∧ Executes false demoEnv 2 vm 0 r v ∧ Executes true demoEnv 2 vm' 0 r' v' ∧
    Collection x y ∧ r'.heap = y.heap := by
  obtain ⟨vm, L, g, _, s, hs, hl⟩ := lib_shows 65536 (by decide) (by decide) 2 (by decide)
  obtain ⟨vm', L', g', _, s', hs', hl'⟩ := lib_shows 131072 (by decide) (by decide) 2 (by decide)
  obtain ⟨h, v, a, est, run⟩ := object_step s hs hl
  obtain ⟨h', v', a', est', run'⟩ := object_step s' hs' hl'
  obtain ⟨y, hc, hy⟩ := C72_possible a' (by
    have := s'.argStack
    show vm'.argStack = []
    cases hv : vm'.argStack with
    | nil => rfl
    | cons a l => rw [hv] at this; cases this) (by show h'.str.owned.len < _; rw [est']; omega)
    (by show vm'.scopes.length < _; rw [s'.scopes.len]; decide) (by show 1 < 2 ^ 24; decide) (by show vm'.callStack.length < _; rw [s'.callStack.len]; decide)
  have q1 := run (f := false) (sv := save (withObject vm)) (.stop (by show ¬ 1 < 1; decide))
  have q2 := run' (f := true) (sv := save (withObject vm')) (.collect rfl hc (.stop (by show ¬ 1 < 1; decide)))
  obtain ⟨r1, v1, h1, _⟩ := object_end q1 rfl rfl
  obtain ⟨r2, v2, h2, e2⟩ := object_end q2 hc.parts hc.bcodeLen
  exact ⟨_, _, _, y, r1, r2, v1, v2, ⟨_, L, g, L', g', withObject_shows s, withObject_shows s'⟩, h1, h2, hc, e2⟩

/-- The hypotheses of `C72_same_partial` are met. -/
example : ∃ vm vm' r r' v v', Alike vm vm' ∧ Executes false demoEnv 2 vm 0 r v ∧ Executes true demoEnv 2 vm' 0 r' v' ∧ ∀ d, Same d r.heap v r'.heap v' := by
  obtain ⟨vm, vm', _, _, r, r', v, v', ha, h1, h2, _⟩ := object_run
  exact ⟨vm, vm', r, r', v, v', ha, h1, h2,
    (C72_same_partial (n := 0) (fun _ => Nat.zero_le _) nothing_respects (fun _ => nothing_respects) ha h1 h2).2.2.1⟩

/-- The engine in a call with the argument 65. -/
def inCall (vm : Vm) : Vm := { vm with stack := [mkUndefined, mkInt 65], callStack := [mkInt 1] }

/-- The function `chr` is called with 65 in two new engines that are in different places. -/
example : ∃ vm vm' r r', Alike vm vm' ∧ Builtin.cfunction Builtin.chr vm = some r ∧ Builtin.cfunction Builtin.chr vm' = some r' ∧ Alike r r' := by
  obtain ⟨vm, L, g, _, s, hs, hl⟩ := lib_shows 65536 (by decide) (by decide) 8 (by decide)
  obtain ⟨vm', L', g', _, s', hs', hl'⟩ := lib_shows 131072 (by decide) (by decide) 8 (by decide)
  have sh : ∀ {vm L g}, Shows vm (newState libFns libMem) L g →
      Shows (inCall vm) { newState libFns libMem with stack := [.imm mkUndefined, .imm (mkInt 65)], callStack := [.imm (mkInt 1)] } L g := by
    intro vm L g s
    exact ⟨s.heap, .cons (.imm imm_undefined) (.cons (.imm (imm_int _)) .nil), .cons (.imm (imm_int _)) .nil, s.argStack, s.scopes, s.this, s.lastGetprop,
      s.loopAddrs, s.parts, s.bcodeLen, s.error, s.msg, s.cmem⟩
  have ha : Alike (inCall vm) (inCall vm') := ⟨_, _, _, _, _, sh s, sh s'⟩
  have hr : ∃ r, Builtin.cfunction Builtin.chr (inCall vm) = some r := by
    have e1 : getretvalpos (inCall vm) = some 0 := by
      unfold getretvalpos at?
      show (((vptr [mkInt 1] (-1)).bind fun i => [mkInt 1][i]?).bind fun ppos => if ¬ isNumber ppos then none else
        if (BitVec.ofInt 32 (getInt ppos - 1)).toInt < cInt [mkUndefined, mkInt 65].length then some (BitVec.ofInt 32 (getInt ppos - 1)).toInt else none) = some 0
      decide +kernel
    have e2 : nargs (inCall vm) = some 1 := by
      unfold nargs
      rw [e1]
      show some (if (0 : Int) + 1 > 0 ∧ (0 : Int) + 1 < cInt 2 then cInt 2 - (0 + 1) else 0) = _
      decide +kernel
    have e3 : arg (inCall vm) (0 : Nat) = some (mkInt 65) := by
      unfold arg
      rw [e1]
      simp only [Option.bind_eq_bind, Option.bind_some]
      show (if (0 : Int) + 1 > 0 ∧ (0 : Int) + 1 + (0 : Nat) < cInt 2 then at? [mkUndefined, mkInt 65] (0 + 1 + (0 : Nat)) else some mkUndefined) = _
      decide +kernel
    have e : Builtin.argsOf (inCall vm) = some [mkInt 65] := by
      unfold Builtin.argsOf
      rw [e2]
      simp only [Option.bind_eq_bind, Option.bind_some, Int.toNat_one, List.range_one, List.mapM_cons, List.mapM_nil, e3, Option.pure_def]
    obtain ⟨st, v, L1, c1, _⟩ := s.heap.copy (p := .loc [65]) (bs := [65]) rfl (load_loc _ _) (by decide) hs.1
    unfold Builtin.cfunction
    rw [e]
    simp only [Option.bind_eq_bind, Option.bind_some]
    have e4 : ∀ t, Builtin.chr t [mkInt 65] (inCall vm).heap (fun k => (inCall vm).al (2 * k)) = some ⟨{ vm.heap with str := st }, v, none⟩ := by
      intro t
      unfold Builtin.chr
      simp only [List.getElem?_cons_zero, Option.getD_some]
      have hi : getInt (mkInt 65) = 65 := by decide +kernel
      rw [hi, if_pos (by decide +kernel)]
      show (mkStringCopy (vm.al 0).hr vm.heap.str (.loc [65]) 1 (vm.al 0).strs).map _ = _
      rw [show mkStringCopy (vm.al 0).hr vm.heap.str (.loc [65]) 1 (vm.al 0).strs = some (st, v) from c1]
      rfl
    rw [e4]
    simp only [Option.bind_some, Builtin.leave, Core.ret, Option.bind_eq_bind]
    have e5 : getretvalpos { inCall vm with heap := { vm.heap with str := st }, al := fun k => (inCall vm).al (2 * k + 1) } = some 0 := e1
    rw [e5]
    exact ⟨_, rfl⟩
  obtain ⟨r, hr⟩ := hr
  obtain ⟨r', hr', hal⟩ := C72_builtin (n := 0) (lit := 0) .chr (inCall vm) (inCall vm') r ha ⟨hs, hl⟩ ⟨hs', hl'⟩ hr
  exact ⟨_, _, r, r', ha, hr, hr', hal⟩

/-- The numbers of the engine: their texts are short (C70). -/
example : ∀ v, (Print.numText v).length ≤ 2 ^ 30 := fun v => Nat.le_trans (numText_short v).1 (by decide)

end Mjs.Props
