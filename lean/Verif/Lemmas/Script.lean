import Verif.Lemmas.LayoutWf
import Verif.Lemmas.CompileStmt

/-! Running a loaded script. -/

namespace Mjs.Exec
open Mjs Mjs.Str Mjs.Obj Mjs.Core Mjs.Code Mjs.Sem Mjs.Bcode

/-! ## Functions by address -/

theorem fnAt_mem {l : List (Nat × Fn)} (h : (l.map (·.1)).Nodup) {p : Nat × Fn} (hp : p ∈ l) : fnAt l p.1 = some p.2 := by
  induction l with
  | nil => cases hp
  | cons q l ih =>
    rw [List.map_cons, List.nodup_cons] at h
    unfold fnAt
    by_cases e : q.1 = p.1
    · rcases List.mem_cons.1 hp with rfl | hp
      · simp
      · exact absurd (List.mem_map.2 ⟨p, hp, e.symm⟩) h.1
    · rcases List.mem_cons.1 hp with rfl | hp
      · exact absurd rfl e
      · have := ih h.2 hp
        unfold fnAt at this
        simp [e, this]

theorem mem_fnAt {l : List (Nat × Fn)} {a : Nat} {f : Fn} (h : fnAt l a = some f) : (a, f) ∈ l := by
  unfold fnAt at h
  rw [Option.map_eq_some_iff] at h
  obtain ⟨p, hp, rfl⟩ := h
  have h1 := List.find?_some hp
  have h2 := List.mem_of_find?_eq_some hp
  simp only [beq_iff_eq] at h1
  rw [← h1]
  exact h2

theorem script_len (s : Script) : s.bytes.length = s.start + (codeSs s.body).length + 1 + (vint s.map.length).length + s.map.length := by
  simp only [Script.bytes, assemble, header, codeScript, Script.start, List.length_append, List.length_cons, List.length_nil, u32]
  omega

theorem range_From : ∀ (ss : List Script) (a : Nat), InRange a (a + (ss.map fun s => s.bytes.length).sum) (funsFrom a ss)
  | [], a => .nil
  | s :: ss, a => by
    simp only [funsFrom, List.map_cons, List.sum_cons]
    have := script_len s
    exact InRange.mono (InRange.append (range_Ss _ s.body) (range_From ss _) (by omega) (by omega) (by omega)) (by omega) (by omega)

theorem sub_From : ∀ (ss : List Script) (ps : List Part) (a : Nat), PartsFrom a ss ps → ∀ p ∈ ps, ∃ s ∈ ss, p.data = s.bytes ∧
    ∀ q ∈ funsSs (layoutSs (p.startIdx + s.start) s.body), q ∈ funsFrom a ss
  | [], [], _, _, p, hp => by cases hp
  | [], _ :: _, _, h, _, _ => h.elim
  | _ :: _, [], _, h, _, _ => h.elim
  | s :: ss, p' :: ps, a, h, p, hp => by
    obtain ⟨h1, h2, h3⟩ := h
    rcases List.mem_cons.1 hp with rfl | hp
    · exact ⟨s, by simp, h2, fun q hq => List.mem_append.2 (.inl (by rw [← h1]; exact hq))⟩
    · obtain ⟨s', hs', e, hq⟩ := sub_From ss ps _ h3 p hp
      exact ⟨s', by simp [hs'], e, fun q h => List.mem_append.2 (.inr (hq q h))⟩

theorem from_part : ∀ (ss : List Script) (ps : List Part) (a : Nat), PartsFrom a ss ps → ∀ q ∈ funsFrom a ss, ∃ p ∈ ps, ∃ s ∈ ss,
    p.data = s.bytes ∧ q ∈ funsSs (layoutSs (p.startIdx + s.start) s.body) ∧
      ∀ q ∈ funsSs (layoutSs (p.startIdx + s.start) s.body), q ∈ funsFrom a ss
  | [], [], _, _, p, hp => by cases hp
  | [], _ :: _, _, h, _, _ => h.elim
  | _ :: _, [], _, h, _, _ => h.elim
  | s :: ss, p' :: ps, a, h, q, hq => by
    obtain ⟨h1, h2, h3⟩ := h
    rcases List.mem_append.1 hq with hq | hq
    · exact ⟨p', by simp, s, by simp, h2, by rw [h1]; exact hq, fun q hq => List.mem_append.2 (.inl (by rw [← h1]; exact hq))⟩
    · obtain ⟨p, hp, s', hs', e, hq, hall⟩ := from_part ss ps _ h3 q hq
      exact ⟨p, by simp [hp], s', by simp [hs'], e, hq, fun q h => List.mem_append.2 (.inr (hall q h))⟩

/-! ## Parts by address -/

theorem findIdx_get {α : Type} (f : α → Bool) : ∀ l : List α, (l.findIdx? f).bind (fun n => l[n]?) = l.find? f
  | [] => rfl
  | x :: l => by
    rw [List.findIdx?_cons, List.find?_cons]
    cases h : f x
    · have := findIdx_get f l
      simp only [Bool.false_eq_true, if_false, Option.bind_map, Function.comp_def, List.getElem?_cons_succ]
      exact this
    · simp

theorem parts_find : ∀ (ss : List Script) (ps : List Part) (a : Nat), PartsFrom a ss ps → ∀ p ∈ ps,
    a ≤ p.startIdx ∧ p.startIdx + p.data.length ≤ a + (ss.map fun s => s.bytes.length).sum ∧
      ∀ j, j < p.data.length → ps.find? (fun q => decide (p.startIdx + j < q.startIdx + q.data.length)) = some p
  | [], [], _, _, p, hp => by cases hp
  | [], _ :: _, _, h, _, _ => h.elim
  | _ :: _, [], _, h, _, _ => h.elim
  | s :: ss, p' :: ps, a, h, p, hp => by
    obtain ⟨h1, h2, h3⟩ := h
    simp only [List.map_cons, List.sum_cons]
    rcases List.mem_cons.1 hp with rfl | hp
    · refine ⟨by omega, by rw [h2]; omega, ?_⟩
      intro j hj
      rw [List.find?_cons]
      simp [hj]
    · obtain ⟨i1, i2, i3⟩ := parts_find ss ps _ h3 p hp
      refine ⟨by omega, by omega, ?_⟩
      intro j hj
      rw [List.find?_cons]
      have : ¬ p.startIdx + j < p'.startIdx + p'.data.length := by rw [h1, h2]; omega
      simp only [this, decide_false]
      exact i3 j hj

theorem loaded_good {vm : Vm} {ss : List Script} (h : Loaded vm ss) {p : Part} (hp : p ∈ vm.parts) : Good vm p := by
  obtain ⟨_, h2, h3⟩ := parts_find ss vm.parts 0 h.parts p hp
  have hl := h.len
  have hs := h.small
  refine ⟨by omega, ?_⟩
  intro j hj
  unfold partAt partIdx
  rw [if_neg (by omega), findIdx_get]
  exact h3 j hj

theorem data_drop {p : Part} {s : Script} (h : p.data = s.bytes) :
    p.data.drop s.start = codeSs s.body ++ EXIT :: (vint s.map.length ++ s.map) := by
  rw [h]
  unfold Script.bytes assemble
  have e : ∀ t m, (header s.path t m).length = s.start := by
    intro t m; simp only [header, u32, Script.start, List.length_append, List.length_cons, List.length_nil]; omega
  simp only [List.append_assoc]
  rw [← e, List.drop_left]
  simp only [codeScript, List.append_assoc, List.cons_append, List.nil_append]

/-- The functions of a loaded program. -/
def Prog (ss : List Script) : Nat → Option Fn := fnAt (funsFrom 0 ss)

theorem loaded_wf {vm : Vm} {ss : List Script} (h : Loaded vm ss) {p : Part} {s : Script} (hs : s ∈ ss) (e : p.data = s.bytes)
    (hsub : ∀ q ∈ funsSs (layoutSs (p.startIdx + s.start) s.body), q ∈ funsFrom 0 ss) :
    WfSs (Prog ss) p s.start (layoutSs (p.startIdx + s.start) s.body) ∧
      ∀ q ∈ funsSs (layoutSs (p.startIdx + s.start) s.body), Entry (Prog ss) p q :=
  lay_Ss s.body rfl (data_drop e) (low_cons (by decide)) (h.nums s hs)
    fun q hq => fnAt_mem (range_From ss 0).2 (hsub q hq)

theorem loaded_world {vm : Vm} {ss : List Script} (h : Loaded vm ss) : World (Prog ss) vm := by
  intro a fn hf
  obtain ⟨p, hp, s, hs, e, hq, hall⟩ := from_part ss vm.parts 0 h.parts _ (mem_fnAt hf)
  obtain ⟨pc, h1, h2, h3, h4⟩ := (loaded_wf h hs e hall).2 _ hq
  exact ⟨p, pc, loaded_good h hp, h1, h2, h3, h4⟩

theorem World.congr {F : Nat → Option Fn} {vm vm' : Vm} (h : World F vm) (hp : vm'.parts = vm.parts) (hl : vm'.bcodeLen = vm.bcodeLen) :
    World F vm' := by
  intro a fn hf
  obtain ⟨bp, pc, hg, r⟩ := h a fn hf
  refine ⟨bp, pc, ⟨hg.small, fun j hj => ?_⟩, r⟩
  rw [← hg.found j hj]
  unfold partAt partIdx
  rw [hp, hl]

/-! ## Running -/

theorem packLE_u32 (n : Nat) (h : n < 2 ^ 32) : packLE (u32 n) = n := by
  simp only [u32, packLE, UInt8.toNat_ofNat']
  omega

theorem execOp_header (vm : Vm) (bp : Part) (i : Nat) (prev : UInt8) (bs : List UInt8) (h : bytesAt bp.data (i + 1 + 4) 4 = some bs) :
    execOp E ⟨vm, bp, i, BCODE_HEADER⟩ prev = some (.go ⟨vm, bp, i + packLE bs, BCODE_HEADER⟩) := by
  show (bytesAt bp.data (i + 1 + 4) 4).bind _ = _
  rw [h]
  rfl

theorem header_bytes {p : Part} {s : Script} (e : p.data = s.bytes) :
    p.data[0]? = some BCODE_HEADER ∧ bytesAt p.data (0 + 1 + 4) 4 = some (u32 (12 + s.path.length + 1)) := by
  rw [e]
  refine ⟨rfl, ?_⟩
  unfold bytesAt Script.bytes assemble header u32
  simp

/-- The outcome of a script, for the engine that ran it. -/
theorem run_script {E : Env} [Natives E] {vm : Vm} {ss : List Script} {p : Part} {s : Script} {n d : Nat} (h : Loaded vm ss) (hr : Room vm d)
    (hp : p ∈ vm.parts) (hs : s ∈ ss) (e : p.data = s.bytes)
    (hsub : ∀ q ∈ funsSs (layoutSs (p.startIdx + s.start) s.body), q ∈ funsFrom 0 ss) :
    Sims E (setErrorf vm .ok none) (evalScript E ss n d p s) (setErrorf vm .ok none)
      { vm := setErrorf vm .ok none, bp := p, i := 0 }
      (SQ (setErrorf vm .ok none) (stacksOf vm) p (s.start + (codeSs s.body).length) none none) := by
  have hg := loaded_good h hp
  have hlen := script_len s
  have hstart : s.start = 14 + s.path.length := rfl
  have hsm := hg.small
  rw [e] at hsm
  obtain ⟨h0, h1⟩ := header_bytes e
  have hat : At ({ vm := setErrorf vm .ok none, bp := p, i := 0 } : Mach) (setErrorf vm .ok none) (stacksOf vm) p 0 := ⟨rfl, rfl, rfl⟩
  have hx := execOp_header (E := E) (setErrorf vm .ok none) p 0 OP_MAX _ h1
  rw [packLE_u32 _ (by omega)] at hx
  obtain ⟨m', hst, hat', _⟩ := step1 (vm' := setErrorf vm .ok none) (st' := stacksOf vm) (bp' := p)
    (k := 0 + (12 + s.path.length + 1)) hat h0 hx rfl (by omega)
  refine Sims.steps hst ?_
  have hW : World (Prog ss) (setErrorf vm .ok none) := World.congr (loaded_world h) rfl rfl
  have hg' : Good (setErrorf vm .ok none) p := ⟨hg.small, fun j hj => hg.found j hj⟩
  have hwf := (loaded_wf h hs e hsub).1
  have e1 : 0 + (12 + s.path.length + 1) + 1 = s.start := by unfold Script.start; omega
  rw [e1] at hat'
  have hst' : Start (setErrorf vm .ok none) d (setErrorf vm .ok none) (stacksOf vm) p s.start m' :=
    ⟨hg', hat', rfl, ⟨rfl, rfl, List.prefix_refl _, List.prefix_refl _, List.prefix_refl _, List.prefix_refl _, List.prefix_refl _⟩,
      ⟨hr.stack, hr.callStack, hr.argStack, hr.loopAddrs, hr.scopes⟩⟩
  have := (IH.all (E := E) hW n).ss (d := d) none none hst' ⟨_, by rw [code_layoutSs]; exact data_drop e⟩ hwf
    (fun _ h => by cases h) (fun _ h => by cases h)
  rw [code_layoutSs] at this
  exact this

theorem partIdx_of_partAt {vm : Vm} {off : Nat} {p : Part} (h : partAt vm off = some p) :
    ∃ k, partIdx vm off = some k ∧ vm.parts[k]? = some p := by
  unfold partAt at h
  rw [Option.bind_eq_some_iff] at h
  exact h

/-- The end of `mjs_execute`. -/
theorem execute_end {E : Env} {vm vm1 : Vm} {p : Part} {v : Val} {off : Nat} (hat : partAt vm off = some p)
    (hlo : loop E (save vm) { vm := setErrorf vm .ok none, bp := p, i := wrap ((off : Int) - p.startIdx) } = some vm1)
    (hp : vm1.parts = vm.parts) (hl : vm1.bcodeLen = vm.bcodeLen) (hs : vm1.stack = vm.stack ++ [v]) :
    ∃ k, execute E vm off = some ({ vm1 with stack := vm.stack, parts := vm.parts.set k { p with execRes := some vm1.error } }, v) ∧
      vm.parts[k]? = some p := by
  obtain ⟨k, hk, hpk⟩ := partIdx_of_partAt hat
  refine ⟨k, ?_, hpk⟩
  unfold execute
  rw [hat]
  simp only [Option.bind_eq_bind, Option.bind_some]
  rw [hlo]
  have hk1 : partIdx vm1 off = some k := by rw [← hk]; unfold partIdx; rw [hp, hl]
  simp only [Option.bind_some, hk1]
  rw [hp, hpk]
  simp only [Option.bind_some, pop, hs]
  simp [popVal]

theorem loop_end {E : Env} {s : Saved} {m : Mach} (h : m.bp.data.length ≤ m.i) : loop E s m = some m.vm := by
  rw [loop, if_neg (by omega)]

theorem parts_nth : ∀ (ss : List Script) (ps : List Part) (a k : Nat) (p : Part) (s : Script), PartsFrom a ss ps → ps[k]? = some p →
    ss[k]? = some s → p.data = s.bytes ∧ ∀ q ∈ funsSs (layoutSs (p.startIdx + s.start) s.body), q ∈ funsFrom a ss
  | [], _, _, _, _, _, _, _, h => by simp at h
  | _, [], _, _, _, _, _, h, _ => by simp at h
  | s :: ss, p :: ps, a, 0, p', s', h, hp, hs => by
    simp only [List.getElem?_cons_zero, Option.some.injEq] at hp hs
    subst hp hs
    obtain ⟨h1, h2, h3⟩ := h
    exact ⟨h2, fun q hq => List.mem_append.2 (.inl (by rw [← h1]; exact hq))⟩
  | s :: ss, p :: ps, a, k + 1, p', s', h, hp, hs => by
    simp only [List.getElem?_cons_succ] at hp hs
    obtain ⟨e, hq⟩ := parts_nth ss ps _ k p' s' h.2.2 hp hs
    exact ⟨e, fun q h => List.mem_append.2 (.inr (hq q h))⟩

theorem sameCode_set {vm vm1 : Vm} {k : Nat} {p : Part} {r : Option Err} (hl : vm1.bcodeLen = vm.bcodeLen)
    (hp : vm1.parts = vm.parts.set k { p with execRes := r }) (hk : vm.parts[k]? = some p) : SameCode vm1 vm := by
  refine ⟨hl, ?_⟩
  rw [hp, List.map_set]
  apply List.ext_getElem?
  intro i
  rw [List.getElem?_set]
  split
  · rename_i e
    subst e
    have hlt := (List.getElem?_eq_some_iff.1 hk).1
    simp [hlt]
    rw [List.getElem?_eq_some_iff] at hk
    obtain ⟨_, rfl⟩ := hk
    exact ⟨rfl, rfl⟩
  · rfl

/-- A script runs as its meaning says. -/
theorem execute_script {E : Env} [Natives E] {vm : Vm} {ss : List Script} {k : Nat} {p : Part} {s : Script} {n d : Nat} (h : Loaded vm ss)
    (hr : Room vm d) (hk : IsScript vm ss k p s) (out : Out Comp) (he : evalScript E ss n d p s (setErrorf vm .ok none) = some out) :
    match out with
    | .ok vm' (.normal v) => ∃ vm2, execute E vm p.startIdx = some (vm2, v) ∧ vm2.heap = vm'.heap ∧ vm2.al = vm'.al ∧ vm2.error = .ok ∧
        vm2.msg = vm'.msg ∧ vm2.this = vm.this ∧ SameStacks vm2 vm ∧ SameCode vm2 vm
    | .err vm' => ∃ vm2, execute E vm p.startIdx = some (vm2, mkUndefined) ∧ vm2.heap = vm'.heap ∧ vm2.al = vm'.al ∧ vm2.error = vm'.error ∧
        vm2.msg = vm'.msg ∧ vm'.error ≠ .ok ∧ SameStacks vm2 vm ∧ SameCode vm2 vm
    | _ => True := by
  obtain ⟨e, hsub⟩ := parts_nth ss vm.parts 0 k p s h.parts hk.part hk.script
  have hs : s ∈ ss := List.mem_of_getElem? hk.script
  have hp : p ∈ vm.parts := List.mem_of_getElem? hk.part
  have hg := loaded_good h hp
  have hlen := script_len s
  have hsim := run_script (E := E) (n := n) h hr hp hs e hsub out he
  have hw : wrap ((p.startIdx : Int) - p.startIdx) = 0 := by rw [Int.sub_self]; rfl
  have hat : partAt vm p.startIdx = some p := hg.found 0 (by rw [e, hlen]; omega)
  have hsm := hg.small
  cases out with
  | err vm' =>
    obtain ⟨t, l, hl, hne⟩ := loop_fails hsim
    have hl' := (show loop E (save vm) { vm := setErrorf vm .ok none, bp := p, i := wrap ((p.startIdx : Int) - p.startIdx) } =
      loop E (save vm) { vm := setErrorf vm .ok none, bp := p, i := 0 } by rw [hw]).trans hl
    obtain ⟨k', hx, hk'⟩ := execute_end hat hl' rfl rfl rfl
    refine ⟨_, hx, rfl, rfl, rfl, rfl, hne, ⟨rfl, rfl, rfl, rfl, rfl⟩, sameCode_set rfl rfl hk'⟩
  | ok vm' c =>
    cases c with
    | normal v =>
      obtain ⟨m', hst, hkept, ha⟩ := hsim
      have hop : p.data[s.start + (codeSs s.body).length]? = some EXIT := by
        refine Placed.head (d := vint s.map.length ++ s.map) ⟨[], ?_⟩
        have := data_drop e
        rw [← List.drop_drop, this, List.drop_left]
        simp
      obtain ⟨m2, hst2, ha2, _⟩ := step1 (vm' := vm') (st' := (stacksOf vm).push v) (bp' := p) (k := p.data.length) ha hop
        (execOp_exit _ _ _ _) hkept.err (by omega)
      have hl : loop E (save vm) { vm := setErrorf vm .ok none, bp := p, i := wrap ((p.startIdx : Int) - p.startIdx) } =
          some (on vm' ((stacksOf vm).push v)) := by
        rw [hw, loop_steps hst, loop_steps hst2, loop_end (by rw [ha2.i, ha2.bp]; omega), ha2.vm]
      obtain ⟨k', hx, hk'⟩ := execute_end hat hl rfl rfl rfl
      refine ⟨_, hx, rfl, rfl, hkept.err, rfl, hkept.this, ⟨rfl, rfl, rfl, hkept.scopes, rfl⟩, sameCode_set rfl rfl hk'⟩
    | brk => trivial
    | cont => trivial
    | ret v => trivial

end Mjs.Exec
