import Verif.Model.Trace
import Verif.Props.Machine
import Verif.Props.Lines
import Verif.Lemmas.Print

/-!
# C82: stack traces

A script that fails leaves a text that names the place of the failure and the places of the calls under way, the innermost first.
-/

namespace Mjs.Props
open Mjs Mjs.Str Mjs.Core Mjs.Code Mjs.Exec Mjs.Bcode Mjs.Trace Mjs.Spec

/-! ## Specification -/

/-- `Calls cs sites`: the calls under way, outermost first.  Each is known by the offset of the instruction that made it, which is the
second of the five values of its frame; a call made by the host program has the offset `offsetExit`. -/
inductive Calls : List Val → List Nat → Prop
  | nil : Calls [] []
  | call {cs sites} (site : Nat) (this scope loops ret : Val) (h : Calls cs sites) :
    Calls (cs ++ [this, mkInt site, scope, loops, ret]) (sites ++ [site])

/-- The engine has this place in that file and line. -/
structure Located (vm : Vm) (off : Nat) (file : List UInt8) (line : Int) : Prop where
  small : off < 2 ^ 31
  file : fileNameAt vm off = some (some file)
  line : lineno vm off = some line

/-- The text that has one line for each of the places; calls made by the host program have none. -/
inductive Lines (vm : Vm) : List Nat → List UInt8 → Prop
  | nil : Lines vm [] []
  | host {offs text} : Lines vm offs text → Lines vm (offsetExit :: offs) text
  | line {off offs file n d text} : off ≠ offsetExit → Located vm off file n → Numeral.Int 10 n d → Lines vm offs text →
    Lines vm (off :: offs) (txt "  at " ++ file ++ txt ":" ++ d ++ txt "\n" ++ text)

/-- `Runs E m m'`: the machine comes from `m` to `m'`, where the next instruction is to be executed, without a failure. -/
inductive Runs (E : Env) : Mach → Mach → Prop
  | refl (m) : Runs E m m
  | step {m m1 m2 op} : m.i < m.bp.data.length → m.bp.data[m.i]? = some op → execOp E { m with op := op } m.op = some (.go m1) →
    m1.vm.error = .ok → Runs E { m1 with i := wrap ((m1.i : Int) + 1) } m2 → Runs E m m2

/-! ## Lemmas -/

theorem viaInt_small {n : Nat} (h : n < 2 ^ 31) : viaInt n = n := by
  unfold viaInt
  rw [cInt_small h]
  exact wrap_nat n (by omega)

theorem appendLine_line {vm : Vm} {off : Nat} {file : List UInt8} {n : Int} (h : off ≠ offsetExit) (hl : Located vm off file n)
    (trace : Option (List UInt8)) : appendLine vm trace off =
      some (some (trace.getD [] ++ (txt "  at " ++ file ++ txt ":" ++ Print.decInt n ++ txt "\n"))) := by
  unfold appendLine
  rw [if_pos h, viaInt_small hl.small, hl.file, hl.line]
  cases trace <;> rfl

theorem at_frame (cs : List Val) (t a s l r : Val) (h : cs.length + 5 < 2 ^ 31) : at? (cs ++ [t, a, s, l, r]) (-1 - 3) = some a := by
  unfold at? vptr vptrIdx
  rw [cInt_small (by simp; omega)]
  simp only [List.length_append, List.length_cons, List.length_nil]
  rw [if_pos (by omega), if_pos (by omega)]
  have : (((cs.length + (0 + 1 + 1 + 1 + 1 + 1) : Nat) : Int) + (-1 - 3)).toNat = cs.length + 1 := by omega
  rw [this]
  simp

theorem popFrame_frame (cs : List Val) (t a s l r : Val) : popFrame (cs ++ [t, a, s, l, r]) = some cs := by
  unfold popFrame
  have e5 := popVal_append (cs ++ [t, a, s, l]) r
  have e4 := popVal_append (cs ++ [t, a, s]) l
  have e3 := popVal_append (cs ++ [t, a]) s
  have e2 := popVal_append (cs ++ [t]) a
  have e1 := popVal_append cs t
  simp only [List.append_assoc, List.cons_append, List.nil_append] at e1 e2 e3 e4 e5
  rw [e5]; simp only [Option.bind_eq_bind, Option.bind_some]
  rw [e4]; simp only [Option.bind_some]
  rw [e3]; simp only [Option.bind_some]
  rw [e2]; simp only [Option.bind_some]
  rw [e1]; rfl

theorem Calls.length {cs sites} (h : Calls cs sites) : cs.length = 5 * sites.length := by
  induction h with
  | nil => rfl
  | call site t s l r h ih => simp [ih]; omega

/-- Every place is known, or is that of a call by the host program. -/
def Known82 (vm : Vm) (offs : List Nat) : Prop := ∀ o ∈ offs, o = offsetExit ∨ ∃ f n, Located vm o f n

theorem genLoop_calls {vm : Vm} {cs sites} (h : Calls cs sites) : cs.length < 2 ^ 31 → Known82 vm sites → ∀ trace : List UInt8,
    ∃ text, Lines vm sites.reverse text ∧ genLoop vm (some trace) cs = some (some (trace ++ text)) := by
  induction h with
  | nil =>
    intro _ _ trace
    refine ⟨[], .nil, ?_⟩
    rw [genLoop]
    simp
  | @call cs sites site t s l r h ih =>
    intro hl hk trace
    simp only [List.length_append, List.length_cons, List.length_nil] at hl
    rw [List.reverse_append, List.reverse_singleton, List.singleton_append, genLoop, if_pos (by simp), at_frame _ _ _ _ _ _ (by omega),
      popFrame_frame]
    simp only [Option.bind_eq_bind, Option.bind_some]
    have hk' : Known82 vm sites := fun o ho => hk o (by simp [ho])
    rcases hk site (by simp) with rfl | ⟨f, n, hn⟩
    · obtain ⟨text, h1, h2⟩ := ih (by omega) hk' trace
      refine ⟨text, .host h1, ?_⟩
      rw [wrap_getInt offsetExit (by unfold offsetExit; omega)]
      unfold appendLine
      rw [if_neg (by simp)]
      exact h2
    · rw [wrap_getInt site hn.small]
      by_cases hx : site = offsetExit
      · subst hx
        obtain ⟨text, h1, h2⟩ := ih (by omega) hk' trace
        refine ⟨text, .host h1, ?_⟩
        unfold appendLine
        rw [if_neg (by simp)]
        exact h2
      · rw [appendLine_line hx hn]
        simp only [Option.bind_some, Option.getD_some]
        obtain ⟨text, h1, h2⟩ := ih (by omega) hk' (trace ++ (txt "  at " ++ f ++ txt ":" ++ Print.decInt n ++ txt "\n"))
        refine ⟨_, .line hx hn (Print.decInt_numeral n) h1, ?_⟩
        rw [h2]
        simp only [List.append_assoc]

theorem genTrace_calls {vm : Vm} {sites : List Nat} {off : Nat} (h : Calls vm.callStack sites) (hl : vm.callStack.length < 2 ^ 31)
    (hk : Known82 vm (off :: sites)) (hx : off ≠ offsetExit) (trace : Option (List UInt8)) :
    ∃ text, Lines vm (off :: sites.reverse) text ∧ genTrace vm trace off = some (some (trace.getD [] ++ text)) := by
  obtain ⟨f, n, hn⟩ := (hk off (by simp)).resolve_left hx
  unfold genTrace
  rw [appendLine_line hx hn]
  obtain ⟨text, h1, h2⟩ := genLoop_calls h hl (fun o ho => hk o (by simp [ho]))
    (trace.getD [] ++ (txt "  at " ++ f ++ txt ":" ++ Print.decInt n ++ txt "\n"))
  refine ⟨_, .line hx hn (Print.decInt_numeral n) h1, ?_⟩
  show genLoop vm _ _ = _
  rw [h2]
  simp only [List.append_assoc]

/-- Only a return to the host program ends the loop early, and it leaves the error as it is. -/
theorem clean_error {E : Env} {m : Mach} {prev : UInt8} {v : Vm} (h : execOp E m prev = some (.clean v)) : v.error = m.vm.error := by
  unfold execOp at h
  split at h
  all_goals try (simp only [Option.bind_eq_bind, Option.bind_eq_some_iff, Option.some.injEq, reduceCtorEq, and_false, exists_false] at h; done)
  case h_25 =>
    simp only [Option.bind_eq_bind, Option.bind_eq_some_iff] at h
    obtain ⟨⟨w, off⟩, h1, h⟩ := h
    simp only at h
    split at h
    · simp [Option.bind_eq_some_iff] at h
    · cases h
      unfold restoreFrame at h1
      simp only [Option.bind_eq_bind, Option.bind_eq_some_iff, Option.some.injEq, Prod.mk.injEq] at h1
      obtain ⟨_, _, _, _, _, _, _, _, _, _, _, _, h1, _⟩ := h1
      rw [← h1]
  all_goals try (simp only [Option.map_eq_some_iff, reduceCtorEq, and_false, exists_false] at h; done)
  all_goals try (split at h <;> simp [Option.bind_eq_some_iff] at h; done)
  all_goals try (simp only [Option.bind_eq_bind, Option.bind_eq_some_iff] at h; grind)
  all_goals
    dsimp only at h
    split at h
    · simp only [Option.bind_eq_bind, Option.bind_eq_some_iff, Option.some.injEq, reduceCtorEq, and_false, exists_false] at h
    · cases h

/-- The loop with the trace is the loop of the machine. -/
theorem loop_trace {E : Env} {s : Saved} {m : Mach} {trace : Option (List UInt8)} {vm' : Vm} {t : Option (List UInt8)}
    (h : Trace.loop E s m trace = some (vm', t)) : Exec.loop E s m = some vm' ∧
      (vm'.error ≠ .ok → m.vm.error = .ok → ∃ m1 m2 op, Runs E m m1 ∧ m1.bp.data[m1.i]? = some op ∧ execOp E { m1 with op := op } m1.op = some (.go m2) ∧
          m2.vm.error ≠ .ok ∧ genTrace m2.vm trace (wrap ((m2.bp.startIdx : Int) + m2.i - 1)) = some t ∧
          unwind s m2.vm = some vm') := by
  have key := Trace.loop.partial_correctness E s trace (fun m (r : Vm × Option (List UInt8)) => Exec.loop E s m = some r.1 ∧
      (r.1.error ≠ .ok → m.vm.error = .ok → ∃ m1 m2 op, Runs E m m1 ∧ m1.bp.data[m1.i]? = some op ∧ execOp E { m1 with op := op } m1.op = some (.go m2) ∧
          m2.vm.error ≠ .ok ∧ genTrace m2.vm trace (wrap ((m2.bp.startIdx : Int) + m2.i - 1)) = some r.2 ∧
          unwind s m2.vm = some r.1)) ?_ m (vm', t) h
  · exact key
  intro lp ih m r hr
  rw [Exec.loop]
  by_cases hi : m.i < m.bp.data.length
  · rw [if_pos hi] at hr ⊢
    cases hop : m.bp.data[m.i]? with
    | none => rw [hop] at hr; cases hr
    | some op =>
      rw [hop] at hr
      simp only [Option.bind_eq_bind, Option.bind_some] at hr ⊢
      cases hx : execOp E { m with op := op } m.op with
      | none => rw [hx] at hr; cases hr
      | some nx =>
        rw [hx] at hr
        simp only [Option.bind_some] at hr ⊢
        cases nx with
        | clean v =>
          cases hr
          exact ⟨rfl, fun h1 h2 => absurd ((clean_error hx).trans h2) h1⟩
        | go m' =>
          simp only at hr ⊢
          by_cases he : m'.vm.error = .ok
          · rw [if_neg (by simp [he])] at hr ⊢
            obtain ⟨a, b⟩ := ih _ _ hr
            refine ⟨a, fun h1 h2 => ?_⟩
            obtain ⟨m1, m2, o, c1, c⟩ := b h1 he
            exact ⟨m1, m2, o, .step hi hop hx he c1, c⟩
          · rw [if_pos he] at hr ⊢
            cases hg : genTrace m'.vm trace (wrap ((m'.bp.startIdx : Int) + m'.i - 1)) with
            | none => rw [hg] at hr; cases hr
            | some t =>
              rw [hg] at hr
              simp only [Option.bind_some] at hr
              cases hu : unwind s m'.vm with
              | none => rw [hu] at hr; cases hr
              | some v =>
                rw [hu] at hr
                cases hr
                exact ⟨rfl, fun h1 h2 => ⟨m, m', op, .refl m, hop, hx, he, hg, hu⟩⟩
  · rw [if_neg hi] at hr ⊢
    cases hr
    exact ⟨rfl, fun h1 h2 => absurd h2 h1⟩

/-! ## The property -/

/-- **C82, what a failure leaves.** A script that fails at some instruction, with the calls `sites` under way, leaves a stack trace
that has a line for the place of the failure, and then one for each of the calls, the innermost first.  (The place of the failure is taken to be the
byte before the last one that the machine read; `C82_partial` is about one run of `mjs_execute`.)

What is missing: scripts run by C functions, see `C82_violation_nested`. -/
theorem C82_partial {E : Env} {vm vm' : Vm} {off : Nat} {t : Option (List UInt8)} (h : Trace.execute E vm off = some (vm', t))
    (he : vm'.error ≠ .ok) : ∃ bp m1 m2 op, partAt vm off = some bp ∧
      Runs E { vm := setErrorf vm .ok none, bp := bp, i := wrap ((off : Int) - bp.startIdx) } m1 ∧
      m1.bp.data[m1.i]? = some op ∧ execOp E { m1 with op := op } m1.op = some (.go m2) ∧ m2.vm.error ≠ .ok ∧
      ∀ sites, Calls m2.vm.callStack sites → m2.vm.callStack.length < 2 ^ 31 →
        ∀ fail : Nat, m2.bp.startIdx + m2.i = fail + 1 → fail < offsetExit → Known82 m2.vm (fail :: sites) →
        ∃ text, Lines m2.vm (fail :: sites.reverse) text ∧ t = some text := by
  unfold Trace.execute at h
  cases hp : partAt vm off with
  | none => rw [hp] at h; cases h
  | some bp =>
    rw [hp] at h
    obtain ⟨m1, m2, op, h1, h2, h3, h4, h5, -⟩ := (loop_trace h).2 he rfl
    refine ⟨bp, m1, m2, op, rfl, h1, h2, h3, h4, fun sites hc hl fail hf hx hk => ?_⟩
    have hlt : fail < 2 ^ 31 := Nat.lt_trans hx (by unfold offsetExit; omega)
    obtain ⟨text, a, b⟩ := genTrace_calls hc hl hk (Nat.ne_of_lt hx) none
    refine ⟨text, a, ?_⟩
    rw [show wrap ((m2.bp.startIdx : Int) + m2.i - 1) = fail from (congrArg wrap (by omega)).trans (wrap_nat fail (by omega)), b] at h5
    simpa using h5.symm

/-- The run that makes the trace is the run of the script. -/
theorem C82_same_run {E : Env} {vm vm' : Vm} {off : Nat} {t : Option (List UInt8)} (h : Trace.execute E vm off = some (vm', t))
    {vm2 : Vm} {v : Val} (h2 : Exec.execute E vm off = some (vm2, v)) : vm2.error = (pop vm').2.error := by
  unfold Trace.execute at h
  unfold Exec.execute at h2
  cases hp : partAt vm off with
  | none => rw [hp] at h; cases h
  | some bp =>
    rw [hp] at h h2
    simp only [Option.bind_eq_bind, Option.bind_some] at h h2
    rw [(loop_trace h).1] at h2
    simp only [Option.bind_some] at h2
    obtain ⟨n, -, h2⟩ := Option.bind_eq_some_iff.1 h2
    obtain ⟨p, -, h2⟩ := Option.bind_eq_some_iff.1 h2
    simp only [Option.some.injEq, Prod.mk.injEq] at h2
    rw [← h2.1]
    unfold pop
    cases popVal vm'.stack <;> rfl

/-- **C82, calls come and go.** A call of a function adds its place to the calls under way. -/
theorem C82_call {E : Env} {vm : Vm} {bp bp' : Part} {i off : Nat} {prev : UInt8} {st args as : List Val} {f t : Val} {sites : List Nat}
    (hc : Calls vm.callStack sites)
    (hs : vm.stack = st ++ f :: args) (ha : vm.argStack = as ++ [t, mkInt (st.length + 1 : Nat)]) (hf : isFunction f = true)
    (hl : vm.stack.length < 2 ^ 31) (ho : (getFuncAddr f).toNat = off + 1) (hp : partAt vm off = some bp') (hb : bp'.startIdx ≤ off)
    (hsz : off < 2 ^ 64) :
    ∃ vm1, execOp E ⟨vm, bp, i, CALL⟩ prev = some (.go ⟨vm1, bp', off - bp'.startIdx, CALL⟩) ∧
      Calls vm1.callStack (sites ++ [bp.startIdx + i]) := by
  obtain ⟨vm1, h1, -, -, -, -, -, -, -, -, -, h2⟩ := C38_call (E := E) (bp := bp) (i := i) (prev := prev) hs ha hf hl ho hp hb hsz
  refine ⟨vm1, h1, ?_⟩
  rw [h2]
  exact .call _ _ _ _ _ hc

/-- The return from the function takes it away again, and goes on behind it. -/
theorem C82_return {E : Env} {vm2 : Vm} {bp bp2 : Part} {i i2 : Nat} {prev : UInt8} {cs st rest scopes loops : List Val} {r this : Val}
    {sites : List Nat} (hs : Calls cs sites) (hc : vm2.callStack = cs ++ [this, mkInt (bp.startIdx + i : Nat), mkInt scopes.length,
      mkInt loops.length, mkInt (st.length + 1 : Nat)]) (hst : vm2.stack = st ++ r :: rest)
    (hp : partAt vm2 (bp.startIdx + i) = some bp) (ho : bp.startIdx + i < 2 ^ 31 - 1) (l1 : st.length + 1 < 2 ^ 31)
    (l2 : scopes.length < 2 ^ 31) (l3 : loops.length < 2 ^ 31) (m2 : scopes <+: vm2.scopes) (m3 : loops <+: vm2.loopAddrs) :
    ∃ vm3, execOp E ⟨vm2, bp2, i2, RETURN⟩ prev = some (.go ⟨vm3, bp, i, RETURN⟩) ∧ Calls vm3.callStack sites := by
  obtain ⟨a, ha⟩ := m2
  obtain ⟨b, hb⟩ := m3
  obtain ⟨vm3, h1, -, -, -, -, h2, -⟩ := C38_return (E := E) (vm := { vm2 with callStack := cs, this := this, scopes := scopes, loopAddrs := loops })
    (bp2 := bp2) (i2 := i2) (prev := prev) (bp := bp) (i := i) (r := r) (rest := rest) (st := st) hc hst ha.symm hb.symm hp ho l1 l2 l3
  exact ⟨vm3, h1, by rw [h2]; exact hs⟩

/-- **C82, the lines.** A place in a loaded script is located: the file is the path of the script, the line the one that C43 is about. -/
theorem C82_located {vm : Vm} {ss : List Script} {k : Nat} {p : Part} {s : Script} (h : Loaded vm ss) (hk : IsScript vm ss k p s)
    (hp : (0 : UInt8) ∉ s.path) {off : Nat} {n : Int} (h1 : p.startIdx ≤ off) (h2 : off < p.startIdx + p.data.length)
    (h3 : off < 2 ^ 31) (hn : lineno vm off = some n) : Located vm off s.path n :=
  ⟨h3, C42_file_name h hk hp h1 h2, hn⟩

/-- **C82, the line of a failure.** If the last byte of the instruction that fails is number `b + 2` of the code of its script, the line in the trace
is that of byte number `b` (with what C43 takes for granted). -/
theorem C82_line_partial {vm : Vm} {p : Part} {path : List UInt8} {as : List Act} {b L b' L' fail : Nat} (hg : Generated path as p)
    (ha : Ascending 1 as) (hj : ShortJumps as) (h0 : (0 : UInt8) ∉ path) (hf : p.startIdx + (14 + path.length + (b + 2)) = fail + 1)
    (hat : partAt vm fail = some p) (hs : fail < 2 ^ 31)
    (hb : lineOf as b = some L) (hlt : b < b') (hb' : lineOf as b' = some L') (hL : L < L') : Located vm fail path L := by
  obtain rfl : p.startIdx + 14 + path.length + b + 1 = fail := by omega
  refine ⟨hs, ?_, C43_line_partial hg ha hj hat hb hlt hb' hL⟩
  obtain ⟨⟨g0, g, -, -, -, -, -, h5⟩, -⟩ := hg
  unfold fileNameAt
  rw [hat]
  have : p.data.drop 13 = path ++ 0 :: (g.buf.drop g.start ++ (vint g.map.length ++ g.map)) := by
    rw [h5]
    simp [assemble, header, u32]
  simp only [fileName, this, cstr_path _ _ h0, Option.map_some]

/-- A `continue` on line 2 that is in no loop. -/
def acts82 : List Act := [.put 1 [NOP, NOP], .put 2 [CONTINUE], .put 3 [EXIT]]

def bytes82 : List UInt8 := ((acts {} acts82).map fun g => assemble (txt "x.js") (g.buf.drop g.start) g.map).getD []

theorem located82 (vm0 : Vm) (h1 : vm0.parts = []) (h2 : vm0.bcodeLen = 0) :
    Generated (txt "x.js") acts82 ⟨0, bytes82, none⟩ ∧ (∀ off, off < 27 → partAt (commit vm0 bytes82) off = some ⟨0, bytes82, none⟩) ∧
      bytes82.length = 27 ∧ ∀ vm : Vm, vm.parts = (commit vm0 bytes82).parts → vm.bcodeLen = (commit vm0 bytes82).bcodeLen →
        Located vm 19 (txt "x.js") 1 := by
  have hlen : bytes82.length = 27 := by decide +kernel
  have hat : ∀ off, off < 27 → partAt (commit vm0 bytes82) off = some ⟨0, bytes82, none⟩ := fun off h =>
    partAt_first h1 h2 (by omega)
  have hG : Generated (txt "x.js") acts82 ⟨0, bytes82, none⟩ := by
    cases hg : acts {} acts82 with
    | none => exact absurd hg (by simp [acts, act, acts82])
    | some g => exact ⟨⟨{}, g, rfl, rfl, rfl, rfl, hg, by simp [bytes82, hg]⟩, by simp only [hlen]; omega⟩
  have hloc : ∀ vm : Vm, vm.parts = (commit vm0 bytes82).parts → vm.bcodeLen = (commit vm0 bytes82).bcodeLen →
      Located vm 19 (txt "x.js") 1 := fun vm e1 e2 =>
    C82_line_partial (b := 0) (b' := 2) (L := 1) (L' := 2) hG (by simp [Ascending, acts82]) (by intro o v h; simp [acts82] at h)
      (by decide +kernel) (by simp [txt]) (by rw [partAt_congr e1 e2]; exact hat 19 (by omega)) (by omega) (by simp [lineOf, acts82]) (by omega)
      (by simp [lineOf, acts82]) (by omega)
  exact ⟨hG, hat, hlen, hloc⟩

/-- **C82 fails for the line of the failure.** The code of a script: two bytes made at line 1, then a `continue` at line 2 that is in no loop.
The script fails at the `continue`, and the trace says line 1: the place of the failure is taken two bytes too early. -/
theorem C82_violation_line (E : Env) (vm0 : Vm) (h1 : vm0.parts = []) (h2 : vm0.bcodeLen = 0) (h3 : vm0.callStack = [])
    (h4 : vm0.loopAddrs = []) : ∃ p vm', Generated (txt "x.js") acts82 p ∧ lineOf acts82 2 = some 2 ∧ p.data[18 + 2]? = some CONTINUE ∧
      Trace.execute E (commit vm0 p.data) 18 = some (vm', some (txt "  at x.js:1\n")) ∧ vm'.error = .syntax := by
  obtain ⟨hG, hat, hlen, hloc⟩ := located82 vm0 h1 h2
  have d0 : bytes82[18]? = some NOP := by decide +kernel
  have d1 : bytes82[19]? = some NOP := by decide +kernel
  have d2 : bytes82[20]? = some CONTINUE := by decide +kernel
  have w (n : Nat) (h : n < 2 ^ 31) : wrap ((n : Int) + 1) = n + 1 := (congrArg wrap (by omega)).trans (wrap_nat (n + 1) (by omega))
  generalize hC : commit vm0 bytes82 = C at *
  generalize hA : setErrorf C .ok none = A
  have hAp : A.parts = C.parts ∧ A.bcodeLen = C.bcodeLen ∧ A.callStack = [] ∧ A.loopAddrs = [] ∧ A.error = .ok := by
    rw [← hA, ← hC]
    exact ⟨rfl, rfl, h3, h4, rfl⟩
  obtain ⟨e1, e2, e3, e4, e5⟩ := hAp
  have hsave : save C = save A := by rw [← hA]; rfl
  generalize hX : setErrorf A .syntax (some (txt "misplaced 'continue'")) = X
  have x1 : X.parts = C.parts := by rw [← hX, ← e1]; rfl
  have x2 : X.bcodeLen = C.bcodeLen := by rw [← hX, ← e2]; rfl
  have x3 : X.callStack = [] := by rw [← hX, ← e3]; rfl
  have x4 : X.error = .syntax := by rw [← hX]; rfl
  obtain ⟨vm', hu, he⟩ : ∃ vm', unwind (save A) X = some vm' ∧ vm'.error = .syntax := by
    refine ⟨push X mkUndefined, ?_, x4⟩
    rw [← hX]
    simp only [unwind, save, setLen, setErrorf, Nat.le_refl, if_true, List.take_length, Option.bind_eq_bind, Option.bind_some]
  have hg : genTrace X none 19 = some (some (txt "  at x.js:1\n")) := by
    unfold genTrace
    rw [appendLine_line (by unfold offsetExit; omega) (hloc X x1 x2), x3]
    simp only [Option.bind_eq_bind, Option.bind_some]
    rw [genLoop, if_neg (by simp)]
    have : (txt "  at " ++ txt "x.js" ++ txt ":" ++ Print.decInt 1 ++ txt "\n") = txt "  at x.js:1\n" := by decide +kernel
    rw [this]
    rfl
  refine ⟨⟨0, bytes82, none⟩, vm', hG, by simp [lineOf, acts82], d2, ?_, he⟩
  unfold Trace.execute
  rw [hC, hat 18 (by omega), hA, hsave]
  simp only [Option.bind_eq_bind, Option.bind_some]
  rw [show wrap ((18 : Nat) - ((⟨0, bytes82, none⟩ : Part).startIdx : Int)) = 18 from rfl]
  have nop : ∀ (i : Nat) (prev : UInt8), execOp E ⟨A, ⟨0, bytes82, none⟩, i, NOP⟩ prev = some (.go ⟨A, ⟨0, bytes82, none⟩, i, NOP⟩) :=
    fun i prev => rfl
  have cont : ∀ prev : UInt8, execOp E ⟨A, ⟨0, bytes82, none⟩, 20, CONTINUE⟩ prev = some (.go ⟨X, ⟨0, bytes82, none⟩, 20, CONTINUE⟩) := by
    intro prev
    rw [← hX]
    show (if A.loopAddrs.length ≥ 3 then _ else _) = _
    rw [if_neg (by rw [e4]; simp)]
  rw [Trace.loop, if_pos (by show 18 < bytes82.length; omega)]
  simp only [d0, Option.bind_eq_bind, Option.bind_some, nop, e5, ne_eq, not_true_eq_false, if_false]
  rw [w 18 (by omega), Trace.loop, if_pos (by show 19 < bytes82.length; omega)]
  simp only [d1, Option.bind_eq_bind, Option.bind_some, nop, e5, ne_eq, not_true_eq_false, if_false]
  rw [w 19 (by omega), Trace.loop, if_pos (by show 20 < bytes82.length; omega)]
  simp only [d2, Option.bind_eq_bind, Option.bind_some, cont, x4, ne_eq, reduceCtorEq, not_false_eq_true, if_true]
  rw [show wrap (((0 : Nat) : Int) + (20 : Nat) - 1) = 19 from rfl, hg]
  simp only [Option.bind_some, hu]

/-- **C82 fails for scripts that run other scripts.** A C function called at `site` runs a script that fails at `inner`: the trace has that
place, the call at `site` and the calls around it.  The failure of the C function then makes the caller fail, at `outer`, and all of the caller's calls are
written a second time. -/
theorem C82_violation_nested {w vm : Vm} {sites : List Nat} {inner outer site : Nat} {this scope loops ret : Val}
    (hc : Calls vm.callStack sites) (hw : w.callStack = vm.callStack ++ [this, mkInt site, scope, loops, ret])
    (hp : w.parts = vm.parts) (hb : w.bcodeLen = vm.bcodeLen) (hl : vm.callStack.length + 5 < 2 ^ 31)
    (hi : inner < offsetExit) (ho : outer < offsetExit) (hk : Known82 vm (inner :: outer :: site :: sites)) :
    ∃ text, Lines vm (inner :: site :: sites.reverse ++ outer :: sites.reverse) text ∧
      (genTrace w none inner).bind (fun t => genTrace vm t outer) = some (some text) := by
  have hfile : ∀ o, fileNameAt w o = fileNameAt vm o := fun o => by unfold fileNameAt; rw [partAt_congr hp hb]
  have hline : ∀ o, lineno w o = lineno vm o := fun o => by unfold lineno; rw [partAt_congr hp hb]
  have hloc : ∀ {o f n}, Located vm o f n ↔ Located w o f n := fun {o f n} =>
    ⟨fun h => ⟨h.1, (hfile o).trans h.2, (hline o).trans h.3⟩, fun h => ⟨h.1, (hfile o).symm.trans h.2, (hline o).symm.trans h.3⟩⟩
  have hlines : ∀ {l t}, Lines w l t → Lines vm l t := by
    intro l t h
    induction h with
    | nil => exact .nil
    | host _ ih => exact .host ih
    | line a b c _ ih => exact .line a (hloc.2 b) c ih
  have happ : ∀ {l t l' t'}, Lines vm l t → Lines vm l' t' → Lines vm (l ++ l') (t ++ t') := by
    intro l t l' t' h h'
    induction h with
    | nil => exact h'
    | host _ ih => exact .host ih
    | line a b c _ ih =>
      have := Lines.line a b c ih
      simpa only [List.append_assoc, List.cons_append] using this
  have hcw : Calls w.callStack (sites ++ [site]) := by rw [hw]; exact .call _ _ _ _ _ hc
  obtain ⟨t1, a1, b1⟩ := genTrace_calls (off := inner) hcw (by rw [hw]; simp; omega) (by
    intro o ho'
    rcases hk o (by grind) with e | ⟨f, n, e⟩
    · exact .inl e
    · exact .inr ⟨f, n, hloc.1 e⟩) (Nat.ne_of_lt hi) none
  obtain ⟨t2, a2, b2⟩ := genTrace_calls (off := outer) hc (by omega) (fun o ho' => hk o (by grind)) (Nat.ne_of_lt ho) (some t1)
  refine ⟨t1 ++ t2, ?_, ?_⟩
  · have := happ (hlines a1) a2
    simpa using this
  · rw [b1]
    exact b2

/-- A host program called a function, which called another: the hypotheses of the theorems about the calls under way hold. -/
example (vm0 : Vm) (h1 : vm0.parts = []) (h2 : vm0.bcodeLen = 0) : ∃ vm : Vm, Calls vm.callStack [offsetExit, 19] ∧
    Known82 vm [19, 19, offsetExit, 19] ∧ vm.callStack.length < 2 ^ 31 ∧
    genTrace vm none 19 = some (some (txt "  at x.js:1\n  at x.js:1\n")) := by
  obtain ⟨-, -, -, hloc⟩ := located82 vm0 h1 h2
  let vm : Vm := { commit vm0 bytes82 with callStack := [mkNull, mkInt offsetExit, mkInt 1, mkInt 0, mkInt 1] ++ [mkNull, mkInt 19, mkInt 1, mkInt 0, mkInt 2] }
  have hl := hloc vm rfl rfl
  have hc : Calls vm.callStack [offsetExit, 19] := .call 19 _ _ _ _ (.call (cs := []) offsetExit _ _ _ _ .nil)
  refine ⟨vm, hc, ?_, by simp [vm], ?_⟩
  · intro o ho
    simp only [List.mem_cons, List.not_mem_nil, or_false] at ho
    rcases ho with rfl | rfl | rfl | rfl
    · exact .inr ⟨_, _, hl⟩
    · exact .inr ⟨_, _, hl⟩
    · exact .inl rfl
    · exact .inr ⟨_, _, hl⟩
  · unfold genTrace
    rw [appendLine_line (by unfold offsetExit; omega) hl]
    simp only [Option.bind_eq_bind, Option.bind_some]
    rw [genLoop, if_pos (by simp [vm]), show at? vm.callStack (-1 - 3) = some (mkInt 19) from at_frame _ _ _ _ _ _ (by simp),
      show popFrame vm.callStack = _ from popFrame_frame _ _ _ _ _ _]
    simp only [Option.bind_eq_bind, Option.bind_some]
    rw [show wrap (getInt (mkInt 19)) = 19 from wrap_getInt 19 (by omega), appendLine_line (by unfold offsetExit; omega) hl]
    simp only [Option.bind_some]
    rw [genLoop, if_pos (by simp), show at? [mkNull, mkInt offsetExit, mkInt 1, mkInt 0, mkInt 1] (-1 - 3) = some (mkInt offsetExit) from at_frame [] _ _ _ _ _ (by simp),
      show popFrame [mkNull, mkInt offsetExit, mkInt 1, mkInt 0, mkInt 1] = _ from popFrame_frame [] _ _ _ _ _]
    simp only [Option.bind_eq_bind, Option.bind_some]
    rw [wrap_getInt offsetExit (by unfold offsetExit; omega), appendLine, if_neg (by simp)]
    simp only [Option.bind_some]
    rw [genLoop, if_neg (by simp)]
    have : (txt "  at " ++ txt "x.js" ++ txt ":" ++ Print.decInt 1 ++ txt "\n") = txt "  at x.js:1\n" := by decide +kernel
    rw [this]
    decide +kernel

/-- **C82, the report.** `mjs_print_error` writes the trace, if asked to, and then the message (`MJS error` if there is none) and the text of
the error. -/
theorem C82_report (vm : Vm) (text msg : List UInt8) :
    printError vm (some text) (some msg) true = text ++ (msg ++ txt ": " ++ strerror vm vm.error ++ txt "\n") ∧
      printError vm (some text) (some msg) false = msg ++ txt ": " ++ strerror vm vm.error ++ txt "\n" ∧
      (∀ t b, printError vm t none b = printError vm t (some (txt "MJS error")) b) ∧
      (∀ b, printError vm none (some msg) b = msg ++ txt ": " ++ strerror vm vm.error ++ txt "\n") := by
  refine ⟨?_, ?_, fun t b => rfl, fun b => ?_⟩
  · simp [printError]
  · simp [printError]
  · cases b <;> simp [printError]

/-- The `n`th call from inside. -/
theorem at_calls {cs sites} (h : Calls cs sites) : cs.length < 2 ^ 31 → (∀ o ∈ sites, o < 2 ^ 31) → ∀ n : Nat, n < sites.length →
    (at? cs (-1 - (3 + 5 * (n : Int)))).map getInt = (sites.reverse[n]?).map (fun o : Nat => (o : Int)) := by
  induction h with
  | nil => intro _ _ n hn; cases hn
  | @call cs sites site t s l r h ih =>
    intro hl hs n hn
    have hlen := h.length
    simp only [List.length_append, List.length_cons, List.length_nil] at hl hn
    rw [List.reverse_append, List.reverse_singleton, List.singleton_append]
    cases n with
    | zero =>
      have := at_frame cs t (mkInt site) s l r (by omega)
      rw [show (-1 - (3 + 5 * ((0 : Nat) : Int))) = -1 - 3 by omega, this]
      have h1 := hs site (by simp)
      simp only [Option.map_some, List.getElem?_cons_zero]
      rw [getInt_mkInt _ (by omega) (by omega)]
    | succ n =>
      rw [List.getElem?_cons_succ, ← ih (by omega) (fun o ho => hs o (by simp [ho])) n (by omega)]
      congr 1
      unfold at? vptr vptrIdx
      rw [cInt_small (by simp; omega), cInt_small (by omega)]
      simp only [List.length_append, List.length_cons, List.length_nil]
      rw [if_pos (by omega), if_pos (by omega), if_pos (by omega), if_pos (by omega)]
      simp only [Option.bind_some]
      have e : (((cs.length + (0 + 1 + 1 + 1 + 1 + 1) : Nat) : Int) + (-1 - (3 + 5 * ((n + 1 : Nat) : Int)))).toNat =
        ((cs.length : Int) + (-1 - (3 + 5 * (n : Int)))).toNat := by omega
      rw [e, List.getElem?_append_left (by omega)]

/-- **C82, call frames one by one.** Number 1 is the innermost of the calls under way, number 2 the next; there is -1 behind the last. -/
theorem C82_frame {vm : Vm} {sites : List Nat} (h : Calls vm.callStack sites) (hl : vm.callStack.length < 2 ^ 31)
    (hs : ∀ o ∈ sites, o < 2 ^ 31) (cur n : Nat) :
    offsetByFrame vm cur (n + 1) = some (match sites.reverse[n]? with | some o => (o : Int) | none => -1) := by
  unfold offsetByFrame
  have hlen := h.length
  rw [if_neg (by omega)]
  by_cases hn : n < sites.length
  · rw [if_pos ⟨by omega, by omega⟩, show (n : Int) + 1 - 1 = n by omega, at_calls h hl hs n hn]
    cases he : sites.reverse[n]? with
    | none => rw [List.getElem?_eq_none_iff] at he; simp at he; omega
    | some o => rfl
  · rw [if_neg (by omega)]
    have : sites.reverse[n]? = none := by rw [List.getElem?_eq_none_iff]; simp; omega
    rw [this]

/-- **C82 fails for the current place.** Number 0 should be the place of the instruction under way, `bp.startIdx + i`.  The program keeps
only `i` (mjs_exec.c:575), so it is a place in the first script that was loaded, if that is long enough. -/
theorem C82_violation_current {vm : Vm} {ss : List Script} {s0 : Script} {p0 bp : Part} {i : Nat} (h : Loaded vm (s0 :: ss))
    (h0 : IsScript vm (s0 :: ss) 0 p0 s0) (hp : (0 : UInt8) ∉ s0.path) (hi : i < p0.data.length) (hs : i < 2 ^ 31)
    (hst : p0.startIdx = 0) (hbp : 0 < bp.startIdx) :
    offsetByFrame vm i 0 = some (i : Int) ∧ (i : Int) ≠ (bp.startIdx + i : Nat) ∧ fileNameAt vm i = some (some s0.path) := by
  refine ⟨?_, by omega, C42_file_name h h0 hp (by omega) (by omega)⟩
  unfold offsetByFrame
  rw [if_pos rfl, cInt_small hs]

end Mjs.Props
