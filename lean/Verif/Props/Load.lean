import Verif.Lemmas.Load
import Verif.Props.Bcode
import Verif.Props.Parse

/-!
# C69: `load` runs a file once

Statements about the C function that scripts call as `load(path)` and `load(path, scope)`.
-/

namespace Mjs.Props
open Mjs Mjs.Str Mjs.Obj Mjs.Core Mjs.Code Mjs.Sem Mjs.Exec Mjs.Bcode Mjs.Tok Mjs.Grammar Mjs.Parse Mjs.Parser Mjs.Spec.Load Mjs.Load

section
variable {E : Env} {d : Nat} {files : List UInt8 → Option (List UInt8)} {vm : Vm} {pre : List Val} {f : Val} {args : List Val}
  {path : List UInt8}

theorem readsZ_isString {st : Store} {v : Val} {bs : List UInt8} (h : ReadsZ st v bs) : isString v = true := by
  obtain ⟨p, n, h1, h2, _⟩ := h
  cases hs : isString v with
  | true => rfl
  | false =>
    simp only [getString, hs, Bool.false_eq_true, not_false_iff, if_true] at h1
    cases h1
    cases h2

/-- **C69, no path.** `load` of anything but a string is undefined, and changes nothing. -/
theorem C69_not_string (h : InCall vm pre f args) (hs : isString (argument args 0) = false) :
    Load.load E d files vm = some { vm with stack := pre ++ [mkUndefined] } := by
  unfold Load.load
  rw [show arg vm 0 = some (argument args 0) from inCall_arg h 0, show arg vm 1 = some (argument args 1) from inCall_arg h 1]
  simp only [Option.bind_eq_bind, Option.bind_some, hs, Bool.false_eq_true, if_false]
  exact inCall_ret h _

/-- **C69, a file that has been run.** If the last run of the file ended well, and no scope is given, `load` is undefined, and
changes nothing: the file is not even read. -/
theorem C69_skipped (h : InCall vm pre f args) (hz : ReadsZ vm.heap.str (argument args 0) path) (h0 : (0 : UInt8) ∉ path) {p : Part}
    (hp : FirstOf vm.parts path p) (hr : p.execRes = some .ok) (ho : isObject (argument args 1) = false) :
    Load.load E d files vm = some { vm with stack := pre ++ [mkUndefined] } := by
  have hw : within vm args = vm := by rw [within, if_neg (by rw [ho]; decide)]
  have hc : choose E d files (within vm args) path (isObject (argument args 1)) = some (vm, mkUndefined, .ok) := by
    rw [hw]
    unfold choose
    rw [loadedIn_first hp]
    simp [hr, ho]
  exact load_ok h hz h0 (readsZ_isString hz) hc (by rw [hw]; exact ⟨rfl, rfl, rfl, rfl, rfl⟩)

/-- **C69, no file.** If the file is neither loaded nor readable, `load` is an error that names the file; no code is loaded. -/
theorem C69_unreadable (h : InCall vm pre f args) (hz : ReadsZ vm.heap.str (argument args 0) path) (h0 : (0 : UInt8) ∉ path)
    (hok : vm.error = .ok) (hm : vm.msg = none) (hn : NotLoaded vm.parts path) (hf : files path = none) :
    ∃ vm', Load.load E d files vm = some vm' ∧ Returned vm vm' pre mkUndefined ∧ vm'.error = .fileRead ∧
      vm'.msg = some (failed path ++ txt ": " ++ (txt "failed to read file \"" ++ path ++ txt "\"")) ∧ vm'.heap = vm.heap ∧
      vm'.parts = vm.parts ∧ vm'.bcodeLen = vm.bcodeLen ∧ vm'.this = vm.this := by
  obtain ⟨s1, s2, s3, s4, s5, s6, s7, s8, s9⟩ := within_stack vm args
  have st : (within vm args).this = vm.this := by unfold within; split <;> rfl
  have hc : choose E d files (within vm args) path (isObject (argument args 1)) =
      some (prepend (within vm args) .fileRead (txt "failed to read file \"" ++ path ++ txt "\""), mkUndefined, .fileRead) := by
    unfold choose
    rw [s3, loadedIn_not hn]
    simp only [Option.bind_eq_bind, Option.bind_some]
    unfold execFile
    rw [hf]
  refine ⟨_, load_err h hz h0 (readsZ_isString hz) (by decide) hc ⟨rfl, rfl, rfl, rfl, rfl⟩
    (by show ReadsZ (within vm args).heap.str _ _; rw [s5]; exact hz), ⟨rfl, s2, s6, rfl, s7⟩, ?_, ?_, s5, s3, s4, st⟩
  · simp only [prepend, s8, hok, if_true]
    rfl
  · simp only [prepend, s9, hm]

/-- **C69, an incorrect file.** If the text of the file is not accepted, `load` is a syntax error; no code is loaded. -/
theorem C69_incorrect (h : InCall vm pre f args) (hz : ReadsZ vm.heap.str (argument args 0) path) (h0 : (0 : UInt8) ∉ path)
    (hn : NotLoaded vm.parts path) {content : List UInt8} (hf : files path = some content)
    (hp : parseScript E d path (source content) = .error) :
    ∃ vm', Load.load E d files vm = some vm' ∧ Returned vm vm' pre mkUndefined ∧ vm'.error = .syntax ∧ vm'.heap = vm.heap ∧
      vm'.parts = vm.parts ∧ vm'.bcodeLen = vm.bcodeLen ∧ vm'.this = vm.this := by
  obtain ⟨s1, s2, s3, s4, s5, s6, s7, s8, s9⟩ := within_stack vm args
  have st : (within vm args).this = vm.this := by unfold within; split <;> rfl
  have hc : choose E d files (within vm args) path (isObject (argument args 1)) =
      some ({ within vm args with error := .syntax }, mkUndefined, .syntax) := by
    unfold choose
    rw [s3, loadedIn_not hn]
    simp only [Option.bind_eq_bind, Option.bind_some]
    unfold execFile
    rw [hf]
    simp only [exec, hp, Option.map_some]
  refine ⟨_, load_err h hz h0 (readsZ_isString hz) (by decide) hc ⟨rfl, rfl, rfl, rfl, rfl⟩
    (by show ReadsZ (within vm args).heap.str _ _; rw [s5]; exact hz), ⟨rfl, s2, s6, rfl, s7⟩, ?_, s5, s3, s4, st⟩
  simp only [prepend]
  rfl

end

/-! ## Files that are run -/

section
variable {E : Env} [Natives E] {files : List UInt8 → Option (List UInt8)} {vm : Vm} {pre : List Val} {f : Val} {args : List Val}
  {path : List UInt8} {ss : List Script} {D : Nat}

theorem within_loaded (h : Loaded vm ss) (args : List Val) : Loaded (within vm args) ss := by
  obtain ⟨s1, s2, s3, s4, _⟩ := within_stack vm args
  exact ⟨by rw [s3]; exact h.parts, by rw [s4]; exact h.len, by rw [s4]; exact h.small, h.nums⟩

theorem within_commit {vm2 : Vm} {s : Script} (h : SameCode vm2 (load (within vm args) s)) : SameCode vm2 (commit vm s.bytes) := by
  obtain ⟨s1, s2, s3, s4, _⟩ := within_stack vm args
  refine ⟨h.len.trans ?_, h.parts.trans ?_⟩
  · show (within vm args).bcodeLen + _ = vm.bcodeLen + _
    rw [s4]
  · show ((within vm args).parts ++ [_]).map _ = (vm.parts ++ [_]).map _
    rw [s3, s4]

theorem source_nul : ∀ content : List UInt8, (0 : UInt8) ∉ source content
  | [] => by simp [source]
  | c :: r => by
    by_cases hc : c = 0
    · subst hc; simp [source]
    · have := source_nul r
      simp only [source, List.takeWhile_cons, ne_eq, hc, not_false_iff, decide_true, if_true, List.mem_cons, not_or]
      exact ⟨Ne.symm hc, this⟩

/-- **C69, the first time.** The file is run with the second argument, if it is an object, as a further scope; the value of the
script is the value of `load`. -/
theorem C69_first_value (h : InCall vm pre f args) (hz : ReadsZ vm.heap.str (argument args 0) path) (h0 : (0 : UInt8) ∉ path)
    (hn : NotLoaded vm.parts path) {content : List UInt8} (hf : files path = some content) {ts : List Token} {body : List Stmt}
    (ht : Tokens E (source content) ts) (hw : WriteSs 0 EOF body ts) (hl : Loaded vm ss) (hr : Room (within vm args) D) :
    ∃ s d0, s.path = path ∧ s.body = body ∧ (∀ d, d0 ≤ d → parseScript E d path (source content) = .code s.bytes) ∧ (vm.bcodeLen + s.bytes.length < 2 ^ 31 - 1 →
      ∀ n vm' v, evalScript E (ss ++ [s]) n D ⟨vm.bcodeLen, s.bytes, none⟩ s (setErrorf (commit (within vm args) s.bytes) .ok none) =
          some (.ok vm' (.normal v)) →
        ∃ vm2, (∀ d, d0 ≤ d → Load.load E d files vm = some vm2) ∧ Returned vm vm2 pre v ∧ vm2.heap = vm'.heap ∧ vm2.error = .ok ∧
          vm2.this = vm.this ∧ SameCode vm2 (commit vm s.bytes)) := by
  obtain ⟨s1, s2, s3, s4, s5, s6, s7, s8, s9⟩ := within_stack vm args
  have st : (within vm args).this = vm.this := by unfold within; split <;> rfl
  have hsrc : (0 : UInt8) ∉ source content := source_nul content
  obtain ⟨s, d0, e1, e2, e3, hx⟩ := C61_exec_value (path := path) hsrc ht hw (within_loaded hl args) hr
  refine ⟨s, d0, e1, e2, e3, fun hb n vm' v he => ?_⟩
  rw [s4] at hx
  have hcm : setErrorf (commit (within vm args) s.bytes) .ok none = setErrorf (load (within vm args) s) .ok none := rfl
  obtain ⟨vm2, g1, g2, g3, g4, g5, g6⟩ := hx hb n vm' v (hcm ▸ he)
  have hc : ∀ d, d0 ≤ d → choose E d files (within vm args) path (isObject (argument args 1)) = some (vm2, v, .ok) := by
    intro d hd
    unfold choose
    rw [s3, loadedIn_not hn]
    simp only [Option.bind_eq_bind, Option.bind_some]
    unfold execFile
    rw [hf]
    simp only [g1 d hd, Option.map_some, g3]
  refine ⟨_, fun d hd => load_ok h hz h0 (readsZ_isString hz) (hc d hd) g5,
    ⟨rfl, g5.callStack.trans s2, g5.argStack.trans s6, rfl, g5.loopAddrs.trans s7⟩, g2, g3, g4.trans st, ?_, ?_⟩
  · exact (within_commit g6).len
  · exact (within_commit g6).parts

/-- **C69, the first time, with an error.** The error of the script is the error of `load`, with the name of the file before its
message. -/
theorem C69_first_error (h : InCall vm pre f args) (hz : ReadsZ vm.heap.str (argument args 0) path) (h0 : (0 : UInt8) ∉ path)
    (hn : NotLoaded vm.parts path) {content : List UInt8} (hf : files path = some content) {ts : List Token} {body : List Stmt}
    (ht : Tokens E (source content) ts) (hw : WriteSs 0 EOF body ts) (hl : Loaded vm ss) (hr : Room (within vm args) D) :
    ∃ s d0, s.path = path ∧ s.body = body ∧ (∀ d, d0 ≤ d → parseScript E d path (source content) = .code s.bytes) ∧ (vm.bcodeLen + s.bytes.length < 2 ^ 31 - 1 →
      ∀ n vm', evalScript E (ss ++ [s]) n D ⟨vm.bcodeLen, s.bytes, none⟩ s (setErrorf (commit (within vm args) s.bytes) .ok none) =
          some (.err vm') → ReadsZ vm'.heap.str (argument args 0) path →
        ∃ vm2, (∀ d, d0 ≤ d → Load.load E d files vm = some vm2) ∧ Returned vm vm2 pre mkUndefined ∧ vm2.heap = vm'.heap ∧
          vm2.error = vm'.error ∧ vm2.error ≠ .ok ∧ vm2.msg = some (failed path ++ vm'.msg.elim [] (txt ": " ++ ·)) ∧ SameCode vm2 (commit vm s.bytes)) := by
  obtain ⟨s1, s2, s3, s4, s5, s6, s7, s8, s9⟩ := within_stack vm args
  have hsrc : (0 : UInt8) ∉ source content := source_nul content
  obtain ⟨s, d0, e1, e2, e3, hx⟩ := C61_exec_error (path := path) hsrc ht hw (within_loaded hl args) hr
  refine ⟨s, d0, e1, e2, e3, fun hb n vm' he hz2 => ?_⟩
  rw [s4] at hx
  have hcm : setErrorf (commit (within vm args) s.bytes) .ok none = setErrorf (load (within vm args) s) .ok none := rfl
  obtain ⟨vm2, g1, g2, g3, g4, g5, g6, g7⟩ := hx hb n vm' (hcm ▸ he)
  have hc : ∀ d, d0 ≤ d → choose E d files (within vm args) path (isObject (argument args 1)) = some (vm2, mkUndefined, vm2.error) := by
    intro d hd
    unfold choose
    rw [s3, loadedIn_not hn]
    simp only [Option.bind_eq_bind, Option.bind_some]
    unfold execFile
    rw [hf]
    simp only [g1 d hd, Option.map_some]
  refine ⟨_, fun d hd => load_err h hz h0 (readsZ_isString hz) g5 (hc d hd) g6 (by rw [g2]; exact hz2),
    ⟨rfl, g6.callStack.trans s2, g6.argStack.trans s6, rfl, g6.loopAddrs.trans s7⟩, g2, ?_, ?_, ?_, ?_, ?_⟩
  · show (if vm2.error = .ok then vm2.error else vm2.error) = _
    rw [if_neg g5, g3]
  · show (if vm2.error = .ok then vm2.error else vm2.error) ≠ _
    rw [if_neg g5]
    exact g5
  · simp only [prepend, g4]
    cases vm'.msg <;> simp
  · exact (within_commit g7).len
  · exact (within_commit g7).parts

/-- **C69, again.** A loaded file whose last run did not end well is run again, and any loaded file is if a scope is given.  The
code is the one loaded first; the file is not read. -/
theorem C69_again_value (h : InCall vm pre f args) (hz : ReadsZ vm.heap.str (argument args 0) path) (h0 : (0 : UInt8) ∉ path) {p : Part}
    (hp : FirstOf vm.parts path p) (ha : p.execRes ≠ some .ok ∨ isObject (argument args 1) = true) (hl : Loaded vm ss)
    (hr : Room (within vm args) D) {k : Nat} {s : Script} (hk : IsScript vm ss k p s) {n : Nat} {vm' : Vm} {v : Val} {d : Nat}
    (he : evalScript E ss n D p s (setErrorf (within vm args) .ok none) = some (.ok vm' (.normal v))) :
    ∃ vm2, Load.load E d files vm = some vm2 ∧ Returned vm vm2 pre v ∧ vm2.heap = vm'.heap ∧ vm2.error = .ok ∧ vm2.this = vm.this ∧
      SameCode vm2 vm := by
  obtain ⟨s1, s2, s3, s4, s5, s6, s7, s8, s9⟩ := within_stack vm args
  have st : (within vm args).this = vm.this := by unfold within; split <;> rfl
  obtain ⟨vm2, g1, g2, g3, g4, g5, g6⟩ := C35_script_value (within_loaded hl args) hr (⟨by rw [s3]; exact hk.part, hk.script⟩) he
  have hc : choose E d files (within vm args) path (isObject (argument args 1)) = some (vm2, v, .ok) := by
    unfold choose
    rw [s3, loadedIn_first hp]
    simp only [Option.bind_eq_bind, Option.bind_some]
    rw [if_pos ha, g1]
    simp only [Option.map_some, g3]
  refine ⟨_, load_ok h hz h0 (readsZ_isString hz) hc g5,
    ⟨rfl, g5.callStack.trans s2, g5.argStack.trans s6, rfl, g5.loopAddrs.trans s7⟩, g2, g3, g4.trans st, ?_, ?_⟩
  · exact g6.len.trans s4
  · exact g6.parts.trans (by rw [s3])

end

/-! ## Once -/

section
variable {E : Env} {d : Nat} {files : List UInt8 → Option (List UInt8)} {vm vm' : Vm} {pre : List Val} {f : Val} {args : List Val}
  {path : List UInt8}

theorem chain_le : ∀ {a e : Nat} {l : List (Nat × List UInt8)} {n : Nat} {c : Nat × List UInt8}, Chain a l e → l[n]? = some c →
    a ≤ c.1 ∧ c.1 + c.2.length ≤ e
  | _, _, [], n, _, _, h => by simp at h
  | a, e, p :: ps, 0, c, hc, h => by
    cases h
    obtain ⟨rfl, hc⟩ := hc
    refine ⟨Nat.le_refl _, ?_⟩
    revert hc
    generalize p.1 + p.2.length = b
    induction ps generalizing b with
    | nil => intro hc; exact Nat.le_of_eq hc
    | cons q qs ih => intro hc; have := ih _ hc.2; have := hc.1; omega
  | a, e, p :: ps, n + 1, c, hc, h => by
    obtain ⟨rfl, hc⟩ := hc
    have := chain_le hc (n := n) (by simpa using h)
    omega

theorem chain_index : ∀ {a e : Nat} {l : List (Nat × List UInt8)} {n off : Nat} {c : Nat × List UInt8}, Chain a l e → l[n]? = some c →
    c.1 ≤ off → off < c.1 + c.2.length → l.findIdx? (fun c => decide (off < c.1 + c.2.length)) = some n
  | _, _, [], n, _, _, _, h, _, _ => by simp at h
  | a, e, p :: ps, 0, off, c, hc, h, h1, h2 => by
    cases h
    rw [List.findIdx?_cons]
    simp [h2]
  | a, e, p :: ps, n + 1, off, c, hc, h, h1, h2 => by
    obtain ⟨rfl, hc⟩ := hc
    have h' : ps[n]? = some c := by simpa using h
    have := (chain_le hc h').1
    rw [List.findIdx?_cons, chain_index hc h' h1 h2]
    have hn : ¬ off < p.1 + p.2.length := by omega
    simp [hn]

theorem partIdx_codes {vm : Vm} {off : Nat} (h : off < vm.bcodeLen) :
    partIdx vm off = (codes vm).findIdx? (fun c => decide (off < c.1 + c.2.length)) := by
  unfold partIdx
  rw [if_neg (by omega), codes, List.findIdx?_map]
  rfl

/-- Every run of code is noted at the script it belongs to. -/
theorem execute_marks (hE : OnlyLoad E) (hch : Chain 0 (codes vm) vm.bcodeLen) {n off : Nat} {p : Part} (hn : vm.parts[n]? = some p)
    (h1 : p.startIdx ≤ off) (h2 : off < p.startIdx + p.data.length) {r : Val} (h : execute E vm off = some (vm', r)) :
    ∃ q e, vm'.parts[n]? = some q ∧ q.startIdx = p.startIdx ∧ q.data = p.data ∧ q.execRes = some e ∧ (vm'.error = .ok → e = .ok) ∧
      (vm'.error ≠ .internal → e = vm'.error) := by
  have hg := execute_grown hE h
  obtain ⟨l, hc, hle, hch'⟩ := grown_codes hg
  have hch' := hch' 0 hch
  have hcn : (codes vm)[n]? = some (p.startIdx, p.data) := by rw [codes, List.getElem?_map, hn]; rfl
  have hcn' : (codes vm')[n]? = some (p.startIdx, p.data) := by
    rw [hc, List.getElem?_append_left]
    · exact hcn
    · exact (List.getElem?_eq_some_iff.1 hcn).1
  have hidx := chain_index hch' hcn' h1 h2
  have hoff := (chain_le hch' hcn').2
  unfold execute at h
  simp only [Option.bind_eq_bind, Option.bind_eq_some_iff] at h
  obtain ⟨bp, _, vm1, hl, m, hm, part, hp, h⟩ := h
  cases h
  have h3 := pop_same { vm1 with parts := vm1.parts.set m { part with execRes := some vm1.error } }
  have hc1 : SameCode (pop { vm1 with parts := vm1.parts.set m { part with execRes := some vm1.error } }).2 vm1 := sameCode_set h3.2 h3.1 hp
  have e1 : codes (pop { vm1 with parts := vm1.parts.set m { part with execRes := some vm1.error } }).2 = codes vm1 := hc1.parts
  rw [e1] at hidx hcn'
  rw [hc1.len] at hoff
  simp only at hoff
  rw [partIdx_codes (by omega), hidx] at hm
  cases hm
  have hpd : part.startIdx = p.startIdx ∧ part.data = p.data := by
    rw [codes, List.getElem?_map, hp] at hcn'
    simpa using hcn'
  have hlt : n < vm1.parts.length := (List.getElem?_eq_some_iff.1 hp).1
  refine ⟨{ part with execRes := some vm1.error }, vm1.error, ?_, hpd.1, hpd.2, rfl, ?_, ?_⟩
  · rw [h3.1]
    simp [hlt]
  · unfold pop
    split
    · intro h; cases h
    · intro h; exact h
  · unfold pop
    split
    · intro h; exact absurd rfl h
    · intro h; rfl

theorem fileName_pos {p : Part} {n : List UInt8} (h : fileName p = some n) : 0 < p.data.length := by
  unfold fileName at h
  cases hd : p.data.drop 13 with
  | nil => rw [hd] at h; cases h
  | cons a b =>
    have := congrArg List.length hd
    simp only [List.length_drop, List.length_cons] at this
    omega

theorem firstOf_index {parts : List Part} {p : Part} (h : FirstOf parts path p) :
    ∃ n : Nat, parts[n]? = some p ∧ fileName p = some path ∧ ∀ m < n, ∃ q x, parts[m]? = some q ∧ fileName q = some x ∧ x ≠ path := by
  obtain ⟨before, rest, rfl, h1, h2⟩ := h
  refine ⟨before.length, by simp, h1, fun m hm => ?_⟩
  obtain ⟨x, g1, g2⟩ := h2 before[m] (by simp)
  exact ⟨before[m], x, by rw [List.getElem?_append_left hm, List.getElem?_eq_getElem hm], g1, g2⟩

theorem firstOf_of_index {parts : List Part} {p : Part} {n : Nat} (h : parts[n]? = some p) (h1 : fileName p = some path)
    (h2 : ∀ m < n, ∃ q x, parts[m]? = some q ∧ fileName q = some x ∧ x ≠ path) : FirstOf parts path p := by
  obtain ⟨hn, rfl⟩ := List.getElem?_eq_some_iff.1 h
  refine ⟨parts.take n, parts.drop (n + 1), ?_, h1, fun q hq => ?_⟩
  · rw [List.getElem_cons_drop, List.take_append_drop]
  · obtain ⟨m, hm, rfl⟩ := List.getElem_of_mem hq
    simp only [List.length_take] at hm
    obtain ⟨q, x, g1, g2, g3⟩ := h2 m (by omega)
    rw [List.getElem?_eq_getElem (by omega)] at g1
    cases g1
    exact ⟨x, by simpa using g2, g3⟩

/-- The scripts before an index keep their names when the code grows. -/
theorem names_kept {a b : Vm} (hg : Grown a b) {n : Nat} (hn : n ≤ a.parts.length)
    (h : ∀ m < n, ∃ q x, a.parts[m]? = some q ∧ fileName q = some x ∧ x ≠ path) :
    ∀ m < n, ∃ q x, b.parts[m]? = some q ∧ fileName q = some x ∧ x ≠ path := by
  intro m hm
  obtain ⟨q, x, g1, g2, g3⟩ := h m hm
  obtain ⟨l, hc, _⟩ := grown_codes hg
  have : (codes b)[m]? = some (q.startIdx, q.data) := by
    rw [hc, List.getElem?_append_left (by simp [codes]; omega), codes, List.getElem?_map, g1]; rfl
  rw [codes, List.getElem?_map] at this
  obtain ⟨q', e1, e2⟩ := Option.map_eq_some_iff.1 this
  simp only [Prod.mk.injEq] at e2
  exact ⟨q', x, e1, by unfold fileName at g2 ⊢; rw [e2.2]; exact g2, g3⟩

theorem parsed_name {src bytes : List UInt8} (h : parseScript E d path src = .code bytes) (h0 : (0 : UInt8) ∉ path) :
    ∀ p : Part, p.data = bytes → fileName p = some path := by
  intro p hp
  unfold parseScript at h
  split at h <;> cases h
  unfold fileName
  rw [hp]
  have : ∀ c m : List UInt8, (assemble path c m).drop 13 = path ++ 0 :: (c ++ (vint m.length ++ m)) := by
    intro c m; simp [assemble, header, u32]
  rw [this, cstr_path _ _ h0]

/-- After a run that ended well the first script with the name is marked. -/
theorem choose_marks (hE : OnlyLoad E) (hch : Chain 0 (codes vm) vm.bcodeLen) (h0 : (0 : UInt8) ∉ path) {c : Bool} {v : Val}
    (h : choose E d files vm path c = some (vm', v, .ok)) : ∃ p, FirstOf vm'.parts path p ∧ p.execRes = some .ok := by
  unfold choose at h
  obtain ⟨bp, hb, h⟩ := Option.bind_eq_some_iff.1 h
  cases bp with
  | none =>
    have hn := loadedIn_inv.1 hb
    simp only at h
    unfold execFile at h
    cases hf : files path with
    | none => rw [hf] at h; cases h
    | some content =>
      rw [hf] at h
      simp only at h
      obtain ⟨⟨u, w⟩, hx, h⟩ := Option.map_eq_some_iff.1 h
      simp only [Prod.mk.injEq] at h
      obtain ⟨rfl, rfl, he⟩ := h
      unfold exec at hx
      cases hps : parseScript E d path (source content) with
      | code bytes =>
        rw [hps] at hx
        simp only at hx
        have hname := parsed_name hps h0
        have hch2 : Chain 0 (codes (commit { vm with error := .ok } bytes)) (commit { vm with error := .ok } bytes).bcodeLen := by
          simp only [codes, commit, List.map_append, List.map_cons, List.map_nil]
          exact chain_append 0 _ _ bytes hch
        have hpn : (commit { vm with error := .ok } bytes).parts[vm.parts.length]? = some ⟨vm.bcodeLen, bytes, none⟩ := by
          simp [commit]
        have hpos := fileName_pos (hname ⟨vm.bcodeLen, bytes, none⟩ rfl)
        obtain ⟨q, e, q1, q2, q3, q4, q5, _⟩ := execute_marks hE hch2 hpn (Nat.le_refl _) (by simpa using hpos) hx
        refine ⟨q, firstOf_of_index q1 (hname q q3) (names_kept (execute_grown hE hx) (by simp [commit]) fun m hm => ?_), by rw [q4, q5 he]⟩
        obtain ⟨x, g1, g2⟩ := hn vm.parts[m] (by simp)
        exact ⟨vm.parts[m], x, by simp [commit, List.getElem?_append_left hm], g1, g2⟩
      | error => rw [hps] at hx; cases hx; cases he
      | ub => rw [hps] at hx; cases hx
      | deep => rw [hps] at hx; cases hx
      | endless => rw [hps] at hx; cases hx
  | some bp =>
    have hf := loadedIn_inv.2 bp hb
    simp only at h
    split at h
    · obtain ⟨⟨u, w⟩, hx, h⟩ := Option.map_eq_some_iff.1 h
      simp only [Prod.mk.injEq] at h
      obtain ⟨rfl, rfl, he⟩ := h
      obtain ⟨n, h1, h2, h3⟩ := firstOf_index hf
      have hpos := fileName_pos h2
      obtain ⟨q, e, q1, q2, q3, q4, q5, _⟩ := execute_marks hE hch h1 (Nat.le_refl _) (by omega) hx
      refine ⟨q, firstOf_of_index q1 (by unfold fileName at h2 ⊢; rw [q3]; exact h2) (names_kept (execute_grown hE hx) ?_ h3), by rw [q4, q5 he]⟩
      exact Nat.le_of_lt (List.getElem?_eq_some_iff.1 h1).1
    · cases h
      rename_i hr
      simp only [ne_eq, not_or, Decidable.not_not] at hr
      exact ⟨bp, hf, hr.1⟩

/-- The error of `load` is the error of the run. -/
theorem load_inv (h : InCall vm pre f args) (hz : ReadsZ vm.heap.str (argument args 0) path) (h0 : (0 : UInt8) ∉ path)
    (hl : Load.load E d files vm = some vm') :
    ∃ u v e, choose E d files (within vm args) path (isObject (argument args 1)) = some (u, v, e) ∧ vm'.parts = u.parts ∧
      vm'.bcodeLen = u.bcodeLen ∧ (vm'.error = .ok → e = .ok) := by
  rw [load_eq h hz h0 (readsZ_isString hz)] at hl
  obtain ⟨⟨u, v, e⟩, hc, hl⟩ := Option.bind_eq_some_iff.1 hl
  obtain ⟨u3, h3, hl⟩ := Option.bind_eq_some_iff.1 hl
  obtain ⟨u4, h4, hl⟩ := Option.bind_eq_some_iff.1 hl
  have e5 : vm'.parts = u4.parts ∧ vm'.bcodeLen = u4.bcodeLen ∧ vm'.error = u4.error := by
    unfold ret at hl
    obtain ⟨pos, _, hl⟩ := Option.bind_eq_some_iff.1 hl
    split at hl
    · cases hl
    · cases hl; exact ⟨rfl, rfl, rfl⟩
  have e4 : u4.parts = u3.parts ∧ u4.bcodeLen = u3.bcodeLen ∧ u4.error = u3.error := by
    split at h4
    · obtain ⟨x, _, rfl⟩ := Option.map_eq_some_iff.1 h4
      exact ⟨rfl, rfl, rfl⟩
    · cases h4; exact ⟨rfl, rfl, rfl⟩
  have e3 : u3.parts = u.parts ∧ u3.bcodeLen = u.bcodeLen ∧ (u3.error = .ok → e = .ok) := by
    split at h3
    · rename_i he
      simp only [Option.bind_eq_bind, Option.bind_eq_some_iff] at h3
      obtain ⟨a, _, p1, _, p2, _, h3⟩ := h3
      cases h3
      refine ⟨rfl, rfl, fun h => ?_⟩
      simp only [prepend] at h
      split at h
      · exact h
      · rename_i hne; exact absurd h hne
    · rename_i he
      cases h3
      exact ⟨rfl, rfl, fun _ => Decidable.not_not.1 he⟩
  exact ⟨u, v, e, hc, e5.1.trans (e4.1.trans e3.1), e5.2.1.trans (e4.2.1.trans e3.2.1),
    fun h => e3.2.2 (e4.2.2.symm.trans (e5.2.2.symm.trans h))⟩

/-- **C69, once (partial).** After a `load` that ended well, a `load` of the same path without a scope is undefined and changes
nothing, whatever has happened to values in between, and whatever the files are then.  The file may have called anything,
`load` included.  Missing: code run in between; see `C69_call_noted`. -/
theorem C69_once_partial (hE : OnlyLoad E) {new : Vm} (hnew : new.parts = [] ∧ new.bcodeLen = 0) (hg : Grown new vm)
    (h : InCall vm pre f args) (hz : ReadsZ vm.heap.str (argument args 0) path) (h0 : (0 : UInt8) ∉ path)
    (hl : Load.load E d files vm = some vm') (hok : vm'.error = .ok) {vm2 : Vm} {pre2 : List Val} {f2 : Val} {args2 : List Val}
    (hp : vm2.parts = vm'.parts) (h2 : InCall vm2 pre2 f2 args2) (hz2 : ReadsZ vm2.heap.str (argument args2 0) path)
    (ho : isObject (argument args2 1) = false) (d2 : Nat) (files2 : List UInt8 → Option (List UInt8)) :
    Load.load E d2 files2 vm2 = some { vm2 with stack := pre2 ++ [mkUndefined] } := by
  obtain ⟨s1, s2, s3, s4, _⟩ := within_stack vm args
  obtain ⟨u, v, e, hc, e1, e2, e3⟩ := load_inv h hz h0 hl
  cases e3 hok
  obtain ⟨_, _, _, hch⟩ := grown_codes hg
  have hch := hch 0 (by rw [hnew.2]; simp [codes, hnew.1, Chain])
  have hch' : Chain 0 (codes (within vm args)) (within vm args).bcodeLen := by
    rw [codes, s3, s4]; exact hch
  obtain ⟨p, p1, p2⟩ := choose_marks hE hch' h0 hc
  exact C69_skipped h2 hz2 h0 (by rw [hp, e1]; exact p1) p2 ho

/-- **C69, calls count too.** Every run of code is noted at its script.  So if a function of a loaded file is called from C and
ends with an error, the file is run again by the next `load`, although it was loaded well. -/
theorem C69_call_noted (hE : OnlyLoad E) (hch : Chain 0 (codes vm) vm.bcodeLen) {p : Part} (hp : FirstOf vm.parts path p) {off : Nat}
    (h1 : p.startIdx ≤ off) (h2 : off < p.startIdx + p.data.length) {r : Val} (h : execute E vm off = some (vm', r)) (hne : vm'.error ≠ .ok)
    (hni : vm'.error ≠ .internal) :
    ∃ q, FirstOf vm'.parts path q ∧ q.startIdx = p.startIdx ∧ ∀ c, choose E d files vm' path c =
      (execute E vm' p.startIdx).map fun r => (r.1, r.2, r.1.error) := by
  obtain ⟨n, g1, g2, g3⟩ := firstOf_index hp
  obtain ⟨q, e, q1, q2, q3, q4, _, q6⟩ := execute_marks hE hch g1 h1 h2 h
  have hq : FirstOf vm'.parts path q := firstOf_of_index q1 (by unfold fileName at g2 ⊢; rw [q3]; exact g2)
    (names_kept (execute_grown hE h) (Nat.le_of_lt (List.getElem?_eq_some_iff.1 g1).1) g3)
  refine ⟨q, hq, q2, fun c => ?_⟩
  unfold choose
  rw [loadedIn_first hq]
  simp only [Option.bind_eq_bind, Option.bind_some]
  rw [if_pos (.inl (by rw [q4, q6 hni]; simpa using hne)), q2]

/-- `load` itself only loads. -/
theorem load_grown (hE : OnlyLoad E) (hl : Load.load E d files vm = some vm') : Grown vm vm' := by
  have hret : ∀ {a b : Vm} {v : Val}, ret a v = some b → Grown a b := by
    intro a b v h
    unfold ret at h
    obtain ⟨pos, _, h⟩ := Option.bind_eq_some_iff.1 h
    split at h
    · cases h
    · cases h; exact .of_same ⟨rfl, rfl⟩
  unfold Load.load at hl
  obtain ⟨a0, _, hl⟩ := Option.bind_eq_some_iff.1 hl
  obtain ⟨a1, _, hl⟩ := Option.bind_eq_some_iff.1 hl
  split at hl
  · obtain ⟨x, _, hl⟩ := Option.bind_eq_some_iff.1 hl
    obtain ⟨path, _, hl⟩ := Option.bind_eq_some_iff.1 hl
    obtain ⟨⟨u, v, e⟩, hc, hl⟩ := Option.bind_eq_some_iff.1 hl
    obtain ⟨u3, h3, hl⟩ := Option.bind_eq_some_iff.1 hl
    obtain ⟨u4, h4, hl⟩ := Option.bind_eq_some_iff.1 hl
    have g1 : Grown vm (if isObject a1 = true then { vm with scopes := vm.scopes ++ [a1] } else vm) := by
      split <;> exact .of_same ⟨rfl, rfl⟩
    have g2 : Grown (if isObject a1 = true then { vm with scopes := vm.scopes ++ [a1] } else vm) u := by
      generalize (if isObject a1 = true then { vm with scopes := vm.scopes ++ [a1] } else vm) = w at hc
      unfold choose at hc
      obtain ⟨bp, hb, hc⟩ := Option.bind_eq_some_iff.1 hc
      cases bp with
      | none =>
        simp only at hc
        unfold execFile at hc
        split at hc
        · cases hc; exact .of_same ⟨rfl, rfl⟩
        · obtain ⟨⟨y, z⟩, hx, hc⟩ := Option.map_eq_some_iff.1 hc
          simp only [Prod.mk.injEq] at hc
          obtain ⟨rfl, _, _⟩ := hc
          unfold exec at hx
          split at hx
          · exact Grown.trans (b := commit { w with error := .ok } _) ⟨[_], ⟨rfl, rfl⟩⟩ (execute_grown hE hx)
          · cases hx; exact .of_same ⟨rfl, rfl⟩
          · cases hx
      | some bp =>
        simp only at hc
        split at hc
        · obtain ⟨⟨y, z⟩, hx, hc⟩ := Option.map_eq_some_iff.1 hc
          simp only [Prod.mk.injEq] at hc
          obtain ⟨rfl, _, _⟩ := hc
          exact execute_grown hE hx
        · cases hc; exact .of_same ⟨rfl, rfl⟩
    have g3 : Grown u u3 := by
      split at h3
      · simp only [Option.bind_eq_bind, Option.bind_eq_some_iff] at h3
        obtain ⟨a, _, p1, _, p2, _, h3⟩ := h3
        cases h3
        exact .of_same ⟨rfl, rfl⟩
      · cases h3; exact .of_same ⟨rfl, rfl⟩
    have g4 : Grown u3 u4 := by
      split at h4
      · obtain ⟨x, _, rfl⟩ := Option.map_eq_some_iff.1 h4
        exact .of_same ⟨rfl, rfl⟩
      · cases h4; exact .of_same ⟨rfl, rfl⟩
    exact (g1.trans g2).trans (g3.trans (g4.trans (hret hl)))
  · exact hret hl

/-- An engine whose only C function is `load`, where files may load files `n` deep. -/
def loadEnv (E : Env) (d : Nat) (files : List UInt8 → Option (List UInt8)) : Nat → Env
  | 0 => { E with cfun := fun _ _ => none, ffi := fun _ => none }
  | n + 1 => { E with cfun := fun _ vm => Load.load (loadEnv E d files n) d files vm, ffi := fun _ => none }

theorem loadEnv_only (E : Env) (d : Nat) (files : List UInt8 → Option (List UInt8)) : ∀ n, OnlyLoad (loadEnv E d files n)
  | 0 => ⟨fun _ _ _ h => (by cases h), fun _ _ h => (by cases h)⟩
  | n + 1 => ⟨fun _ _ _ h => load_grown (loadEnv_only E d files n) h, fun _ _ h => (by cases h)⟩

end

/-! ## The hypotheses are met -/

/-- The string `a.js` (short strings are in the value). -/
def pathVal : Val := 0xFFF600736a2e6104#64

theorem pathVal_reads (st : Store) : ReadsZ st pathVal (txt "a.js") :=
  ⟨.loc (bytesFrom pathVal 1), 4, rfl, rfl, rfl, rfl, rfl⟩

/-- An engine in the call `load("a.js")`. -/
def inLoad (r : Heap × Val) : Vm :=
  { heap := r.1, scopes := [r.2], al := fun _ => demoAl, stack := [mkFn 7, pathVal], callStack := [mkInt 1] }

theorem inLoad_call (r : Heap × Val) : InCall (inLoad r) [] (mkFn 7) [pathVal] :=
  ⟨rfl, ⟨[], rfl⟩, by simp [inLoad], by simp [inLoad]⟩

/-- A file `a.js` with the text of `demoScript`. -/
def demoFiles (path : List UInt8) : Option (List UInt8) := if path = txt "a.js" then some demoText else none

theorem demo_text_map : (match parseScript numEnv 60 (txt "a.js") demoText with | .code b => b == demoScript.bytes | _ => false) = true := by
  decide +kernel

/-- The first `load("a.js")` is 5, the value of the script. -/
theorem demo_load : ∃ r vm2 d0, (∀ d, d0 ≤ d → Load.load numEnv d demoFiles (inLoad r) = some vm2) ∧ Returned (inLoad r) vm2 [] (mkInt 5) ∧
    vm2.error = .ok := by
  have hd : (demo.bind fun r => (evalScript numEnv ([] ++ [demoScript]) 30 30 ⟨0, demoScript.bytes, none⟩ demoScript
      (setErrorf (commit (within (inLoad r) [pathVal]) demoScript.bytes) .ok none)).map fun o => match o with
        | .ok _ (.normal v) => v == mkInt 5
        | _ => false) = some true := by decide +kernel
  obtain ⟨r, hr, hd⟩ := Option.bind_eq_some_iff.1 hd
  obtain ⟨o, ho, hd⟩ := Option.map_eq_some_iff.1 hd
  have hl : Loaded (inLoad r) [] := ⟨trivial, rfl, by simp [inLoad], fun _ h => by cases h⟩
  have hw : within (inLoad r) [pathVal] = inLoad r := rfl
  have hroom : Room (within (inLoad r) [pathVal]) 30 := by
    rw [hw]
    exact ⟨by simp [inLoad], by simp [inLoad], by simp [inLoad], by simp [inLoad], by simp [inLoad]⟩
  have hsrc : source demoText = demoText := by decide +kernel
  obtain ⟨⟨path, body, map⟩, d0, rfl, rfl, hp, hx⟩ := C69_first_value (E := numEnv) (files := demoFiles) (content := demoText) (inLoad_call r)
    (pathVal_reads _) (by decide) (fun q hq => by cases hq) (by simp [demoFiles]) (by rw [hsrc]; exact demo_tokens) demo_writes hl hroom
  have hmap : map = demoScript.map := by
    have hm := demo_text_map
    have hp := hp (max d0 60) (by omega)
    rw [hsrc, parseScript_mono (d := 60) (by omega) (fun h => by rw [h] at hm; cases hm)] at hp
    rw [hp] at hm
    exact assemble_map (beq_iff_eq.1 hm : Script.bytes ⟨demoScript.path, demoScript.body, map⟩ = demoScript.bytes)
  subst hmap
  cases o with
  | err _ => simp at hd
  | ok vm' c =>
    cases c with
    | normal v =>
      simp only [beq_iff_eq] at hd
      subst hd
      obtain ⟨vm2, h1, h2, _, h3, _⟩ := hx (show 0 + demoScript.bytes.length < 2 ^ 31 - 1 by decide +kernel) 30 vm' (mkInt 5) ho
      exact ⟨r, vm2, d0, h1, h2, h3⟩
    | _ => simp at hd

theorem numEnv_only : OnlyLoad numEnv := ⟨fun _ _ _ h => (by cases h), fun _ _ h => (by cases h)⟩

/-- The second one is undefined. -/
example : ∃ r d vm2, Load.load numEnv d demoFiles (inLoad r) = some vm2 ∧ vm2.stack = [mkInt 5] ∧
    Load.load numEnv 0 (fun _ => none) { vm2 with stack := [mkFn 7, pathVal] } = some { vm2 with stack := [mkUndefined] } := by
  obtain ⟨r, vm2, d0, h1, h2, h3⟩ := demo_load
  refine ⟨r, d0, vm2, h1 d0 (Nat.le_refl _), h2.stack, ?_⟩
  refine C69_once_partial (new := inLoad r) (pre2 := []) numEnv_only ⟨rfl, rfl⟩ (.of_same ⟨rfl, rfl⟩) (inLoad_call r) (pathVal_reads _) (by decide)
    (h1 d0 (Nat.le_refl _)) h3 (vm2 := { vm2 with stack := [mkFn 7, pathVal] }) rfl ⟨rfl, ⟨[], h2.callStack⟩, by simp, ?_⟩ (pathVal_reads _) rfl 0 _
  show vm2.callStack.length < _
  rw [h2.callStack]
  simp [inLoad]

/-- A file that is loaded but was not run to its end is run. -/
example : ∃ vm vm2 p, FirstOf vm.parts (txt "a.js") p ∧ Load.load numEnv 0 (fun _ => none) vm = some vm2 ∧ vm2.stack = [mkInt 5] := by
  have hd : (demo.bind fun r => (evalScript numEnv [demoScript] 30 30 ⟨0, demoScript.bytes, none⟩ demoScript
      (setErrorf (within (commit (inLoad r) demoScript.bytes) [pathVal]) .ok none)).map fun o => match o with
        | .ok _ (.normal v) => v == mkInt 5
        | _ => false) = some true := by decide +kernel
  obtain ⟨r, hr, hd⟩ := Option.bind_eq_some_iff.1 hd
  obtain ⟨o, ho, hd⟩ := Option.map_eq_some_iff.1 hd
  have hb : demoScript.bytes.length < 2 ^ 31 - 1 := by decide +kernel
  have hl : Loaded (commit (inLoad r) demoScript.bytes) [demoScript] :=
    ⟨⟨rfl, rfl, trivial⟩, by simp [commit, inLoad], by simpa [commit, inLoad] using hb, by simp [demoScript, NumSs, NumS, NumE, NumEs, NumO]⟩
  have hf : FirstOf (commit (inLoad r) demoScript.bytes).parts (txt "a.js") ⟨0, demoScript.bytes, none⟩ :=
    ⟨[], [], rfl, by decide +kernel, fun q hq => by cases hq⟩
  cases o with
  | err _ => simp at hd
  | ok vm' c =>
    cases c with
    | normal v =>
      simp only [beq_iff_eq] at hd
      subst hd
      obtain ⟨vm2, h1, h2, _⟩ := C69_again_value (E := numEnv) (files := fun _ => none) (d := 0) (pre := []) (f := mkFn 7) (args := [pathVal]) (path := txt "a.js") (D := 30)
        ⟨rfl, ⟨[], rfl⟩, by simp [inLoad, commit], by simp [inLoad, commit]⟩ (pathVal_reads _) (by decide) hf (.inl (by simp)) hl
        (show Room (commit (inLoad r) demoScript.bytes) 30 from
          ⟨by simp [inLoad, commit], by simp [inLoad, commit], by simp [inLoad, commit], by simp [inLoad, commit], by simp [inLoad, commit]⟩)
        (k := 0) ⟨rfl, rfl⟩ ho
      exact ⟨_, vm2, _, hf, h1, h2.stack⟩
    | _ => simp at hd

/-- No file: an error that names it. -/
example (r : Heap × Val) : ∃ vm', Load.load numEnv 0 (fun _ => none) (inLoad r) = some vm' ∧ vm'.error = .fileRead ∧
    vm'.msg = some (txt "failed to exec file \"a.js\": failed to read file \"a.js\"") := by
  obtain ⟨vm', h1, _, h2, h3, _⟩ := C69_unreadable (E := numEnv) (d := 0) (files := fun _ => none) (inLoad_call r) (pathVal_reads _) (by decide) rfl rfl
    (fun q hq => by cases hq) rfl
  exact ⟨vm', h1, h2, h3.trans (by decide +kernel)⟩

/-- A file with the text `1 +` is a syntax error. -/
example (r : Heap × Val) : ∃ vm', Load.load numEnv 60 (fun _ => some (txt "1 + ")) (inLoad r) = some vm' ∧ vm'.error = .syntax := by
  have hp : parseScript numEnv 60 (txt "a.js") (source (txt "1 + ")) = .error := rejected (d := 60) (by decide +kernel) (Nat.le_refl _)
  obtain ⟨vm', h1, _, h2, _⟩ := C69_incorrect (E := numEnv) (files := fun _ => some (txt "1 + ")) (inLoad_call r) (pathVal_reads _) (by decide)
    (fun q hq => by cases hq) rfl hp
  exact ⟨vm', h1, h2⟩

/-- A file with the text `null();` is a type error. -/
def errScript : Script where
  path := txt "a.js"
  body := [.exprs (.call .null []) []]
  map := []

def errTokens : List Token := [.sym KW_NULL, .sym OPEN_PAREN, .sym CLOSE_PAREN, .sym SEMICOLON]

theorem err_tokens : Tokens numEnv (txt "null();") errTokens := lex_tokens (by decide +kernel)

theorem err_writes : WriteSs 0 EOF errScript.body errTokens := by
  have e1 : WriteE 0 (.call .null []) [.sym KW_NULL, .sym OPEN_PAREN, .sym CLOSE_PAREN] := by
    simp only [WriteE]
    exact ⟨[.sym KW_NULL], [], text0 rfl (by decide) (by decide), rfl, rfl⟩
  show WriteSs 0 EOF [_] _
  simp only [WriteSs, WriteS, WriteMore]
  exact ⟨[.sym KW_NULL, .sym OPEN_PAREN, .sym CLOSE_PAREN], 1, [], ⟨[.sym KW_NULL, .sym OPEN_PAREN, .sym CLOSE_PAREN], [], text0 e1 (by decide) (by decide), rfl, rfl, by decide, by decide, by decide⟩, rfl, by decide, by decide, rfl⟩

theorem err_map : (match parseScript numEnv 60 (txt "a.js") (txt "null();") with | .code b => b == errScript.bytes | _ => false) = true := by
  decide +kernel

example : ∃ r vm2 d, Load.load numEnv d (fun _ => some (txt "null();")) (inLoad r) = some vm2 ∧ vm2.stack = [mkUndefined] ∧ vm2.error = .type := by
  have hd : (demo.bind fun r => (evalScript numEnv ([] ++ [errScript]) 30 30 ⟨0, errScript.bytes, none⟩ errScript
      (setErrorf (commit (within (inLoad r) [pathVal]) errScript.bytes) .ok none)).map fun o => match o with
        | .err u => decide (u.error = .type)
        | _ => false) = some true := by decide +kernel
  obtain ⟨r, hr, hd⟩ := Option.bind_eq_some_iff.1 hd
  obtain ⟨o, ho, hd⟩ := Option.map_eq_some_iff.1 hd
  have hl : Loaded (inLoad r) [] := ⟨trivial, rfl, by simp [inLoad], fun _ h => by cases h⟩
  have hw : within (inLoad r) [pathVal] = inLoad r := rfl
  have hroom : Room (within (inLoad r) [pathVal]) 30 := by
    rw [hw]
    exact ⟨by simp [inLoad], by simp [inLoad], by simp [inLoad], by simp [inLoad], by simp [inLoad]⟩
  have hsrc : source (txt "null();") = txt "null();" := by decide +kernel
  obtain ⟨⟨path, body, map⟩, d0, rfl, rfl, hp, hx⟩ := C69_first_error (E := numEnv) (files := fun _ => some (txt "null();"))
    (content := txt "null();") (inLoad_call r) (pathVal_reads _) (by decide) (fun q hq => by cases hq) rfl
    (by rw [hsrc]; exact err_tokens) err_writes hl hroom
  have hmap : map = errScript.map := by
    have hm := err_map
    have hp := hp (max d0 60) (by omega)
    rw [hsrc, parseScript_mono (d := 60) (by omega) (fun h => by rw [h] at hm; cases hm)] at hp
    rw [hp] at hm
    exact assemble_map (beq_iff_eq.1 hm : Script.bytes ⟨errScript.path, errScript.body, map⟩ = errScript.bytes)
  subst hmap
  cases o with
  | ok _ _ => simp at hd
  | err vm' =>
    obtain ⟨vm2, h1, h2, _, h3, _⟩ := hx (show 0 + errScript.bytes.length < 2 ^ 31 - 1 by decide +kernel) 30 vm' ho (pathVal_reads _)
    exact ⟨r, vm2, d0, h1 d0 (Nat.le_refl _), h2.stack, h3.trans (by simpa using hd)⟩

/-- Running the code of a script that ends with an error is noted (here from the beginning of the script): the next `load` runs
it. -/
example : ∃ vm vm' p, FirstOf vm.parts (txt "a.js") p ∧ execute numEnv vm 0 = some (vm', mkUndefined) ∧ vm'.error = .type ∧
    ∀ d files c, choose numEnv d files vm' (txt "a.js") c = (execute numEnv vm' 0).map fun r => (r.1, r.2, r.1.error) := by
  have hd : (demo.bind fun r => (evalScript numEnv [errScript] 30 30 ⟨0, errScript.bytes, none⟩ errScript
      (setErrorf (commit (inLoad r) errScript.bytes) .ok none)).map fun o => match o with
        | .err u => decide (u.error = .type)
        | _ => false) = some true := by decide +kernel
  obtain ⟨r, hr, hd⟩ := Option.bind_eq_some_iff.1 hd
  obtain ⟨o, ho, hd⟩ := Option.map_eq_some_iff.1 hd
  have hb : errScript.bytes.length < 2 ^ 31 - 1 := by decide +kernel
  have hpos : 0 < errScript.bytes.length := by decide +kernel
  have hl : Loaded (commit (inLoad r) errScript.bytes) [errScript] :=
    ⟨⟨rfl, rfl, trivial⟩, by simp [commit, inLoad], by simpa [commit, inLoad] using hb, by simp [errScript, NumSs, NumS, NumE, NumEs]⟩
  have hf : FirstOf (commit (inLoad r) errScript.bytes).parts (txt "a.js") ⟨0, errScript.bytes, none⟩ :=
    ⟨[], [], rfl, by decide +kernel, fun q hq => by cases hq⟩
  cases o with
  | ok _ _ => simp at hd
  | err u =>
    obtain ⟨vm2, h1, _, h2, _⟩ := C35_script_error (k := 0) hl
      ⟨by simp [inLoad, commit], by simp [inLoad, commit], by simp [inLoad, commit], by simp [inLoad, commit], by simp [inLoad, commit]⟩ ⟨rfl, rfl⟩ ho
    have he : vm2.error = .type := h2.trans (by simpa using hd)
    refine ⟨_, vm2, _, hf, h1, he, fun d files c => ?_⟩
    have hc : Chain 0 (codes (commit (inLoad r) errScript.bytes)) (commit (inLoad r) errScript.bytes).bcodeLen := ⟨rfl, rfl⟩
    obtain ⟨q, _, _, hq⟩ := C69_call_noted (d := d) (files := files) numEnv_only hc hf (Nat.le_refl _) (by simpa using hpos) h1 (by rw [he]; decide) (by rw [he]; decide)
    exact hq c

end Mjs.Props
