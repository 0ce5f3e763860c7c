import Verif.Spec.Load
import Verif.Lemmas.Natives
import Verif.Lemmas.StrStore


/-!
# Lemmas about `load`
-/

namespace Mjs.Load
open Mjs Mjs.Str Mjs.Obj Mjs.Core Mjs.Exec Mjs.Bcode Mjs.Sem Mjs.Code Mjs.Spec.Load

variable {E : Env} {d : Nat} {files : List UInt8 → Option (List UInt8)} {vm : Vm} {pre : List Val} {f : Val} {args : List Val}
  {path : List UInt8}

/-- The stacks of a call. -/
def callAt (vm : Vm) (pre frames : List Val) : CallAt := ⟨pre, frames, vm.argStack, vm.loopAddrs, vm.parts, vm.bcodeLen⟩

theorem inCall_put (h : InCall vm pre f args) : ∃ frames, vm = (callAt vm pre frames).put vm (f :: args) ∧ (callAt vm pre frames).Fits args.length := by
  obtain ⟨frames, hf⟩ := h.frame
  refine ⟨frames, ?_, ?_, ?_⟩
  · unfold CallAt.put callAt
    simp only
    rw [← h.stack, ← hf]
  · have := h.small
    rw [h.stack] at this
    simp only [List.length_append, List.length_cons] at this
    simp only [callAt]; omega
  · have := h.smallFrames
    rw [hf] at this
    simp only [List.length_append, List.length_cons, List.length_nil] at this
    simp only [callAt]; omega

theorem inCall_arg (h : InCall vm pre f args) (i : Nat) : arg vm i = some (argument args i) := by
  obtain ⟨frames, e, hf⟩ := inCall_put h
  by_cases hi : i < args.length
  · rw [e, put_arg hf hi, argument, List.getElem?_eq_getElem hi, Option.getD_some]
  · rw [argument, List.getElem?_eq_none (by omega), Option.getD_none]
    have hp : getretvalpos vm = some (pre.length : Int) := by
      rw [e]; exact put_pos hf
    have hl : vm.stack.length = pre.length + 1 + args.length := by rw [h.stack]; simp; omega
    have := h.small
    unfold arg
    rw [hp, hl, cInt_small (by omega)]
    simp only [Option.bind_eq_bind, Option.bind_some]
    rw [if_neg (by omega)]

theorem inCall_ret (h : InCall vm pre f args) (v : Val) : ret vm v = some { vm with stack := pre ++ [v] } := by
  obtain ⟨frames, e, hf⟩ := inCall_put h
  have hp : getretvalpos vm = some (pre.length : Int) := by
    rw [e]; exact put_pos hf
  unfold ret
  rw [hp]
  simp only [Option.bind_eq_bind, Option.bind_some]
  rw [if_neg (by omega)]
  unfold Core.push
  simp [h.stack]

/-- The same call in another state of the engine. -/
theorem inCall_same {vm' : Vm} (h : InCall vm pre f args) (h1 : vm'.stack = vm.stack) (h2 : vm'.callStack = vm.callStack) :
    InCall vm' pre f args := by
  refine ⟨h1.trans h.stack, ?_, by rw [h1]; exact h.small, by rw [h2]; exact h.smallFrames⟩
  rw [h2]
  exact h.frame

theorem getCString_readsZ {st : Store} {v : Val} {bs : List UInt8} (h : ReadsZ st v bs) (h0 : (0 : UInt8) ∉ bs) :
    getCString st v = some (some bs) := by
  obtain ⟨p, n, h1, h2, h3, h4, h5⟩ := h
  unfold getCString
  rw [h1]
  simp only [Option.bind_eq_bind, Option.bind_some, h2, Bool.false_eq_true, if_false, h5]
  subst h3
  simp [h0]

theorem loadedIn_not {parts : List Part} (h : NotLoaded parts path) : loadedIn path parts = some none := by
  induction parts with
  | nil => rfl
  | cons p ps ih =>
    obtain ⟨n, h1, h2⟩ := h p (by simp)
    unfold loadedIn
    rw [h1]
    simp only [Option.bind_eq_bind, Option.bind_some]
    rw [if_neg (Ne.symm h2)]
    exact ih fun q hq => h q (by simp [hq])

theorem loadedIn_first {parts : List Part} {p : Part} (h : FirstOf parts path p) : loadedIn path parts = some (some p) := by
  obtain ⟨before, rest, rfl, h1, h2⟩ := h
  induction before with
  | nil =>
    unfold loadedIn
    rw [List.nil_append]
    simp [h1]
  | cons q qs ih =>
    obtain ⟨n, g1, g2⟩ := h2 q (by simp)
    rw [List.cons_append]
    unfold loadedIn
    rw [g1]
    simp only [Option.bind_eq_bind, Option.bind_some]
    rw [if_neg (Ne.symm g2)]
    exact ih fun q hq => h2 q (by simp [hq])

theorem loadedIn_inv {parts : List Part} : (loadedIn path parts = some none → NotLoaded parts path) ∧
    ∀ p, loadedIn path parts = some (some p) → FirstOf parts path p := by
  induction parts with
  | nil => exact ⟨fun _ q hq => by simp at hq, fun p h => by simp [loadedIn] at h⟩
  | cons q qs ih =>
    unfold loadedIn
    cases hq : fileName q with
    | none => simp
    | some n =>
      simp only [Option.bind_eq_bind, Option.bind_some]
      by_cases hn : path = n
      · subst hn
        simp only [if_true]
        refine ⟨by simp, fun p hp => ?_⟩
        cases hp
        exact ⟨[], qs, rfl, hq, by simp⟩
      · simp only [if_neg hn]
        refine ⟨fun h r hr => ?_, fun p hp => ?_⟩
        · rcases List.mem_cons.1 hr with rfl | hr
          · exact ⟨n, hq, Ne.symm hn⟩
          · exact ih.1 h r hr
        · obtain ⟨b, r, rfl, g1, g2⟩ := ih.2 p hp
          refine ⟨q :: b, r, rfl, g1, fun s hs => ?_⟩
          rcases List.mem_cons.1 hs with rfl | hs
          · exact ⟨n, hq, Ne.symm hn⟩
          · exact g2 s hs

theorem within_stack (vm : Vm) (args : List Val) : (within vm args).stack = vm.stack ∧ (within vm args).callStack = vm.callStack ∧
    (within vm args).parts = vm.parts ∧ (within vm args).bcodeLen = vm.bcodeLen ∧ (within vm args).heap = vm.heap ∧
    (within vm args).argStack = vm.argStack ∧ (within vm args).loopAddrs = vm.loopAddrs ∧ (within vm args).error = vm.error ∧
    (within vm args).msg = vm.msg := by
  unfold within
  split <;> exact ⟨rfl, rfl, rfl, rfl, rfl, rfl, rfl, rfl, rfl⟩

/-- What `load` does, in terms of the choice it makes. -/
theorem load_eq (h : InCall vm pre f args) (hz : ReadsZ vm.heap.str (argument args 0) path) (h0 : (0 : UInt8) ∉ path)
    (hs : isString (argument args 0) = true) : load E d files vm =
    (choose E d files (within vm args) path (isObject (argument args 1))).bind fun r =>
      (if r.2.2 ≠ .ok then do
          let a ← arg r.1 0
          let path2 ← (← getCString r.1.heap.str a)
          some (prepend r.1 r.2.2 (failed path2))
        else some r.1).bind fun vm3 =>
        (if isObject (argument args 1) then (popVal vm3.scopes).map fun x => { vm3 with scopes := x.2 } else some vm3).bind fun vm4 =>
          ret vm4 r.2.1 := by
  unfold load
  rw [show arg vm 0 = some (argument args 0) from inCall_arg h 0, show arg vm 1 = some (argument args 1) from inCall_arg h 1]
  simp only [Option.bind_eq_bind, Option.bind_some, hs, if_true]
  rw [getCString_readsZ hz h0]
  rfl

/-- The nested run ended without error. -/
theorem load_ok (h : InCall vm pre f args) (hz : ReadsZ vm.heap.str (argument args 0) path) (h0 : (0 : UInt8) ∉ path)
    (hs : isString (argument args 0) = true) {vm2 : Vm} {v : Val}
    (hc : choose E d files (within vm args) path (isObject (argument args 1)) = some (vm2, v, .ok)) (hss : SameStacks vm2 (within vm args)) :
    load E d files vm = some { vm2 with stack := pre ++ [v], scopes := vm.scopes } := by
  rw [load_eq h hz h0 hs, hc]
  simp only [Option.bind_some, ne_eq, not_true, if_false]
  obtain ⟨s1, s2, _⟩ := within_stack vm args
  have hi : InCall vm2 pre f args := inCall_same h (hss.stack.trans s1) (hss.callStack.trans s2)
  by_cases ho : isObject (argument args 1) = true
  · have hsc : vm2.scopes = vm.scopes ++ [argument args 1] := by
      rw [hss.scopes, within, if_pos ho]
    simp only [ho, if_true, hsc, popVal, List.getLast?_append, List.getLast?_singleton, Option.some_or, Option.map_some, List.dropLast_concat, Option.bind_some]
    exact inCall_ret (vm := { vm2 with scopes := vm.scopes }) (inCall_same hi rfl rfl) v
  · have hsc : vm2.scopes = vm.scopes := by
      rw [hss.scopes, within, if_neg ho]
    simp only [ho, Bool.false_eq_true, if_false, Option.bind_some]
    rw [inCall_ret hi, ← hsc]

/-- The nested run ended with an error. -/
theorem load_err (h : InCall vm pre f args) (hz : ReadsZ vm.heap.str (argument args 0) path) (h0 : (0 : UInt8) ∉ path)
    (hs : isString (argument args 0) = true) {vm2 : Vm} {v : Val} {e : Err} (he : e ≠ .ok)
    (hc : choose E d files (within vm args) path (isObject (argument args 1)) = some (vm2, v, e)) (hss : SameStacks vm2 (within vm args))
    (hz2 : ReadsZ vm2.heap.str (argument args 0) path) :
    load E d files vm = some { prepend vm2 e (failed path) with stack := pre ++ [v], scopes := vm.scopes } := by
  obtain ⟨s1, s2, _⟩ := within_stack vm args
  have hi : InCall vm2 pre f args := inCall_same h (hss.stack.trans s1) (hss.callStack.trans s2)
  rw [load_eq h hz h0 hs, hc]
  simp only [Option.bind_some, ne_eq, he, not_false_iff, if_true]
  rw [show arg vm2 0 = some (argument args 0) from inCall_arg hi 0]
  simp only [Option.bind_eq_bind, Option.bind_some]
  rw [getCString_readsZ hz2 h0]
  simp only [Option.bind_some]
  by_cases ho : isObject (argument args 1) = true
  · have hsc : (prepend vm2 e (failed path)).scopes = vm.scopes ++ [argument args 1] := by
      show vm2.scopes = _
      rw [hss.scopes, within, if_pos ho]
    simp only [ho, if_true, hsc, popVal, List.getLast?_append, List.getLast?_singleton, Option.some_or, Option.map_some, List.dropLast_concat, Option.bind_some]
    exact inCall_ret (vm := { prepend vm2 e (failed path) with scopes := vm.scopes }) (inCall_same hi rfl rfl) v
  · have hsc : (prepend vm2 e (failed path)).scopes = vm.scopes := by
      show vm2.scopes = _
      rw [hss.scopes, within, if_neg ho]
    simp only [ho, Bool.false_eq_true, if_false, Option.bind_some]
    rw [inCall_ret (vm := prepend vm2 e (failed path)) (inCall_same hi rfl rfl), ← hsc]

end Mjs.Load
