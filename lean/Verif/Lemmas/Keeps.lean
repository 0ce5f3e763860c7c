import Verif.Lemmas.Local
import Verif.Model.Bcode

/-!
What an instruction does to the loaded code: nothing, except that a C function may load more.
-/

namespace Mjs.Exec
open Mjs Mjs.Str Mjs.Obj Mjs.Core

/-- The same code. -/
def Same (a b : Vm) : Prop := b.parts = a.parts ∧ b.bcodeLen = a.bcodeLen

theorem Same.rfl {a : Vm} : Same a a := ⟨Eq.refl _, Eq.refl _⟩

theorem Same.trans {a b c : Vm} (h : Same a b) (h' : Same b c) : Same a c := ⟨h'.1.trans h.1, h'.2.trans h.2⟩

theorem Same.of_put {a b : Vm} (h : b = put b a) : Same a b := by
  rw [h]; exact ⟨Eq.refl _, Eq.refl _⟩

theorem Local.keeps {α : Type} {f : Vm → Option (Vm × α)} (h : Local f) {vm vm1 : Vm} {a : α} (e : f vm = some (vm1, a)) :
    Same vm vm1 := .of_put (h.same e)

theorem Local0.keeps {f : Vm → Option Vm} (h : Local0 f) {vm vm1 : Vm} (e : f vm = some vm1) : Same vm vm1 := .of_put (h.same e)

theorem pop_same (vm : Vm) : Same vm (pop vm).2 := by
  unfold pop
  split <;> exact ⟨rfl, rfl⟩

theorem push_same (vm : Vm) (v : Val) : Same vm (push vm v) := ⟨rfl, rfl⟩

theorem pushOpt_same (r : Vm × Option Val) : Same r.1 (pushOpt r) := by
  obtain ⟨vm, o⟩ := r
  cases o <;> exact ⟨rfl, rfl⟩

theorem err_same (vm : Vm) (e : Err) (m : Option (List UInt8)) : Same vm (setErrorf vm e m) := ⟨rfl, rfl⟩

theorem pop2_same (vm : Vm) : Same vm (pop (pop vm).2).2 := (pop_same _).trans (pop_same _)

theorem pop3_same (vm : Vm) : Same vm (pop (pop (pop vm).2).2).2 := (pop2_same _).trans (pop_same _)

theorem execExpr_same {E : Env} {vm vm' : Vm} {op : Nat} (h : execExpr E vm op = some vm') : Same vm vm' := by
  unfold execExpr at h
  split at h
  · cases h; exact .rfl
  · simp only [Option.map_eq_some_iff] at h
    obtain ⟨⟨v, r⟩, h, rfl⟩ := h
    exact (pop2_same vm).trans (((doOp_local E _ _ _).keeps h).trans (push_same _ _))
  · cases h; exact (pop_same vm).trans (push_same _ _)
  · simp only [Option.map_eq_some_iff] at h
    obtain ⟨b, _, rfl⟩ := h
    exact (pop_same vm).trans (push_same _ _)
  · cases h; exact (pop_same vm).trans (push_same _ _)
  · cases h; exact err_same _ _ _
  · simp only [Option.map_eq_some_iff] at h
    obtain ⟨b, _, rfl⟩ := h
    exact (pop2_same vm).trans (push_same _ _)
  · cases h; exact (pop2_same vm).trans (push_same _ _)
  · simp only [Option.map_eq_some_iff] at h
    obtain ⟨⟨v, r⟩, h, rfl⟩ := h
    exact (pop3_same vm).trans (((assign_local E _ _ _).keeps h).trans (push_same _ _))
  · simp only [Option.map_eq_some_iff] at h
    obtain ⟨⟨v, r⟩, h, rfl⟩ := h
    exact (pop2_same vm).trans (((incr_local E _ _ _ _).keeps h).trans (pushOpt_same _))
  · simp only [Option.map_eq_some_iff] at h
    obtain ⟨⟨v, r⟩, h, rfl⟩ := h
    exact (pop3_same vm).trans (((opAssign_local E _ _ _ _).keeps h).trans (pushOpt_same _))
  · simp only [Option.map_eq_some_iff, Option.bind_eq_some_iff] at h
    obtain ⟨_, _, ⟨v, r⟩, h, rfl⟩ := h
    exact (pop_same vm).trans (((mkStr_local _).keeps h).trans (push_same _ _))

theorem pushFrame_same {vm vm' : Vm} {off : Nat} {v : Val} (h : pushFrame vm off v = some vm') : Same vm vm' := by
  simp only [pushFrame, Option.bind_eq_bind, Option.bind_eq_some_iff] at h
  obtain ⟨_, _, h⟩ := h
  cases h
  exact ⟨rfl, rfl⟩

theorem restoreFrame_same {vm vm' : Vm} {off : Nat} (h : restoreFrame vm = some (vm', off)) : Same vm vm' := by
  simp only [restoreFrame, Option.bind_eq_bind, Option.bind_eq_some_iff] at h
  obtain ⟨_, _, _, _, _, _, _, _, _, _, _, _, h⟩ := h
  cases h
  exact ⟨rfl, rfl⟩

/-- The engine after an instruction. -/
def Next.vm : Next → Vm
  | .go m => m.vm
  | .clean vm => vm

/-- A relation between engines that an unchanged code satisfies, that composes, and that the C functions satisfy. -/
structure KeepsCode (E : Env) (R : Vm → Vm → Prop) : Prop where
  same : ∀ a b, Same a b → R a b
  trans : ∀ a b c, R a b → R b c → R a c
  cfun : ∀ n a b, E.cfun n a = some b → R a b
  ffi : ∀ a b, E.ffi a = some b → R a b

theorem call_kept {E : Env} {R : Vm → Vm → Prop} (K : KeepsCode E R) {m m' : Mach} (h : call E m = some m') : R m.vm m'.vm := by
  unfold call at h
  simp only [Option.bind_eq_bind, Option.bind_eq_some_iff] at h
  obtain ⟨pos, _, func, _, ⟨x, as⟩, _, h⟩ := h
  have h0 : Same m.vm { m.vm with argStack := as } := ⟨rfl, rfl⟩
  simp only at h
  split at h
  · simp only [Option.bind_eq_some_iff] at h
    obtain ⟨vm1, h1, bp, _, h⟩ := h
    cases h
    exact K.same _ _ (h0.trans ((pushFrame_same h1).trans ⟨rfl, rfl⟩))
  · split at h
    · simp only [Option.bind_eq_some_iff] at h
      obtain ⟨vm1, h1, vm2, h2, ⟨vm3, o⟩, h3, h⟩ := h
      cases h
      exact K.trans _ _ _ (K.same _ _ (h0.trans (pushFrame_same h1))) (K.trans _ _ _ (K.ffi _ _ h2) (K.same _ _ (restoreFrame_same h3)))
    · split at h
      · simp only [Option.bind_eq_some_iff] at h
        obtain ⟨vm1, h1, vm2, h2, ⟨vm3, o⟩, h3, h⟩ := h
        cases h
        exact K.trans _ _ _ (K.same _ _ (h0.trans (pushFrame_same h1))) (K.trans _ _ _ (K.cfun _ _ _ h2) (K.same _ _ (restoreFrame_same h3)))
      · cases h
        exact K.same _ _ ⟨rfl, rfl⟩

theorem setArg_same {E : Env} {m m' : Mach} (h : setArg E m = some m') : Same m.vm m'.vm := by
  unfold setArg at h
  simp only [Option.bind_eq_bind, Option.bind_eq_some_iff] at h
  obtain ⟨_, _, _, _, _, _, _, _, ⟨vm1, key⟩, h1, v, _, vm2, h2, h⟩ := h
  cases h
  exact ((mkStr_local _).keeps h1).trans ((setVm_local _ _ _ _).keeps h2)

theorem setRetval_same {vm vm' : Vm} (h : setRetval vm = some vm') : Same vm vm' := by
  unfold setRetval at h
  split at h
  · cases h; exact ⟨rfl, rfl⟩
  · simp only [Option.bind_eq_bind, Option.bind_eq_some_iff] at h
    obtain ⟨rp, _, pos, _, h⟩ := h
    cases h
    exact (pop_same vm).trans ⟨rfl, rfl⟩

theorem forInNext_same {E : Env} {vm vm' : Vm} (h : forInNext E vm = some vm') : Same vm vm' := by
  unfold forInNext at h
  simp only [Option.bind_eq_bind, Option.bind_eq_some_iff] at h
  obtain ⟨_, _, _, _, _, _, h⟩ := h
  split at h <;>
  ( obtain ⟨_, _, h⟩ := Option.bind_eq_some_iff.1 h
    obtain ⟨⟨vm1, it⟩, h1, h⟩ := Option.bind_eq_some_iff.1 h
    cases h
    exact ((forInStep_local _ _ _ _).keeps h1).trans ⟨rfl, rfl⟩)

theorem execOp_kept {E : Env} {R : Vm → Vm → Prop} (K : KeepsCode E R) {m : Mach} {prev : UInt8} {r : Next} (h : execOp E m prev = some r) :
    R m.vm r.vm := by
  by_cases hc : m.op.toNat = 29
  · unfold execOp at h
    simp only [hc, Option.map_eq_some_iff] at h
    obtain ⟨m', h, rfl⟩ := h
    exact call_kept K h
  refine K.same _ _ ?_
  unfold execOp at h
  split at h <;> first | (exact absurd ‹_› hc) | (cases h; exact ⟨rfl, rfl⟩) | skip
  all_goals
    simp only [Option.bind_eq_bind, Option.bind_eq_some_iff, Option.map_eq_some_iff] at h
  all_goals first
    | (obtain ⟨_, _, h⟩ := h; cases h; exact ⟨rfl, rfl⟩)
    | (obtain ⟨_, _, _, _, h⟩ := h; split at h <;> (cases h; first | exact ⟨rfl, rfl⟩ | exact pop_same _ | exact (pop_same _).trans ⟨rfl, rfl⟩))
    | (obtain ⟨⟨_, _⟩, h1, h⟩ := h; cases h
       first
         | exact (mkObj_local.keeps h1).trans ⟨rfl, rfl⟩
         | exact (mkArr_local.keeps h1).trans ⟨rfl, rfl⟩
         | exact ((findScope_local _ _).keeps h1).trans ⟨rfl, rfl⟩
         | exact (pop2_same _).trans (((getProp_local _ _ _).keeps h1).trans ⟨rfl, rfl⟩))
    | (obtain ⟨_, h1, h⟩ := h; cases h
       first
         | exact forInNext_same h1
         | exact setArg_same h1
         | exact setRetval_same h1
         | exact (pop2_same _).trans ((createIn_local _ _ _).keeps h1)
         | exact (pop2_same _).trans ((append_local _ _).keeps h1))
    | (obtain ⟨_, _, _, _, _, _, ⟨_, _⟩, h1, h⟩ := h; cases h; exact ((mkStr_local _).keeps h1).trans ⟨rfl, rfl⟩)
    | (obtain ⟨_, _, _, h1, h⟩ := h; cases h; first | exact execExpr_same h1 | exact ⟨rfl, rfl⟩)
    | (cases h; first | exact pop_same _ | exact (pop2_same _).trans ⟨rfl, rfl⟩ | (split <;> exact ⟨rfl, rfl⟩))
    | (split at h <;> (cases h; exact ⟨rfl, rfl⟩))
    | (split at h
       · simp only [Option.bind_eq_some_iff] at h
         first
           | (obtain ⟨_, _, _, _, h⟩ := h; cases h; exact ⟨rfl, rfl⟩)
           | (obtain ⟨_, _, _, _, _, _, _, _, h⟩ := h; cases h; exact ⟨rfl, rfl⟩)
       · cases h; exact ⟨rfl, rfl⟩)
    | skip
  · split at h
    · cases h; exact ⟨rfl, rfl⟩
    · cases h
  · obtain ⟨⟨vm', off⟩, h1, h⟩ := h
    simp only at h
    split at h
    · obtain ⟨_, _, h⟩ := Option.bind_eq_some_iff.1 h
      cases h
      exact restoreFrame_same h1
    · cases h
      exact restoreFrame_same h1

theorem loop_kept {E : Env} {R : Vm → Vm → Prop} (K : KeepsCode E R) (s : Saved) (m : Mach) (vm : Vm) (h : loop E s m = some vm) :
    R m.vm vm := by
  refine loop.partial_correctness E s (fun m vm => R m.vm vm) ?_ m vm h
  clear h m vm
  intro loop ih m vm h
  split at h
  · obtain ⟨op, _, h⟩ := Option.bind_eq_some_iff.1 h
    obtain ⟨r, h2, h⟩ := Option.bind_eq_some_iff.1 h
    have h3 := execOp_kept K h2
    cases r with
    | clean v =>
      cases h
      exact h3
    | go m' =>
      simp only at h
      split at h
      · unfold unwind at h
        simp only [Option.bind_eq_bind, Option.bind_eq_some_iff] at h
        obtain ⟨a, ha, b, hb, c, hc, d, hd, e, he, h⟩ := h
        cases h
        exact K.trans _ _ _ h3 (K.same _ _ ⟨rfl, rfl⟩)
      · have h4 := ih _ _ h
        exact K.trans _ _ _ h3 h4
  · cases h
    exact K.same _ _ .rfl

end Mjs.Exec
