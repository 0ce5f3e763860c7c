import Verif.Spec.Sem

/-!
# More steps do not change a meaning

If the evaluator answers within some bounds, it gives the same answer within larger ones.
-/

namespace Mjs.Sem
open Mjs Mjs.Str Mjs.Obj Mjs.Core Mjs.Exec Mjs.Code

/-- Whatever `x` answers, `y` answers. -/
def Le {α : Type} (x y : Sem α) : Prop := ∀ vm o, x vm = some o → y vm = some o

theorem Le.refl {α : Type} (x : Sem α) : Le x x := fun _ _ h => h

theorem Le.ub {α : Type} (y : Sem α) : Le undefinedBehaviour y := fun _ _ h => by cases h

theorem Le.bind {α β : Type} {x y : Sem α} {f g : α → Sem β} (h : Le x y) (hf : ∀ a, Le (f a) (g a)) : Le (x >>= f) (y >>= g) := by
  intro vm o he
  change Sem.bind x f vm = some o at he
  show Sem.bind y g vm = some o
  unfold Sem.bind at he ⊢
  cases hx : x vm with
  | none => rw [hx] at he; cases he
  | some r =>
    rw [hx] at he
    rw [h vm r hx]
    cases r with
    | err vm' => exact he
    | ok vm' a => exact hf a _ _ he

theorem Le.ite {α : Type} {c : Bool} {x y x' y' : Sem α} (h : Le x x') (h' : Le y y') :
    Le (if c = true then x else y) (if c = true then x' else y') := by
  cases c
  · exact h'
  · exact h

/-- More steps and more nesting. -/
structure Mono (E : Env) [Natives E] (F : Nat → Option Fn) (n n' : Nat) : Prop where
  eval : ∀ d d' e, d ≤ d' → Le (eval E F n d e) (eval E F n' d' e)
  evalL : ∀ d d' e, d ≤ d' → Le (evalL E F n d e) (evalL E F n' d' e)
  evalArgs : ∀ d d' e, d ≤ d' → Le (evalArgs E F n d e) (evalArgs E F n' d' e)
  evalItems : ∀ d d' a e, d ≤ d' → Le (evalItems E F n d a e) (evalItems E F n' d' a e)
  evalProps : ∀ d d' a e, d ≤ d' → Le (evalProps E F n d a e) (evalProps E F n' d' a e)
  callFn : ∀ d d' f t a, d ≤ d' → Le (callFn E F n d f t a) (callFn E F n' d' f t a)
  evalS : ∀ d d' e, d ≤ d' → Le (evalS E F n d e) (evalS E F n' d' e)
  evalMore : ∀ d d' v e, d ≤ d' → Le (evalMore E F n d v e) (evalMore E F n' d' v e)
  evalLet : ∀ d d' v e, d ≤ d' → Le (evalLet E F n d v e) (evalLet E F n' d' v e)
  evalLets : ∀ d d' v e, d ≤ d' → Le (evalLets E F n d v e) (evalLets E F n' d' v e)
  evalWhile : ∀ d d' v e, d ≤ d' → Le (evalWhile E F n d v e) (evalWhile E F n' d' v e)
  evalFor : ∀ d d' v i e, d ≤ d' → Le (evalFor E F n d v i e) (evalFor E F n' d' v i e)
  evalForIn : ∀ d d' k o i e, d ≤ d' → Le (evalForIn E F n d k o i e) (evalForIn E F n' d' k o i e)
  evalSs : ∀ d d' e, d ≤ d' → Le (evalSs E F n d e) (evalSs E F n' d' e)
  evalRest : ∀ d d' v e, d ≤ d' → Le (evalRest E F n d v e) (evalRest E F n' d' v e)

macro "mono_step" h:term : tactic => `(tactic| first
  | exact Le.refl _
  | exact Le.ub _
  | exact ($h).eval _ _ _ (by omega)
  | exact ($h).evalL _ _ _ (by omega)
  | exact ($h).evalArgs _ _ _ (by omega)
  | exact ($h).evalItems _ _ _ _ (by omega)
  | exact ($h).evalProps _ _ _ _ (by omega)
  | exact ($h).callFn _ _ _ _ _ (by omega)
  | exact ($h).evalS _ _ _ (by omega)
  | exact ($h).evalMore _ _ _ _ (by omega)
  | exact ($h).evalLet _ _ _ _ (by omega)
  | exact ($h).evalLets _ _ _ _ (by omega)
  | exact ($h).evalWhile _ _ _ _ (by omega)
  | exact ($h).evalFor _ _ _ _ _ (by omega)
  | exact ($h).evalForIn _ _ _ _ _ _ (by omega)
  | exact ($h).evalSs _ _ _ (by omega)
  | exact ($h).evalRest _ _ _ _ (by omega)
  | refine Le.bind ?_ fun _ => ?_
  | refine Le.ite ?_ ?_
  | split)

/-- The functions of the evaluator at `n + 1` and `n' + 1`. -/
theorem Mono.succ {E : Env} [Natives E] {F : Nat → Option Fn} {n n' : Nat} (h : Mono E F n n') : Mono E F (n + 1) (n' + 1) where
  eval d d' e hd := by
    cases d with
    | zero => rw [Sem.eval.eq_2]; exact Le.ub _; simp
    | succ d =>
      obtain ⟨d', rfl⟩ : ∃ k, d' = k + 1 := ⟨d' - 1, by omega⟩
      cases e with
      | func l x ps b => cases x <;> (rw [Sem.eval, Sem.eval]; exact Le.refl _)
      | _ => rw [Sem.eval, Sem.eval]; repeat' mono_step h
  evalL d d' e hd := by
    cases d with
    | zero => rw [Sem.evalL.eq_2]; exact Le.ub _; simp
    | succ d =>
      obtain ⟨d', rfl⟩ : ∃ k, d' = k + 1 := ⟨d' - 1, by omega⟩
      cases e <;> (rw [Sem.evalL, Sem.evalL]; repeat' mono_step h)
  evalArgs d d' e hd := by
    cases d with
    | zero => rw [Sem.evalArgs.eq_2]; exact Le.ub _; simp
    | succ d =>
      obtain ⟨d', rfl⟩ : ∃ k, d' = k + 1 := ⟨d' - 1, by omega⟩
      cases e <;> (rw [Sem.evalArgs, Sem.evalArgs]; repeat' mono_step h)
  evalItems d d' a e hd := by
    cases d with
    | zero => rw [Sem.evalItems.eq_2]; exact Le.ub _; simp
    | succ d =>
      obtain ⟨d', rfl⟩ : ∃ k, d' = k + 1 := ⟨d' - 1, by omega⟩
      cases e <;> (rw [Sem.evalItems, Sem.evalItems]; repeat' mono_step h)
  evalProps d d' a e hd := by
    cases d with
    | zero => rw [Sem.evalProps.eq_2]; exact Le.ub _; simp
    | succ d =>
      obtain ⟨d', rfl⟩ : ∃ k, d' = k + 1 := ⟨d' - 1, by omega⟩
      rcases e with _ | ⟨⟨x, e⟩, es⟩ <;> (rw [Sem.evalProps, Sem.evalProps]; repeat' mono_step h)
  callFn d d' f t a hd := by
    cases d with
    | zero => rw [Sem.callFn.eq_2]; exact Le.ub _; simp
    | succ d =>
      obtain ⟨d', rfl⟩ : ∃ k, d' = k + 1 := ⟨d' - 1, by omega⟩
      rw [Sem.callFn, Sem.callFn]; repeat' mono_step h
  evalS d d' e hd := by
    cases d with
    | zero => rw [Sem.evalS.eq_2]; exact Le.ub _; simp
    | succ d =>
      obtain ⟨d', rfl⟩ : ∃ k, d' = k + 1 := ⟨d' - 1, by omega⟩
      cases e with
      | ret x => cases x <;> (rw [Sem.evalS, Sem.evalS]; repeat' mono_step h)
      | forIn isLet x e b => cases isLet <;> (rw [Sem.evalS, Sem.evalS]; repeat' mono_step h)
      | _ => rw [Sem.evalS, Sem.evalS]; repeat' mono_step h
  evalMore d d' v e hd := by
    cases d with
    | zero => rw [Sem.evalMore.eq_2]; exact Le.ub _; simp
    | succ d =>
      obtain ⟨d', rfl⟩ : ∃ k, d' = k + 1 := ⟨d' - 1, by omega⟩
      cases e <;> (rw [Sem.evalMore, Sem.evalMore]; repeat' mono_step h)
  evalLet d d' v e hd := by
    cases d with
    | zero => rw [Sem.evalLet.eq_2]; exact Le.ub _; simp
    | succ d =>
      obtain ⟨d', rfl⟩ : ∃ k, d' = k + 1 := ⟨d' - 1, by omega⟩
      cases e <;> (rw [Sem.evalLet, Sem.evalLet]; repeat' mono_step h)
  evalLets d d' v e hd := by
    cases d with
    | zero => rw [Sem.evalLets.eq_2]; exact Le.ub _; simp
    | succ d =>
      obtain ⟨d', rfl⟩ : ∃ k, d' = k + 1 := ⟨d' - 1, by omega⟩
      rcases e with _ | ⟨⟨x, e⟩, es⟩ <;> (rw [Sem.evalLets, Sem.evalLets]; repeat' mono_step h)
  evalWhile d d' c e hd := by
    cases d with
    | zero => rw [Sem.evalWhile.eq_2]; exact Le.ub _; simp
    | succ d =>
      obtain ⟨d', rfl⟩ : ∃ k, d' = k + 1 := ⟨d' - 1, by omega⟩
      rw [Sem.evalWhile, Sem.evalWhile]; repeat' mono_step h
  evalFor d d' c i e hd := by
    cases d with
    | zero => rw [Sem.evalFor.eq_2]; exact Le.ub _; simp
    | succ d =>
      obtain ⟨d', rfl⟩ : ∃ k, d' = k + 1 := ⟨d' - 1, by omega⟩
      rw [Sem.evalFor, Sem.evalFor]; repeat' mono_step h
  evalForIn d d' k o i e hd := by
    cases d with
    | zero => rw [Sem.evalForIn.eq_2]; exact Le.ub _; simp
    | succ d =>
      obtain ⟨d', rfl⟩ : ∃ k, d' = k + 1 := ⟨d' - 1, by omega⟩
      rw [Sem.evalForIn, Sem.evalForIn]; repeat' mono_step h
  evalSs d d' e hd := by
    cases d with
    | zero => rw [Sem.evalSs.eq_2]; exact Le.ub _; simp
    | succ d =>
      obtain ⟨d', rfl⟩ : ∃ k, d' = k + 1 := ⟨d' - 1, by omega⟩
      cases e <;> (rw [Sem.evalSs, Sem.evalSs]; repeat' mono_step h)
  evalRest d d' v e hd := by
    cases d with
    | zero => rw [Sem.evalRest.eq_2]; exact Le.ub _; simp
    | succ d =>
      obtain ⟨d', rfl⟩ : ∃ k, d' = k + 1 := ⟨d' - 1, by omega⟩
      cases e <;> (rw [Sem.evalRest, Sem.evalRest]; repeat' mono_step h)

theorem Mono.zero (E : Env) [Natives E] (F : Nat → Option Fn) (n' : Nat) : Mono E F 0 n' := by
  constructor <;> intros <;> first
    | (rw [Sem.eval.eq_1]; exact Le.ub _) | (rw [Sem.evalL.eq_1]; exact Le.ub _) | (rw [Sem.evalArgs.eq_1]; exact Le.ub _)
    | (rw [Sem.evalItems.eq_1]; exact Le.ub _) | (rw [Sem.evalProps.eq_1]; exact Le.ub _) | (rw [Sem.callFn.eq_1]; exact Le.ub _)
    | (rw [Sem.evalS.eq_1]; exact Le.ub _) | (rw [Sem.evalMore.eq_1]; exact Le.ub _) | (rw [Sem.evalLet.eq_1]; exact Le.ub _)
    | (rw [Sem.evalLets.eq_1]; exact Le.ub _) | (rw [Sem.evalWhile.eq_1]; exact Le.ub _) | (rw [Sem.evalFor.eq_1]; exact Le.ub _)
    | (rw [Sem.evalForIn.eq_1]; exact Le.ub _) | (rw [Sem.evalSs.eq_1]; exact Le.ub _) | (rw [Sem.evalRest.eq_1]; exact Le.ub _)

theorem Mono.of_le {E : Env} [Natives E] {F : Nat → Option Fn} : ∀ {n n' : Nat}, n ≤ n' → Mono E F n n'
  | 0, n', _ => Mono.zero E F n'
  | n + 1, n' + 1, h => Mono.succ (Mono.of_le (by omega))

end Mjs.Sem
