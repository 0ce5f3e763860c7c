import Verif.Spec.Means
import Verif.Lemmas.SemMono

/-!
# The rules for loops follow from the evaluator
-/

namespace Mjs.Sem
open Mjs Mjs.Str Mjs.Obj Mjs.Core Mjs.Exec Mjs.Code

theorem bind_ok {α β : Type} {x : Sem α} {f : α → Sem β} {vm vm' : Vm} {a : α} (h : x vm = some (.ok vm' a)) :
    (x >>= f) vm = f a vm' := by
  show Sem.bind x f vm = _
  unfold Sem.bind; rw [h]

theorem bind_err {α β : Type} {x : Sem α} {f : α → Sem β} {vm vm' : Vm} (h : x vm = some (.err vm')) :
    (x >>= f) vm = some (.err vm') := by
  show Sem.bind x f vm = _
  unfold Sem.bind; rw [h]

theorem bind_some {α β : Type} {x : Sem α} {f : α → Sem β} {vm : Vm} {o : Out β} (h : (x >>= f) vm = some o) :
    (∃ vm' a, x vm = some (.ok vm' a) ∧ f a vm' = some o) ∨ (∃ vm', x vm = some (.err vm') ∧ o = .err vm') := by
  change Sem.bind x f vm = _ at h
  unfold Sem.bind at h
  cases hx : x vm with
  | none => rw [hx] at h; cases h
  | some r =>
    rw [hx] at h
    cases r with
    | err vm' => cases h; exact .inr ⟨_, rfl, rfl⟩
    | ok vm' a => exact .inl ⟨_, _, rfl, h⟩

section
variable {E : Env} [Natives E] {F : Nat → Option Fn} {d d' n n' : Nat} {vm vm' vm1 : Vm}

theorem eval_mono {e : Expr} {o : Out Val} (h : eval E F n d e vm = some o) (hn : n ≤ n') (hd : d ≤ d') : eval E F n' d' e vm = some o :=
  (Mono.of_le hn).eval d d' e hd vm o h

theorem evalS_mono {e : Stmt} {o : Out Comp} (h : evalS E F n d e vm = some o) (hn : n ≤ n') (hd : d ≤ d') : evalS E F n' d' e vm = some o :=
  (Mono.of_le hn).evalS d d' e hd vm o h

theorem evalSs_mono {e : List Stmt} {o : Out Comp} (h : evalSs E F n d e vm = some o) (hn : n ≤ n') (hd : d ≤ d') :
    evalSs E F n' d' e vm = some o :=
  (Mono.of_le hn).evalSs d d' e hd vm o h

theorem evalWhile_mono {c : Expr} {e : List Stmt} {o : Out Comp} (h : evalWhile E F n d c e vm = some o) (hn : n ≤ n') (hd : d ≤ d') :
    evalWhile E F n' d' c e vm = some o :=
  (Mono.of_le hn).evalWhile d d' c e hd vm o h

theorem evalFor_mono {c i : Expr} {e : List Stmt} {o : Out Comp} (h : evalFor E F n d c i e vm = some o) (hn : n ≤ n') (hd : d ≤ d') :
    evalFor E F n' d' c i e vm = some o :=
  (Mono.of_le hn).evalFor d d' c i e hd vm o h

theorem Means.mono {e : Expr} {o : Out Val} (h : Means E F d e vm o) (hd : d ≤ d') : Means E F d' e vm o :=
  h.imp fun _ h => eval_mono h (Nat.le_refl _) hd

theorem MeansS.mono {e : Stmt} {o : Out Comp} (h : MeansS E F d e vm o) (hd : d ≤ d') : MeansS E F d' e vm o :=
  h.imp fun _ h => evalS_mono h (Nat.le_refl _) hd

theorem MeansSs.mono {e : List Stmt} {o : Out Comp} (h : MeansSs E F d e vm o) (hd : d ≤ d') : MeansSs E F d' e vm o :=
  h.imp fun _ h => evalSs_mono h (Nat.le_refl _) hd

theorem Means.det {e : Expr} {o o' : Out Val} (h : Means E F d e vm o) (h' : Means E F d' e vm o') : o = o' := by
  obtain ⟨n, h⟩ := h
  obtain ⟨n', h'⟩ := h'
  have a := eval_mono h (Nat.le_max_left n n') (Nat.le_max_left d d')
  have b := eval_mono h' (Nat.le_max_right n n') (Nat.le_max_right d d')
  rw [a] at b
  exact Option.some.inj b

theorem MeansSs.det {e : List Stmt} {o o' : Out Comp} (h : MeansSs E F d e vm o) (h' : MeansSs E F d' e vm o') : o = o' := by
  obtain ⟨n, h⟩ := h
  obtain ⟨n', h'⟩ := h'
  have a := evalSs_mono h (Nat.le_max_left n n') (Nat.le_max_left d d')
  have b := evalSs_mono h' (Nat.le_max_right n n') (Nat.le_max_right d d')
  rw [a] at b
  exact Option.some.inj b

/-- A truth value does not change the state. -/
theorem truthy_cases {x : Val} {o : Out Bool} (h : truthy x vm = some o) : (vm.error = .ok ∧ ∃ b, o = .ok vm b) ∨ (vm.error ≠ .ok ∧ o = .err vm) := by
  simp only [truthy, prim, Option.map_map] at h
  cases ht : isTruthy vm.heap.str x with
  | none => rw [ht] at h; cases h
  | some b =>
    rw [ht] at h
    simp only [Option.map_some, Function.comp, Option.some.injEq] at h
    split at h
    · rename_i he; exact .inl ⟨he, b, h.symm⟩
    · rename_i he; exact .inr ⟨he, h.symm⟩

theorem cond_eval {c : Expr} {b : Bool} (h : Cond E F d c vm vm1 b) :
    ∃ n x, eval E F n d c vm = some (.ok vm1 x) ∧ truthy x vm1 = some (.ok vm1 b) :=
  let ⟨x, ⟨n, h⟩, ht⟩ := h
  ⟨n, x, h, ht⟩

/-- The rules of `while` are sound for the evaluator. -/
theorem Loops.eval {c : Expr} {body : List Stmt} {o : Out Comp} (h : Loops E F d c body vm o) :
    ∃ n, evalWhile E F n (d + 1) c body vm = some o := by
  induction h with
  | stop hc =>
    obtain ⟨n, x, h1, h2⟩ := cond_eval hc
    refine ⟨n + 1, ?_⟩
    rw [evalWhile, bind_ok h1, bind_ok h2]; rfl
  | next hc hb _ ih =>
    obtain ⟨n, x, h1, h2⟩ := cond_eval hc
    obtain ⟨m, hb⟩ := hb
    obtain ⟨k, ih⟩ := ih
    refine ⟨n + m + k + 1, ?_⟩
    rw [evalWhile, bind_ok (eval_mono h1 (by omega) (Nat.le_refl _)), bind_ok h2, if_pos rfl, bind_ok (evalSs_mono hb (by omega) (Nat.le_refl _))]
    exact evalWhile_mono ih (by omega) (Nat.le_refl _)
  | cont hc hb _ ih =>
    obtain ⟨n, x, h1, h2⟩ := cond_eval hc
    obtain ⟨m, hb⟩ := hb
    obtain ⟨k, ih⟩ := ih
    refine ⟨n + m + k + 1, ?_⟩
    rw [evalWhile, bind_ok (eval_mono h1 (by omega) (Nat.le_refl _)), bind_ok h2, if_pos rfl, bind_ok (evalSs_mono hb (by omega) (Nat.le_refl _))]
    exact evalWhile_mono ih (by omega) (Nat.le_refl _)
  | brk hc hb =>
    obtain ⟨n, x, h1, h2⟩ := cond_eval hc
    obtain ⟨m, hb⟩ := hb
    refine ⟨n + m + 1, ?_⟩
    rw [evalWhile, bind_ok (eval_mono h1 (by omega) (Nat.le_refl _)), bind_ok h2, if_pos rfl, bind_ok (evalSs_mono hb (by omega) (Nat.le_refl _))]
    rfl
  | ret hc hb =>
    obtain ⟨n, x, h1, h2⟩ := cond_eval hc
    obtain ⟨m, hb⟩ := hb
    refine ⟨n + m + 1, ?_⟩
    rw [evalWhile, bind_ok (eval_mono h1 (by omega) (Nat.le_refl _)), bind_ok h2, if_pos rfl, bind_ok (evalSs_mono hb (by omega) (Nat.le_refl _))]
    rfl
  | errCond hc =>
    obtain ⟨n, h1⟩ := hc
    refine ⟨n + 1, ?_⟩
    rw [evalWhile, bind_err h1]
  | errBody hc hb =>
    obtain ⟨n, x, h1, h2⟩ := cond_eval hc
    obtain ⟨m, hb⟩ := hb
    refine ⟨n + m + 1, ?_⟩
    rw [evalWhile, bind_ok (eval_mono h1 (by omega) (Nat.le_refl _)), bind_ok h2, if_pos rfl, bind_err (evalSs_mono hb (by omega) (Nat.le_refl _))]

theorem ForLoops.eval {c inc : Expr} {body : List Stmt} {o : Out Comp} (h : ForLoops E F d c inc body vm o) :
    ∃ n, evalFor E F n (d + 1) c inc body vm = some o := by
  induction h with
  | stop hc =>
    obtain ⟨n, x, h1, h2⟩ := cond_eval hc
    refine ⟨n + 1, ?_⟩
    rw [evalFor, bind_ok h1, bind_ok h2]; rfl
  | next hc hb hi _ ih =>
    obtain ⟨n, x, h1, h2⟩ := cond_eval hc
    obtain ⟨m, hb⟩ := hb
    obtain ⟨k, ih⟩ := ih
    obtain ⟨j, hi⟩ := hi
    refine ⟨n + m + k + j + 1, ?_⟩
    rw [evalFor, bind_ok (eval_mono h1 (by omega) (Nat.le_refl _)), bind_ok h2, if_pos rfl, bind_ok (evalSs_mono hb (by omega) (Nat.le_refl _))]
    exact (bind_ok (eval_mono hi (by omega) (Nat.le_refl _))).trans (evalFor_mono ih (by omega) (Nat.le_refl _))
  | cont hc hb hi _ ih =>
    obtain ⟨n, x, h1, h2⟩ := cond_eval hc
    obtain ⟨m, hb⟩ := hb
    obtain ⟨k, ih⟩ := ih
    obtain ⟨j, hi⟩ := hi
    refine ⟨n + m + k + j + 1, ?_⟩
    rw [evalFor, bind_ok (eval_mono h1 (by omega) (Nat.le_refl _)), bind_ok h2, if_pos rfl, bind_ok (evalSs_mono hb (by omega) (Nat.le_refl _))]
    exact (bind_ok (eval_mono hi (by omega) (Nat.le_refl _))).trans (evalFor_mono ih (by omega) (Nat.le_refl _))
  | brk hc hb =>
    obtain ⟨n, x, h1, h2⟩ := cond_eval hc
    obtain ⟨m, hb⟩ := hb
    refine ⟨n + m + 1, ?_⟩
    rw [evalFor, bind_ok (eval_mono h1 (by omega) (Nat.le_refl _)), bind_ok h2, if_pos rfl, bind_ok (evalSs_mono hb (by omega) (Nat.le_refl _))]
    rfl
  | ret hc hb =>
    obtain ⟨n, x, h1, h2⟩ := cond_eval hc
    obtain ⟨m, hb⟩ := hb
    refine ⟨n + m + 1, ?_⟩
    rw [evalFor, bind_ok (eval_mono h1 (by omega) (Nat.le_refl _)), bind_ok h2, if_pos rfl, bind_ok (evalSs_mono hb (by omega) (Nat.le_refl _))]
    rfl
  | errCond hc =>
    obtain ⟨n, h1⟩ := hc
    refine ⟨n + 1, ?_⟩
    rw [evalFor, bind_err h1]
  | errBody hc hb =>
    obtain ⟨n, x, h1, h2⟩ := cond_eval hc
    obtain ⟨m, hb⟩ := hb
    refine ⟨n + m + 1, ?_⟩
    rw [evalFor, bind_ok (eval_mono h1 (by omega) (Nat.le_refl _)), bind_ok h2, if_pos rfl, bind_err (evalSs_mono hb (by omega) (Nat.le_refl _))]
  | errInc hc hb hr hi =>
    obtain ⟨n, x, h1, h2⟩ := cond_eval hc
    obtain ⟨m, hb⟩ := hb
    obtain ⟨j, hi⟩ := hi
    refine ⟨n + m + j + 1, ?_⟩
    rw [evalFor, bind_ok (eval_mono h1 (by omega) (Nat.le_refl _)), bind_ok h2, if_pos rfl, bind_ok (evalSs_mono hb (by omega) (Nat.le_refl _))]
    rcases hr with rfl | ⟨v, rfl⟩
    · exact bind_err (eval_mono hi (by omega) (Nat.le_refl _))
    · exact bind_err (eval_mono hi (by omega) (Nat.le_refl _))

/-- An iterated loop does not end with `break` or `continue`. -/
theorem evalWhile_absorbs {c : Expr} {body : List Stmt} : ∀ {n d : Nat} {vm vm' : Vm} {r : Comp},
    evalWhile E F n d c body vm = some (.ok vm' r) → r ≠ .brk ∧ r ≠ .cont
  | 0, d, vm, vm', r, h => by rw [evalWhile.eq_1] at h; cases h
  | n + 1, 0, vm, vm', r, h => by rw [evalWhile.eq_2 _ _ _ _ _ (by simp)] at h; cases h
  | n + 1, d + 1, vm, vm', r, h => by
    rw [evalWhile] at h
    rcases bind_some h with ⟨vm1, x, _, h⟩ | ⟨_, _, h⟩
    · rcases bind_some h with ⟨vm2, b, _, h⟩ | ⟨_, _, h⟩
      · cases b
        · cases h; exact ⟨by simp, by simp⟩
        · rw [if_pos rfl] at h
          rcases bind_some h with ⟨vm3, r3, _, h⟩ | ⟨_, _, h⟩
          · cases r3 with
            | normal v => exact evalWhile_absorbs h
            | cont => exact evalWhile_absorbs h
            | brk => cases h; exact ⟨by simp, by simp⟩
            | ret v => cases h; exact ⟨by simp, by simp⟩
          · cases h
      · cases h
    · cases h

theorem evalFor_absorbs {c inc : Expr} {body : List Stmt} : ∀ {n d : Nat} {vm vm' : Vm} {r : Comp},
    evalFor E F n d c inc body vm = some (.ok vm' r) → r ≠ .brk ∧ r ≠ .cont
  | 0, d, vm, vm', r, h => by rw [evalFor.eq_1] at h; cases h
  | n + 1, 0, vm, vm', r, h => by rw [evalFor.eq_2 _ _ _ _ _ _ (by simp)] at h; cases h
  | n + 1, d + 1, vm, vm', r, h => by
    rw [evalFor] at h
    rcases bind_some h with ⟨vm1, x, _, h⟩ | ⟨_, _, h⟩
    · rcases bind_some h with ⟨vm2, b, _, h⟩ | ⟨_, _, h⟩
      · cases b
        · cases h; exact ⟨by simp, by simp⟩
        · rw [if_pos rfl] at h
          rcases bind_some h with ⟨vm3, r3, _, h⟩ | ⟨_, _, h⟩
          · cases r3 with
            | normal v =>
              rcases bind_some h with ⟨vm4, r4, _, h⟩ | ⟨_, _, h⟩
              · exact evalFor_absorbs h
              · cases h
            | cont =>
              rcases bind_some h with ⟨vm4, r4, _, h⟩ | ⟨_, _, h⟩
              · exact evalFor_absorbs h
              · cases h
            | brk => cases h; exact ⟨by simp, by simp⟩
            | ret v => cases h; exact ⟨by simp, by simp⟩
          · cases h
      · cases h
    · cases h

theorem evalForIn_absorbs {k o : Val} {body : List Stmt} : ∀ {n d : Nat} {i : Val} {vm vm' : Vm} {r : Comp},
    evalForIn E F n d k o i body vm = some (.ok vm' r) → r ≠ .brk ∧ r ≠ .cont
  | 0, d, i, vm, vm', r, h => by rw [evalForIn.eq_1] at h; cases h
  | n + 1, 0, i, vm, vm', r, h => by rw [evalForIn.eq_2 _ _ _ _ _ _ _ (by simp)] at h; cases h
  | n + 1, d + 1, i, vm, vm', r, h => by
    rw [evalForIn] at h
    rcases bind_some h with ⟨vm1, x, _, h⟩ | ⟨_, _, h⟩
    · rcases bind_some h with ⟨vm2, b, _, h⟩ | ⟨_, _, h⟩
      · cases b
        · cases h; exact ⟨by simp, by simp⟩
        · rw [if_pos rfl] at h
          rcases bind_some h with ⟨vm3, r3, _, h⟩ | ⟨_, _, h⟩
          · cases r3 with
            | normal v => exact evalForIn_absorbs h
            | cont => exact evalForIn_absorbs h
            | brk => cases h; exact ⟨by simp, by simp⟩
            | ret v => cases h; exact ⟨by simp, by simp⟩
          · cases h
      · cases h
    · cases h

/-- A loop, as a statement, does not end with `break` or `continue` either. -/
theorem loop_absorbs {s : Stmt} {r : Comp} (hs : (∃ c b, s = .while c b) ∨ (∃ i c inc b, s = .for i c inc b) ∨ (∃ l x e b, s = .forIn l x e b))
    (h : evalS E F n d s vm = some (.ok vm' r)) : r ≠ .brk ∧ r ≠ .cont := by
  cases n with
  | zero => rw [evalS.eq_1] at h; cases h
  | succ n =>
  cases d with
  | zero => rw [evalS.eq_2 _ _ _ _ (by simp)] at h; cases h
  | succ d =>
  rcases hs with ⟨c, b, rfl⟩ | ⟨i, c, inc, b, rfl⟩ | ⟨l, x, e, b, rfl⟩
  · rw [evalS] at h
    rcases bind_some h with ⟨_, _, _, h⟩ | ⟨_, _, h⟩
    · rcases bind_some h with ⟨_, _, _, h⟩ | ⟨_, _, h⟩
      · rcases bind_some h with ⟨_, _, h1, h⟩ | ⟨_, _, h⟩
        · rcases bind_some h with ⟨_, _, _, h⟩ | ⟨_, _, h⟩
          · cases h; exact evalWhile_absorbs h1
          · cases h
        · cases h
      · cases h
    · cases h
  · rw [evalS] at h
    rcases bind_some h with ⟨_, _, _, h⟩ | ⟨_, _, h⟩
    · rcases bind_some h with ⟨_, _, _, h⟩ | ⟨_, _, h⟩
      · rcases bind_some h with ⟨_, ri, _, h⟩ | ⟨_, _, h⟩
        · cases ri with
          | normal v =>
            rcases bind_some h with ⟨_, _, h1, h⟩ | ⟨_, _, h⟩
            · rcases bind_some h with ⟨_, _, _, h⟩ | ⟨_, _, h⟩
              · cases h; exact evalFor_absorbs h1
              · cases h
            · cases h
          | _ => cases h
        · cases h
      · cases h
    · cases h
  · have key : ∀ vm0 vm1 : Vm, ((string x >>= fun k => eval E F n d e >>= fun o => evalForIn E F n d k o mkUndefined b >>= fun r1 =>
        setScopes vm0.scopes >>= fun _ => (pure r1 : Sem Comp))) vm1 = some (.ok vm' r) → r ≠ .brk ∧ r ≠ .cont := by
      intro vm0 vm1 h
      rcases bind_some h with ⟨_, _, _, h⟩ | ⟨_, _, h⟩
      · rcases bind_some h with ⟨_, _, _, h⟩ | ⟨_, _, h⟩
        · rcases bind_some h with ⟨_, _, h1, h⟩ | ⟨_, _, h⟩
          · rcases bind_some h with ⟨_, _, _, h⟩ | ⟨_, _, h⟩
            · cases h; exact evalForIn_absorbs h1
            · cases h
          · cases h
        · cases h
      · cases h
    rw [evalS] at h
    rcases bind_some h with ⟨_, _, _, h⟩ | ⟨_, _, h⟩
    · rcases bind_some h with ⟨_, _, _, h⟩ | ⟨_, _, h⟩
      · cases l
        · exact key _ _ h
        · rw [if_pos rfl] at h
          rcases bind_some h with ⟨_, _, _, h⟩ | ⟨_, _, h⟩
          · exact key _ _ h
          · cases h
      · cases h
    · cases h
end

end Mjs.Sem
