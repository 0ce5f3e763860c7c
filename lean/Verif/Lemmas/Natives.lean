import Verif.Spec.Builtin
import Verif.Lemmas.Core
import Verif.Lemmas.Apply

/-!
# C functions with a body behave as their meaning says
-/

namespace Mjs.Exec
open Mjs Mjs.Str Mjs.Obj Mjs.Core Mjs.Code Mjs.Sem Mjs.Builtin

variable {k : CallAt} {vm : Vm} {f : Val} {args : List Val}

theorem put_pos (h : k.Fits args.length) : getretvalpos (k.put vm (f :: args)) = some (k.stack.length : Int) := by
  refine retpos _ k.stack args k.frames f rfl ?_ ?_ ?_
  · show k.frames ++ [mkInt ((k.stack.length + 1 : Nat) : Int)] = _
    rw [show ((k.stack.length + 1 : Nat) : Int) = (k.stack.length : Int) + 1 by omega]
  · show (k.stack ++ f :: args).length < _
    have := h.stack
    simp only [List.length_append, List.length_cons]; omega
  · show (k.frames ++ [_]).length < _
    have := h.frames
    simp only [List.length_append, List.length_cons, List.length_nil]; omega

theorem put_nargs (h : k.Fits args.length) : nargs (k.put vm (f :: args)) = some (args.length : Int) := by
  have hl : (k.put vm (f :: args)).stack.length = k.stack.length + 1 + args.length := by
    show (k.stack ++ f :: args).length = _
    simp; omega
  have := h.stack
  unfold nargs
  rw [put_pos h, hl, cInt_small (by omega)]
  simp only [Option.bind_eq_bind, Option.bind_some]
  congr 1
  split <;> omega

theorem put_arg (h : k.Fits args.length) {i : Nat} (hi : i < args.length) : arg (k.put vm (f :: args)) i = some args[i] := by
  have hl : (k.put vm (f :: args)).stack.length = k.stack.length + 1 + args.length := by
    show (k.stack ++ f :: args).length = _
    simp; omega
  have := h.stack
  unfold arg
  rw [put_pos h, hl, cInt_small (by omega)]
  simp only [Option.bind_eq_bind, Option.bind_some]
  rw [if_pos (by omega), at_nat _ (by omega) _ (k.stack.length + 1 + i) (by omega)]
  show (k.stack ++ f :: args)[k.stack.length + 1 + i]? = _
  rw [List.getElem?_append_right (by omega), show k.stack.length + 1 + i - k.stack.length = i + 1 by omega]
  simp [hi]

theorem mapM_get {g : Nat → Option Val} {xs : List Val} (hx : ∀ (i : Nat) (h : i < xs.length), g i = some xs[i]) :
    ∀ (n : Nat), n ≤ xs.length → (List.range n).mapM g = some (xs.take n) := by
  intro n
  induction n with
  | zero => intro _; rfl
  | succ n ih =>
    intro hn
    rw [List.range_succ, List.mapM_append, ih (by omega)]
    simp only [List.mapM_cons, List.mapM_nil, hx n (by omega), Option.bind_eq_bind, Option.bind_some, Option.pure_def]
    rw [List.take_add_one, List.getElem?_eq_getElem (by omega)]
    rfl

theorem put_args (h : k.Fits args.length) : argsOf (k.put vm (f :: args)) = some args := by
  unfold argsOf
  rw [put_nargs h]
  simp only [Option.bind_eq_bind, Option.bind_some, Int.toNat_natCast]
  rw [mapM_get (xs := args) (fun i hi => put_arg h hi) _ (Nat.le_refl _), List.take_length]

theorem put_ret (h : k.Fits args.length) (v : Val) : ret (k.put vm (f :: args)) v = some (k.put vm [v]) := by
  unfold ret
  rw [put_pos h]
  simp only [Option.bind_eq_bind, Option.bind_some]
  rw [if_neg (by omega)]
  unfold Core.push CallAt.put
  simp

theorem leave_put (r : Done) (top : List Val) : leave (k.put vm top) r = (leave vm r).map fun u => k.put u top := by
  unfold leave
  cases r.err with
  | none => rfl
  | some e =>
    by_cases he : e.1 = .ok
    · simp only [he, if_true]; rfl
    · simp only [if_neg he]; rfl

theorem cfunction_put (b : Body) (h : k.Fits args.length) : cfunction b (k.put vm (f :: args)) =
    (b vm.this args vm.heap fun i => vm.al (2 * i)).bind fun r => (leave vm r).map fun u => k.put u [r.val] := by
  unfold cfunction
  rw [put_args h]
  simp only [Option.bind_eq_bind, Option.bind_some]
  show (b vm.this args vm.heap fun i => vm.al (2 * i)).bind _ = _
  congr 1
  funext r
  rw [leave_put]
  cases leave vm r with
  | none => rfl
  | some u => simp only [Option.map_some, Option.bind_some, put_ret h]

theorem leave_scopes {r : Done} {u : Vm} (h : leave vm r = some u) : u.scopes = vm.scopes ∧ u.this = vm.this := by
  unfold leave at h
  cases hr : r.err with
  | none => rw [hr] at h; cases h; exact ⟨rfl, rfl⟩
  | some e =>
    rw [hr] at h
    simp only at h
    split at h
    · cases h
    · cases h; exact ⟨rfl, rfl⟩

theorem leave_error {r : Done} {u : Vm} (h : leave vm r = some u) (hok : vm.error = .ok) :
    (r.err.isNone = true → u.error = .ok) ∧ (r.err.isNone = false → u.error ≠ .ok) := by
  unfold leave at h
  cases hr : r.err with
  | none => rw [hr] at h; cases h; exact ⟨fun _ => hok, fun e => nomatch e⟩
  | some e =>
    rw [hr] at h
    simp only at h
    split at h
    · cases h
    · rename_i he
      cases h
      refine ⟨fun e => (nomatch e), fun _ => ?_⟩
      show (if vm.error = .ok then e.1 else vm.error) ≠ .ok
      rw [if_pos hok]; exact he

theorem bodyRun_some {b : Body} {out : Out Val} (h : bodyRun b args vm = some out) :
    ∃ r u, (b vm.this args vm.heap fun i => vm.al (2 * i)) = some r ∧ leave vm r = some u ∧
      out = if r.err.isNone then .ok u r.val else .err u := by
  unfold bodyRun at h
  simp only [Option.bind_eq_bind] at h
  obtain ⟨r, h1, h⟩ := Option.bind_eq_some_iff.1 h
  obtain ⟨u, h2, h⟩ := Option.bind_eq_some_iff.1 h
  exact ⟨r, u, h1, h2, (Option.some.inj h).symm⟩

theorem bodiesRun_some {E : Env} [Bodies E] {out : Out Val} (h : bodiesRun E f args vm = some out) :
    ∃ b, isForeign f = true ∧ E.cfun (getPtr f).toNat = cfunction b ∧ bodyRun b args vm = some out := by
  unfold bodiesRun at h
  split at h
  · rename_i hf
    cases hb : Bodies.body E (getPtr f).toNat with
    | none => rw [hb] at h; cases h
    | some b => rw [hb] at h; exact ⟨b, hf, Bodies.code hb, h⟩
  · cases h

instance bodiesNatives {E : Env} [Bodies E] : Natives E where
  run := bodiesRun E
  ok := by
    intro f args vm vm' v h hok
    obtain ⟨b, hf, hc, h⟩ := bodiesRun_some h
    obtain ⟨r, u, h1, h2, h3⟩ := bodyRun_some h
    cases hr : r.err.isNone with
    | false => rw [hr] at h3; cases h3
    | true =>
      rw [hr] at h3
      cases h3
      refine ⟨(leave_error h2 hok).1 hr, (leave_scopes h2).1, fun k hk => ?_⟩
      unfold native
      rw [if_pos hf, hc, cfunction_put b hk, h1, Option.bind_some, h2]
      rfl
  err := by
    intro f args vm vm' h hok
    obtain ⟨b, hf, hc, h⟩ := bodiesRun_some h
    obtain ⟨r, u, h1, h2, h3⟩ := bodyRun_some h
    cases hr : r.err.isNone with
    | true => rw [hr] at h3; cases h3
    | false =>
      rw [hr] at h3
      cases h3
      refine ⟨(leave_error h2 hok).2 hr, (leave_scopes h2).1, fun k hk => ⟨r.val, ?_⟩⟩
      unfold native
      rw [if_pos hf, hc, cfunction_put b hk, h1, Option.bind_some, h2]
      rfl

end Mjs.Exec
