import Verif.Props.Parse
import Verif.Lemmas.Means

/-!
# C31: several `&&` or several `||` in a row

The tree of `C31_grouping_partial` has them from right to left, the language from left to right.  Both mean the same: `Means`
(`Spec/Means.lean`) says what an expression comes to in a state, with `d` values of room on the stack.
-/

namespace Mjs.Props
open Mjs Mjs.Str Mjs.Obj Mjs.Core Mjs.Code Mjs.Sem Mjs.Exec

section
variable {E : Env} [Natives E] {F : Nat → Option Fn} {vm : Vm} {a b c : Expr} {out : Out Val}

/-- The expression, in the state `vm`, comes to `out`, with enough room on the stack. -/
def ComesTo (E : Env) [Natives E] (F : Nat → Option Fn) (e : Expr) (vm : Vm) (out : Out Val) : Prop := ∃ d, Means E F d e vm out

/-- `a`, then `b` if the truth value of `a` is `go`. -/
inductive Then2 (E : Env) [Natives E] (F : Nat → Option Fn) (go : Bool) (a b : Expr) (vm : Vm) : Out Val → Prop
  | fails {vm1} : ComesTo E F a vm (.err vm1) → Then2 E F go a b vm (.err vm1)
  | failed {vm1 x} : ComesTo E F a vm (.ok vm1 x) → truthy x vm1 = some (.err vm1) → Then2 E F go a b vm (.err vm1)
  | stops {vm1 x} : ComesTo E F a vm (.ok vm1 x) → truthy x vm1 = some (.ok vm1 !go) → Then2 E F go a b vm (.ok vm1 x)
  | goes {vm1 x out} : ComesTo E F a vm (.ok vm1 x) → truthy x vm1 = some (.ok vm1 go) → ComesTo E F b vm1 out → Then2 E F go a b vm out

/-- `&&` or `||`. -/
def logical (go : Bool) (a b : Expr) : Expr := if go then .and a b else .or a b

theorem logical_eval (go : Bool) (n d : Nat) :
    eval E F (n + 1) (d + 1) (logical go a b) vm =
      (eval E F n d a >>= fun x => truthy x >>= fun t => if t = go then eval E F n d b else pure x) vm := by
  cases go with
  | true =>
    simp only [logical, if_true]
    rw [eval]
  | false =>
    simp only [logical, Bool.false_eq_true, if_false]
    rw [eval]
    have : (fun x => truthy x >>= fun t => if t = true then pure x else eval E F n d b) =
        (fun x => truthy x >>= fun t => if t = false then eval E F n d b else pure x) := by
      funext x
      have : (fun t => if t = true then pure x else eval E F n d b) = (fun t => if t = false then eval E F n d b else pure x) := by
        funext t; cases t <;> rfl
      rw [this]
    rw [this]

theorem logical_iff (go : Bool) : ComesTo E F (logical go a b) vm out ↔ Then2 E F go a b vm out := by
  constructor
  · rintro ⟨d, n, h⟩
    obtain ⟨n, d, rfl, rfl⟩ := logic_pos h
    rw [logical_eval] at h
    rcases bind_some h with ⟨vm1, x, h1, h2⟩ | ⟨vm1, h1, rfl⟩
    · rcases bind_some h2 with ⟨vm2, t, h3, h4⟩ | ⟨vm2, h3, rfl⟩
      · rcases truthy_cases h3 with ⟨_, t', e⟩ | ⟨_, e⟩
        · cases e
          by_cases ht : t = go
          · subst ht
            rw [if_pos rfl] at h4
            exact .goes ⟨d, n, h1⟩ h3 ⟨d, n, h4⟩
          · rw [if_neg ht] at h4
            have : t = !go := by cases t <;> cases go <;> simp_all
            subst this
            cases h4
            exact .stops ⟨d, n, h1⟩ h3
        · cases e
      · rcases truthy_cases h3 with ⟨_, t', e⟩ | ⟨_, e⟩
        · cases e
        · cases e
          exact .failed ⟨d, n, h1⟩ h3
    · exact .fails ⟨d, n, h1⟩
  · intro h
    cases h with
    | fails h =>
      obtain ⟨d, n, h⟩ := h
      exact ⟨d + 1, n + 1, by rw [logical_eval, bind_err h]⟩
    | failed h ht =>
      obtain ⟨d, n, h⟩ := h
      exact ⟨d + 1, n + 1, by rw [logical_eval, bind_ok h, bind_err ht]⟩
    | stops h ht =>
      obtain ⟨d, n, h⟩ := h
      exact ⟨d + 1, n + 1, by rw [logical_eval, bind_ok h, bind_ok ht, if_neg (by cases go <;> decide)]; rfl⟩
    | goes h ht hb =>
      obtain ⟨d, n, h⟩ := h
      obtain ⟨d', n', hb⟩ := hb
      refine ⟨d + d' + 1, n + n' + 1, ?_⟩
      rw [logical_eval, bind_ok (eval_mono h (n' := n + n') (d' := d + d') (by omega) (by omega)), bind_ok ht, if_pos rfl]
      exact eval_mono hb (by omega) (by omega)

theorem logical_assoc (go : Bool) :
    ComesTo E F (logical go a (logical go b c)) vm out ↔ ComesTo E F (logical go (logical go a b) c) vm out := by
  rw [logical_iff, logical_iff]
  constructor
  · intro h
    cases h with
    | fails h => exact .fails ((logical_iff go).2 (.fails h))
    | failed h ht => exact .fails ((logical_iff go).2 (.failed h ht))
    | stops h ht => exact .stops ((logical_iff go).2 (.stops h ht)) ht
    | goes h ht hb =>
      cases (logical_iff go).1 hb with
      | fails h2 => exact .fails ((logical_iff go).2 (.goes h ht h2))
      | failed h2 ht2 => exact .failed ((logical_iff go).2 (.goes h ht h2)) ht2
      | stops h2 ht2 => exact .stops ((logical_iff go).2 (.goes h ht h2)) ht2
      | goes h2 ht2 h3 => exact .goes ((logical_iff go).2 (.goes h ht h2)) ht2 h3
  · intro h
    cases h with
    | fails h =>
      cases (logical_iff go).1 h with
      | fails h => exact .fails h
      | failed h ht => exact .failed h ht
      | goes h ht hb => exact .goes h ht ((logical_iff go).2 (.fails hb))
    | failed h ht =>
      cases (logical_iff go).1 h with
      | stops h ht' => exact .failed h ht
      | goes h ht' hb => exact .goes h ht' ((logical_iff go).2 (.failed hb ht))
    | stops h ht =>
      cases (logical_iff go).1 h with
      | stops h ht' => exact .stops h ht
      | goes h ht' hb => exact .goes h ht' ((logical_iff go).2 (.stops hb ht))
    | goes h ht hc =>
      cases (logical_iff go).1 h with
      | stops h ht' => rw [ht] at ht'; cases go <;> simp at ht'
      | goes h ht' hb => exact .goes h ht' ((logical_iff go).2 (.goes hb ht hc))

/-- **C31.** `a && (b && c)` comes to the same as `(a && b) && c`: value, error, objects, everything. -/
theorem C31_and_either_way : ComesTo E F (.and a (.and b c)) vm out ↔ ComesTo E F (.and (.and a b) c) vm out := logical_assoc true

/-- **C31.** The same for `||`. -/
theorem C31_or_either_way : ComesTo E F (.or a (.or b c)) vm out ↔ ComesTo E F (.or (.or a b) c) vm out := logical_assoc false

end

/-- `1 && (null && 2)` comes to null. -/
example (vm : Vm) (he : vm.error = .ok) :
    ComesTo numEnv (fun _ => none) (.and (.int 1) (.and .null (.int 2))) vm (.ok vm mkNull) ∧
      ComesTo numEnv (fun _ => none) (.and (.and (.int 1) .null) (.int 2)) vm (.ok vm mkNull) := by
  have h : ComesTo numEnv (fun _ => none) (.and (.int 1) (.and .null (.int 2))) vm (.ok vm mkNull) := by
    refine (logical_iff true).2 (.goes (vm1 := vm) (x := mkInt 1) ⟨1, 1, by rw [eval]; rfl⟩ (truthy_ok he ?_) ?_)
    · show isTruthy vm.heap.str (mkInt 1) = some true
      have e : toBooleanV vm.heap.str (mkInt 1) = some true := by
        unfold toBooleanV
        have h1 : isBoolean (mkInt 1) = false := by decide +kernel
        have h2 : isNumber (mkInt 1) = true := by decide +kernel
        have h3 : isString (mkInt 1) = false := by decide +kernel
        have h4 : neZero (getDouble (mkInt 1)) = true := by decide +kernel
        have h5 : (mkInt 1 != tagNan) = true := by decide +kernel
        simp [h1, h2, h3, h4]
        simpa using h5
      rw [isTruthy, e]; rfl
    exact (logical_iff true).2 (.stops ⟨1, 1, by rw [eval]; rfl⟩ (truthy_ok he rfl))
  exact ⟨h, C31_and_either_way.1 h⟩

end Mjs.Props
