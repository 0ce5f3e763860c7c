import Verif.Lemmas.Script

/-!
# Running a given number of instructions

`loop` has no bound; with a bound it can be computed, and gives the same answer.
-/

namespace Mjs.Exec
open Mjs Mjs.Core

/-- At most `n` instructions of `loop`. -/
def runN (E : Env) (s : Saved) : Nat → Mach → Option Vm
  | 0, _ => none
  | n + 1, m =>
    if m.i < m.bp.data.length then
      (m.bp.data[m.i]?).bind fun op => (execOp E { m with op := op } m.op).bind fun r =>
        match r with
        | .clean vm => some vm
        | .go m' => if m'.vm.error ≠ .ok then unwind s m'.vm else runN E s n { m' with i := wrap ((m'.i : Int) + 1) }
    else some m.vm

theorem loop_runN {E : Env} {s : Saved} : ∀ {n : Nat} {m : Mach} {vm : Vm}, runN E s n m = some vm → loop E s m = some vm
  | 0, _, _, h => by cases h
  | n + 1, m, vm, h => by
    rw [loop]
    simp only [runN] at h
    split at h
    · rename_i hi
      rw [if_pos hi]
      obtain ⟨op, h1, h⟩ := Option.bind_eq_some_iff.1 h
      obtain ⟨r, h2, h⟩ := Option.bind_eq_some_iff.1 h
      rw [h1]
      show Option.bind _ _ = _
      rw [Option.bind_some]
      show Option.bind _ _ = _
      rw [h2, Option.bind_some]
      cases r with
      | clean v => exact h
      | go m' =>
        simp only at h ⊢
        split at h
        · rename_i he; rw [if_pos he]; exact h
        · rename_i he; rw [if_neg he]; exact loop_runN h
    · rename_i hi; rw [if_neg hi]; exact h

/-- At most `n` instructions of `execute`. -/
def executeN (n : Nat) (E : Env) (vm : Vm) (off : Nat) : Option (Vm × Val) :=
  (partAt vm off).bind fun bp =>
  (runN E (save vm) n { vm := setErrorf vm .ok none, bp := bp, i := wrap ((off : Int) - bp.startIdx) }).bind fun vm1 =>
  (partIdx vm1 off).bind fun k =>
  (vm1.parts[k]?).bind fun part =>
  let r := pop { vm1 with parts := vm1.parts.set k { part with execRes := some vm1.error } }
  some (r.2, r.1)

theorem execute_runN {n : Nat} {E : Env} {vm : Vm} {off : Nat} {r : Vm × Val} (h : executeN n E vm off = some r) :
    execute E vm off = some r := by
  unfold executeN at h
  obtain ⟨bp, h1, h⟩ := Option.bind_eq_some_iff.1 h
  obtain ⟨vm1, h2, h⟩ := Option.bind_eq_some_iff.1 h
  obtain ⟨k, h3, h⟩ := Option.bind_eq_some_iff.1 h
  obtain ⟨part, h4, h⟩ := Option.bind_eq_some_iff.1 h
  unfold execute
  show Option.bind _ _ = _
  rw [h1, Option.bind_some]
  show Option.bind _ _ = _
  rw [loop_runN h2, Option.bind_some]
  show Option.bind _ _ = _
  rw [h3, Option.bind_some]
  show Option.bind _ _ = _
  rw [h4, Option.bind_some]
  exact h

end Mjs.Exec
