import Verif.Props.Lines

/-!
# C34: jumps land where the source says

Code that is to be jumped over is generated after the jump, with one byte kept free for the distance.  The distance is then
written there with as many bytes as it needs, and the code moves up.
-/

namespace Mjs.Props
open Mjs Mjs.Str Mjs.Core Mjs.Code Mjs.Exec Mjs.Bcode

/-- **C34, writing the distance.** When code `body` of any size was generated behind a byte `free` kept for a number, and the number `v`
is written there, then the code is the same with the bytes of `v` in place of the free byte, and the generator goes on at its
end. -/
theorem C34_backpatch {g : Gen} {pre body : List UInt8} {free : UInt8} (v : Nat) (hb : g.buf = pre ++ free :: body)
    (hc : g.cur = g.buf.length) :
    ∃ g', insertOffset g pre.length v = some g' ∧ g'.buf = pre ++ vint v ++ body ∧ g'.cur = g'.buf.length ∧
      g'.start = g.start ∧ g'.lastLine = g.lastLine := by
  have hl : g.buf.length = pre.length + 1 + body.length := by rw [hb]; simp only [List.length_append, List.length_cons]; omega
  have hbuf : g.buf.take pre.length ++ vint v ++ g.buf.drop (pre.length + initOffsetSize) = pre ++ vint v ++ body := by
    rw [hb, List.take_left, show pre.length + initOffsetSize = (pre ++ [free]).length by simp [initOffsetSize],
      show pre ++ free :: body = (pre ++ [free]) ++ body by simp, List.drop_left]
  have hcur : (if g.cur ≥ pre.length then g.cur + (vint v).length - initOffsetSize else g.cur) = (pre ++ vint v ++ body).length := by
    rw [if_pos (by omega), hc, hl]
    simp only [List.length_append, initOffsetSize]
    omega
  refine ⟨{ g with buf := pre ++ vint v ++ body, cur := (pre ++ vint v ++ body).length }, ?_, rfl, rfl, rfl, rfl⟩
  unfold insertOffset
  rw [if_pos (by omega), hbuf, hcur]

/-- The next round of the loop. -/
theorem loop_next {E : Env} {s : Saved} {m : Mach} {vm : Vm} {op : UInt8} {k : Nat} (hop : m.bp.data[m.i]? = some op)
    (hx : execOp E { m with op := op } m.op = some (.go ⟨vm, m.bp, k, op⟩)) (he : vm.error = .ok) (hk : k + 1 < 2 ^ 64) :
    loop E s m = loop E s ⟨vm, m.bp, k + 1, op⟩ := by
  have hlt : m.i < m.bp.data.length := (List.getElem?_eq_some_iff.1 hop).1
  have e : wrap ((k : Int) + 1) = k + 1 := by have := wrap_nat (k + 1) hk; simpa using this
  conv => lhs; rw [loop]
  rw [if_pos hlt]
  simp only [Option.bind_eq_bind, hop, Option.bind_some, hx, he, ne_eq, not_true_eq_false, if_false, e]

/-- A jump over `body` with the code `next` behind it, at position `pc` of a part. -/
structure JumpAt (bp : Part) (pc : Nat) (op : UInt8) (body next : List UInt8) : Prop where
  code : Placed bp pc (op :: (vint body.length ++ (body ++ next)))
  small : bp.data.length < 2 ^ 31

/-- Where the body is. -/
def bodyAt (pc : Nat) (body : List UInt8) : Nat := pc + 1 + (vint body.length).length
/-- Where the code behind the body is. -/
def nextAt (pc : Nat) (body : List UInt8) : Nat := bodyAt pc body + body.length

theorem JumpAt.placed {bp : Part} {pc : Nat} {op : UInt8} {body next : List UInt8} (h : JumpAt bp pc op body next) :
    Placed bp (bodyAt pc body) body ∧ Placed bp (nextAt pc body) next :=
  ⟨h.code.tail.right.left, h.code.tail.right.right⟩

theorem JumpAt.facts {bp : Part} {pc : Nat} {op : UInt8} {body next : List UInt8} (h : JumpAt bp pc op body next) :
    bp.data[pc]? = some op ∧ operand bp.data (pc + 1) = some (body.length, (vint body.length).length) ∧
      nextAt pc body ≤ bp.data.length := by
  have h1 := Placed.le h.code (by simp)
  simp only [List.length_cons, List.length_append] at h1
  have hs := h.small
  refine ⟨h.code.head, operand_vint h.code.tail (by omega), ?_⟩
  unfold nextAt bodyAt
  omega

/-- **C34, unconditional jumps.** Whatever the size of the body, execution goes on exactly with the code behind it. -/
theorem C34_jump {E : Env} {s : Saved} {vm : Vm} {bp : Part} {pc : Nat} {prev : UInt8} {body next : List UInt8}
    (h : JumpAt bp pc JMP body next) (he : vm.error = .ok) :
    loop E s ⟨vm, bp, pc, prev⟩ = loop E s ⟨vm, bp, nextAt pc body, JMP⟩ ∧ Placed bp (nextAt pc body) next := by
  obtain ⟨h1, h2, h3⟩ := h.facts
  have hs := h.small
  have hb : body.length < 2 ^ 31 := by unfold nextAt bodyAt at h3; omega
  refine ⟨?_, h.placed.2⟩
  have hx := execOp_jmp (E := E) vm bp pc _ _ prev h2
  rw [cInt_small hb, show ((pc : Int) + body.length + ((vint body.length).length : Nat)) = ((pc + body.length + (vint body.length).length : Nat) : Int) by omega,
    wrap_nat _ (by unfold nextAt bodyAt at h3; omega)] at hx
  have := loop_next (s := s) (m := ⟨vm, bp, pc, prev⟩) h1 hx he (by unfold nextAt bodyAt at h3; omega)
  rw [this]
  congr 2
  unfold nextAt bodyAt
  omega

/-- **C34, the jump of `if`, `?:` and loops.** If the value is true, it is dropped and execution goes on with the body; if not, undefined
takes its place and execution goes on exactly with the code behind the body. -/
theorem C34_jump_false {E : Env} {s : Saved} {vm : Vm} {bp : Part} {pc : Nat} {prev : UInt8} {body next : List UInt8} {v : Val} {st : List Val}
    {c : Bool} (h : JumpAt bp pc JMP_FALSE body next) (he : vm.error = .ok) (hst : vm.stack = st ++ [v])
    (ht : isTruthy vm.heap.str v = some c) :
    (c = true → loop E s ⟨vm, bp, pc, prev⟩ = loop E s ⟨{ vm with stack := st }, bp, bodyAt pc body, JMP_FALSE⟩ ∧ Placed bp (bodyAt pc body) body) ∧
    (c = false → loop E s ⟨vm, bp, pc, prev⟩ = loop E s ⟨{ vm with stack := st ++ [mkUndefined] }, bp, nextAt pc body, JMP_FALSE⟩ ∧
      Placed bp (nextAt pc body) next) := by
  obtain ⟨h1, h2, h3⟩ := h.facts
  have hs := h.small
  have hb : body.length < 2 ^ 31 := by unfold nextAt bodyAt at h3; omega
  have hpop : pop vm = (v, { vm with stack := st }) := by simp [pop, popVal, hst]
  have hx := execOp_jmpFalse (E := E) vm bp pc _ _ prev c h2 (by rw [hpop]; exact ht)
  rw [hpop, cInt_small hb, show ((pc : Int) + ((vint body.length).length : Nat) + body.length) = ((pc + (vint body.length).length + body.length : Nat) : Int) by omega,
    wrap_nat _ (by unfold nextAt bodyAt at h3; omega)] at hx
  constructor
  · rintro rfl
    have := loop_next (s := s) (m := ⟨vm, bp, pc, prev⟩) h1 hx he (by unfold nextAt bodyAt at h3; omega)
    refine ⟨?_, h.placed.1⟩
    rw [this]
    congr 2
    unfold bodyAt
    omega
  · rintro rfl
    have := loop_next (s := s) (m := ⟨vm, bp, pc, prev⟩) h1 hx he (by unfold nextAt bodyAt at h3; omega)
    refine ⟨?_, h.placed.2⟩
    rw [this]
    congr 2
    unfold nextAt bodyAt
    omega

/-- **C34, `&&` and `||`.** The value stays; execution goes on exactly with the code behind the body if it decides the result (a false
value for `&&`, a true one for `||`), and with the body if not. -/
theorem C34_jump_neutral {E : Env} {s : Saved} {vm : Vm} {bp : Part} {pc : Nat} {prev : UInt8} {body next : List UInt8} {c : Bool} (and : Bool)
    (h : JumpAt bp pc (if and then JMP_NEUTRAL_FALSE else JMP_NEUTRAL_TRUE) body next) (he : vm.error = .ok)
    (ht : isTruthy vm.heap.str (vtop vm.stack) = some c) :
    loop E s ⟨vm, bp, pc, prev⟩ = loop E s ⟨vm, bp, if c = and then bodyAt pc body else nextAt pc body,
      if and then JMP_NEUTRAL_FALSE else JMP_NEUTRAL_TRUE⟩ := by
  obtain ⟨h1, h2, h3⟩ := h.facts
  have hs := h.small
  have hb : body.length < 2 ^ 31 := by unfold nextAt bodyAt at h3; omega
  have hw : wrap ((pc : Int) + ((vint body.length).length : Nat) + cInt body.length) = pc + (vint body.length).length + body.length := by
    rw [cInt_small hb, show ((pc : Int) + ((vint body.length).length : Nat) + body.length) = ((pc + (vint body.length).length + body.length : Nat) : Int) by omega,
      wrap_nat _ (by unfold nextAt bodyAt at h3; omega)]
  cases and
  · have hx := execOp_jmpNeutralTrue (E := E) vm bp pc _ _ prev c h2 ht
    rw [hw] at hx
    cases c
    · have := loop_next (s := s) (m := ⟨vm, bp, pc, prev⟩) h1 hx he (by unfold nextAt bodyAt at h3; omega)
      rw [this]
      simp only [bodyAt, Bool.false_eq_true, if_false, if_true]
      congr 2
      omega
    · have := loop_next (s := s) (m := ⟨vm, bp, pc, prev⟩) h1 hx he (by unfold nextAt bodyAt at h3; omega)
      rw [this]
      simp only [nextAt, bodyAt, Bool.true_eq_false, Bool.false_eq_true, if_false]
      congr 2
      omega
  · have hx := execOp_jmpNeutralFalse (E := E) vm bp pc _ _ prev c h2 ht
    rw [hw] at hx
    cases c
    · have := loop_next (s := s) (m := ⟨vm, bp, pc, prev⟩) h1 hx he (by unfold nextAt bodyAt at h3; omega)
      rw [this]
      simp only [nextAt, bodyAt, Bool.false_eq_true, if_false, if_true]
      congr 2
      omega
    · have := loop_next (s := s) (m := ⟨vm, bp, pc, prev⟩) h1 hx he (by unfold nextAt bodyAt at h3; omega)
      rw [this]
      simp only [bodyAt, if_true]
      congr 2
      omega

/-- The hypotheses hold for a body of any size. -/
example (body next : List UInt8) (h : body.length + next.length < 2 ^ 30) :
    JumpAt ⟨0, JMP :: (vint body.length ++ (body ++ next)), none⟩ 0 JMP body next := by
  have := vint_le body.length (by omega)
  exact ⟨⟨[], by simp⟩, by simp only [List.length_cons, List.length_append]; omega⟩

end Mjs.Props
