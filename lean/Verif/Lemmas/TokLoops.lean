import Verif.Model.Tok

/-!
The loops of the tokenizer, without a number of rounds.
-/

namespace Mjs.Tok

theorem peek_none {src : List UInt8} {pos : Nat} (h : src.length < pos) : peek src pos = none := by
  unfold peek
  rw [if_neg (by omega), if_neg (by omega)]

/-- A loop that moves forward and reads at its position has the same result for all large numbers of rounds. -/
theorem loop_rounds {α : Type} {src : List UInt8} {f : Nat → Nat → α → Option β} {body : Nat → α → Option (β ⊕ Nat × α)}
    (h0 : ∀ pos a, f 0 pos a = none)
    (hf : ∀ n pos a, f (n + 1) pos a = (body pos a).bind fun r => match r with | .inl b => some b | .inr (p, a) => f n p a)
    (hb : ∀ pos a, src.length < pos → body pos a = none) (hm : ∀ pos a p b, body pos a = some (.inr (p, b)) → pos < p) :
    ∀ n m pos a, src.length + 2 ≤ n + pos → src.length + 2 ≤ m + pos → 0 < n → 0 < m → f n pos a = f m pos a
  | 0, _, _, _, _, _, h, _ => by omega
  | _, 0, _, _, _, _, _, h => by omega
  | n + 1, m + 1, pos, a, h1, h2, _, _ => by
    rw [hf, hf]
    cases hc : body pos a with
    | none => rfl
    | some r =>
      rcases r with b | ⟨p, b⟩
      · rfl
      · have h3 := hm _ _ _ _ hc
        have h4 : ¬ src.length < pos := fun h => by rw [hb _ _ h] at hc; cases hc
        exact loop_rounds h0 hf hb hm n m p b (by omega) (by omega) (by omega) (by omega)

theorem getident_step (src : List UInt8) (pos : Nat) : getident src pos = (do
    let c ← peek src pos
    if isIdent c ∨ isDigit c then getident src (pos + 1) else some pos) := by
  have key := loop_rounds (src := src) (f := fun n p (_ : Unit) => getidentN src n p)
    (body := fun p _ => (peek src p).bind fun c => some (if isIdent c ∨ isDigit c then .inr (p + 1, ()) else .inl p))
    (fun _ _ => rfl) (fun n p _ => by
      show getidentN src (n + 1) p = _
      rw [getidentN]
      cases peek src p with
      | none => rfl
      | some c =>
        simp only [Option.bind_eq_bind, Option.bind_some]
        split <;> rfl)
    (fun p _ h => by simp only [peek_none h]; rfl)
    (fun p _ q _ h => by
      obtain ⟨c, _, h⟩ := Option.bind_eq_some_iff.1 h
      split at h <;> cases h
      omega)
  unfold getident loopRounds
  rw [getidentN]
  cases hc : peek src pos with
  | none => rfl
  | some c =>
    have : ¬ src.length < pos := fun h => by rw [peek_none h] at hc; cases hc
    simp only [Option.bind_eq_bind, Option.bind_some]
    split
    · exact key _ _ _ () (by omega) (by omega) (by omega) (by omega)
    · rfl

theorem skipLine_step (src : List UInt8) (pos : Nat) : skipLine src pos = (do
    let c ← peek src pos
    if c ≠ 0 ∧ c ≠ 10 then skipLine src (pos + 1) else some pos) := by
  have key := loop_rounds (src := src) (f := fun n p (_ : Unit) => skipLineN src n p)
    (body := fun p _ => (peek src p).bind fun c => some (if c ≠ 0 ∧ c ≠ 10 then .inr (p + 1, ()) else .inl p))
    (fun _ _ => rfl) (fun n p _ => by
      show skipLineN src (n + 1) p = _
      rw [skipLineN]
      cases peek src p with
      | none => rfl
      | some c =>
        simp only [Option.bind_eq_bind, Option.bind_some]
        split <;> rfl)
    (fun p _ h => by simp only [peek_none h]; rfl)
    (fun p _ q _ h => by
      obtain ⟨c, _, h⟩ := Option.bind_eq_some_iff.1 h
      split at h <;> cases h
      omega)
  unfold skipLine loopRounds
  rw [skipLineN]
  cases hc : peek src pos with
  | none => rfl
  | some c =>
    have : ¬ src.length < pos := fun h => by rw [peek_none h] at hc; cases hc
    simp only [Option.bind_eq_bind, Option.bind_some]
    split
    · exact key _ _ _ () (by omega) (by omega) (by omega) (by omega)
    · rfl

theorem skipSpaces_step (src : List UInt8) (pos line : Nat) : skipSpaces src pos line = (do
    let c ← peek src pos
    if isSpace c then skipSpaces src (pos + 1) (if c = 10 then line + 1 else line) else some (pos, line)) := by
  have key := loop_rounds (src := src) (f := skipSpacesN src)
    (body := fun p l => (peek src p).bind fun c =>
      some (if isSpace c then .inr (p + 1, if c = 10 then l + 1 else l) else .inl (p, l)))
    (fun _ _ => rfl) (fun n p l => by
      rw [skipSpacesN]
      cases peek src p with
      | none => rfl
      | some c =>
        simp only [Option.bind_eq_bind, Option.bind_some]
        split <;> rfl)
    (fun p _ h => by simp only [peek_none h]; rfl)
    (fun p _ q _ h => by
      obtain ⟨c, _, h⟩ := Option.bind_eq_some_iff.1 h
      split at h <;> cases h
      omega)
  unfold skipSpaces loopRounds
  rw [skipSpacesN]
  cases hc : peek src pos with
  | none => rfl
  | some c =>
    have : ¬ src.length < pos := fun h => by rw [peek_none h] at hc; cases hc
    simp only [Option.bind_eq_bind, Option.bind_some]
    split
    · exact key _ _ _ _ (by omega) (by omega) (by omega) (by omega)
    · rfl

theorem skipBlock_step (src : List UInt8) (pos line : Nat) : skipBlock src pos line = (do
    let c ← peek src pos
    if c = 0 then some (pos, line)
    else
      let line := if c = 10 then line + 1 else line
      let close ← starts src pos 42 47
      if close then some (pos + 2, line) else skipBlock src (pos + 1) line) := by
  have key := loop_rounds (src := src) (f := skipBlockN src)
    (body := fun p l => (peek src p).bind fun c =>
      if c = 0 then some (.inl (p, l)) else (starts src p 42 47).bind fun close =>
        some (if close then .inl (p + 2, if c = 10 then l + 1 else l) else .inr (p + 1, if c = 10 then l + 1 else l)))
    (fun _ _ => rfl) (fun n p l => by
      rw [skipBlockN]
      cases peek src p with
      | none => rfl
      | some c =>
        simp only [Option.bind_eq_bind, Option.bind_some]
        split
        · rfl
        · cases starts src p 42 47 with
          | none => rfl
          | some b => cases b <;> rfl)
    (fun p _ h => by simp only [peek_none h]; rfl)
    (fun p _ q _ h => by
      obtain ⟨c, _, h⟩ := Option.bind_eq_some_iff.1 h
      split at h
      · cases h
      · obtain ⟨b, _, h⟩ := Option.bind_eq_some_iff.1 h
        split at h <;> cases h
        omega)
  unfold skipBlock loopRounds
  rw [skipBlockN]
  cases hc : peek src pos with
  | none => rfl
  | some c =>
    have : ¬ src.length < pos := fun h => by rw [peek_none h] at hc; cases hc
    simp only [Option.bind_eq_bind, Option.bind_some]
    split
    · rfl
    · cases starts src pos 42 47 with
      | none => rfl
      | some b =>
        cases b
        · exact key _ _ _ _ (by omega) (by omega) (by omega) (by omega)
        · rfl

theorem getstrLoop_step (src : List UInt8) (quote : UInt8) (pos : Nat) : getstrLoop src quote pos = (do
    let c ← peek src pos
    if c = 0 ∨ c = quote then some pos
    else if c = 92 then do
      let c1 ← peek src (pos + 1)
      if c1 ≠ 0 ∧ (c1 = quote ∨ strchr [98, 102, 110, 114, 116, 118, 92] c1) then getstrLoop src quote (pos + 2)
      else getstrLoop src quote (pos + 1)
    else getstrLoop src quote (pos + 1)) := by
  have key := loop_rounds (src := src) (f := fun n p (_ : Unit) => getstrLoopN src quote n p)
    (body := fun p _ => (peek src p).bind fun c =>
      if c = 0 ∨ c = quote then some (.inl p)
      else if c = 92 then (peek src (p + 1)).bind fun c1 =>
        some (.inr (if c1 ≠ 0 ∧ (c1 = quote ∨ strchr [98, 102, 110, 114, 116, 118, 92] c1) then p + 2 else p + 1, ()))
      else some (.inr (p + 1, ())))
    (fun _ _ => rfl) (fun n p _ => by
      show getstrLoopN src quote (n + 1) p = _
      rw [getstrLoopN]
      cases peek src p with
      | none => rfl
      | some c =>
        simp only [Option.bind_eq_bind, Option.bind_some]
        split
        · rfl
        · split
          · cases peek src (p + 1) with
            | none => rfl
            | some c1 =>
              simp only [Option.bind_some]
              split <;> rfl
          · rfl)
    (fun p _ h => by simp only [peek_none h]; rfl)
    (fun p _ q _ h => by
      obtain ⟨c, _, h⟩ := Option.bind_eq_some_iff.1 h
      split at h
      · cases h
      · split at h
        · obtain ⟨c1, _, h⟩ := Option.bind_eq_some_iff.1 h
          cases h
          split <;> omega
        · cases h; omega)
  unfold getstrLoop loopRounds
  rw [getstrLoopN]
  cases hc : peek src pos with
  | none => rfl
  | some c =>
    have : ¬ src.length < pos := fun h => by rw [peek_none h] at hc; cases hc
    simp only [Option.bind_eq_bind, Option.bind_some]
    split
    · rfl
    · split
      · cases hc1 : peek src (pos + 1) with
        | none => rfl
        | some c1 =>
          have : ¬ src.length < pos + 1 := fun h => by rw [peek_none h] at hc1; cases hc1
          simp only [Option.bind_some]
          split
          · exact key _ _ _ () (by omega) (by omega) (by omega) (by omega)
          · exact key _ _ _ () (by omega) (by omega) (by omega) (by omega)
      · exact key _ _ _ () (by omega) (by omega) (by omega) (by omega)

theorem skip_step (src : List UInt8) (pos line : Nat) : skip src pos line = (do
    let (p, l) ← skipRound src pos line
    if pos < p then skip src p l else some (p, l)) := by
  have hround : ∀ p l, src.length < p → skipRound src p l = none := by
    intro p l h
    unfold skipRound
    rw [skipSpaces_step, peek_none h]; rfl
  have key := loop_rounds (src := src) (f := skipN src)
    (body := fun p l => (skipRound src p l).bind fun r => some (if p < r.1 then .inr r else .inl r))
    (fun _ _ => rfl) (fun n p l => by
      rw [skipN]
      cases skipRound src p l with
      | none => rfl
      | some r =>
        simp only [Option.bind_eq_bind, Option.bind_some]
        split <;> rfl)
    (fun p l h => by rw [hround p l h]; rfl)
    (fun p l q _ h => by
      obtain ⟨r, _, h⟩ := Option.bind_eq_some_iff.1 h
      split at h <;> cases h
      assumption)
  unfold skip loopRounds
  rw [skipN]
  cases hc : skipRound src pos line with
  | none => rfl
  | some r =>
    have : ¬ src.length < pos := fun h => by rw [hround _ _ h] at hc; cases hc
    simp only [Option.bind_eq_bind, Option.bind_some]
    split
    · exact key _ _ _ _ (by omega) (by omega) (by omega) (by omega)
    · rfl

end Mjs.Tok
