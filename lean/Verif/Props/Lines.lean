import Verif.Props.Bcode

/-!
# C43: line numbers

While code is generated, a map from offsets to lines is recorded; `mjs_get_lineno_by_offset` looks an offset up in it.
-/

namespace Mjs.Props
open Mjs Mjs.Str Mjs.Core Mjs.Code Mjs.Exec Mjs.Bcode

/-! ## Specification -/

/-- What the parser does to the code it generates: it adds bytes while it is at some line, or fills in the jump distance `v` at
the place `at_` that was kept free for it. -/
inductive Act where
  | put (line : Nat) (bytes : List UInt8)
  | patch (at_ v : Nat)

/-- The emitter doing this. -/
def act (g : Gen) : Act → Option Gen
  | .put line bs => some (Bcode.insert (addLine g line) bs)
  | .patch o v => insertOffset g o v

def acts (g : Gen) : List Act → Option Gen
  | [] => some g
  | a :: as => (act g a).bind fun g => acts g as

/-- The line the parser was at when it added byte number `b`. -/
def lineOf : List Act → Nat → Option Nat
  | [], _ => none
  | .put line bs :: as, b => if b < bs.length then some line else lineOf as (b - bs.length)
  | .patch _ _ :: as, b => lineOf as b

/-- The parser goes through the lines from `n` on without going back, and adds no empty pieces. -/
def Ascending : Nat → List Act → Prop
  | _, [] => True
  | n, .put line bs :: as => n ≤ line ∧ line < 2 ^ 31 ∧ bs ≠ [] ∧ Ascending line as
  | n, .patch _ _ :: as => Ascending n as

/-- Every jump distance fits into the one byte that was kept free. -/
def ShortJumps (as : List Act) : Prop := ∀ o v, Act.patch o v ∈ as → v < 128

/-! ## Lemmas -/

/-- The entries of the map. -/
def entries (o last : Nat) : List Act → List (Nat × Nat)
  | [] => []
  | .put line bs :: as => if last < line then (o, line) :: entries (o + bs.length) line as else entries (o + bs.length) last as
  | .patch _ _ :: as => entries o last as

def encodeMap (l : List (Nat × Nat)) : List UInt8 := l.flatMap fun e => vint e.1 ++ vint e.2

/-- The bytes added. -/
def added : List Act → Nat
  | [] => 0
  | .put _ bs :: as => bs.length + added as
  | .patch _ _ :: as => added as

theorem vint_one {v : Nat} (h : v < 128) : (vint v).length = 1 := by
  rw [vint, Varint.length_encodeBytes, Varint.llen_last v h]

theorem acts_map : ∀ (as : List Act) (g g' : Gen), ShortJumps as → g.cur = g.buf.length → g.start ≤ g.cur → acts g as = some g' →
    g'.map = g.map ++ encodeMap (entries (g.cur - g.start) g.lastLine as) ∧ g'.buf.length = g.buf.length + added as ∧ g'.start = g.start
  | [], g, g', _, _, _, h => by
    cases h
    simp [encodeMap, entries, added]
  | .put line bs :: as, g, g', hj, hc, hs, h => by
    simp only [acts, act, Option.bind_some] at h
    have hj' : ShortJumps as := fun o v hm => hj o v (by simp [hm])
    have hb : (addLine g line).buf = g.buf ∧ (addLine g line).cur = g.cur ∧ (addLine g line).start = g.start := by
      unfold addLine; split <;> exact ⟨rfl, rfl, rfl⟩
    have e := acts_map as _ g' hj' (by
      show (addLine g line).cur + bs.length = _
      simp only [Bcode.insert, hb.1, hb.2.1, hc, List.length_append, List.length_take, List.length_drop]
      omega) (by
      show (addLine g line).start ≤ (addLine g line).cur + bs.length
      rw [hb.2.1, hb.2.2]; omega) h
    have e1 : (Bcode.insert (addLine g line) bs).cur = g.cur + bs.length := by
      show (addLine g line).cur + bs.length = _; rw [hb.2.1]
    have e2 : (Bcode.insert (addLine g line) bs).start = g.start := hb.2.2
    have e3 : (Bcode.insert (addLine g line) bs).buf.length = g.buf.length + bs.length := by
      simp only [Bcode.insert, hb.1, hb.2.1, hc, List.length_append, List.length_take, List.length_drop]
      omega
    rw [e1, e2, e3] at e
    refine ⟨?_, by rw [e.2.1]; simp only [added]; omega, e.2.2⟩
    rw [e.1]
    have e4 : (Bcode.insert (addLine g line) bs).map = (addLine g line).map := rfl
    have e5 : (Bcode.insert (addLine g line) bs).lastLine = (addLine g line).lastLine := rfl
    rw [e4, e5, show g.cur + bs.length - g.start = g.cur - g.start + bs.length by omega]
    unfold addLine
    simp only [entries]
    split
    · simp [encodeMap]
    · rfl
  | .patch o v :: as, g, g', hj, hc, hs, h => by
    simp only [acts, act, Option.bind_eq_some_iff] at h
    obtain ⟨g1, h1, h⟩ := h
    have hj' : ShortJumps as := fun o v hm => hj o v (by simp [hm])
    have hv := vint_one (hj o v (by simp))
    unfold insertOffset at h1
    split at h1
    · rename_i ho
      cases h1
      have hlen : (g.buf.take o ++ vint v ++ g.buf.drop (o + initOffsetSize)).length = g.buf.length := by
        simp only [List.length_append, List.length_take, List.length_drop, hv, initOffsetSize]
        omega
      have hcur : (if g.cur ≥ o then g.cur + (vint v).length - initOffsetSize else g.cur) = g.cur := by
        rw [hv]; simp [initOffsetSize]
      have e := acts_map as _ g' hj' (by simp only [hcur, hlen]; exact hc) (by simp only [hcur]; exact hs) h
      simp only [hcur, hlen] at e
      exact e
    · cases h1

theorem entries_ge : ∀ (as : List Act) (o last : Nat), ∀ e ∈ entries o last as, o ≤ e.1
  | [], _, _, e, h => by cases h
  | .put line bs :: as, o, last, e, h => by
    simp only [entries] at h
    split at h
    · rcases List.mem_cons.1 h with rfl | h
      · exact Nat.le_refl _
      · have := entries_ge as _ _ e h; omega
    · have := entries_ge as _ _ e h; omega
  | .patch _ _ :: as, o, last, e, h => entries_ge as o last e h

theorem entries_small : ∀ (as : List Act) (n o last : Nat), Ascending n as → ∀ e ∈ entries o last as,
    e.1 ≤ o + added as ∧ e.2 < 2 ^ 31
  | [], _, _, _, _, e, h => by cases h
  | .put line bs :: as, n, o, last, ha, e, h => by
    obtain ⟨_, h2, _, ha⟩ := ha
    simp only [entries] at h
    simp only [added]
    split at h
    · rcases List.mem_cons.1 h with rfl | h
      · exact ⟨by simp, h2⟩
      · have := entries_small as _ _ _ ha e h; omega
    · have := entries_small as _ _ _ ha e h; omega
  | .patch _ _ :: as, n, o, last, ha, e, h => entries_small as n o last ha e h

/-- The lookup. -/
def look (off prev : Nat) : List (Nat × Nat) → Nat
  | [] => 1
  | (o, l) :: r => if o ≥ off then prev else look off l r

theorem look_ge (off prev : Nat) : ∀ l : List (Nat × Nat), (∀ e ∈ l, off ≤ e.1) → l ≠ [] → look off prev l = prev
  | [], _, h => absurd rfl h
  | e :: l, h, _ => by
    obtain ⟨o, ln⟩ := e
    have := h (o, ln) (by simp)
    simp only [look, ge_iff_le, this, if_true]

/-- There is an entry as soon as a later line was reached. -/
theorem entries_ne : ∀ (as : List Act) (o last b L : Nat), Ascending last as → lineOf as b = some L → last < L → entries o last as ≠ []
  | [], _, _, _, _, _, h, _ => by cases h
  | .put line bs :: as, o, last, b, L, ha, h, hL => by
    simp only [entries]
    split
    · simp
    · rename_i hn
      simp only [lineOf] at h
      obtain ⟨h1, _, _, ha⟩ := ha
      have : line = last := by omega
      subst this
      split at h
      · cases h; omega
      · exact entries_ne as _ _ _ L ha h hL
  | .patch _ _ :: as, o, last, b, L, ha, h, hL => entries_ne as o last b L ha h hL

theorem entries_nil : ∀ (as : List Act) (o last : Nat), Ascending last as → (∀ b L, lineOf as b = some L → L ≤ last) →
    entries o last as = []
  | [], _, _, _, _ => rfl
  | .put line bs :: as, o, last, ha, h => by
    obtain ⟨h1, _, h3, ha⟩ := ha
    have hp := List.length_pos_iff.2 h3
    have hl := h 0 line (by simp only [lineOf, hp, if_true])
    have : line = last := by omega
    subst this
    simp only [entries, Nat.lt_irrefl, if_false]
    refine entries_nil as _ _ ha fun b L hb => h (b + bs.length) L ?_
    simp only [lineOf]
    rw [if_neg (by omega), Nat.add_sub_cancel]
    exact hb
  | .patch _ _ :: as, o, last, ha, h => entries_nil as o last ha h

open Classical in
/-- Looking up the offset after byte `b`. -/
theorem look_entries : ∀ (as : List Act) (o last b L : Nat), Ascending last as → lineOf as b = some L →
    look (o + b + 1) last (entries o last as) = if ∃ b' L', b < b' ∧ lineOf as b' = some L' ∧ L < L' then L else 1
  | [], _, _, _, _, _, h => by cases h
  | .put line bs :: as, o, last, b, L, ha, h => by
    obtain ⟨h1, _, h3, ha⟩ := ha
    have key : look (o + b + 1) line (entries (o + bs.length) line as) =
        if ∃ b' L', b < b' ∧ lineOf (.put line bs :: as) b' = some L' ∧ L < L' then L else 1 := by
      simp only [lineOf] at h
      split at h
      · rename_i hb
        cases h
        split
        · rename_i hex
          obtain ⟨b', L', hlt, hl, hLL⟩ := hex
          simp only [lineOf] at hl
          split at hl
          · cases hl; omega
          · exact look_ge _ _ _ (fun e he => by have := entries_ge as _ _ e he; omega) (entries_ne as _ _ _ _ ha hl hLL)
        · rename_i hex
          rw [entries_nil as _ _ ha]
          · rfl
          · intro b' L' hl
            refine Nat.le_of_not_lt fun hlt => hex ⟨b' + bs.length, L', by omega, ?_, hlt⟩
            simp only [lineOf]
            rw [if_neg (by omega), Nat.add_sub_cancel]
            exact hl
      · rename_i hb
        have ih := look_entries as (o + bs.length) line (b - bs.length) L ha h
        rw [show o + bs.length + (b - bs.length) + 1 = o + b + 1 by omega] at ih
        rw [ih]
        have : (∃ b' L', b - bs.length < b' ∧ lineOf as b' = some L' ∧ L < L') ↔
            ∃ b' L', b < b' ∧ lineOf (.put line bs :: as) b' = some L' ∧ L < L' := by
          constructor
          · rintro ⟨b', L', h1, h2, h3⟩
            refine ⟨b' + bs.length, L', by omega, ?_, h3⟩
            simp only [lineOf]
            rw [if_neg (by omega), Nat.add_sub_cancel]
            exact h2
          · rintro ⟨b', L', h1, h2, h3⟩
            refine ⟨b' - bs.length, L', by omega, ?_, h3⟩
            simp only [lineOf] at h2
            rw [if_neg (by omega)] at h2
            exact h2
        simp only [this]
    simp only [entries]
    split
    · simp only [look]
      rw [if_neg (by omega)]
      exact key
    · have : line = last := by omega
      subst this
      exact key
  | .patch _ _ :: as, o, last, b, L, ha, h => look_entries as o last b L ha h

theorem lineLoop_spec (data : List UInt8) (off : Nat) : ∀ (l : List (Nat × Nat)) (i prev : Nat) (rest : List UInt8),
    data.drop i = encodeMap l ++ rest → (∀ e ∈ l, e.1 < 2 ^ 31 ∧ e.2 < 2 ^ 31) →
    lineLoop data i (i + (encodeMap l).length) off prev = some (look off prev l : Int)
  | [], i, prev, rest, h, _ => by
    rw [lineLoop]
    simp [encodeMap, look]
  | (o, ln) :: l, i, prev, rest, h, hs => by
    have e0 : encodeMap ((o, ln) :: l) = vint o ++ (vint ln ++ encodeMap l) := by simp [encodeMap]
    obtain ⟨s1, s2⟩ := hs (o, ln) (by simp)
    simp only at s1 s2
    have p1 : Placed ⟨0, data, none⟩ i (vint o ++ (vint ln ++ encodeMap l)) := ⟨rest, by rw [← e0]; exact h⟩
    have o1 := operand_vint p1 (by omega)
    have p2 : Placed ⟨0, data, none⟩ (i + (vint o).length) (vint ln ++ encodeMap l) := p1.right
    have o2 := operand_vint p2 (by omega)
    have q1 := vint_pos o
    rw [lineLoop, e0]
    simp only [List.length_append]
    rw [if_pos (by omega)]
    simp only at o1 o2
    rw [o1]
    simp only [Option.bind_eq_bind, Option.bind_some]
    rw [o2]
    simp only [Option.bind_some, look]
    split
    · rfl
    · rw [cInt_small s2]
      have := lineLoop_spec data off l (i + (vint o).length + (vint ln).length) ln rest (by
        rw [← List.drop_drop, ← List.drop_drop, h, e0]
        simp) (fun e he => hs e (by simp [he]))
      rw [← this]
      congr 1
      omega

theorem lineOf_lt : ∀ (as : List Act) (b L : Nat), lineOf as b = some L → b < added as
  | [], _, _, h => by cases h
  | .put line bs :: as, b, L, h => by
    simp only [lineOf] at h
    simp only [added]
    split at h
    · omega
    · have := lineOf_lt as _ _ h; omega
  | .patch _ _ :: as, b, L, h => lineOf_lt as b L h

theorem lineno_assemble {vm : Vm} {p : Part} {path code : List UInt8} {l : List (Nat × Nat)} {b : Nat}
    (hl : ∀ e ∈ l, e.1 < 2 ^ 31 ∧ e.2 < 2 ^ 31) (hp : p.data = assemble path code (encodeMap l)) (hsm : p.data.length < 2 ^ 31)
    (hat : partAt vm (p.startIdx + 14 + path.length + b + 1) = some p) (hbl : b < code.length) :
    lineno vm (p.startIdx + 14 + path.length + b + 1) = some (look (b + 1) 1 l : Int) := by
  generalize hmap : encodeMap l = map at hp
  have hplen := congrArg List.length hp
  simp only [assemble, header, u32, List.length_append, List.length_cons, List.length_nil] at hplen
  have hw : wrap (((p.startIdx + 14 + path.length + b + 1 : Nat) : Int) - (1 + (12 + path.length + 1) + p.startIdx : Nat)) = b + 1 := by
    have : (((p.startIdx + 14 + path.length + b + 1 : Nat) : Int) - (1 + (12 + path.length + 1) + p.startIdx : Nat)) = ((b + 1 : Nat) : Int) := by
      omega
    rw [this, wrap_nat _ (by omega)]
  have hd1 : hdrItem p 1 = some (12 + path.length + 1) := by
    have : bytesAt p.data 5 4 = some (u32 (12 + path.length + 1)) := by
      rw [hp]; unfold bytesAt assemble header u32; simp
    show (bytesAt p.data 5 4).map packLE = _
    rw [this, Option.map_some, packLE_u32 _ (by omega)]
  have hd2 : hdrItem p 2 = some (12 + path.length + 1 + code.length) := by
    have : bytesAt p.data 9 4 = some (u32 (12 + path.length + 1 + code.length)) := by
      rw [hp]; unfold bytesAt assemble header u32; simp
    show (bytesAt p.data 9 4).map packLE = _
    rw [this, Option.map_some, packLE_u32 _ (by omega)]
  have hdrop : p.data.drop (1 + (12 + path.length + 1 + code.length)) = vint map.length ++ map := by
    rw [hp]
    unfold assemble
    have e : ∀ t m, (header path t m ++ code).length = 1 + (12 + path.length + 1 + code.length) := by
      intro t m; simp only [header, u32, List.length_append, List.length_cons, List.length_nil]; omega
    simp only [List.append_assoc (header _ _ _ ++ code)]
    rw [← e, List.drop_left]
  have hop : operand p.data (1 + (12 + path.length + 1 + code.length)) = some (map.length, (vint map.length).length) :=
    operand_vint (c := map) ⟨[], by rw [hdrop]; simp⟩ (by omega)
  unfold lineno
  rw [hat]
  simp only [hd1, hd2, Option.bind_eq_bind, Option.bind_some, hop, hw]
  rw [← hmap]
  refine lineLoop_spec p.data (b + 1) l _ 1 [] ?_ hl
  rw [← List.drop_drop, hmap, hdrop, List.drop_left]; simp

theorem lineno_spec {vm : Vm} {p : Part} {path : List UInt8} {as : List Act} {g0 g : Gen} {b L : Nat}
    (h0 : g0.cur = g0.buf.length) (h1 : g0.start = g0.cur) (h2 : g0.map = []) (h3 : g0.lastLine = 1)
    (hg : acts g0 as = some g) (ha : Ascending 1 as) (hj : ShortJumps as)
    (hp : p.data = assemble path (g.buf.drop g.start) g.map) (hsm : p.data.length < 2 ^ 31)
    (hat : partAt vm (p.startIdx + 14 + path.length + b + 1) = some p) (hb : lineOf as b = some L) :
    lineno vm (p.startIdx + 14 + path.length + b + 1) = some (look (b + 1) 1 (entries 0 1 as) : Int) := by
  obtain ⟨e1, e2, e3⟩ := acts_map as g0 g hj h0 (by omega) hg
  rw [h1, Nat.sub_self, h2, h3, List.nil_append] at e1
  have hbl := lineOf_lt as b L hb
  have hcl : (g.buf.drop g.start).length = added as := by rw [List.length_drop, e2, e3, h1, h0]; omega
  rw [e1] at hp
  have hplen := congrArg List.length hp
  simp only [assemble, header, u32, List.length_append, List.length_cons, List.length_nil, hcl] at hplen
  refine lineno_assemble ?_ hp hsm hat (by omega)
  intro e he
  have := entries_small as 1 0 1 ha e he
  omega

/-! ## The property -/

/-- The parser began a script when it was at line 1, did these actions, and the code it made is loaded as part `p` of the
engine. -/
structure Generated (path : List UInt8) (as : List Act) (p : Part) : Prop where
  made : ∃ g0 g : Gen, g0.cur = g0.buf.length ∧ g0.start = g0.cur ∧ g0.map = [] ∧ g0.lastLine = 1 ∧ acts g0 as = some g ∧
    p.data = assemble path (g.buf.drop g.start) g.map
  small : p.data.length < 2 ^ 31

/-- **C43, for code with short jumps, generated line by line, and not for the last line.**  The line reported for the offset behind
byte number `b` of the code is the line the parser was at when it added that byte, if it came to a later line afterwards.

What is missing: on the last line the answer is wrong (`C43_last_line_is_reported_as_1`), and so it is after a jump over more than 127
bytes (`C43_long_jumps_shift_lines`). -/
theorem C43_line_partial {vm : Vm} {p : Part} {path : List UInt8} {as : List Act} {b L b' L' : Nat} (hg : Generated path as p)
    (ha : Ascending 1 as) (hj : ShortJumps as) (hat : partAt vm (p.startIdx + 14 + path.length + b + 1) = some p)
    (hb : lineOf as b = some L) (hlt : b < b') (hb' : lineOf as b' = some L') (hL : L < L') :
    lineno vm (p.startIdx + 14 + path.length + b + 1) = some (L : Int) := by
  obtain ⟨⟨g0, g, h0, h1, h2, h3, h4, h5⟩, hs⟩ := hg
  rw [lineno_spec h0 h1 h2 h3 h4 ha hj h5 hs hat hb]
  have := look_entries as 0 1 b L ha hb
  rw [Nat.zero_add] at this
  rw [this, if_pos ⟨b', L', hlt, hb', hL⟩]

/-- **C43 fails on the last line.** If the parser came to no later line after byte `b`, the line reported behind it is 1, whatever the
line was. -/
theorem C43_last_line_is_reported_as_1 {vm : Vm} {p : Part} {path : List UInt8} {as : List Act} {b L : Nat} (hg : Generated path as p)
    (ha : Ascending 1 as) (hj : ShortJumps as) (hat : partAt vm (p.startIdx + 14 + path.length + b + 1) = some p)
    (hb : lineOf as b = some L) (hlast : ∀ b' L', b < b' → lineOf as b' = some L' → L' ≤ L) :
    lineno vm (p.startIdx + 14 + path.length + b + 1) = some 1 := by
  obtain ⟨⟨g0, g, h0, h1, h2, h3, h4, h5⟩, hs⟩ := hg
  rw [lineno_spec h0 h1 h2 h3 h4 ha hj h5 hs hat hb]
  have := look_entries as 0 1 b L ha hb
  rw [Nat.zero_add] at this
  rw [this, if_neg]
  · rfl
  · rintro ⟨b', L', h1, h2, h3⟩
    have := hlast b' L' h1 h2
    omega

/-- `1;` on line 1, `2;` on line 2 and `3;` on line 3, the second inside of a conditional: the hypotheses of both theorems hold, for
the lines 2 and 3. -/
def demoActs : List Act := [.put 1 [PUSH_INT], .put 1 [1], .put 1 [JMP_FALSE], .put 1 [0], .put 2 [DROP], .put 2 [PUSH_INT], .put 2 [2],
  .patch 3 3, .put 3 [DROP], .put 3 [PUSH_INT], .put 3 [3], .put 3 [EXIT]]

theorem lineOf_le : ∀ (as : List Act) (n : Nat), (∀ line bs, Act.put line bs ∈ as → line ≤ n) → ∀ b L, lineOf as b = some L → L ≤ n
  | [], _, _, _, _, h => by cases h
  | .put line bs :: as, n, hn, b, L, h => by
    simp only [lineOf] at h
    split at h
    · cases h; exact hn _ bs (by simp)
    · exact lineOf_le as n (fun l bs h => hn l bs (by simp [h])) _ L h
  | .patch _ _ :: as, n, hn, b, L, h => lineOf_le as n (fun l bs h => hn l bs (by simp [h])) b L h

theorem partAt_first {vm0 : Vm} (h1 : vm0.parts = []) (h2 : vm0.bcodeLen = 0) {bytes : List UInt8} {off : Nat} (h : off < bytes.length) :
    partAt (commit vm0 bytes) off = some ⟨0, bytes, none⟩ := by
  have e : (commit vm0 bytes).parts = [⟨0, bytes, none⟩] := by simp [commit, h1, h2]
  have e' : (commit vm0 bytes).bcodeLen = bytes.length := by simp [commit, h2]
  unfold partAt partIdx
  rw [e, e', if_neg (by omega)]
  simp [List.findIdx?_cons, h]

example (vm0 : Vm) (h1 : vm0.parts = []) (h2 : vm0.bcodeLen = 0) : ∃ p : Part, Generated [] demoActs p ∧
    lineno (commit vm0 p.data) 20 = some 2 ∧ lineno (commit vm0 p.data) 24 = some 1 ∧ lineOf demoActs 9 = some 3 := by
  obtain ⟨g, hg⟩ : ∃ g, acts {} demoActs = some g := by
    cases h : acts {} demoActs with
    | none => exact absurd h (by simp [acts, act, demoActs, insertOffset, Bcode.insert, addLine])
    | some g => exact ⟨g, rfl⟩
  have hlen : (acts {} demoActs).map (fun g => (assemble [] (g.buf.drop g.start) g.map).length) = some 30 := by decide +kernel
  rw [hg] at hlen
  simp only [Option.map_some, Option.some.injEq] at hlen
  generalize hb : assemble [] (g.buf.drop g.start) g.map = bytes at hlen
  have hG : Generated [] demoActs ⟨0, bytes, none⟩ :=
    ⟨⟨{}, g, rfl, rfl, rfl, rfl, hg, hb.symm⟩, by simp only [hlen]; omega⟩
  have ha : Ascending 1 demoActs := by simp [Ascending, demoActs]
  have hj : ShortJumps demoActs := by
    intro o v h
    simp [demoActs] at h
    omega
  have l5 : lineOf demoActs 5 = some 2 := by simp [lineOf, demoActs]
  have l8 : lineOf demoActs 8 = some 3 := by simp [lineOf, demoActs]
  have l9 : lineOf demoActs 9 = some 3 := by simp [lineOf, demoActs]
  refine ⟨⟨0, bytes, none⟩, hG, ?_, ?_, l9⟩
  · have hat : partAt (commit vm0 bytes) 20 = some ⟨0, bytes, none⟩ := partAt_first h1 h2 (by omega)
    exact C43_line_partial (vm := commit vm0 bytes) (b := 5) (b' := 8) (L := 2) (L' := 3) hG ha hj hat l5 (by omega) l8 (by omega)
  · have hat : partAt (commit vm0 bytes) 24 = some ⟨0, bytes, none⟩ := partAt_first h1 h2 (by omega)
    refine C43_last_line_is_reported_as_1 (vm := commit vm0 bytes) (b := 9) (L := 3) hG ha hj hat l9 ?_
    intro b' L' _ h
    exact lineOf_le demoActs 3 (by simp [demoActs]; omega) b' L' h

/-- The body of a jump over 131 bytes. -/
def longActs : List Act := [.put 1 [JMP], .put 1 [0], .put 2 (List.replicate 130 NOP), .put 3 [DUP], .patch 1 131, .put 4 [EXIT]]

/-- **C43 fails behind long jumps.** The distance of a jump over more than 127 bytes takes two bytes, which moves the code after it
but not the entries of the line map: here the last byte that was added at line 2 is byte 132 of the code, and the line reported
behind it is 3. -/
theorem C43_long_jumps_shift_lines (vm0 : Vm) (h1 : vm0.parts = []) (h2 : vm0.bcodeLen = 0) : ∃ p g, acts {} longActs = some g ∧
    Generated [] longActs p ∧ p.data = assemble [] g.buf g.map ∧
    (g.buf.drop 3).take 130 = List.replicate 130 NOP ∧ g.buf[133]? = some DUP ∧
    lineno (commit vm0 p.data) (14 + 132 + 1) = some 3 := by
  obtain ⟨g, hg⟩ : ∃ g, acts {} longActs = some g := by
    cases h : acts {} longActs with
    | none => exact absurd h (by simp [acts, act, longActs, insertOffset, Bcode.insert, addLine])
    | some g => exact ⟨g, rfl⟩
  have d1 : (acts {} longActs).map (fun g => (assemble [] g.buf g.map).length) = some 158 := by decide +kernel
  have d2 : (acts {} longActs).map (fun g => g.start) = some 0 := by decide +kernel
  have d3 : (acts {} longActs).map (fun g => (g.buf.drop 3).take 130) = some (List.replicate 130 NOP) := by decide +kernel
  have d4 : (acts {} longActs).map (fun g => g.buf[133]?) = some (some DUP) := by decide +kernel
  have d5 : (acts {} longActs).map (fun g => g.map) = some (encodeMap [(2, 2), (132, 3), (134, 4)]) := by decide +kernel
  have d6 : (acts {} longActs).map (fun g => g.buf.length) = some 135 := by decide +kernel
  rw [hg] at d1 d2 d3 d4 d5 d6
  simp only [Option.map_some, Option.some.injEq] at d1 d2 d3 d4 d5 d6
  generalize hb : assemble [] g.buf g.map = bytes at d1
  refine ⟨⟨0, bytes, none⟩, g, hg, ⟨⟨{}, g, rfl, rfl, rfl, rfl, hg, by rw [d2]; exact hb.symm⟩, by simp only [d1]; omega⟩, hb.symm, d3, d4, ?_⟩
  have hat : partAt (commit vm0 bytes) 147 = some ⟨0, bytes, none⟩ := partAt_first h1 h2 (by omega)
  exact lineno_assemble (vm := commit vm0 bytes) (b := 132) (path := []) (p := ⟨0, bytes, none⟩) (l := [(2, 2), (132, 3), (134, 4)])
    (by decide) (by rw [← d5]; exact hb.symm) (by simp only [d1]; omega) hat (by omega)

end Mjs.Props
