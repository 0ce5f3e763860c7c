import Verif.Spec.Grammar
import Verif.Lemmas.TokNext

/-!
Steps of the parser on a text given by its tokens.
-/

namespace Mjs.Parse
open Mjs Mjs.Tok Mjs.Exec Mjs.Code Mjs.Bcode Mjs.Parser Mjs.Grammar

/-- The parser is before the tokens `ts`, the one before was `p`, its count is `D`; the code generated so far is `pre`, before
`post`. -/
structure At (E : Env) (src : List UInt8) (start p D : Nat) (ts : List Token) (pre post : List UInt8) (s : PS) : Prop where
  prev : s.tk.prevTok = p
  depth : s.depth = D
  reads : Reads E src s.tk ts
  buf : s.gen.buf = pre ++ post
  cur : s.gen.cur = pre.length
  start : s.gen.start = start
  len : ts.length ≤ src.length + 2

/-- With enough room on the C stack. -/
def Ev {α : Type} (m : Nat → M α) (s : PS) (a : α) (s' : PS) : Prop := ∃ d0, ∀ d, d0 ≤ d → m d s = .ok a s'

/-- From `P` the program ends with a result and state in `Q`. -/
def Tr {α : Type} (P : PS → Prop) (m : Nat → M α) (Q : α → PS → Prop) : Prop := ∀ s, P s → ∃ a s', Ev m s a s' ∧ Q a s'

theorem bind_ok {α β : Type} {m : M α} {f : α → M β} {s s' : PS} {a : α} (h : m s = .ok a s') : (m >>= f) s = f a s' := by
  show M.bind m f s = _
  simp only [M.bind, h]

theorem Tr.bind {α β : Type} {P : PS → Prop} {m : Nat → M α} {f : Nat → α → M β} {R : α → PS → Prop} {Q : β → PS → Prop}
    (h1 : Tr P m R) (h2 : ∀ a, Tr (R a) (fun d => f d a) Q) : Tr P (fun d => m d >>= f d) Q := by
  intro s hs
  obtain ⟨a, s1, ⟨d1, e1⟩, hr⟩ := h1 s hs
  obtain ⟨b, s2, ⟨d2, e2⟩, hq⟩ := h2 a s1 hr
  refine ⟨b, s2, ⟨max d1 d2, fun d hd => ?_⟩, hq⟩
  exact (bind_ok (e1 d (by omega))).trans (e2 d (by omega))

theorem Tr.pure {α : Type} {P : PS → Prop} (a : α) {Q : α → PS → Prop} (h : ∀ s, P s → Q a s) : Tr P (fun _ => M.pure a) Q :=
  fun s hs => ⟨a, s, ⟨0, fun _ _ => rfl⟩, h s hs⟩

theorem Tr.mono {α : Type} {P P' : PS → Prop} {m : Nat → M α} {Q Q' : α → PS → Prop} (h : Tr P m Q) (hp : ∀ s, P' s → P s)
    (hq : ∀ a s, Q a s → Q' a s) : Tr P' m Q' := fun s hs =>
  let ⟨a, s', e, q⟩ := h s (hp s hs)
  ⟨a, s', e, hq a s' q⟩

/-- A call. -/
theorem Tr.call {E : Env} {src : List UInt8} {P : PS → Prop} {nt : NT} {Q : Unit → PS → Prop}
    (h : Tr P (fun d => body E src (parse E src d) nt) Q) : Tr P (fun d => parse E src d nt) Q := fun s hs =>
  let ⟨a, s', ⟨d0, e⟩, q⟩ := h s hs
  ⟨a, s', ⟨d0 + 1, fun d hd => by
    obtain ⟨d', rfl⟩ : ∃ d', d = d' + 1 := ⟨d - 1, by omega⟩
    exact e d' (by omega)⟩, q⟩

section
variable {E : Env} {src : List UInt8} {start p D : Nat} {ts : List Token} {pre post : List UInt8}

theorem Tr.attempt {P : PS → Prop} {m : Nat → M Unit} {Q : Unit → PS → Prop} (h : Tr P m Q) :
    Tr P (fun d => attempt (m d)) (fun b s => b = true ∧ Q () s) := fun s hs =>
  let ⟨a, s', ⟨d0, e⟩, q⟩ := h s hs
  ⟨true, s', ⟨d0, fun d hd => by simp only [Parser.attempt, e d hd]⟩, rfl, q⟩

theorem Tr.when_true {P : PS → Prop} {m : Nat → M Unit} {Q : Unit → PS → Prop} {c : Bool} (hc : c = true) (h : Tr P m Q) :
    Tr P (fun d => when c (m d)) Q := by
  subst hc; exact h

theorem Tr.when_false {P : PS → Prop} {m : Nat → M Unit} {c : Bool} (hc : c = false) :
    Tr P (fun d => when c (m d)) (fun _ => P) := by
  subst hc; exact Tr.pure () fun _ h => h

/-- `get`: what is known of the state can be used. -/
theorem Tr.get {β : Type} {P : PS → Prop} {f : Nat → PS → M β} {Q : β → PS → Prop}
    (h : ∀ s, P s → Tr P (fun d => f d s) Q) : Tr P (fun d => Parser.get >>= f d) Q := by
  intro s hs
  obtain ⟨b, s2, ⟨d2, e2⟩, hq⟩ := h s hs s hs
  exact ⟨b, s2, ⟨d2, fun d hd => (bind_ok (m := Parser.get) (a := s) (s' := s) rfl).trans (e2 d hd)⟩, hq⟩

theorem Tr.curIdx {β : Type} {f : Nat → Nat → M β} {Q : β → PS → Prop}
    (h : Tr (At E src start p D ts pre post) (fun d => f d pre.length) Q) :
    Tr (At E src start p D ts pre post) (fun d => Parser.curIdx >>= f d) Q := by
  intro s hs
  obtain ⟨b, s2, ⟨d2, e2⟩, hq⟩ := h s hs
  refine ⟨b, s2, ⟨d2, fun d hd => ?_⟩, hq⟩
  exact (bind_ok (m := Parser.curIdx) (a := pre.length) (s' := s) (by simp only [Parser.curIdx, hs.cur])).trans (e2 d hd)

theorem addLine_gen (g : Gen) (line : Nat) :
    (addLine g line).buf = g.buf ∧ (addLine g line).cur = g.cur ∧ (addLine g line).start = g.start := by
  unfold addLine; split <;> exact ⟨rfl, rfl, rfl⟩

theorem At.put {s : PS} (h : At E src start p D ts pre post s) (bs : List UInt8) {g : Gen} (h1 : g.buf = s.gen.buf)
    (h2 : g.cur = s.gen.cur) (h3 : g.start = s.gen.start) :
    At E src start p D ts (pre ++ bs) post { s with gen := Bcode.insert g bs } where
  prev := h.prev
  depth := h.depth
  reads := h.reads
  buf := by
    simp only [Bcode.insert, h1, h2, h.buf, h.cur]
    rw [List.take_left, List.drop_left]
  cur := by simp only [Bcode.insert, h2, h.cur, List.length_append]
  start := by rw [← h.start, ← h3]; rfl
  len := h.len

theorem Tr.emit (b : UInt8) :
    Tr (At E src start p D ts pre post) (fun _ => Parser.emit b) (fun _ => At E src start p D ts (pre ++ [b]) post) :=
  fun _ h => ⟨(), _, ⟨0, fun _ _ => rfl⟩, h.put [b] (addLine_gen _ _).1 (addLine_gen _ _).2.1 (addLine_gen _ _).2.2⟩

theorem Tr.emitN (n : Nat) :
    Tr (At E src start p D ts pre post) (fun _ => Parser.emitN n) (fun _ => At E src start p D ts (pre ++ vint n) post) :=
  fun _ h => ⟨(), _, ⟨0, fun _ _ => rfl⟩, h.put (vint n) (addLine_gen _ _).1 (addLine_gen _ _).2.1 (addLine_gen _ _).2.2⟩

theorem Tr.emitS (t : List UInt8) :
    Tr (At E src start p D ts pre post) (fun _ => Parser.emitS t) (fun _ => At E src start p D ts (pre ++ strB t) post) :=
  fun _ h => ⟨(), _, ⟨0, fun _ _ => rfl⟩, h.put (strB t) (addLine_gen _ _).1 (addLine_gen _ _).2.1 (addLine_gen _ _).2.2⟩

theorem Tr.emitOp (tok : Nat) (ht : tok ≤ 255) :
    Tr (At E src start p D ts pre post) (fun _ => Parser.emitOp tok)
      (fun _ => At E src start p D ts (pre ++ [EXPR, UInt8.ofNat tok]) post) := by
  simp only [Parser.emitOp, ht, if_true]
  refine Tr.bind (Tr.emit _) fun _ => (Tr.emit _).mono (fun _ h => h) fun _ s h => ?_
  simpa using h

theorem Tr.patch (a mid : List UInt8) (b : UInt8) (v : Nat) :
    Tr (At E src start p D ts (a ++ b :: mid) post) (fun _ => Parser.patch a.length v)
      (fun r s => r = (vint v).length - 1 ∧ At E src start p D ts (a ++ vint v ++ mid) post s) := by
  intro s h
  have hb : a.length < s.gen.buf.length := by rw [h.buf]; simp
  refine ⟨_, _, ⟨0, fun _ _ => by simp only [Parser.patch, insertOffset, hb, if_true]; rfl⟩, rfl, ?_⟩
  exact {
    prev := h.prev, depth := h.depth, reads := h.reads, start := h.start, len := h.len
    buf := by
      show s.gen.buf.take a.length ++ vint v ++ s.gen.buf.drop (a.length + 1) = _
      rw [h.buf]
      have : a ++ b :: mid ++ post = a ++ (b :: (mid ++ post)) := by simp
      rw [this, List.take_left, ← List.drop_drop, List.drop_left]
      simp
    cur := by
      have h1 : s.gen.cur ≥ a.length := by rw [h.cur]; simp
      show (if s.gen.cur ≥ a.length then s.gen.cur + (vint v).length - initOffsetSize else s.gen.cur) = _
      rw [if_pos h1, h.cur]
      simp only [initOffsetSize, List.length_append, List.length_cons]
      omega }

/-! ## Tokens -/

theorem At.tok {s : PS} {t : Token} (h : At E src start p D (t :: ts) pre post s) : s.tok = t.kind := by
  have := h.reads.1
  cases t <;> exact this.1

theorem At.is {s : PS} {t : Token} (h : At E src start p D (t :: ts) pre post s) : Is E src s.tk t := h.reads.1

theorem At.next {s : PS} {t u : Token} (h : At E src start p D (t :: u :: ts) pre post s) :
    ∃ st, pnext src s.tk = some st ∧ At E src start t.kind D (u :: ts) pre post { s with tk := st } := by
  obtain ⟨hi, hr⟩ := h.reads
  rw [if_neg (by simp)] at hr
  obtain ⟨_, st, hn, hr⟩ := hr
  refine ⟨st, hn, ⟨?_, h.depth, hr, h.buf, h.cur, h.start, ?_⟩⟩
  · have : st.prevTok = s.tk.tok := by
      unfold pnext at hn
      simp only [Option.bind_eq_bind, Option.bind_eq_some_iff] at hn
      obtain ⟨a, _, b, _, c, _, hn⟩ := hn
      cases hn; rfl
    show st.prevTok = _
    rw [this]; exact h.tok
  · have := h.len
    simp only [List.length_cons] at this ⊢
    omega

theorem Tr.next {t u : Token} :
    Tr (At E src start p D (t :: u :: ts) pre post) (fun _ => Parser.next src)
      (fun _ => At E src start t.kind D (u :: ts) pre post) := by
  intro s h
  obtain ⟨st, hn, ha⟩ := h.next
  exact ⟨(), _, ⟨0, fun _ _ => by simp only [Parser.next, hn]⟩, ha⟩

theorem Tr.expect {t u : Token} {k : Nat} (hk : t.kind = k) :
    Tr (At E src start p D (t :: u :: ts) pre post) (fun _ => Parser.expect src k)
      (fun _ => At E src start k D (u :: ts) pre post) := by
  intro s h
  obtain ⟨a, s', ⟨d0, e⟩, q⟩ := Tr.next s h
  refine ⟨a, s', ⟨d0, fun d hd => ?_⟩, hk ▸ q⟩
  rw [← e d hd]
  simp only [Parser.expect, h.tok, hk, ne_eq, not_true, if_false]

theorem Tr.next_ne {t : Token} (h : ts ≠ []) :
    Tr (At E src start p D (t :: ts) pre post) (fun _ => Parser.next src) (fun _ => At E src start t.kind D ts pre post) := by
  cases ts with
  | nil => exact absurd rfl h
  | cons u ts => exact Tr.next

theorem Tr.expect_ne {t : Token} {k : Nat} (hk : t.kind = k) (h : ts ≠ []) :
    Tr (At E src start p D (t :: ts) pre post) (fun _ => Parser.expect src k) (fun _ => At E src start k D ts pre post) := by
  cases ts with
  | nil => exact absurd rfl h
  | cons u ts => exact Tr.expect hk

theorem Tr.ptest {β : Type} {t u : Token} {f : Nat → Nat → M β} {Q : β → PS → Prop}
    (h : Tr (At E src start p D (t :: u :: ts) pre post) (fun d => f d u.kind) Q) :
    Tr (At E src start p D (t :: u :: ts) pre post) (fun d => Parser.ptest src >>= f d) Q := by
  intro s hs
  obtain ⟨st, hn, ha⟩ := hs.next
  obtain ⟨b, s2, ⟨d2, e2⟩, hq⟩ := h s hs
  refine ⟨b, s2, ⟨d2, fun d hd => ?_⟩, hq⟩
  have : st.tok = u.kind := ha.tok
  exact (bind_ok (m := Parser.ptest src) (a := u.kind) (s' := s) (by simp only [Parser.ptest, hn, this])).trans (e2 d hd)

theorem Tr.modDepth (f : Nat → Nat) :
    Tr (At E src start p D ts pre post) (fun _ => Parser.modify fun s => { s with depth := f s.depth })
      (fun _ => At E src start p (f D) ts pre post) :=
  fun s h => ⟨(), _, ⟨0, fun _ _ => rfl⟩, ⟨h.prev, by simp only [h.depth], h.reads, h.buf, h.cur, h.start, h.len⟩⟩

/-- A loop that stops. -/
theorem Tr.loop_stop {P : PS → Prop} {c : PS → Bool} {m : Nat → M Unit} (n : Nat) (h : ∀ s, P s → c s = false) :
    Tr P (fun d => Parser.loop c (m d) (n + 1)) (fun _ => P) :=
  fun s hs => ⟨(), s, ⟨0, fun _ _ => by simp only [Parser.loop, h s hs, Bool.false_eq_true, if_false]⟩, hs⟩

/-- A loop that goes on. -/
theorem Tr.loop_go {P R : PS → Prop} {c : PS → Bool} {m : Nat → M Unit} {n : Nat} {Q : Unit → PS → Prop}
    (h : ∀ s, P s → c s = true) (h1 : Tr P m fun _ => R) (h2 : Tr R (fun d => Parser.loop c (m d) n) Q) :
    Tr P (fun d => Parser.loop c (m d) (n + 1)) Q := by
  intro s hs
  obtain ⟨b, s2, ⟨d2, e2⟩, hq⟩ := Tr.bind (f := fun d _ => Parser.loop c (m d) n) h1 (fun _ => h2) s hs
  refine ⟨b, s2, ⟨d2, fun d hd => ?_⟩, hq⟩
  simp only [Parser.loop, h s hs, if_true]
  exact e2 d hd

theorem findtok_ne {l : List Nat} {t : Nat} (h : t ∉ l) : findtok l t = 0 := by
  induction l with
  | nil => rfl
  | cons a l ih =>
    simp only [List.mem_cons, not_or] at h
    simp only [findtok, h.1, if_false, ih h.2]

theorem findtok_mem {l : List Nat} {t : Nat} (h : t ∈ l) : findtok l t = t := by
  induction l with
  | nil => cases h
  | cons a l ih =>
    simp only [findtok]
    split
    · rename_i e; exact e.symm
    · rename_i e
      rcases List.mem_cons.1 h with rfl | h
      · exact absurd rfl e
      · exact ih h

end
end Mjs.Parse
