import Verif.Lemmas.ParseMono
import Verif.Lemmas.Unescape
import Verif.Lemmas.TokNext
import Verif.Lemmas.Steps
import Verif.Props.Tok

/-!
# The parser ends

Every function of the parser comes to an end, with code or an error, without undefined behaviour, within a number of nested
calls that is linear in what is left of the source.
-/

namespace Mjs.Parse
open Mjs Mjs.Core Mjs.Tok Mjs.Exec Mjs.Code Mjs.Bcode Mjs.Parser Mjs.Spec.Tok

/-! ## States -/

/-- How much of the source is left, counting the current token. -/
def rem (src : List UInt8) (s : PS) : Nat := if s.tk.tok = EOF then 0 else 1 + (src.length - s.tk.pos)

/-- The last byte is not a digit.  (Then a numeral is never the last byte.) -/
def NoDigitEnd (src : List UInt8) : Prop := ∀ c, src.getLast? = some c → isDigit c = false

/-- The tokenizer is at a token. -/
structure TkOk (src : List UInt8) (t : Tok.State) : Prop where
  pos : t.pos ≤ src.length
  eof : t.tok = EOF → t.pos = src.length
  num : t.tok = NUM → NoDigitEnd src → t.ptr + 2 ≤ src.length
  str : t.tok = STR → ∃ bs, Str.unescape (src.drop t.ptr ++ [0]) t.len = some bs

theorem strThen_after {q : UInt8} {body after : List UInt8} (h : StrThen q body after) : after = [] ∨ ∃ r, after = q :: r := by
  induction h with
  | close r => exact .inr ⟨r, rfl⟩
  | unclosed => exact .inl rfl
  | escape _ _ _ _ _ ih => exact ih
  | char _ _ _ _ _ _ ih => exact ih

theorem isDigit_of {c : UInt8} (h : Digit c) : isDigit c = true := (isDigit_iff c).2 h

/-- The next token. -/
theorem next_ok {src : List UInt8} (h0 : (0 : UInt8) ∉ src) (t : Tok.State) (hp : t.pos ≤ src.length) :
    ∃ t', pnext src t = some t' ∧ TkOk src t' ∧ (t'.tok ≠ EOF → t.pos < t'.pos) := by
  obtain ⟨t', hn, hp', hx⟩ := Props.C28_progress src h0 t hp
  obtain ⟨gap, rest, tok, ptr, len, pos', hdr, _, ht, hn'⟩ := pnext_spec h0 t hp
  refine ⟨t', hn, ?_, ?_⟩
  · rw [hn'] at hn
    cases hn
    obtain ⟨h1, hp1⟩ := drop_app hdr hp
    have hopne : ∀ o ∈ operators, o.2 ≠ NUM ∧ o.2 ≠ STR := by decide
    refine ⟨hp', fun he => ?_, fun he hd => ?_, fun he => ?_⟩
    · rw [if_pos he] at hx; exact hx.1
    · have he : tok = NUM := he
      show ptr + 2 ≤ src.length
      cases ht with
      | eof _ => cases he
      | num c r e hr hc h3 h4 =>
        have hlen : src.length = t.pos + gap.length + rest.length := by
          have := congrArg List.length h1
          rw [List.length_drop] at this
          omega
        rw [hr] at hlen h1
        cases r with
        | cons c' r' => simp only [List.length_cons] at hlen; omega
        | nil =>
          exfalso
          have hl : src.getLast? = some c := by
            have : src = src.take (t.pos + gap.length) ++ [c] := by rw [← h1, List.take_append_drop]
            rw [this]; simp
          have := hd c hl
          rw [isDigit_of hc] at this
          cases this
      | str _ _ _ _ _ _ => cases he
      | word w _ => exact absurd he (by show 202 + _ ≠ 200; omega)
      | op t' n hl _ =>
        obtain ⟨⟨o, ho, _, e, _⟩, _⟩ := hl
        exact absurd (e.trans he) (hopne o ho).1
      | tildeEq _ => cases he
      | invalid _ _ _ _ _ _ _ _ => cases he
    · have he : tok = STR := he
      show ∃ bs, Str.unescape (src.drop ptr ++ [0]) len = some bs
      cases ht with
      | eof _ => cases he
      | num c r e hr hc h3 h4 => cases he
      | str q body after hr hq hs =>
        have hdp : src.drop (t.pos + gap.length + 1) = body ++ after := by
          rw [← List.drop_drop, h1, hr]; rfl
        rw [hdp]
        have hc : ∃ c, (body ++ after ++ [0])[body.length]? = some c ∧ Str.isxdigit c = false := by
          rcases strThen_after hs with rfl | ⟨r, rfl⟩
          · exact ⟨0, by simp, by decide⟩
          · refine ⟨q, by simp, ?_⟩
            rcases hq with rfl | rfl <;> decide
        obtain ⟨c, hc, hx⟩ := hc
        obtain ⟨bs, hb, _⟩ := Str.unescLoop_total hc hx 0
        exact ⟨bs, hb⟩
      | word w _ => exact absurd he (by show 202 + _ ≠ 201; omega)
      | op t' n hl _ =>
        obtain ⟨⟨o, ho, _, e, _⟩, _⟩ := hl
        exact absurd (e.trans he) (hopne o ho).2
      | tildeEq _ => cases he
      | invalid _ _ _ _ _ _ _ _ => cases he
  · intro he
    rw [if_neg he] at hx
    exact hx.1

/-! ## What the functions do -/

section
variable {E : Env} {src : List UInt8}

/-- The length of the code so far, and where the next code goes. -/
abbrev len (s : PS) : Nat := s.gen.buf.length
abbrev cur (s : PS) : Nat := s.gen.cur

/-- From `s0` to `s`: the source left does not grow, nor does code disappear, before or after the current place. -/
structure Step (src : List UInt8) (s0 s : PS) : Prop where
  tk : TkOk src s.tk
  inside : cur s ≤ len s
  rem : rem src s ≤ rem src s0
  cur : cur s0 ≤ cur s
  tail : len s0 + Parse.cur s ≤ len s + Parse.cur s0

/-- `m` ends, from `s`: with a result and a state as in `Y`, or with an error, in a state that can be reached from
`s0`; its behaviour is defined if the source does not end in a digit. -/
def Fine {α : Type} (src : List UInt8) (s0 s : PS) (m : M α) (Y : α → PS → Prop) : Prop :=
  match m s with
  | .ok a s' => Y a s'
  | .err s' => Step src s0 s'
  | .ub => ¬ NoDigitEnd src
  | _ => False

theorem Step.trans {a b c : PS} (h : Step src a b) (h' : Step src b c) : Step src a c := by
  have := h.rem; have := h'.rem; have := h.cur; have := h'.cur; have := h.tail; have := h'.tail
  exact ⟨h'.tk, h'.inside, by omega, by omega, by omega⟩

theorem Step.refl {s : PS} (h : TkOk src s.tk) (hc : Parse.cur s ≤ len s) : Step src s s := ⟨h, hc, Nat.le_refl _, Nat.le_refl _, Nat.le_refl _⟩

theorem Fine.mono {α : Type} {s0 s : PS} {m : M α} {X Y : α → PS → Prop} (h : Fine src s0 s m X) (hxy : ∀ a s', X a s' → Y a s') :
    Fine src s0 s m Y := by
  unfold Fine at h ⊢
  split at h
  · exact hxy _ _ h
  · exact h
  · exact h
  · exact h.elim

theorem Fine.base {α : Type} {s0 s1 s : PS} {m : M α} {Y : α → PS → Prop} (hs : Step src s0 s1) (h : Fine src s1 s m Y) :
    Fine src s0 s m Y := by
  unfold Fine at h ⊢
  split at h
  · exact h
  · exact hs.trans h
  · exact h
  · exact h.elim

theorem Fine.bind {α β : Type} {s0 s : PS} {m : M α} {f : α → M β} {X : α → PS → Prop} {Y : β → PS → Prop}
    (h : Fine src s0 s m X) (hf : ∀ a s1, X a s1 → Fine src s0 s1 (f a) Y) : Fine src s0 s (m >>= f) Y := by
  show Fine src s0 s (M.bind m f) Y
  unfold Fine M.bind at *
  cases hm : m s with
  | ok a s1 => rw [hm] at h; exact hf a s1 h
  | err s1 => rw [hm] at h; exact h
  | ub => rw [hm] at h; exact h
  | deep => rw [hm] at h; exact h.elim
  | endless => rw [hm] at h; exact h.elim

/-- The usual outcome: a step from `s`. -/
def To (src : List UInt8) (s : PS) (X : PS → Prop) : Unit → PS → Prop := fun _ s1 => Step src s s1 ∧ X s1

/-- One thing after the other; all that is known of the state in between. -/
theorem Fine.seq {α β : Type} {s0 s : PS} {m : M α} {f : α → M β} {X : α → PS → Prop} {Y : β → PS → Prop} (hs : Step src s0 s)
    (h : Fine src s s m (fun a s1 => Step src s s1 ∧ X a s1))
    (hf : ∀ a s1, Step src s0 s1 → X a s1 → cur s1 ≤ len s1 → Parse.rem src s1 ≤ Parse.rem src s → cur s ≤ cur s1 → len s + cur s1 ≤ len s1 + cur s →
      Fine src s0 s1 (f a) Y) :
    Fine src s0 s (m >>= f) Y :=
  Fine.bind (Fine.base hs h) fun a s1 h1 => hf a s1 (hs.trans h1.1) h1.2 h1.1.inside h1.1.rem h1.1.cur h1.1.tail

theorem Fine.pure {α : Type} {s0 s : PS} {a : α} {Y : α → PS → Prop} (h : Y a s) : Fine src s0 s (M.pure a) Y := h
theorem Fine.done {α : Type} {s0 s : PS} {a : α} {Y : α → PS → Prop} (h : Y a s) : Fine src s0 s (Pure.pure a : M α) Y := h
theorem Fine.fail {α : Type} {s0 s : PS} {Y : α → PS → Prop} (h : Step src s0 s) : Fine src s0 s (Parser.fail : M α) Y := h
theorem Fine.get {α : Type} {s0 s : PS} {f : PS → M α} {Y : α → PS → Prop} (h : Fine src s0 s (f s) Y) :
    Fine src s0 s (Parser.get >>= f) Y := h
theorem Fine.curIdx {α : Type} {s0 s : PS} {f : Nat → M α} {Y : α → PS → Prop} (h : Fine src s0 s (f (cur s)) Y) :
    Fine src s0 s (Parser.curIdx >>= f) Y := h
theorem Fine.modify {α : Type} {s0 s : PS} {g : PS → PS} {f : Unit → M α} {Y : α → PS → Prop} (h : Fine src s0 (g s) (f ()) Y) :
    Fine src s0 s (Parser.modify g >>= f) Y := h
theorem Fine.when {s0 s : PS} {c : Bool} {m : M Unit} {Y : Unit → PS → Prop} (h1 : c = true → Fine src s0 s m Y) (h2 : c = false → Y () s) :
    Fine src s0 s (Parser.when c m) Y := by
  cases c
  · exact h2 rfl
  · exact h1 rfl
theorem Fine.ite {α : Type} {s0 s : PS} {c : Prop} [Decidable c] {m m' : M α} {Y : α → PS → Prop} (h1 : c → Fine src s0 s m Y)
    (h2 : ¬ c → Fine src s0 s m' Y) : Fine src s0 s (if c then m else m') Y := by
  split
  · exact h1 ‹_›
  · exact h2 ‹_›

theorem Fine.attempt {s : PS} {m : M Unit} (h : Fine src s s m (fun _ s1 => Step src s s1)) :
    Fine src s s (attempt m) (fun _ s1 => Step src s s1 ∧ True) := by
  unfold Fine Parser.attempt at *
  cases hm : m s with
  | ok a s1 => rw [hm] at h; exact ⟨h, trivial⟩
  | err s1 => rw [hm] at h; exact ⟨h, trivial⟩
  | ub => rw [hm] at h; exact h
  | deep => rw [hm] at h; exact h.elim
  | endless => rw [hm] at h; exact h.elim

/-- As `attempt`, keeping what is known after success. -/
theorem Fine.attempt' {s : PS} {m : M Unit} {X : PS → Prop} (h : Fine src s s m (fun _ s1 => Step src s s1 ∧ X s1)) :
    Fine src s s (Parser.attempt m) (fun ok s1 => Step src s s1 ∧ (ok = true → X s1)) := by
  unfold Fine Parser.attempt at *
  cases hm : m s with
  | ok a s1 => rw [hm] at h; exact ⟨h.1, fun _ => h.2⟩
  | err s1 => rw [hm] at h; exact ⟨h, fun h => by cases h⟩
  | ub => rw [hm] at h; exact h
  | deep => rw [hm] at h; exact h.elim
  | endless => rw [hm] at h; exact h.elim

/-- A loop each of whose rounds consumes something. -/
theorem Fine.loop {c : PS → Bool} {m : M Unit} {s : PS} :
    ∀ (n : Nat), rem src s < n → Step src s s →
      (∀ s1, Step src s s1 → c s1 = true → Fine src s1 s1 m (fun _ s2 => Step src s1 s2 ∧ rem src s2 < rem src s1)) →
      Fine src s s (loop c m n) (fun _ s1 => Step src s s1 ∧ c s1 = false)
  | 0, h, _, _ => by omega
  | n + 1, h, hs, hm => by
    unfold Fine
    simp only [Parser.loop]
    cases hc : c s with
    | false => exact ⟨hs, hc⟩
    | true =>
      show Fine src s s (m >>= fun _ => Parser.loop c m n) _
      refine Fine.seq (X := fun _ s2 => rem src s2 < rem src s) hs (hm s hs hc) fun _ s1 h1 hr _ _ _ _ => ?_
      have h2 : Step src s1 s1 := .refl h1.tk h1.inside
      refine (Fine.base h1 (Fine.loop n (by omega) h2 fun s2 hs2 => hm s2 (h1.trans hs2))).mono fun _ s2 h => ⟨h1.trans h.1, h.2⟩

/-! ### Emitting -/

theorem addLine_buf (g : Gen) (l : Nat) : (addLine g l).buf = g.buf ∧ (addLine g l).cur = g.cur := by
  unfold addLine; split <;> exact ⟨rfl, rfl⟩

theorem insert_len (g : Gen) (bs : List UInt8) (h : g.cur ≤ g.buf.length) :
    (Bcode.insert g bs).buf.length = g.buf.length + bs.length ∧ (Bcode.insert g bs).cur = g.cur + bs.length := by
  refine ⟨?_, rfl⟩
  simp only [Bcode.insert, List.length_append, List.length_take, List.length_drop]
  omega

theorem fine_insert {s : PS} {g : Gen} {n : Nat} (hs : Step src s s) (hb : g.buf.length = len s + n) (hc : g.cur = cur s + n) (hn : 1 ≤ n) :
    Step src s { s with gen := g } ∧ len s < len { s with gen := g } := by
  refine ⟨⟨hs.tk, ?_, Nat.le_refl _, ?_, ?_⟩, ?_⟩
  · show g.cur ≤ g.buf.length; have := hs.inside; omega
  · show cur s ≤ g.cur; omega
  · show len s + g.cur ≤ g.buf.length + cur s; omega
  · show len s < g.buf.length; omega

/-- What emitting does to the state. -/
abbrev Added (s : PS) : Unit → PS → Prop := fun _ s1 => s1.tk = s.tk ∧ len s < len s1

theorem fine_emitted {s : PS} (hs : Step src s s) (f : Gen → Gen) (n : Nat) (hn : 1 ≤ n)
    (hf : (f s.gen).buf.length = len s + n ∧ (f s.gen).cur = cur s + n) :
    Fine src s s (modify fun s => { s with gen := f s.gen }) (fun a s1 => Step src s s1 ∧ Added s a s1) := by
  obtain ⟨h1, h2⟩ := fine_insert hs hf.1 hf.2 hn
  exact ⟨h1, rfl, h2⟩

theorem fine_emit {s : PS} (b : UInt8) (hs : Step src s s) : Fine src s s (emit b) (fun a s1 => Step src s s1 ∧ Added s a s1) := by
  refine fine_emitted hs (fun g => emitByte g s.tk.lineNo b) 1 (Nat.le_refl _) ?_
  obtain ⟨h1, h2⟩ := addLine_buf s.gen s.tk.lineNo
  have := insert_len (addLine s.gen s.tk.lineNo) [b] (by rw [h1, h2]; exact hs.inside)
  rw [h1, h2] at this
  exact this

theorem fine_emitN {s : PS} (n : Nat) (hs : Step src s s) : Fine src s s (emitN n) (fun a s1 => Step src s s1 ∧ Added s a s1) := by
  refine fine_emitted hs (fun g => emitInt g s.tk.lineNo n) (vint n).length (vint_pos n) ?_
  obtain ⟨h1, h2⟩ := addLine_buf s.gen s.tk.lineNo
  have := insert_len (addLine s.gen s.tk.lineNo) (vint n) (by rw [h1, h2]; exact hs.inside)
  rw [h1, h2] at this
  exact this

theorem fine_emitS {s : PS} (t : List UInt8) (hs : Step src s s) : Fine src s s (emitS t) (fun a s1 => Step src s s1 ∧ Added s a s1) := by
  refine fine_emitted hs (fun g => emitStr g s.tk.lineNo t) (vint t.length ++ t).length
    (by have := vint_pos t.length; rw [List.length_append]; omega) ?_
  obtain ⟨h1, h2⟩ := addLine_buf s.gen s.tk.lineNo
  have := insert_len (addLine s.gen s.tk.lineNo) (vint t.length ++ t) (by rw [h1, h2]; exact hs.inside)
  rw [h1, h2] at this
  exact this

theorem fine_emitOp {s : PS} {t : Nat} (ht : t ≤ 255) (hs : Step src s s) :
    Fine src s s (emitOp t) (fun a s1 => Step src s s1 ∧ Added s a s1) := by
  unfold emitOp
  rw [if_pos ht]
  refine Fine.seq hs (fine_emit EXPR hs) fun _ s1 h1 hx _ _ _ _ => ?_
  have h2 : Step src s1 s1 := .refl h1.tk h1.inside
  refine (Fine.base h1 (fine_emit _ h2)).mono fun _ s2 h => ⟨h1.trans h.1, ?_, ?_⟩
  · exact h.2.1.trans hx.1
  · exact Nat.lt_trans hx.2 h.2.2

theorem fine_emitInit {s : PS} (hs : Step src s s) : Fine src s s emitInit (fun a s1 => Step src s s1 ∧ Added s a s1) := fine_emit 0 hs

theorem fine_patch {s : PS} {off v : Nat} (ho : off < len s) (hs : Step src s s) :
    Fine src s s (patch off v) (fun _ s1 => Step src s s1 ∧ s1.tk = s.tk) := by
  have hv := vint_pos v
  unfold Fine patch insertOffset
  rw [if_pos ho]
  have ho' : off < s.gen.buf.length := ho
  have hc : s.gen.cur ≤ s.gen.buf.length := hs.inside
  refine ⟨⟨hs.tk, ?_, Nat.le_refl _, ?_, ?_⟩, rfl⟩
  all_goals
    simp only [len, cur, List.length_append, List.length_take, List.length_drop, initOffsetSize]
    split <;> omega

/-! ### Tokens -/

variable (h0 : (0 : UInt8) ∉ src)

theorem rem_le (s : PS) : rem src s ≤ src.length + 1 := by unfold rem; split <;> omega

include h0 in
theorem fine_next {s : PS} (hs : Step src s s) :
    Fine src s s (next src) (fun _ s1 => Step src s s1 ∧ (s.tok ≠ EOF → rem src s1 < rem src s)) := by
  obtain ⟨t', hn, hk, hlt⟩ := next_ok h0 s.tk hs.tk.pos
  unfold Fine next
  rw [hn]
  have key : s.tok ≠ EOF → rem src { s with tk := t' } < rem src s := by
    intro he
    have he : s.tk.tok ≠ EOF := he
    unfold rem
    rw [if_neg he]
    show (if t'.tok = EOF then _ else 1 + (src.length - t'.pos)) < _
    split
    · omega
    · have := hlt ‹_›
      have := hk.pos
      omega
  refine ⟨⟨hk, hs.inside, ?_, Nat.le_refl _, Nat.le_refl _⟩, key⟩
  by_cases he : s.tok = EOF
  · have he' : s.tk.tok = EOF := he
    have hp := hs.tk.eof he'
    unfold rem
    rw [if_pos he']
    show (if t'.tok = EOF then _ else 1 + (src.length - t'.pos)) ≤ _
    split
    · omega
    · have := hlt ‹_›
      have := hk.pos
      omega
  · exact Nat.le_of_lt (key he)

include h0 in
theorem fine_expect {s : PS} {t : Nat} (ht : t ≠ EOF) (hs : Step src s s) :
    Fine src s s (expect src t) (fun _ s1 => Step src s s1 ∧ rem src s1 < rem src s) := by
  unfold Fine expect
  by_cases he : s.tok = t
  · rw [if_neg (by simp [he])]
    have := (fine_next h0 hs).mono (Y := fun _ s1 => Step src s s1 ∧ rem src s1 < rem src s) fun _ s1 h => ⟨h.1, h.2 (by rw [he]; exact ht)⟩
    exact this
  · rw [if_pos he]
    exact hs

include h0 in
theorem fine_ptest {s : PS} (hs : Step src s s) :
    Fine src s s (ptest src) (fun _ s1 => Step src s s1 ∧ s1 = s) := by
  obtain ⟨t', hn, _⟩ := next_ok h0 s.tk hs.tk.pos
  unfold Fine ptest
  rw [hn]
  exact ⟨hs, rfl⟩
end

/-! ## The functions -/

/-- How many calls there can be from a function to others before a token is consumed. -/
def rank : NT → Nat
  | .stmtList _ => 1
  | .block _ => 2
  | .function => 1
  | .object => 1
  | .array => 1
  | .literal => 2
  | .callDotMem => 3
  | .postfix => 4
  | .unary => 5
  | .binop l _ => 6 + l
  | .ternary _ => 16
  | .assignment => 17
  | .expr => 18
  | .let_ => 1
  | .blockOrStmt _ => 20
  | .forIn => 1
  | .for_ => 1
  | .while_ => 1
  | .if_ => 1
  | .return_ => 1
  | .statement => 19

/-- The arguments the functions are called with. -/
def OkNT : NT → Prop
  | .binop l p => l ≤ 9 ∧ p ≤ 255
  | .ternary p => p ≤ 255
  | _ => True

/-- All functions but `parse_statement_list` consume something if they succeed. -/
def slack : NT → Nat
  | .stmtList _ => 1
  | _ => 0

theorem Step.self {src : List UInt8} {a b : PS} (h : Step src a b) : Step src b b := .refl h.tk h.inside

theorem rank_le {nt : NT} (h : OkNT nt) : rank nt ≤ 20 := by
  cases nt <;> simp only [rank] <;> first | omega | (simp only [OkNT] at h; omega)

theorem findtok_in {t : Nat} : ∀ {ops : List Nat}, findtok ops t ≠ EOF → t ∈ ops
  | [], h => absurd rfl h
  | u :: ops, h => by
    unfold findtok at h
    split at h
    · rename_i e; rw [e]; exact List.mem_cons_self ..
    · exact List.mem_cons_of_mem _ (findtok_in h)

section
variable {E : Env} {src : List UInt8} (h0 : (0 : UInt8) ∉ src)
  {rec : NT → M Unit} {N k : Nat}

/-- The functions called. -/
def Callees (src : List UInt8) (rec : NT → M Unit) (N k : Nat) : Prop :=
  ∀ nt s, OkNT nt → Step src s s → (rem src s < N ∨ (rem src s ≤ N ∧ rank nt < k)) →
    Fine src s s (rec nt) (fun _ s1 => Step src s s1 ∧ rem src s1 < rem src s + slack nt)

variable (H : Callees src rec N k)

include H in
theorem fine_rec {nt : NT} {s : PS} (hs : Step src s s) (ho : OkNT nt) (hk : slack nt = 0)
    (hm : rem src s < N ∨ (rem src s ≤ N ∧ rank nt < k)) :
    Fine src s s (rec nt) (fun _ s1 => Step src s s1 ∧ rem src s1 < rem src s) := by
  have := H nt s ho hs hm
  rw [hk] at this
  exact this

include H in
theorem fine_list {et : Nat} {s : PS} (hs : Step src s s) (hm : rem src s < N ∨ (rem src s ≤ N ∧ 1 < k)) :
    Fine src s s (rec (.stmtList et)) (fun _ s1 => Step src s s1 ∧ True) :=
  (H (.stmtList et) s trivial hs hm).mono fun _ _ h => ⟨h.1, trivial⟩

/-- At the end of a function. -/
theorem Fine.last {α : Type} {s0 s : PS} {m : M α} {X : α → PS → Prop} {Y : α → PS → Prop} (hs : Step src s0 s)
    (h : Fine src s s m (fun a s1 => Step src s s1 ∧ X a s1))
    (hf : ∀ a s1, Step src s0 s1 → X a s1 → cur s1 ≤ len s1 → rem src s1 ≤ rem src s → cur s ≤ cur s1 → len s + cur s1 ≤ len s1 + cur s → Y a s1) :
    Fine src s0 s m Y :=
  (Fine.base hs h).mono fun a s1 h1 => hf a s1 (hs.trans h1.1) h1.2 h1.1.inside h1.1.rem h1.1.cur h1.1.tail

theorem fine_depth {s : PS} (f : PS → Nat) (hs : Step src s s) :
    Fine src s s (modify fun s => { s with depth := f s }) (fun _ s1 => Step src s s1 ∧ s1.tk = s.tk) :=
  ⟨⟨hs.tk, hs.inside, Nat.le_refl _, Nat.le_refl _, Nat.le_refl _⟩, rfl⟩

/-- What is known after a step. -/
macro "after" : tactic => `(tactic| (intro _ _ _ _ _ _ _ _))
macro "added" : tactic => `(tactic| (intro _ _ _ ⟨_, _⟩ _ _ _ _))
/-- One step of a function. -/
macro "go" : tactic => `(tactic| with_reducible (first
  | refine Fine.get ?_
  | refine Fine.curIdx ?_
  | (refine Fine.seq (by assumption) (fine_emit _ (Step.self (by assumption))) ?_; added)
  | (refine Fine.seq (by assumption) (fine_emitN _ (Step.self (by assumption))) ?_; added)
  | (refine Fine.seq (by assumption) (fine_emitS _ (Step.self (by assumption))) ?_; added)
  | (refine Fine.seq (by assumption) (fine_emitOp (by decide) (Step.self (by assumption))) ?_; added)
  | (refine Fine.seq (by assumption) (fine_emitInit (Step.self (by assumption))) ?_; added)
  | (refine Fine.seq (by assumption) (fine_next (by assumption) (Step.self (by assumption))) ?_; after)
  | (refine Fine.seq (by assumption) (fine_expect (by assumption) (by decide) (Step.self (by assumption))) ?_; after)
  | (refine Fine.seq (by assumption) (fine_list (by assumption) (Step.self (by assumption)) (by omega)) ?_; after)
  | (refine Fine.seq (by assumption) (fine_rec (by assumption) (Step.self (by assumption)) (by first | assumption | (simp only [OkNT]; done)) (by simp only [slack]; done) (by simp only [rank]; omega)) ?_; after)
  | (refine Fine.seq (by assumption) (fine_patch (by omega) (Step.self (by assumption))) ?_; after)))
/-- The last step. -/
macro "fin" : tactic => `(tactic| with_reducible (first
  | (refine Fine.last (by assumption) (fine_emit _ (Step.self (by assumption))) ?_; added; refine ⟨by assumption, by first | trivial | omega⟩)
  | (refine Fine.last (by assumption) (fine_emitOp (by decide) (Step.self (by assumption))) ?_; added; refine ⟨by assumption, by first | trivial | omega⟩)
  | (refine Fine.last (by assumption) (fine_next (by assumption) (Step.self (by assumption))) ?_; after; refine ⟨by assumption, by first | trivial | omega⟩)
  | (refine Fine.last (by assumption) (fine_expect (by assumption) (by decide) (Step.self (by assumption))) ?_; after; refine ⟨by assumption, by first | trivial | omega⟩)
  | (refine Fine.last (by assumption) (fine_rec (by assumption) (Step.self (by assumption)) (by first | assumption | (simp only [OkNT]; done)) (by simp only [slack]; done) (by simp only [rank]; omega)) ?_; after; refine ⟨by assumption, by first | trivial | omega⟩)
  | (refine Fine.pure ⟨by assumption, by first | trivial | omega⟩)
  | (refine Fine.done ⟨by assumption, by first | trivial | omega⟩)
  | (refine Fine.pure ⟨by assumption, trivial⟩)
  | (refine Fine.fail (by assumption))))

theorem fine_when {s : PS} {c : Bool} {m : M Unit} {X : Unit → PS → Prop} (hs : Step src s s)
    (h : Fine src s s m (fun a s1 => Step src s s1 ∧ X a s1)) : Fine src s s (Parser.when c m) (fun _ s1 => Step src s s1 ∧ True) :=
  Fine.when (fun _ => h.mono fun _ _ h => ⟨h.1, trivial⟩) fun _ => ⟨hs, trivial⟩

theorem fine_attempt {s : PS} {m : M Unit} {X : PS → Prop} (h : Fine src s s m (fun _ s1 => Step src s s1 ∧ X s1)) :
    Fine src s s (Parser.attempt m) (fun ok s1 => Step src s s1 ∧ (ok = true → X s1)) := Fine.attempt' h

include h0 in
theorem fine_semis {s : PS} (hs : Step src s s) :
    Fine src s s (loop (fun s => s.tok == SEMICOLON) (next src) (rounds src)) (fun _ s1 => Step src s s1 ∧ True) := by
  refine (Fine.loop (rounds src) (by have := rem_le (src := src) s; unfold rounds; omega) hs fun s1 h1 hc => ?_).mono fun _ _ h => ⟨h.1, trivial⟩
  refine (fine_next h0 h1.self).mono fun _ s2 h => ⟨h.1, h.2 ?_⟩
  have hc : s1.tok = SEMICOLON := by simpa using hc
  rw [hc]; decide

include h0 H in
theorem fine_stmts {et : Nat} : ∀ (n : Nat) (drop : Bool) (s : PS), Step src s s → rem src s < n → (rem src s < N ∨ rem src s = 0) →
    Fine src s s (stmts src rec et n drop) (fun _ s1 => Step src s s1 ∧ True)
  | 0, _, _, _, h, _ => by omega
  | n + 1, drop, s, hs, hn, hN => by
    unfold stmts
    go
    refine Fine.ite (fun h => ?_) (fun h => ?_)
    · exact fine_when hs (fine_emit _ hs)
    · have hne : s.tok ≠ EOF := fun e => h (.inl e)
      have hpos : 0 < rem src s := by
        unfold rem
        rw [if_neg (show s.tk.tok ≠ EOF from hne)]; omega
      refine Fine.seq hs (fine_when hs (fine_emit _ hs)) ?_; after
      refine Fine.seq (by assumption) (fine_attempt (fine_rec H (Step.self (by assumption)) (by trivial) rfl (by simp only [rank]; omega))) ?_
      intro ok s2 h2 hx _ _ _ _
      refine Fine.seq (by assumption) (fine_semis h0 (Step.self (by assumption))) ?_
      intro _ s3 h3 _ _ _ _ _
      refine Fine.ite (fun h => ?_) (fun h => ?_)
      · have := hx h
        refine (Fine.base h3 (fine_stmts n true s3 h3.self (by omega) (by omega))).mono fun _ _ h => ⟨h3.trans h.1, trivial⟩
      · exact Fine.fail h3

include h0 H in
theorem fine_stmtList {s : PS} {et : Nat} (hs : Step src s s) (hN : N = rem src s) :
    Fine src s s (parseStmtList src rec et) (fun _ s1 => Step src s s1 ∧ True) := by
  unfold parseStmtList
  refine Fine.seq hs (fine_next h0 hs) ?_
  intro _ s1 h1 hx _ _ _ _
  have h3 : rem src s1 < N ∨ rem src s1 = 0 := by
    by_cases he : s.tok = EOF
    · have : rem src s = 0 := by unfold rem; rw [if_pos (show s.tk.tok = EOF from he)]
      omega
    · have := hx he; omega
  refine (Fine.base h1 (fine_stmts h0 H (rounds src) false s1 h1.self (by have := rem_le (src := src) s1; unfold rounds; omega) h3)).mono
    fun _ _ h => ⟨h1.trans h.1, trivial⟩

include h0 H in
theorem fine_block {s : PS} {mk : Bool} (hs : Step src s s) (hN : N = rem src s) (hk : k = 2) :
    Fine src s s (parseBlock src rec mk) (fun _ s1 => Step src s s1 ∧ rem src s1 < rem src s) := by
  unfold parseBlock
  refine Fine.seq hs (fine_depth _ hs) ?_; after
  go
  refine Fine.ite (fun _ => ?_) (fun _ => ?_)
  · fin
  · refine Fine.seq (by assumption) (fine_when (Step.self (by assumption)) (fine_emit _ (Step.self (by assumption)))) ?_; after
    refine Fine.seq (by assumption) (fine_attempt (fine_list H (Step.self (by assumption)) (by omega))) ?_; after
    go
    refine Fine.seq (by assumption) (fine_when (Step.self (by assumption)) (fine_emit _ (Step.self (by assumption)))) ?_; after
    refine Fine.ite (fun _ => ?_) (fun _ => ?_)
    · fin
    · fin

include h0 in
theorem fine_params : ∀ (n i : Nat) (s : PS), Step src s s → rem src s < n →
    Fine src s s (params src n i) (fun _ s1 => Step src s s1 ∧ True)
  | 0, _, _, _, h => by omega
  | n + 1, i, s, hs, hn => by
    unfold params
    go
    refine Fine.ite (fun _ => ?_) (fun _ => ?_)
    · refine Fine.ite (fun _ => ?_) (fun hid => ?_)
      · fin
      · refine Fine.seq hs (fine_emit _ hs) ?_; intro _ s1 h1 ⟨t1, _⟩ _ _ _ _
        refine Fine.seq h1 (fine_emitN _ h1.self) ?_; intro _ s2 h2 ⟨t2, _⟩ _ _ _ _
        refine Fine.seq h2 (fine_emitS _ h2.self) ?_; intro _ s3 h3 ⟨t3, _⟩ _ _ _ _
        refine Fine.seq h3 (fine_ptest h0 h3.self) ?_
        intro t s4 h4 e _ _ _ _
        subst e
        have htok : s4.tok ≠ EOF := by
          have : s4.tok = s.tok := by unfold PS.tok; rw [t3, t2, t1]
          have hid : s.tok = IDENT := Classical.not_not.1 hid
          rw [this, hid]; decide
        refine Fine.seq (X := fun _ s5 => rem src s5 < rem src s4 ∨ s5 = s4) h4 (Fine.when ?_ ?_) ?_
        · exact fun _ => (fine_next h0 h4.self).mono fun _ _ h => ⟨h.1, .inl (h.2 htok)⟩
        · exact fun _ => ⟨h4.self, .inr rfl⟩
        intro _ s5 h5 hx5 _ _ _ _
        refine Fine.seq h5 (fine_next h0 h5.self) ?_
        intro _ s6 h6 hx6 _ _ _ _
        have hlt : rem src s6 < rem src s4 := by
          rcases hx5 with h | rfl
          · omega
          · exact hx6 htok
        exact (Fine.base h6 (fine_params n (i + 1) s6 h6.self (by omega))).mono fun _ _ h => ⟨h6.trans h.1, trivial⟩
    · fin

theorem Fine.cond {α : Type} {s0 s : PS} {c : Prop} [Decidable c] {m m' : M α} {Y : α → PS → Prop} (h1 : c → Fine src s0 s m Y)
    (h2 : ¬ c → Fine src s0 s m' Y) : Fine src s0 s (if c then m else m') Y := Fine.ite h1 h2

include h0 H in
theorem fine_function {s : PS} (hs : Step src s s) (hN : N = rem src s) :
    Fine src s s (parseFunction src rec) (fun _ s1 => Step src s s1 ∧ rem src s1 < rem src s) := by
  unfold parseFunction
  go
  go
  rename_i s1 h1 _ _ _ _ _
  refine Fine.seq h1 (X := fun _ _ => True) (Fine.when (fun _ => ?_) fun _ => ⟨h1.self, trivial⟩) ?_
  · have h1' := h1.self
    go
    repeat go
    refine Fine.last (by assumption) (fine_next (by assumption) (Step.self (by assumption))) ?_; after; refine ⟨by assumption, trivial⟩
  after
  repeat go
  refine Fine.seq (by assumption) (fine_params h0 (rounds src) 0 _ (Step.self (by assumption)) (by have := rem_le (src := src) ‹PS›; unfold rounds; omega)) ?_; after
  repeat go
  refine Fine.last (by assumption) (fine_when (Step.self (by assumption)) (fine_emitOp (t := ASSIGN) (by decide) (Step.self (by assumption)))) ?_; after; refine ⟨by assumption, by omega⟩

include h0 H in
theorem fine_object {s : PS} (hs : Step src s s) (hN : N = rem src s) :
    Fine src s s (parseObject src rec) (fun _ s1 => Step src s s1 ∧ rem src s1 < rem src s) := by
  unfold parseObject
  repeat go
  rename_i s1 h1 _ _ _ _ _ _
  refine Fine.last h1 (Fine.loop (rounds src) (by have := rem_le (src := src) s1; unfold rounds; omega) h1.self fun s2 h2 _ => ?_) ?_
  · have := h2.rem
    have h2 := h2.self
    go
    refine Fine.ite (fun _ => ?_) (fun _ => ?_)
    · fin
    · repeat go
      refine Fine.ite (fun _ => ?_) (fun _ => ?_)
      · fin
      · refine Fine.ite (fun _ => ?_) (fun _ => ?_)
        · fin
        · fin
  · after
    exact ⟨by assumption, by omega⟩

include h0 H in
theorem fine_array {s : PS} (hs : Step src s s) (hN : N = rem src s) :
    Fine src s s (parseArray src rec) (fun _ s1 => Step src s s1 ∧ rem src s1 < rem src s) := by
  unfold parseArray
  repeat go
  rename_i s1 h1 _ _ _ _ _ _
  refine Fine.last h1 (Fine.loop (rounds src) (by have := rem_le (src := src) s1; unfold rounds; omega) h1.self fun s2 h2 _ => ?_) ?_
  · have := h2.rem
    have h2 := h2.self
    repeat go
    refine Fine.last (by assumption) (fine_when (Step.self (by assumption)) (fine_next h0 (Step.self (by assumption)))) ?_; after; refine ⟨by assumption, by omega⟩
  · after
    exact ⟨by assumption, by omega⟩

include h0 in
/-- The current token is consumed. -/
theorem fine_eat {s : PS} (hs : Step src s s) (hne : s.tok ≠ EOF) :
    Fine src s s (next src) (fun _ s1 => Step src s s1 ∧ rem src s1 < rem src s) :=
  (fine_next h0 hs).mono fun _ _ h => ⟨h.1, h.2 hne⟩

include h0 in
theorem fine_thenEat {s : PS} {m : M Unit} (hs : Step src s s) (hne : s.tok ≠ EOF)
    (h : Fine src s s m (fun _ s1 => Step src s s1 ∧ s1.tk = s.tk)) :
    Fine src s s (do m; next src) (fun _ s1 => Step src s s1 ∧ rem src s1 < rem src s) := by
  refine Fine.seq hs h ?_
  intro _ s1 h1 e _ _ _ _
  refine Fine.last h1 (fine_eat h0 h1.self (by unfold PS.tok; rw [e]; exact hne)) ?_
  after
  exact ⟨by assumption, by omega⟩

theorem fine_emitTk {s : PS} (b : UInt8) (hs : Step src s s) : Fine src s s (emit b) (fun _ s1 => Step src s s1 ∧ s1.tk = s.tk) :=
  (fine_emit b hs).mono fun _ _ h => ⟨h.1, h.2.1⟩

theorem fine_whenTk {s : PS} {c : Bool} {m : M Unit} (hs : Step src s s)
    (h : Fine src s s m (fun _ s1 => Step src s s1 ∧ s1.tk = s.tk)) :
    Fine src s s (Parser.when c m) (fun _ s1 => Step src s s1 ∧ s1.tk = s.tk) :=
  Fine.when (fun _ => h) fun _ => ⟨hs, rfl⟩

include h0 in
theorem fine_ident {s : PS} (hs : Step src s s) : Fine src s s (parseIdent src) (fun _ s1 => Step src s s1 ∧ s1.tk = s.tk) := by
  unfold parseIdent
  go
  refine Fine.seq hs (fine_ptest h0 hs) ?_
  intro t s1 h1 e _ _ _ _
  subst e
  refine Fine.seq h1 (fine_emit _ h1.self) ?_; intro _ s2 h2 ⟨t2, _⟩ _ _ _ _
  refine Fine.seq h2 (fine_emitS _ h2.self) ?_; intro _ s3 h3 ⟨t3, _⟩ _ _ _ _
  refine Fine.seq h3 (fine_emit _ h3.self) ?_; intro _ s4 h4 ⟨t4, _⟩ _ _ _ _
  refine Fine.last h4 (fine_whenTk h4.self (fine_emitTk _ h4.self)) ?_
  intro _ s5 h5 t5 _ _ _ _
  exact ⟨h5, by rw [t5, t4, t3, t2]⟩

theorem fine_num {s : PS} (hs : Step src s s) (ht : s.tok = NUM) : Fine src s s (parseNum E src) (fun _ s1 => Step src s s1 ∧ s1.tk = s.tk) := by
  unfold parseNum
  go
  cases hd : numeral E src s.tk.ptr with
  | none =>
    intro hn
    unfold numeral at hd
    rw [if_pos (hs.tk.num ht hn)] at hd
    cases hd
  | some d =>
  show Fine src s s (if integral d then _ else _) _
  refine Fine.ite (fun _ => ?_) (fun _ => ?_)
  · refine Fine.seq hs (fine_emit _ hs) ?_; intro _ s2 h2 ⟨t2, _⟩ _ _ _ _
    refine Fine.last h2 (fine_emitN _ h2.self) ?_; intro _ s3 h3 ⟨t3, _⟩ _ _ _ _
    exact ⟨h3, by rw [t3, t2]⟩
  · refine Fine.seq hs (fine_emit _ hs) ?_; intro _ s2 h2 ⟨t2, _⟩ _ _ _ _
    refine Fine.last h2 (fine_emitS _ h2.self) ?_; intro _ s3 h3 ⟨t3, _⟩ _ _ _ _
    exact ⟨h3, by rw [t3, t2]⟩

theorem fine_str {s : PS} (hs : Step src s s) (ht : s.tok = STR) : Fine src s s (parseStr src) (fun _ s1 => Step src s s1 ∧ s1.tk = s.tk) := by
  obtain ⟨bs, hb⟩ := hs.tk.str ht
  unfold parseStr
  refine Fine.seq hs (fine_emit _ hs) ?_; intro _ s2 h2 ⟨t2, _⟩ _ _ _ _
  refine Fine.get ?_
  rw [t2, hb]
  have hf := fine_emitted (src := src) h2.self (fun g => Bcode.insert g (vint bs.length ++ bs)) (vint bs.length ++ bs).length
    (by have := vint_pos bs.length; rw [List.length_append]; omega) (insert_len _ _ h2.inside)
  refine Fine.last h2 hf ?_
  intro _ s3 h3 ⟨t3, _⟩ _ _ _ _
  exact ⟨h3, by rw [t3, t2]⟩

include h0 H in
theorem fine_literal {s : PS} (hs : Step src s s) (hN : N = rem src s) (hk : k = 2) :
    Fine src s s (parseLiteral E src rec) (fun _ s1 => Step src s s1 ∧ rem src s1 < rem src s) := by
  have nn {t : Nat} (h : s.tok = t) (ht : t ≠ EOF) : s.tok ≠ EOF := by rw [h]; exact ht
  unfold parseLiteral
  go
  refine Fine.ite (fun h => fine_thenEat h0 hs (nn h (by decide)) (fine_emitTk _ hs)) fun _ => ?_
  refine Fine.ite (fun h => fine_thenEat h0 hs (nn h (by decide)) (fine_emitTk _ hs)) fun _ => ?_
  refine Fine.ite (fun h => fine_thenEat h0 hs (nn h (by decide)) (fine_emitTk _ hs)) fun _ => ?_
  refine Fine.ite (fun h => fine_thenEat h0 hs (nn h (by decide)) (fine_emitTk _ hs)) fun _ => ?_
  refine Fine.ite (fun h => fine_thenEat h0 hs (nn h (by decide)) (fine_ident h0 hs)) fun _ => ?_
  refine Fine.ite (fun h => fine_thenEat h0 hs (nn h (by decide)) (fine_num hs h)) fun _ => ?_
  refine Fine.ite (fun h => fine_thenEat h0 hs (nn h (by decide)) (fine_str hs h)) fun _ => ?_
  refine Fine.ite (fun h => ?_) fun _ => ?_
  · refine Fine.seq hs (fine_attempt (fine_rec H hs (nt := .array) trivial rfl (by simp only [rank]; omega))) ?_
    intro ok s1 h1 hx _ _ _ _
    go
    refine Fine.ite (fun hok => ?_) fun _ => ?_
    · have := hx hok
      fin
    · fin
  refine Fine.ite (fun h => ?_) fun _ => ?_
  · refine Fine.seq hs (fine_attempt (fine_rec H hs (nt := .object) trivial rfl (by simp only [rank]; omega))) ?_
    intro ok s1 h1 hx _ _ _ _
    go
    refine Fine.ite (fun hok => ?_) fun _ => ?_
    · have := hx hok
      fin
    · fin
  refine Fine.ite (fun h => ?_) fun _ => ?_
  · refine Fine.seq hs (fine_eat h0 hs (nn h (by decide))) ?_
    intro _ s1 h1 hx _ _ _ _
    refine Fine.seq h1 (fine_attempt (fine_rec H h1.self (nt := .expr) trivial rfl (by omega))) ?_
    intro ok s2 h2 hx2 _ _ _ _
    go
    refine Fine.ite (fun _ => ?_) fun _ => ?_
    · fin
    · go
      refine Fine.ite (fun hok => ?_) fun _ => ?_
      · fin
      · fin
  refine Fine.ite (fun h => ?_) fun _ => ?_
  · exact fine_rec H hs (nt := .function) trivial rfl (by simp only [rank]; omega)
  refine Fine.ite (fun h => fine_thenEat h0 hs (nn h (by decide)) (fine_emitTk _ hs)) fun _ => ?_
  exact Fine.fail hs

include h0 H in
theorem fine_callDotMem {s : PS} (hs : Step src s s) (hN : N = rem src s) (hk : k = 3) :
    Fine src s s (parseCallDotMem src rec) (fun _ s1 => Step src s s1 ∧ rem src s1 < rem src s) := by
  unfold parseCallDotMem
  go
  rename_i s1 h1 _ _ _ _ _
  refine Fine.last h1 (Fine.loop (rounds src) (by have := rem_le (src := src) s1; unfold rounds; omega) h1.self fun s2 h2 _ => ?_) ?_
  · have := h2.rem
    have h2 := h2.self
    go
    refine Fine.ite (fun _ => ?_) (fun _ => ?_)
    · repeat go
      refine Fine.last (by assumption) (fine_when (Step.self (by assumption)) (fine_emit _ (Step.self (by assumption)))) ?_; after; refine ⟨by assumption, by omega⟩
    · refine Fine.ite (fun _ => ?_) (fun _ => ?_)
      · repeat go
        rename_i s3 h3 _ _ _ _ _ _
        refine Fine.seq (X := fun _ _ => True) h3 ((Fine.loop (rounds src) (by have := rem_le (src := src) s3; unfold rounds; omega) h3.self fun s4 h4 _ => ?_).mono fun _ _ h => ⟨h.1, trivial⟩) ?_
        · have := h4.rem
          have h4 := h4.self
          repeat go
          refine Fine.last (by assumption) (fine_when (Step.self (by assumption)) (fine_next h0 (Step.self (by assumption)))) ?_; after; refine ⟨by assumption, by omega⟩
        · after
          repeat go
          fin
      · go
        fin
  · after
    exact ⟨by assumption, by omega⟩

include h0 H in
theorem fine_postfix {s : PS} (hs : Step src s s) (hN : N = rem src s) (hk : k = 4) :
    Fine src s s (parsePostfix src rec) (fun _ s1 => Step src s s1 ∧ rem src s1 < rem src s) := by
  unfold parsePostfix
  go
  go
  rename_i s1 h1 _ _ _ _ _
  refine Fine.last h1 (Fine.when (Y := fun _ s2 => Step src s1 s2 ∧ True) (fun _ => ?_) fun _ => ⟨h1.self, trivial⟩) ?_
  · have h1 := h1.self
    refine Fine.seq h1 (fine_emitOp (by split <;> decide) h1) ?_; added
    refine Fine.last (by assumption) (fine_next h0 (Step.self (by assumption))) ?_; after; refine ⟨by assumption, trivial⟩
  · after
    exact ⟨by assumption, by omega⟩

theorem unaryOps_small : ∀ t ∈ unaryOps, t ≤ 255 ∧ t ≠ EOF := by decide
theorem assignOps_small : ∀ t ∈ assignOps, t ≤ 255 ∧ t ≠ EOF := by decide
theorem levelOps_small : ∀ l, ∀ t ∈ levelOps l, t ≤ 255 ∧ t ≠ EOF
  | 0 | 1 | 2 | 3 | 4 | 5 | 6 | 7 | 8 => by decide
  | _ + 9 => by simp only [levelOps]; decide

include h0 H in
theorem fine_unary {s : PS} (hs : Step src s s) (hN : N = rem src s) (hk : k = 5) :
    Fine src s s (parseUnary src rec) (fun _ s1 => Step src s s1 ∧ rem src s1 < rem src s) := by
  unfold parseUnary
  go
  refine Fine.seq hs (X := fun _ s1 => rem src s1 < rem src s ∨ (s1 = s ∧ findtok unaryOps s.tok = EOF)) (Fine.when (fun h => ?_) fun h => ?_) ?_
  · have h := findtok_in (of_decide_eq_true h)
    exact (fine_eat h0 hs (unaryOps_small _ h).2).mono fun _ _ h => ⟨h.1, .inl h.2⟩
  · exact ⟨hs, .inr ⟨rfl, Classical.not_not.1 (of_decide_eq_false h)⟩⟩
  intro _ s1 h1 hx _ _ _ _
  refine Fine.get ?_
  have hr : Fine src s1 s1 (rec (if findtok unaryOps s1.tok ≠ EOF then .unary else .postfix)) (fun _ s2 => Step src s1 s2 ∧ rem src s2 < rem src s1) := by
    rcases hx with hx | ⟨rfl, he⟩
    · by_cases hc : findtok unaryOps s1.tok ≠ EOF
      · rw [if_pos hc]; exact fine_rec H h1.self (by simp only [OkNT]) rfl (.inl (by omega))
      · rw [if_neg hc]; exact fine_rec H h1.self (by simp only [OkNT]) rfl (.inl (by omega))
    · rw [if_neg (by simp [he])]
      exact fine_rec H h1.self (by simp only [OkNT]) rfl (.inr ⟨by omega, by simp only [rank]; omega⟩)
  refine Fine.seq h1 hr ?_; after
  rename_i s2 h2 _ _ _ _ _
  refine Fine.last h2 (Fine.when (Y := fun _ s3 => Step src s2 s3 ∧ True) (fun h => ?_) fun _ => ⟨h2.self, trivial⟩) ?_
  · have h := findtok_in (of_decide_eq_true h)
    refine (fine_emitOp ?_ h2.self).mono fun _ _ h => ⟨h.1, trivial⟩
    have := (unaryOps_small _ h).1
    split
    · decide
    · split
      · decide
      · exact this
  · after
    exact ⟨by assumption, by omega⟩

theorem fine_prev {s : PS} {prev : Nat} (hp : prev ≤ 255) (hs : Step src s s) :
    Fine src s s (Parser.when (prev ≠ EOF) (emitOp prev)) (fun _ s1 => Step src s s1 ∧ True) :=
  Fine.when (fun _ => (fine_emitOp hp hs).mono fun _ _ h => ⟨h.1, trivial⟩) fun _ => ⟨hs, trivial⟩

include h0 H in
theorem fine_binop {s : PS} {l prev : Nat} (ho : OkNT (.binop l prev)) (hs : Step src s s) (hN : N = rem src s) (hk : k = 6 + l) :
    Fine src s s (ltrBinop src (rec (if l = 0 then .unary else .binop (l - 1) EOF)) (fun op => rec (.binop l op)) (levelOps l) prev)
      (fun _ s1 => Step src s s1 ∧ rem src s1 < rem src s) := by
  simp only [OkNT] at ho
  have hf : ∀ s, Step src s s → rem src s ≤ N →
      Fine src s s (rec (if l = 0 then .unary else .binop (l - 1) EOF)) (fun _ s1 => Step src s s1 ∧ rem src s1 < rem src s) := by
    intro s hs hm
    by_cases hl : l = 0
    · rw [if_pos hl]; exact fine_rec H hs (by simp only [OkNT]) rfl (.inr ⟨hm, by simp only [rank]; omega⟩)
    · rw [if_neg hl]; exact fine_rec H hs ⟨by omega, by decide⟩ rfl (.inr ⟨hm, by simp only [rank]; omega⟩)
  have hf2 : ∀ op s, op ≤ 255 → Step src s s → rem src s < N →
      Fine src s s (rec (.binop l op)) (fun _ s1 => Step src s s1 ∧ rem src s1 < rem src s) := by
    intro op s hop hs hm
    exact fine_rec H hs ⟨ho.1, hop⟩ rfl (.inl hm)
  generalize rec (if l = 0 then .unary else .binop (l - 1) EOF) = f1 at hf ⊢
  obtain ⟨f2, e2⟩ : ∃ f2 : Nat → M Unit, f2 = fun op => rec (.binop l op) := ⟨_, rfl⟩
  rw [← e2]
  replace hf2 : ∀ op s, op ≤ 255 → Step src s s → rem src s < N →
      Fine src s s (f2 op) (fun _ s1 => Step src s s1 ∧ rem src s1 < rem src s) := by rw [e2]; exact hf2
  unfold ltrBinop
  refine Fine.seq hs (fine_depth _ hs) ?_
  intro _ s1 h1 _ _ _ _ _
  go
  refine Fine.seq (X := fun ok s2 => ok = true → rem src s2 < rem src s1) h1 (fine_attempt ?_) ?_
  · have h1 := h1.self
    refine Fine.ite (fun _ => Fine.fail h1) fun _ => ?_
    refine Fine.seq h1 (hf s1 h1 (by omega)) ?_; after
    refine Fine.seq (by assumption) (fine_prev ho.2 (Step.self (by assumption))) ?_; after
    go
    rename_i s2 h2 _ _ _ _ _
    refine Fine.last h2 (Fine.when (Y := fun _ s3 => Step src s2 s3 ∧ True) (fun h => ?_) fun _ => ⟨h2.self, trivial⟩) ?_
    · have h2 := h2.self
      have hin := levelOps_small l _ (findtok_in (of_decide_eq_true h))
      refine Fine.ite (fun _ => ?_) fun _ => ?_
      · refine Fine.seq h2 (fine_emit _ h2) ?_; added
        repeat go
        refine Fine.seq (by assumption) (hf2 EOF _ (by decide) (Step.self (by assumption)) (by omega)) ?_; after
        go
        refine Fine.seq (by assumption) (fine_patch (by omega) (Step.self (by assumption))) ?_; after
        fin
      · go
        refine Fine.last (by assumption) (hf2 _ _ hin.1 (Step.self (by assumption)) (by omega)) ?_
        after
        exact ⟨by assumption, trivial⟩
    · after
      exact ⟨by assumption, by omega⟩
  · intro ok s2 h2 hx _ _ _ _
    refine Fine.seq h2 (fine_depth _ h2.self) ?_
    intro _ s3 h3 e3 _ _ _ _
    refine Fine.ite (fun hok => ?_) fun _ => ?_
    · have := hx hok
      fin
    · fin

include h0 H in
theorem fine_ternary {s : PS} {prev : Nat} (ho : prev ≤ 255) (hs : Step src s s) (hN : N = rem src s) (hk : k = 16) :
    Fine src s s (parseTernary src rec prev) (fun _ s1 => Step src s s1 ∧ rem src s1 < rem src s) := by
  have oe : OkNT (.ternary EOF) := by simp only [OkNT]; decide
  unfold parseTernary
  refine Fine.seq hs (fine_rec H hs (nt := .binop 9 EOF) (by simp only [OkNT]; decide) rfl (.inr ⟨by omega, by simp only [rank]; omega⟩)) ?_; after
  refine Fine.seq (by assumption) (fine_prev ho (Step.self (by assumption))) ?_; after
  go
  rename_i s2 h2 _ _ _ _ _
  refine Fine.last h2 (Fine.when (Y := fun _ s3 => Step src s2 s3 ∧ True) (fun h => ?_) fun _ => ⟨h2.self, trivial⟩) ?_
  · have h2 := h2.self
    repeat go
    fin
  · after
    exact ⟨by assumption, by omega⟩

include h0 H in
theorem fine_assignment {s : PS} (hs : Step src s s) (hN : N = rem src s) (hk : k = 17) :
    Fine src s s (parseAssignment src rec) (fun _ s1 => Step src s s1 ∧ rem src s1 < rem src s) := by
  have oe : OkNT (.ternary EOF) := by simp only [OkNT]; decide
  unfold parseAssignment
  refine Fine.seq hs (fine_rec H hs oe rfl (.inr ⟨by omega, by simp only [rank]; omega⟩)) ?_; after
  go
  rename_i s2 h2 _ _ _ _ _
  refine Fine.last h2 (Fine.when (Y := fun _ s3 => Step src s2 s3 ∧ True) (fun h => ?_) fun _ => ⟨h2.self, trivial⟩) ?_
  · have h2 := h2.self
    have hin := assignOps_small _ (findtok_in (of_decide_eq_true h))
    repeat go
    refine Fine.last (by assumption) (fine_emitOp hin.1 (Step.self (by assumption))) ?_; added; exact ⟨by assumption, trivial⟩
  · after
    exact ⟨by assumption, by omega⟩

include h0 H in
theorem fine_lets : ∀ (n : Nat) (s : PS), Step src s s → rem src s < n → rem src s ≤ N →
    Fine src s s (lets src rec n) (fun _ s1 => Step src s s1 ∧ rem src s1 < rem src s)
  | 0, _, _, h, _ => by omega
  | n + 1, s, hs, hn, hN => by
    unfold lets
    repeat go
    rename_i s1 h1 _ _ _ _ _ _
    have hlt : rem src s1 < rem src s := by omega
    have hj : ∀ s2, Step src s s2 → rem src s2 < rem src s → Fine src s s2 (do
        let s2 ← Parser.get
        Parser.when (s2.tok = COMMA) (do
          emit DROP
          next src)
        let s3 ← Parser.get
        if s3.tok = SEMICOLON ∨ s3.tok = EOF then M.pure () else lets src rec n) (fun _ s1 => Step src s s1 ∧ rem src s1 < rem src s) := by
      intro s2 h2 hlt
      go
      refine Fine.seq (X := fun _ _ => True) h2 (Fine.when (fun _ => ?_) fun _ => ⟨h2.self, trivial⟩) ?_
      · have h2 := h2.self
        go
        refine Fine.last (by assumption) (fine_next h0 (Step.self (by assumption))) ?_; after; exact ⟨by assumption, trivial⟩
      intro _ s3 h3 _ _ _ _ _
      go
      refine Fine.ite (fun _ => ?_) fun _ => ?_
      · fin
      · refine (Fine.base h3 (fine_lets n s3 h3.self (by omega) (by omega))).mono fun _ _ h => ⟨h3.trans h.1, by omega⟩
    dsimp only
    refine Fine.ite (fun _ => ?_) fun _ => ?_
    · repeat go
      all_goals exact hj _ (by assumption) (by omega)
    · refine Fine.seq h1 (fine_emit _ h1.self) ?_; added
      exact hj _ (by assumption) (by omega)

include h0 H in
theorem fine_let {s : PS} (hs : Step src s s) (hN : N = rem src s) :
    Fine src s s (parseLet src rec) (fun _ s1 => Step src s s1 ∧ rem src s1 < rem src s) := by
  unfold parseLet
  go
  rename_i s1 h1 _ _ _ _ _
  refine Fine.last h1 (fine_lets h0 H (rounds src) s1 h1.self (by have := rem_le (src := src) s1; unfold rounds; omega) (by omega)) ?_
  after
  exact ⟨by assumption, by omega⟩

include h0 H in
theorem fine_blockOrStmt {s : PS} {cs : Bool} (hs : Step src s s) (hN : N = rem src s) (hk : k = 20) :
    Fine src s s (parseBlockOrStmt src rec cs) (fun _ s1 => Step src s s1 ∧ rem src s1 < rem src s) := by
  unfold parseBlockOrStmt
  refine Fine.seq hs (fine_ptest h0 hs) ?_
  intro t s1 h1 e _ _ _ _
  subst e
  refine Fine.ite (fun _ => ?_) fun _ => ?_
  · exact fine_rec H hs (by simp only [OkNT]) rfl (.inr ⟨by omega, by simp only [rank]; omega⟩)
  · exact fine_rec H hs (by simp only [OkNT]) rfl (.inr ⟨by omega, by simp only [rank]; omega⟩)

include h0 H in
theorem fine_body {s : PS} (hs : Step src s s) (hm : rem src s < N) :
    Fine src s s (parseBody src rec) (fun _ s1 => Step src s s1 ∧ True) := by
  unfold parseBody
  go
  refine Fine.ite (fun _ => ?_) fun _ => ?_
  · go
    fin
  · exact (fine_rec H hs (by simp only [OkNT]) rfl (.inl hm)).mono fun _ _ h => ⟨h.1, trivial⟩

include h0 H in
theorem fine_forIn {s : PS} (hs : Step src s s) (hN : N = rem src s) :
    Fine src s s (parseForIn src rec) (fun _ s1 => Step src s s1 ∧ rem src s1 < rem src s) := by
  unfold parseForIn
  repeat go
  rename_i s1 h1 _ _ _ _ _ _
  refine Fine.seq (X := fun _ _ => True) h1 (Fine.when (fun _ => ?_) fun _ => ⟨h1.self, trivial⟩) ?_
  · have h1 := h1.self
    repeat go
    fin
  after
  repeat go
  refine Fine.seq (X := fun _ _ => True) (by assumption) ((fine_attempt (fine_rec H (Step.self (by assumption)) (nt := .expr) (by simp only [OkNT]) rfl (.inl (by omega)))).mono
    fun _ _ h => ⟨h.1, trivial⟩) ?_; after
  repeat go
  refine Fine.seq (by assumption) (fine_body h0 H (Step.self (by assumption)) (by omega)) ?_; after
  repeat go
  fin

include h0 H in
theorem fine_while {s : PS} (hs : Step src s s) (hN : N = rem src s) :
    Fine src s s (parseWhile src rec) (fun _ s1 => Step src s s1 ∧ rem src s1 < rem src s) := by
  unfold parseWhile
  repeat go
  refine Fine.seq (by assumption) (fine_body h0 H (Step.self (by assumption)) (by omega)) ?_; after
  repeat go
  fin

include h0 H in
theorem fine_if {s : PS} (hs : Step src s s) (hN : N = rem src s) :
    Fine src s s (parseIf src rec) (fun _ s1 => Step src s s1 ∧ rem src s1 < rem src s) := by
  unfold parseIf
  repeat go
  rename_i s1 h1 _ _ _ _ _
  refine Fine.seq (X := fun _ _ => True) h1 (Fine.ite (fun _ => ?_) fun _ => ?_) ?_
  · have h1 := h1.self
    repeat go
    fin
  · exact ⟨h1.self, trivial⟩
  after
  repeat go
  fin

include h0 in
theorem fine_checkForIn {s : PS} (hs : Step src s s) :
    Fine src s s (checkForIn src) (fun _ s1 => Step src s s1 ∧ s1 = s) := by
  unfold Fine checkForIn
  obtain ⟨t1, e1, h1, _⟩ := next_ok h0 s.tk hs.tk.pos
  by_cases hl : s.tok = KW_LET
  · rw [if_pos hl, e1]
    obtain ⟨t2, e2, h2, _⟩ := next_ok h0 t1 h1.pos
    simp only [e2]
    by_cases hi : t1.tok = IDENT
    · rw [if_pos hi]; exact ⟨hs, rfl⟩
    · rw [if_neg hi]; exact ⟨hs, rfl⟩
  · rw [if_neg hl]
    simp only [e1]
    by_cases hi : s.tk.tok = IDENT
    · rw [if_pos hi]; exact ⟨hs, rfl⟩
    · rw [if_neg hi]; exact ⟨hs, rfl⟩

theorem revert_step {old s : PS} (ho : Step src old old) (h : Step src old s) : Step src old (revert old s) := by
  have h1 : old.gen.buf.length + s.gen.cur ≤ s.gen.buf.length + old.gen.cur := h.tail
  have h2 : old.gen.cur ≤ s.gen.cur := h.cur
  have h3 : old.gen.cur ≤ old.gen.buf.length := ho.inside
  have hl : (s.gen.buf.take old.gen.buf.length).length = old.gen.buf.length := by rw [List.length_take]; omega
  refine ⟨ho.tk, ?_, Nat.le_refl _, Nat.le_refl _, ?_⟩
  · show old.gen.cur ≤ (s.gen.buf.take old.gen.buf.length).length
    omega
  · show old.gen.buf.length + old.gen.cur ≤ (s.gen.buf.take old.gen.buf.length).length + old.gen.cur
    omega

include h0 H in
theorem fine_return {s : PS} (hs : Step src s s) (hN : N = rem src s) :
    Fine src s s (parseReturn src rec) (fun _ s1 => Step src s s1 ∧ rem src s1 < rem src s) := by
  unfold parseReturn
  go
  go
  rename_i s1 h1 _ _ _ _ _
  refine Fine.bind (X := fun _ s2 => Step src s1 s2) (Fine.base h1 ((fine_attempt (fine_rec H h1.self (nt := .expr) (by simp only [OkNT]) rfl (.inl (by omega)))).mono
    fun _ _ h => h.1)) ?_
  intro ok s2 h2
  refine Fine.bind (X := fun _ s3 => Step src s1 s3) (Fine.when (fun _ => ?_) fun _ => h2) ?_
  · refine Fine.modify ?_
    have hr := revert_step h1.self h2
    exact (Fine.base (h1.trans hr) (fine_emit _ hr.self)).mono fun _ _ h => hr.trans h.1
  · intro _ s3 h3
    have := h3.rem
    have h3 := h1.trans h3
    go
    fin

include h0 H in
theorem fine_exprs : ∀ (n : Nat) (s : PS), Step src s s → rem src s < n → (rem src s < N ∨ (rem src s ≤ N ∧ k = 19)) →
    Fine src s s (exprs src rec n) (fun _ s1 => Step src s s1 ∧ rem src s1 < rem src s)
  | 0, _, _, h, _ => by omega
  | n + 1, s, hs, hn, hN => by
    unfold exprs
    go
    go
    refine Fine.ite (fun _ => ?_) fun _ => ?_
    · fin
    · repeat go
      rename_i s1 h1 _ _ _ _ _
      refine (Fine.base h1 (fine_exprs n s1 h1.self (by omega) (by omega))).mono fun _ _ h => ⟨h1.trans h.1, by omega⟩

include h0 H in
theorem fine_statement {s : PS} (hs : Step src s s) (hN : N = rem src s) (hk : k = 19) :
    Fine src s s (parseStatement src rec) (fun _ s1 => Step src s s1 ∧ rem src s1 < rem src s) := by
  have nn {t : Nat} (h : s.tok = t) (ht : t ≠ EOF) : s.tok ≠ EOF := by rw [h]; exact ht
  unfold parseStatement
  go
  refine Fine.ite (fun h => fine_thenEat h0 hs (nn h (by decide)) (fine_emitTk _ hs)) fun _ => ?_
  refine Fine.ite (fun _ => fine_rec H hs (nt := .let_) trivial rfl (.inr ⟨by omega, by simp only [rank]; omega⟩)) fun _ => ?_
  refine Fine.ite (fun _ => fine_rec H hs (nt := .block true) trivial rfl (.inr ⟨by omega, by simp only [rank]; omega⟩)) fun _ => ?_
  refine Fine.ite (fun _ => fine_rec H hs (nt := .return_) trivial rfl (.inr ⟨by omega, by simp only [rank]; omega⟩)) fun _ => ?_
  refine Fine.ite (fun _ => fine_rec H hs (nt := .for_) trivial rfl (.inr ⟨by omega, by simp only [rank]; omega⟩)) fun _ => ?_
  refine Fine.ite (fun _ => fine_rec H hs (nt := .while_) trivial rfl (.inr ⟨by omega, by simp only [rank]; omega⟩)) fun _ => ?_
  refine Fine.ite (fun h => ?_) fun _ => ?_
  · refine Fine.seq hs (fine_emit _ hs) ?_
    intro _ s1 h1 ⟨e1, _⟩ _ _ _ _
    refine Fine.last h1 (fine_thenEat h0 h1.self (by unfold PS.tok; rw [e1]; exact nn h (by decide)) (fine_emitTk _ h1.self)) ?_
    after
    exact ⟨by assumption, by omega⟩
  refine Fine.ite (fun h => fine_thenEat h0 hs (nn h (by decide)) (fine_emitTk _ hs)) fun _ => ?_
  refine Fine.ite (fun _ => fine_rec H hs (nt := .if_) trivial rfl (.inr ⟨by omega, by simp only [rank]; omega⟩)) fun _ => ?_
  refine Fine.ite (fun _ => Fine.fail hs) fun _ => ?_
  exact fine_exprs h0 H _ s hs (by have := rem_le (src := src) s; unfold rounds; omega) (.inr ⟨by omega, hk⟩)

/-- The place where code goes is moved. -/
theorem Fine.move {α : Type} {s0 s : PS} {n : Nat} {f : Unit → M α} {Y : α → PS → Prop} (h : Step src s0 s) (h1 : Parse.cur s0 ≤ n) (h2 : n ≤ len s)
    (h3 : len s0 + n ≤ len s + Parse.cur s0)
    (hf : ∀ s1, Step src s0 s1 → Parse.cur s1 = n → len s1 = len s → Parse.rem src s1 = Parse.rem src s → Fine src s0 s1 (f ()) Y) :
    Fine src s0 s (Parser.modify (fun s => { s with gen := { s.gen with cur := n } }) >>= f) Y :=
  Fine.modify (hf _ ⟨h.tk, h2, h.rem, h1, h3⟩ rfl rfl rfl)

include h0 H in
theorem fine_for {s : PS} (hs : Step src s s) (hN : N = rem src s) :
    Fine src s s (parseFor src rec) (fun _ s1 => Step src s s1 ∧ rem src s1 < rem src s) := by
  unfold parseFor
  go
  go
  refine Fine.seq (by assumption) (fine_checkForIn h0 (Step.self (by assumption))) ?_
  intro fi s1 h1 e _ _ _ _
  refine Fine.ite (fun _ => ?_) fun _ => ?_
  · fin
  go; go; go; go; go; go; go
  rename_i s2 h2 _ _ _ _ _ _
  have hr : Fine src s2 s2 (rec (if s2.tok = KW_LET then .let_ else .expr)) (fun _ s3 => Step src s2 s3 ∧ rem src s3 < rem src s2) := by
    split
    · exact fine_rec H h2.self trivial rfl (.inl (by omega))
    · exact fine_rec H h2.self trivial rfl (.inl (by omega))
  refine Fine.seq h2 hr ?_; after
  repeat go
  refine Fine.move (by assumption) (by omega) (by omega) (by omega) ?_
  intro _ _ _ _ _
  repeat go
  dsimp only
  refine Fine.move (by assumption) (by omega) (by omega) (by omega) ?_
  intro _ _ _ _ _
  repeat go
  refine Fine.seq (by assumption) (fine_body h0 H (Step.self (by assumption)) (by omega)) ?_; after
  repeat go
  fin

include h0 in
/-- Every function ends. -/
theorem fine_parse : ∀ (d : Nat) (nt : NT) (s : PS), OkNT nt → Step src s s → 21 * rem src s + rank nt < d →
    Fine src s s (parse E src d nt) (fun _ s1 => Step src s s1 ∧ rem src s1 < rem src s + slack nt)
  | 0, _, _, _, _, h => by omega
  | d + 1, nt, s, ho, hs, hm => by
    have H : Callees src (parse E src d) (rem src s) (rank nt) := by
      intro nt' s' ho' hs' h'
      refine fine_parse d nt' s' ho' hs' ?_
      have := rank_le ho'
      rcases h' with h' | ⟨h', h''⟩ <;> omega
    have hweak {m : M Unit} (h : Fine src s s m (fun _ s1 => Step src s s1 ∧ rem src s1 < rem src s)) :
        Fine src s s m (fun _ s1 => Step src s s1 ∧ rem src s1 < rem src s + slack nt) := h.mono fun _ _ h => ⟨h.1, by omega⟩
    show Fine src s s (body E src (parse E src d) nt) _
    cases nt with
    | stmtList et => exact (fine_stmtList h0 H hs rfl).mono fun _ _ h => ⟨h.1, by have := h.1.rem; simp only [slack]; omega⟩
    | block _ => exact hweak (fine_block h0 H hs rfl rfl)
    | function => exact hweak (fine_function h0 H hs rfl)
    | object => exact hweak (fine_object h0 H hs rfl)
    | array => exact hweak (fine_array h0 H hs rfl)
    | literal => exact hweak (fine_literal h0 H hs rfl rfl)
    | callDotMem => exact hweak (fine_callDotMem h0 H hs rfl rfl)
    | «postfix» => exact hweak (fine_postfix h0 H hs rfl rfl)
    | unary => exact hweak (fine_unary h0 H hs rfl rfl)
    | binop l p => exact hweak (fine_binop h0 H ho hs rfl rfl)
    | ternary p => exact hweak (fine_ternary h0 H ho hs rfl rfl)
    | assignment => exact hweak (fine_assignment h0 H hs rfl rfl)
    | expr => exact hweak (fine_rec H hs (nt := .assignment) trivial rfl (.inr ⟨Nat.le_refl _, by simp only [rank]; omega⟩))
    | let_ => exact hweak (fine_let h0 H hs rfl)
    | blockOrStmt _ => exact hweak (fine_blockOrStmt h0 H hs rfl rfl)
    | forIn => exact hweak (fine_forIn h0 H hs rfl)
    | for_ => exact hweak (fine_for h0 H hs rfl)
    | while_ => exact hweak (fine_while h0 H hs rfl)
    | if_ => exact hweak (fine_if h0 H hs rfl)
    | return_ => exact hweak (fine_return h0 H hs rfl)
    | statement => exact hweak (fine_statement h0 H hs rfl rfl)
end

/-- The whole parser ends. -/
theorem parseScript_ends {E : Env} {src path : List UInt8} (h0 : (0 : UInt8) ∉ src) {d : Nat} (hd : 21 * src.length + 43 ≤ d) :
    (∃ code, parseScript E d path src = .code code) ∨ parseScript E d path src = .error ∨
      (parseScript E d path src = .ub ∧ ¬ NoDigitEnd src) := by
  obtain ⟨d, rfl⟩ : ∃ d', d = d' + 1 := ⟨d - 1, by omega⟩
  have H : Callees src (parse E src d) (src.length + 2) 0 := by
    intro nt' s' ho' hs' h'
    refine fine_parse h0 d nt' s' ho' hs' ?_
    have := rank_le ho'
    rcases h' with h' | ⟨h', h''⟩ <;> omega
  obtain ⟨t', hn, hk, _⟩ := next_ok h0 (initial path).tk (by show 0 ≤ _; omega)
  have hin : (initial path).gen.cur ≤ (initial path).gen.buf.length := Nat.le_refl _
  have hs : Step src { initial path with tk := t' } { initial path with tk := t' } := .refl hk hin
  have key : Fine src { initial path with tk := t' } { initial path with tk := t' }
      (do stmts src (parse E src d) EOF (rounds src) false; emit EXIT) (fun _ _ => True) := by
    refine Fine.seq hs (fine_stmts h0 H (rounds src) false _ hs (by have := rem_le (src := src) { initial path with tk := t' }; unfold rounds; omega) (.inl ?_)) ?_
    · have := rem_le (src := src) { initial path with tk := t' }; omega
    · intro _ s1 h1 _ _ _ _ _
      exact (Fine.base h1 (fine_emit _ h1.self)).mono fun _ _ _ => trivial
  have e : (do parse E src (d + 1) (.stmtList EOF); emit EXIT) (initial path) =
      (do stmts src (parse E src d) EOF (rounds src) false; emit EXIT) { initial path with tk := t' } := by
    show (M.bind (M.bind (next src) fun _ => stmts src (parse E src d) EOF (rounds src) false) fun _ => emit EXIT) (initial path) = _
    unfold M.bind next
    rw [hn]
    rfl
  unfold parseScript
  rw [e]
  unfold Fine at key
  generalize (do stmts src (parse E src d) EOF (rounds src) false; emit EXIT : M Unit) { initial path with tk := t' } = o at key
  cases o with
  | ok a s => exact .inl ⟨_, rfl⟩
  | err s => exact .inr (.inl rfl)
  | ub => exact .inr (.inr ⟨rfl, key⟩)
  | deep => exact key.elim
  | endless => exact key.elim
end Mjs.Parse
