import Verif.Lemmas.JsonOut
import Verif.Props.JsonValue
import Verif.Spec.JsonTree

/-!
# C44, C45: writing JSON

The memory is a list of bytes; a function gets a place `off` in it and a size, and a write outside of the memory is `none`.
-/

namespace Mjs.Spec.Json

/-- Only bytes of the target have changed. -/
def OnlyAt (off size : Nat) (mem mem' : List UInt8) : Prop :=
  mem'.length = mem.length ∧ ∀ i, ¬ (off ≤ i ∧ i < off + size) → mem'[i]? = mem[i]?

/-- The bytes `t` are at `off`. -/
def Holds (mem : List UInt8) (off : Nat) (t : List UInt8) : Prop := ∀ i, i < t.length → mem[off + i]? = t[i]?

end Mjs.Spec.Json

namespace Mjs.Props
open Mjs Mjs.Str Mjs.Obj Mjs.Exec Mjs.Spec Mjs.Json Mjs.Spec.Json Mjs.JsonOut

theorem W.only {c mem off size t mem'} (h : W c mem off size t mem') : OnlyAt off size mem mem' := by
  refine ⟨h.len, fun i hi => ?_⟩
  by_cases ho : off ≤ i
  · have hge : off + size ≤ i := by omega
    have := congrArg (·[i - (off + size)]?) h.behind
    simpa only [List.getElem?_drop, Nat.add_sub_cancel' hge] using this
  · have := congrArg (·[i]?) h.before
    simpa only [List.getElem?_take, if_pos (Nat.lt_of_not_le ho)] using this

theorem W.holds {c mem off size t mem'} (h : W c mem off size t mem') (hc : c = false ∨ t.length < size) (hs : 0 < size) : Holds mem' off (t.take (size - 1) ++ [0]) := by
  intro i hi
  have := congrArg (·[i]?) (h.text hc hs)
  rw [List.length_append, List.length_take, List.length_cons, List.length_nil] at hi
  simp only [List.getElem?_take, List.getElem?_drop] at this
  rwa [if_pos (by omega)] at this

theorem W.all {c mem off size t mem'} (h : W c mem off size t mem') (hl : t.length < size) : Holds mem' off (t ++ [0]) := by
  have := W.holds h (.inr hl) (by omega)
  rwa [List.take_of_length_le (by omega)] at this

/-- **C45**, quoting: for every string there is one text such that with any buffer, in any memory, the function writes in the buffer only,
reports the length of the text, and leaves as much of the text as fits and a NUL. -/
theorem C45_snquote (bs : List UInt8) : ∃ t : List UInt8, ∀ mem off size, (size = 0 ∨ off + size ≤ mem.length) →
    ∃ mem', snquote mem off size bs = some (mem', t.length) ∧ OnlyAt off size mem mem' ∧ (0 < size → Holds mem' off (t.take (size - 1) ++ [0])) := by
  refine ⟨quoted bs, fun mem off size hv => ?_⟩
  obtain ⟨mem', e, hw⟩ := snquote_ok hv bs
  exact ⟨mem', e, W.only hw, W.holds hw (.inl rfl)⟩

example : ∃ mem', snquote (List.replicate 6 7) 1 4 [97, 10] = some (mem', 5) ∧ mem' = [7, 34, 97, 92, 0, 7] := ⟨_, rfl, rfl⟩

/-- With a text, the writing functions do what C45 asks for. -/
theorem text_written {numText : Val → List UInt8} (hn : TextOk numText) {h : Heap} {d : Nat} {v : Val} {t : List UInt8} {c : Bool}
    (ht : valText numText h d [] v = some (.done t c)) (mem : List UInt8) (off size : Nat) (hv : size = 0 ∨ off + size ≤ mem.length) :
    ∃ mem', toJson numText h d [] v mem off size = some (.done mem' t.length) ∧ OnlyAt off size mem mem' ∧
        (t.length < size → Holds mem' off (t ++ [0])) ∧ (¬ circular <:+: t → 0 < size → Holds mem' off (t.take (size - 1) ++ [0])) := by
  have hc := val_corr hn h d [] v
  rw [ht] at hc
  obtain ⟨mem', e, hw⟩ := hc mem off size hv
  refine ⟨mem', e, W.only hw, W.all hw, fun hci => W.holds hw (.inl ?_)⟩
  cases c with
  | false => rfl
  | true => exact absurd (valText_flag d [] v t true ht rfl) hci

theorem text_stringified {numText : Val → List UInt8} (hn : TextOk numText) {h : Heap} {d : Nat} {v : Val} {t : List UInt8} {c : Bool}
    (ht : valText numText h d [] v = some (.done t c)) {fresh : Nat → List UInt8} (hfr : ∀ n, (fresh n).length = n) (mem : List UInt8) (off size : Nat)
    (hv : size = 0 ∨ off + size ≤ mem.length) :
    (∃ mem', t.length < size ∧ stringify numText h d v mem off size fresh = some (.given mem' t.length) ∧ OnlyAt off size mem mem' ∧ Holds mem' off (t ++ [0])) ∨
      (size ≤ t.length ∧ stringify numText h d v mem off size fresh = some (.block (t ++ [0]) t.length)) := by
  obtain ⟨mem1, e1, ho1, ha1, _⟩ := text_written hn ht mem off size hv
  unfold stringify
  simp only [e1, Option.bind_eq_bind, Option.bind_some]
  by_cases hl : t.length < size
  · exact .inl ⟨mem1, hl, by rw [if_neg (by omega)], ho1, ha1 hl⟩
  · obtain ⟨mem2, e2, ho2, ha2, _⟩ := text_written hn ht (fresh (t.length + 1)) 0 (t.length + 1) (.inr (by rw [hfr]; omega))
    refine .inr ⟨by omega, ?_⟩
    rw [if_pos (by omega), e2]
    simp only [Option.bind_some]
    rw [if_neg (by omega)]
    congr 2
    have hlen : mem2.length = t.length + 1 := by rw [ho2.1, hfr]
    apply List.ext_getElem?
    intro i
    by_cases hi : i < t.length + 1
    · have := ha2 (by omega) i (by simpa using hi)
      rwa [Nat.zero_add] at this
    · rw [List.getElem?_eq_none (by omega), List.getElem?_eq_none (by simp; omega)]

/-- **C45**, serializing, partial: for every value — also one with cycles — either the text is defined and is the same for all buffers: the
function writes in the buffer only, reports the length of the text, and leaves the text and a NUL if there is room; or, whatever
the buffer, the C stack is exhausted, or the value is not one the engine made (`none`).  A text that is cut off ends in a NUL unless
there is a `[Circular]` in it; that this is missing then is shown by `C45_not_terminated`. -/
theorem C45_serialize_partial {numText : Val → List UInt8} (hn : TextOk numText) (h : Heap) (d : Nat) (v : Val) :
    (∃ t : List UInt8, ∀ mem off size, (size = 0 ∨ off + size ≤ mem.length) →
      ∃ mem', toJson numText h d [] v mem off size = some (.done mem' t.length) ∧ OnlyAt off size mem mem' ∧
        (t.length < size → Holds mem' off (t ++ [0])) ∧ (¬ circular <:+: t → 0 < size → Holds mem' off (t.take (size - 1) ++ [0]))) ∨
    (∀ mem off size, (size = 0 ∨ off + size ≤ mem.length) → toJson numText h d [] v mem off size = some .deep) ∨
    (∀ mem off size, (size = 0 ∨ off + size ≤ mem.length) → toJson numText h d [] v mem off size = none) := by
  have hc := val_corr hn h d [] v
  cases ht : valText numText h d [] v with
  | none => rw [ht] at hc; exact .inr (.inr hc)
  | some o =>
    cases o with
    | deep => rw [ht] at hc; exact .inr (.inl hc)
    | done t c => exact .inl ⟨t, text_written hn ht⟩

/-- **C45**, `mjs_json_stringify`: whatever buffer the caller gives, the complete text and a NUL are in this buffer, of which no byte
outside is changed, or in a new block of exactly that size; the second call never needs a third. -/
theorem C45_stringify {numText : Val → List UInt8} (hn : TextOk numText) (h : Heap) (d : Nat) (v : Val) {fresh : Nat → List UInt8} (hfr : ∀ n, (fresh n).length = n) :
    (∃ t : List UInt8, ∀ mem off size, (size = 0 ∨ off + size ≤ mem.length) →
      (∃ mem', t.length < size ∧ stringify numText h d v mem off size fresh = some (.given mem' t.length) ∧ OnlyAt off size mem mem' ∧ Holds mem' off (t ++ [0])) ∨
      (size ≤ t.length ∧ stringify numText h d v mem off size fresh = some (.block (t ++ [0]) t.length))) ∨
    (∀ mem off size, (size = 0 ∨ off + size ≤ mem.length) → stringify numText h d v mem off size fresh = some .deep) ∨
    (∀ mem off size, (size = 0 ∨ off + size ≤ mem.length) → stringify numText h d v mem off size fresh = none) := by
  have hc := val_corr hn h d [] v
  cases ht : valText numText h d [] v with
  | none =>
    rw [ht] at hc
    refine .inr (.inr fun mem off size hv => ?_)
    unfold stringify
    have := hc mem off size hv
    simp only at this
    rw [this]; rfl
  | some o =>
    cases o with
    | deep =>
      rw [ht] at hc
      refine .inr (.inl fun mem off size hv => ?_)
      unfold stringify
      have := hc mem off size hv
      simp only at this
      rw [this]; rfl
    | done t c => exact .inl ⟨t, text_stringified hn ht hfr⟩

/-- An array whose only element is itself can be made. -/
theorem self_array (numText : Val → List UInt8) : ∃ h ops v, History demoMem numText h ops ∧ isArray v = true ∧ Arr.length h v = some 1 ∧
    Arr.get2 h v 0 = some (v, true) := by
  obtain ⟨h, ops, v, al, hh, ha, hv, hs⟩ := demo_array numText
  obtain ⟨h1, ops1, e1, hh1, ha1, _, n1⟩  := Arr.push_step hh ha (Arr.isLength_elems []) (by simp [IsIndex]) v hs.1
  rw [Arr.setAt_push] at ha1
  exact ⟨h1, ops1, v, hh1, hv, Arr.length_step hh1 ha1 (Arr.isLength_elems _), (C18_get hh1 ha1 (by decide)).2⟩

/-- **C45, violation.** In a buffer of five bytes an array that contains itself is written without NUL. -/
theorem C45_not_terminated (numText : Val → List UInt8) : ∃ h ops v, History demoMem numText h ops ∧
    toJson numText h 2 [] v [7, 7, 7, 7, 7] 0 5 = some (.done [91, 91, 67, 105, 114] 12) := by
  obtain ⟨h, ops, v, hh, hv, hl, hg⟩ := self_array numText
  refine ⟨h, ops, v, hh, ?_⟩
  have ht := getType_array hv
  have e0 : poke [7, 7, 7, 7, 7] 0 0 = some [0, 7, 7, 7, 7] := rfl
  have e1 : add 0 5 ([0, 7, 7, 7, 7], 0) [91] [] = some ([91, 0, 7, 7, 7], 1) := by decide +kernel
  have e2 : poke [91, 0, 7, 7, 7] 1 0 = some [91, 0, 7, 7, 7] := rfl
  have e3 : copyCircular [91, 0, 7, 7, 7] 1 4 = some [91, 91, 67, 105, 114] := rfl
  have e4 : add 0 5 ([91, 91, 67, 105, 114], 11) [93] [] = some ([91, 91, 67, 105, 114], 12) := by decide +kernel
  have hi : toJson numText h 1 [v] v [91, 0, 7, 7, 7] 1 4 = some (.done [91, 91, 67, 105, 114] 10) := by
    simp [toJson, e2, ht, skipped, e3]
  have hs : ¬ skipped .objectArray = true := by decide
  rw [toJson]
  simp [e0, ht, hs, hl, e1, elemLoop, hg, left, hi, e4]

/-- Non-vacuity: the text of an array that contains itself is defined, and with the buffer given by `NULL` and 0 it comes in a new block. -/
example {numText : Val → List UInt8} (hn : TextOk numText) : ∃ h ops v, History demoMem numText h ops ∧
    stringify numText h 2 v [] 0 0 (List.replicate · 7) = some (.block [91, 91, 67, 105, 114, 99, 117, 108, 97, 114, 93, 93, 0] 12) := by
  obtain ⟨h, ops, v, hh, hv, hl, hg⟩ := self_array numText
  refine ⟨h, ops, v, hh, ?_⟩
  have ht := getType_array hv
  have e : valText numText h 2 [] v = some (.done [91, 91, 67, 105, 114, 99, 117, 108, 97, 114, 93, 93] true) := by
    simp [valText, ht, skipped, hl, elemText, hg, circular]
  exact ((text_stringified hn e (by simp) [] 0 0 (.inl rfl)).resolve_left (fun ⟨_, h, _⟩ => by omega)).2

/-! ### C44 -/

theorem quoteOne_ascii {c : UInt8} (h1 : c.toNat < 128) (h2 : c ≠ 11) {t b : List UInt8} (hc : Chars t b) : Chars (quoteOne c ++ t) (c :: b) := by
  have key : ∀ c : UInt8, c.toNat < 128 → c ≠ 11 →
      (c = 34 ∧ quoteOne c = [92, 34]) ∨ (c = 92 ∧ quoteOne c = [92, 92]) ∨ (c = 8 ∧ quoteOne c = [92, 98]) ∨ (c = 9 ∧ quoteOne c = [92, 116]) ∨
      (c = 10 ∧ quoteOne c = [92, 110]) ∨ (c = 12 ∧ quoteOne c = [92, 102]) ∨ (c = 13 ∧ quoteOne c = [92, 114]) ∨
      (32 ≤ c.toNat ∧ c ≠ 34 ∧ c ≠ 92 ∧ quoteOne c = [c]) ∨
      (c.toNat < 10 ∧ quoteOne c = [92, 117, 48, 48, 48, 48 + c]) ∨
      (10 ≤ c.toNat ∧ c.toNat < 16 ∧ quoteOne c = [92, 117, 48, 48, 48, 87 + c]) ∨
      (16 ≤ c.toNat ∧ c.toNat < 26 ∧ quoteOne c = [92, 117, 48, 48, 49, 32 + c]) ∨
      (26 ≤ c.toNat ∧ c.toNat < 32 ∧ quoteOne c = [92, 117, 48, 48, 49, 71 + c]) := by
    intro c
    obtain ⟨⟨c⟩⟩ := c
    revert c
    decide +kernel
  rcases key c h1 h2 with ⟨rfl, e⟩ | ⟨rfl, e⟩ | ⟨rfl, e⟩ | ⟨rfl, e⟩ | ⟨rfl, e⟩ | ⟨rfl, e⟩ | ⟨rfl, e⟩ | ⟨h, h3, h4, e⟩ | ⟨h, e⟩ | ⟨h, h3, e⟩ | ⟨h, h3, e⟩ | ⟨h, h3, e⟩ <;> rw [e]
  · exact .esc .quote hc
  · exact .esc .backslash hc
  · exact .esc .b hc
  · exact .esc .t hc
  · exact .esc .n hc
  · exact .esc .f hc
  · exact .esc .r hc
  · exact .plain ⟨h, h1, h3, h4⟩ hc
  all_goals
    have h48 : Hex 48 0 := .dec (by decide) (by decide)
    have h49 : Hex 49 1 := .dec (by decide) (by decide)
  · have hx : Hex (48 + c) c.toNat := by
      have : (48 + c).toNat = 48 + c.toNat := by rw [UInt8.toNat_add]; simp; omega
      have h := Hex.dec (c := 48 + c) (by omega) (by omega)
      rwa [this, Nat.add_sub_cancel_left] at h
    have := Chars.ascii h48 hx (by decide) hc
    simpa using this
  · have hx : Hex (87 + c) c.toNat := by
      have : (87 + c).toNat = 87 + c.toNat := by rw [UInt8.toNat_add]; simp; omega
      have h := Hex.small (c := 87 + c) (by omega) (by omega)
      rwa [this, Nat.add_sub_cancel_left] at h
    have := Chars.ascii h48 hx (by decide) hc
    simpa using this
  · have hx : Hex (32 + c) (c.toNat - 16) := by
      have : (32 + c).toNat = 32 + c.toNat := by rw [UInt8.toNat_add]; simp; omega
      have h := Hex.dec (c := 32 + c) (by omega) (by omega)
      rwa [this, show 32 + c.toNat - 48 = c.toNat - 16 by omega] at h
    have := Chars.ascii h49 hx (by decide) hc
    rw [show 1 * 16 + (c.toNat - 16) = c.toNat by omega, UInt8.ofNat_toNat] at this
    exact this
  · have hx : Hex (71 + c) (c.toNat - 16) := by
      have : (71 + c).toNat = 71 + c.toNat := by rw [UInt8.toNat_add]; simp; omega
      have h := Hex.small (c := 71 + c) (by omega) (by omega)
      rwa [this, show 71 + c.toNat - 87 = c.toNat - 16 by omega] at h
    have := Chars.ascii h49 hx (by decide) hc
    rw [show 1 * 16 + (c.toNat - 16) = c.toNat by omega, UInt8.ofNat_toNat] at this
    exact this

theorem quoteOne_high {c : UInt8} (h : 128 ≤ c.toNat) : quoteOne c = [c] := by
  have key : ∀ c : UInt8, 128 ≤ c.toNat → quoteOne c = [c] := by
    intro c
    obtain ⟨⟨c⟩⟩ := c
    revert c
    decide +kernel
  exact key c h

theorem quoted_chars {bs : List UInt8} (h : Quotable bs) : Chars (bs.flatMap quoteOne) bs := by
  induction h with
  | nil => exact .nil
  | ascii h1 h2 _ ih => rw [List.flatMap_cons]; exact quoteOne_ascii h1 h2 ih
  | two h1 h2 hx _ ih =>
    simp only [List.flatMap_cons, quoteOne_high (Nat.le_trans (by decide) h1), quoteOne_high hx.1]
    exact .two h1 h2 hx ih
  | three h1 h2 hx hy _ ih =>
    simp only [List.flatMap_cons, quoteOne_high (Nat.le_trans (by decide) h1), quoteOne_high hx.1, quoteOne_high hy.1]
    exact .three h1 h2 hx hy ih
  | four h1 hx hy hz _ ih =>
    simp only [List.flatMap_cons, quoteOne_high (Nat.le_trans (by decide) h1), quoteOne_high hx.1, quoteOne_high hy.1, quoteOne_high hz.1]
    exact .four h1 hx hy hz ih

/-- **C44**, partial: quoting a string gives a text — the one that every buffer with room receives, of the reported length — from which
`JSON.parse` makes a string with the same bytes, at any moment in the life of an engine.  Missing are strings with a vertical tab and
strings that do not have the shape of UTF-8: `C44_vertical_tab` and `C44_lone_byte` show that the text is rejected there. -/
theorem C44_partial {bs : List UInt8} (hq : Quotable bs) : ∃ t : List UInt8,
    (∀ mem off size, off + size ≤ mem.length → t.length < size → ∃ mem', snquote mem off size bs = some (mem', t.length) ∧ Holds mem' off (t ++ [0])) ∧
    ∀ {cmem : Nat → Option UInt8} {numText : Val → List UInt8} {E : Env} {h : Heap} {ops : List ObjOp}, History cmem numText h ops → (∀ o ∈ ops, o.noNul) →
      ∀ (tail : List UInt8) {d : Nat}, t.length < d → t.length < 2 ^ 31 → ∀ {al : Nat → Allocs}, Supplied (t.length + 255) (2 * t.length) h al →
        ∃ v c, parse E d h al (t ++ tail) = .done .ok v c ∧ isString v = true ∧ Reads c.heap.str v bs := by
  refine ⟨quoted bs, fun mem off size hv hl => ?_, fun hh hn tail d hd h31 al hs => ?_⟩
  · obtain ⟨mem', e, hw⟩ := snquote_ok (.inr hv) bs
    exact ⟨mem', e, W.all hw hl⟩
  · have hwr : Writes PlainKey (.str bs) (quoted bs) := .str (quoted_chars hq)
    obtain ⟨v, c, new, e, _, hsh, _⟩ := C46_partial hh hn (w := []) (tail := tail) (by simp [Blank]) hwr .str (by intro _ _ h; cases h) hd h31 hs
    refine ⟨v, c, e, ?_⟩
    generalize hj : J.str bs = j at hsh
    cases hsh <;> cases hj
    exact ⟨by assumption, by assumption⟩

/-- Non-vacuity: a quote, a control character, a backslash and `é` in UTF-8. -/
example : Quotable [34, 1, 92, 195, 169] :=
  .ascii (by decide) (by decide) (.ascii (by decide) (by decide) (.ascii (by decide) (by decide) (.two (by decide) (by decide) ⟨by decide, by decide⟩ .nil)))

/-- **C44, violation.** A vertical tab is written as `\v`, which `JSON.parse` rejects. -/
theorem C44_vertical_tab (E : Env) (h : Heap) (al : Nat → Allocs) : ∃ c, snquote (List.replicate 5 0) 0 5 [11] = some ([34, 92, 118, 34, 0], 4) ∧
    parse E 10 h al [34, 92, 118, 34] = .done .type mkUndefined c := ⟨_, rfl, rfl⟩

/-- **C44, violation.** A byte from 0x80 on that is not followed by another makes the parser skip the closing quote. -/
theorem C44_lone_byte (E : Env) (h : Heap) (al : Nat → Allocs) : ∃ c, snquote (List.replicate 4 0) 0 4 [195] = some ([34, 195, 34, 0], 3) ∧
    parse E 10 h al [34, 195, 34] = .done .type mkUndefined c := ⟨_, rfl, rfl⟩

end Mjs.Props
