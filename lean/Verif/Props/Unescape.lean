import Verif.Lemmas.Unescape
import Verif.Lemmas.Varint

/-!
# C14: string literals

What a literal denotes is `Denotes` of Spec/Escape.lean.  `body ++ rest` is the source text from the first byte of the
literal on; `rest` begins with the closing quote.
-/

namespace Mjs.Props
open Mjs Mjs.Mbuf Mjs.Str Mjs.Varint Mjs.Spec.Escape Mjs.Spec.Bytes

/-- **C14.** Decoding a literal yields the bytes it denotes, whatever follows it. -/
theorem C14_literal_denotes (body t rest : List UInt8) (h : Denotes body t) :
    unescape (body ++ rest) body.length = some t := by
  have := unescLoop_denotes h [] rest
  simpa [unescape] using this

example : Denotes [97, 92, 110, 92, 120, 52, 70, 92, 34] [97, 10, 79, 34] :=    -- a\n\x4F\"
  .plain (by decide) (.escape rfl (.hex (x := 4) (y := 15) rfl rfl (.escape rfl .nil)))

/-- **C14, plain text.** A body without backslashes denotes itself. -/
theorem C14_plain_text (body rest : List UInt8) (h : ∀ c ∈ body, c ≠ 92) :
    unescape (body ++ rest) body.length = some body := C14_literal_denotes body body rest (denotes_plain h)

/-- **C14, any body.** For a body of any bytes, with any escapes, followed by a quote: the decoder reads only the source
text (`some`), and writes at most as many bytes as the body has. -/
theorem C14_any_body (body rest : List UInt8) (q : UInt8) (hq : q = 34 ∨ q = 39) :
    ∃ t, unescape (body ++ q :: rest) body.length = some t ∧ t.length ≤ body.length := by
  refine unescLoop_total (c := q) (getElem?_at body q rest) ?_ 0
  rcases hq with rfl | rfl <;> decide

/-- **C14, embedding.** Compiling a literal puts its length and exactly the decoded bytes at the requested place of the
code buffer: room for them was made, all other bytes stay, nothing is written outside (any outside write is `none`). -/
theorem C14_embedded (hr : Nat) (m : Mbuf) (hm : Mbuf.Inv m) (off : Nat) (body rest t : List UInt8) (al1 al2 : Alloc)
    (hoff : off ≤ m.len) (h1 : AllocOk al1) (h2 : AllocOk al2) (hgrant : al1 ≠ none) (haddr : m.addr < 2 ^ 63)
    (hsz : m.len + t.length + 10 < 2 ^ 52) (h : unescape (body ++ rest) body.length = some t) :
    ∃ m', embedUnescaped hr m off (body ++ rest) body.length al1 al2 = some m' ∧ Mbuf.Inv m' ∧
      m'.content = insertAt m.content off (encodeBytes t.length ++ t) := by
  have hk := llen_le_ten t.length (by omega)
  have hl := length_encodeBytes t.length
  obtain ⟨m1, m2, m3, r, e1, e2, e3, i3, c3⟩ := insert_store2 hr m hm off (encodeBytes t.length) t al1 al2 hoff (by omega) h1 h2
    (.inr hgrant) haddr
  refine ⟨m3, ?_, i3, c3⟩
  rw [hl] at e1 e3
  have henc : (encode t.length (llen t.length)).1 = encodeBytes t.length := by
    rw [encode_full t.length _ (Nat.le_refl _)]
  simp only [embedUnescaped, h, Option.bind_eq_bind, Option.bind_some, e1, henc, e2, e3]

example : ∃ m', embedUnescaped 64 ⟨4096, [9, 9, 7], 2⟩ 1 [92, 110, 34] 2 (some (8192, fun _ => 7)) none = some m' ∧
    m'.content = [9, 1, 10, 9] := by
  obtain ⟨m', h1, _, h3⟩ := C14_embedded 64 ⟨4096, [9, 9, 7], 2⟩ ⟨by decide, by decide⟩ 1 [92, 110] [34] [10]
    (some (8192, fun _ => 7)) none (by decide) (by rintro r ⟨⟩; decide) (by rintro r ⟨⟩) (by simp) (by decide) (by decide)
    (C14_literal_denotes [92, 110] [10] [34] (.escape rfl .nil))
  exact ⟨m', h1, h3.trans (by rw [encodeBytes_last _ (by decide)]; rfl)⟩

/-- **C14, finding.** An escape that is not known keeps its backslash; `\c` stands for the byte 3 and swallows the next
character; `\x` without two hex digits stands for the byte 0. -/
theorem C14_other_escapes (rest : List UInt8) :
    unescape ([92, 113] ++ rest) 2 = some [92, 113] ∧ unescape ([92, 99, 65, 66] ++ rest) 4 = some [3, 66] ∧
    unescape ([92, 120, 52, 113] ++ rest) 4 = some [0, 52, 113] := by
  have done' : ∀ mem i, unescLoop mem i i = some [] := fun mem i => by rw [unescLoop, if_neg (Nat.lt_irrefl _)]
  refine ⟨?_, ?_, ?_⟩ <;> unfold unescape
  · rw [unescLoop_step (out := [92, 113]) (j := 2) (by decide) rfl, done']; rfl
  · rw [unescLoop_step (out := [3]) (j := 3) (by decide) rfl, unescLoop_step (out := [66]) (j := 4) (by decide) rfl, done']
    rfl
  · rw [unescLoop_step (out := [0]) (j := 2) (by decide) rfl, unescLoop_step (out := [52]) (j := 3) (by decide) rfl,
      unescLoop_step (out := [113]) (j := 4) (by decide) rfl, done']
    rfl

end Mjs.Props
