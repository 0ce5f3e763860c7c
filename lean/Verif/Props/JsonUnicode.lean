import Verif.Props.JsonValue

/-!
# C46: what `JSON.parse` makes of `\u` escapes that are not ASCII

`C46_partial` covers `\u0000` to `\u007f`.  Here is what happens to the others: `\u0080` to `\u00ff` become one byte, which is not the UTF-8
encoding of the character; all others are refused with a TypeError.  `Spec.Json.utf8` is the encoding of RFC 3629 for the
characters up to U+07FF.
-/

namespace Mjs.Spec.Json

/-- RFC 3629 for a code point below 0x800. -/
def utf8 (c : Nat) : List UInt8 := if c < 128 then [UInt8.ofNat c] else [UInt8.ofNat (192 + c / 64), UInt8.ofNat (128 + c % 64)]

end Mjs.Spec.Json

namespace Mjs.Props
open Mjs Mjs.Str Mjs.Obj Mjs.Exec Mjs.Spec Mjs.Json Mjs.Spec.Json

variable {cmem : Nat → Option UInt8} {numText : Val → List UInt8}

/-- Four hexadecimal digits are passed, whatever they are. -/
theorem scanStr_u {a b x y : UInt8} {na nb nx ny : Nat} (ha : Hex a na) (hb : Hex b nb) (hx : Hex x nx) (hy : Hex y ny) (n : Nat)
    (t : List UInt8) (k : Nat) :
    scanStr (n + 1) (92 :: 117 :: a :: b :: x :: y :: t) k = scanStr n t (k + 6) := by
  have : escapeLen (117 :: a :: b :: x :: y :: t) (92 :: 117 :: a :: b :: x :: y :: t).length = some (.ok 5) := by
    simp [escapeLen, (hex_xdigit ha).1, (hex_xdigit hb).1, (hex_xdigit hx).1, (hex_xdigit hy).1]
  simp only [scanStr, charLen_ascii 92 (by decide)]
  rw [if_neg (by decide), if_neg (by simp), if_pos (by trivial), this]
  rfl

/-- The closing quote behind such an escape is found. -/
theorem scanStr_with_u {body bs rest bs' : List UInt8} (hb : Chars body bs) (hr : Chars rest bs') {a b x y : UInt8} {na nb nx ny : Nat}
    (ha : Hex a na) (hb' : Hex b nb) (hx : Hex x nx) (hy : Hex y ny) (n : Nat) (tail : List UInt8)
    (hn : (body ++ 92 :: 117 :: a :: b :: x :: y :: (rest ++ 34 :: tail)).length < n) :
    scanStr n (body ++ 92 :: 117 :: a :: b :: x :: y :: (rest ++ 34 :: tail)) 0 = .close (body.length + 6 + rest.length) := by
  obtain ⟨n', hn', e⟩ := scanStr_prefix hb n _ 0 hn
  rw [e]
  cases n' with
  | zero => omega
  | succ n' =>
    rw [scanStr_u ha hb' hx hy, scanStr_chars hr _ _ _ (by simp only [List.length_cons] at hn'; omega)]
    congr 1; omega

/-- Unescaping goes through what stands before. -/
theorem unescape_append {body bs : List UInt8} (h : Chars body bs) (t : List UInt8) : unescape (body ++ t) = (unescape t).map (bs ++ ·) := by
  induction h with
  | nil => cases h : unescape t <;> simp [h]
  | plain hc _ ih =>
    rw [List.cons_append, unescape_cons hc.2.2.2, ih]; cases unescape t <;> rfl
  | two h1 _ hx _ ih =>
    rw [List.cons_append, List.cons_append, unescape_cons (fun h => by subst h; simp at h1),
      unescape_cons (fun h => by subst h; exact absurd hx.1 (by decide)), ih]; cases unescape t <;> rfl
  | three h1 _ hx hy _ ih =>
    rw [List.cons_append, List.cons_append, List.cons_append, unescape_cons (fun h => by subst h; simp at h1),
      unescape_cons (fun h => by subst h; exact absurd hx.1 (by decide)),
      unescape_cons (fun h => by subst h; exact absurd hy.1 (by decide)), ih]; cases unescape t <;> rfl
  | four h1 hx hy hz _ ih =>
    rw [List.cons_append, List.cons_append, List.cons_append, List.cons_append, unescape_cons (fun h => by subst h; simp at h1),
      unescape_cons (fun h => by subst h; exact absurd hx.1 (by decide)),
      unescape_cons (fun h => by subst h; exact absurd hy.1 (by decide)),
      unescape_cons (fun h => by subst h; exact absurd hz.1 (by decide)), ih]; cases unescape t <;> rfl
  | @esc c e u b he _ ih =>
    have hc : c ≠ 117 := by cases he <;> decide
    have : escChar c = some e := by cases he <;> rfl
    rw [List.cons_append, List.cons_append, unescape]
    · rw [if_neg hc, this, ih]; cases unescape t <;> rfl
    · intro a b x y t' h1; exact fun _ => (hc h1).elim
  | @ascii x y n m u b hx hy hn _ ih =>
    obtain ⟨_, ex, bx, _⟩ := hex_xdigit hx
    obtain ⟨_, ey, by_, _⟩ := hex_xdigit hy
    have key : ∀ n m : Fin 16, UInt8.ofNat n.val * 16 ||| UInt8.ofNat m.val = UInt8.ofNat (n.val * 16 + m.val) := by decide +kernel
    simp only [List.cons_append]
    rw [unescape, if_pos ⟨rfl, rfl⟩, ih, ex, ey]
    have := key ⟨n, bx⟩ ⟨m, by_⟩
    simp only at this
    rw [this]; cases unescape t <;> rfl

/-- A text that begins with such a string is a string token. -/
theorem parse_with_u (E : Env) (h : Heap) (al : Nat → Allocs) {d : Nat} {w body bs rest bs' tail : List UInt8} (hw : Blank w)
    (hb : Chars body bs) (hr : Chars rest bs') {a b x y : UInt8} {na nb nx ny : Nat}
    (ha : Hex a na) (hb' : Hex b nb) (hx : Hex x nx) (hy : Hex y ny) (hd : 0 < d) {c : Ctx}
    (hc : frozenCb E ⟨h, al, [], mkUndefined, .ok⟩ ⟨none, .string, body ++ 92 :: 117 :: a :: b :: x :: y :: (rest ++ 34 :: tail),
      body.length + 6 + rest.length, []⟩ = some c) (hf : c.frames = []) :
    parse E d h al (w ++ 34 :: body ++ 92 :: 117 :: a :: b :: x :: y :: rest ++ 34 :: tail) = .done .ok c.result c := by
  obtain ⟨d, rfl⟩ := Nat.exists_eq_add_of_le' hd
  unfold parse walk
  rw [if_neg (by simp), show w ++ 34 :: body ++ 92 :: 117 :: a :: b :: x :: y :: rest ++ 34 :: tail =
    w ++ 34 :: (body ++ 92 :: 117 :: a :: b :: x :: y :: (rest ++ 34 :: tail)) by simp]
  simp only [parseValue]
  rw [skip_blank (w := w) rfl hw (by rfl)]
  simp only [List.head?_cons]
  rw [if_pos (by trivial)]
  unfold parseString
  rw [testAndSkip_blank (w := []) rfl blank_nil (by rfl)]
  simp only [Res.bind]
  rw [scanStr_with_u hb hr ha hb' hx hy _ _ (Nat.lt_succ_self _)]
  simp only [callBack]
  rw [if_neg (by simp), hc]
  simp only [advance, hf, if_true]

theorem take_token (body rest tail : List UInt8) (a b x y : UInt8) :
    (body ++ 92 :: 117 :: a :: b :: x :: y :: (rest ++ 34 :: tail)).take (body.length + 6 + rest.length) =
      body ++ 92 :: 117 :: a :: b :: x :: y :: rest := by
  rw [show body ++ 92 :: 117 :: a :: b :: x :: y :: (rest ++ 34 :: tail) =
    (body ++ 92 :: 117 :: a :: b :: x :: y :: rest) ++ 34 :: tail by simp]
  rw [List.take_append_of_le_length (by simp; omega), List.take_of_length_le (by simp; omega)]

/-- **C46**, violated: a string with a `\u` escape from `\u0100` on is JSON, but is refused: the result is `undefined`, and a
TypeError is reported. -/
theorem C46_violation_unicode (E : Env) (h : Heap) (al : Nat → Allocs) {d : Nat} {w body bs rest bs' tail : List UInt8} (hw : Blank w)
    (hb : Chars body bs) (hr : Chars rest bs') {a b x y : UInt8} {na nb nx ny : Nat}
    (ha : Hex a na) (hb' : Hex b nb) (hx : Hex x nx) (hy : Hex y ny) (hne : 0 < na ∨ 0 < nb) (hd : 0 < d) :
    ∃ c, parse E d h al (w ++ 34 :: body ++ 92 :: 117 :: a :: b :: x :: y :: rest ++ 34 :: tail) = .done .ok mkUndefined c ∧
      c.error = .type ∧ c.heap = h := by
  have hz : ¬ (a = 48 ∧ b = 48) := by
    rintro ⟨rfl, rfl⟩
    have h48 : ∀ {n}, Hex 48 n → n = 0 := by
      intro n hn
      generalize e : (48 : UInt8) = c at hn
      cases hn with
      | dec => subst e; rfl
      | small h => subst e; exact absurd h (by decide)
      | capital h => subst e; exact absurd h (by decide)
    have := h48 ha; have := h48 hb'
    omega
  have hun : unescape (body ++ 92 :: 117 :: a :: b :: x :: y :: rest) = none := by
    rw [unescape_append hb, unescape, if_neg hz]; rfl
  refine ⟨⟨h, al, [], mkUndefined, .type⟩, parse_with_u E h al hw hb hr ha hb' hx hy hd (c := ⟨h, al, [], mkUndefined, .type⟩) ?_ rfl, rfl, rfl⟩
  simp only [frozenCb, tokenValue, take_token, hun, Option.bind_some]
  rfl

/-- **C46**, violated: a string with a `\u` escape from `\u0080` to `\u00ff` becomes the string with the byte of that number in its
place, not with the UTF-8 encoding of the character. -/
theorem C46_violation_latin1 {E : Env} {h : Heap} {ops : List ObjOp} (hh : History cmem numText h ops) (hn : ∀ o ∈ ops, o.noNul)
    {w body bs rest bs' tail : List UInt8} (hw : Blank w) (hb : Chars body bs) (hr : Chars rest bs') {x y : UInt8} {n m : Nat}
    (hx : Hex x n) (hy : Hex y m) (h8 : 8 ≤ n) {d : Nat} (hd : 0 < d) {al : Nat → Allocs}
    (hs : Supplied (bs.length + 1 + bs'.length) 1 h al) :
    ∃ v c, parse E d h al (w ++ 34 :: body ++ 92 :: 117 :: 48 :: 48 :: x :: y :: rest ++ 34 :: tail) = .done .ok v c ∧ c.error = .ok ∧
      isString v = true ∧ Reads c.heap.str v (bs ++ [UInt8.ofNat (n * 16 + m)] ++ bs') ∧
      bs ++ [UInt8.ofNat (n * 16 + m)] ++ bs' ≠ bs ++ utf8 (n * 16 + m) ++ bs' := by
  obtain ⟨_, ex, bx, _⟩ := hex_xdigit hx
  obtain ⟨_, ey, by_, _⟩ := hex_xdigit hy
  have key : ∀ n m : Fin 16, UInt8.ofNat n.val * 16 ||| UInt8.ofNat m.val = UInt8.ofNat (n.val * 16 + m.val) := by decide +kernel
  have hk := key ⟨n, bx⟩ ⟨m, by_⟩
  simp only at hk
  have h0 : Hex 48 0 := .dec (c := 48) (by decide) (by decide)
  have hun : unescape (body ++ 92 :: 117 :: 48 :: 48 :: x :: y :: rest) = some (bs ++ [UInt8.ofNat (n * 16 + m)] ++ bs') := by
    rw [unescape_append hb, unescape, if_pos ⟨rfl, rfl⟩, unescape_chars hr, ex, ey, hk]
    simp
  obtain ⟨c', v, e, hadv, _, hres, hstr, hrd⟩ := tokenString_ok (E := E) (need := bs.length + 1 + bs'.length)
    (c := ⟨h, al, [], mkUndefined, .ok⟩) (m := 0)
    (e := ⟨none, .string, body ++ 92 :: 117 :: 48 :: 48 :: x :: y :: (rest ++ 34 :: tail), body.length + 6 + rest.length, []⟩) ⟨hh, hn⟩ rfl
    (by rw [take_token]; exact hun) (by simp; omega) hs
  have hf : c'.frames = [] := hadv.frames
  refine ⟨v, { c' with result := v }, parse_with_u E h al hw hb hr h0 h0 hx hy hd (c := { c' with result := v }) ?_ hf, hadv.error, hstr,
    hrd, ?_⟩
  · simp only [frozenCb, e, Option.bind_some, isUndefined_of_string hstr, Bool.false_eq_true, if_false, link, hf, if_true]
    simp
  · intro he
    have := congrArg List.length he
    simp only [utf8, show ¬ n * 16 + m < 128 by omega, if_false, List.length_append, List.length_cons, List.length_nil] at this
    omega

/-- The Euro sign, `"\u20ac"`, is refused. -/
example (E : Env) (h : Heap) (al : Nat → Allocs) :
    ∃ c, parse E 1 h al [34, 92, 117, 50, 48, 97, 99, 34] = .done .ok mkUndefined c ∧ c.error = .type ∧ c.heap = h :=
  C46_violation_unicode E h al (w := []) (body := []) (rest := []) (tail := []) (a := 50) (b := 48) (x := 97) (y := 99)
    blank_nil .nil .nil (.dec (by decide) (by decide)) (.dec (by decide) (by decide)) (.small (by decide) (by decide))
    (.small (by decide) (by decide)) (.inl (by decide)) (by decide)

/-- `"\u00e9"`, an e with an acute accent, becomes the one byte E9, in a fresh engine. -/
example (E : Env) (numText : Val → List UInt8) : ∃ h al v c, parse E 1 h al [34, 92, 117, 48, 48, 101, 57, 34] = .done .ok v c ∧
    Reads c.heap.str v [0xe9] ∧ utf8 0xe9 = [0xc3, 0xa9] := by
  obtain ⟨h, hh, hr⟩ := demo_start numText
  obtain ⟨A, fo, fp, hs⟩ := hh.sim
  have hsup := supplied_room (need := 1) (by decide) 1 hr hs.inv.str (by decide)
  have hx : Hex 101 14 := .small (c := 101) (by decide) (by decide)
  have hy : Hex 57 9 := .dec (c := 57) (by decide) (by decide)
  obtain ⟨v, c, e, _, _, hrd, _⟩ := C46_violation_latin1 (E := E) hh (by simp) (w := []) (body := []) (rest := []) (tail := []) blank_nil
    .nil .nil hx hy (by decide) (d := 1) (by decide) hsup
  exact ⟨h, _, v, c, e, hrd, by decide⟩

end Mjs.Props
