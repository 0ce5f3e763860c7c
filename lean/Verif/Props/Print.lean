import Verif.Props.NumText
import Verif.Props.JsonOut
import Verif.Lemmas.Load

/-!
# C71: printing values

`mjs_sprintf` and `mjs_fprintf` write a value as text, `print` writes its arguments.
-/

namespace Mjs.Props
open Mjs Mjs.Str Mjs.Obj Mjs.Core Mjs.Exec Mjs.Spec Mjs.Spec.Double Mjs.Spec.Print Mjs.Spec.Load Mjs.Load Mjs.Print

/-! ## The text of each kind of values -/

theorem other_kind {v : Val} {q : Kind} (h : asks q v = true) (q' : Kind) (hne : q ≠ q') : asks q' v = false := by
  cases h' : asks q' v with
  | false => rfl
  | true => exact absurd (C04_one_kind v q q' h h') hne

/-- **C71, words.** -/
theorem C71_words (st : Store) : fprintf st mkUndefined = some (txt "undefined") ∧ fprintf st mkNull = some (txt "null") ∧
    fprintf st (mkBoolean true) = some (txt "true") ∧ fprintf st (mkBoolean false) = some (txt "false") := by
  refine ⟨?_, ?_, ?_, ?_⟩ <;> rfl

/-- **C71, numbers.** Numbers are printed as their text (C70). -/
theorem C71_number (st : Store) {v : Val} (h : isNumber v = true) : fprintf st v = some (Print.numText v) := by
  simp [fprintf, pieces, h]

theorem hex2_digits : ∀ c : UInt8, ∃ x y a b, hex2 c = [x, y] ∧ Numeral.digit x = some a ∧ Numeral.digit y = some b ∧ a < 16 ∧ b < 16 ∧ c.toNat = 16 * a + b := by
  have h : ∀ n : Fin 256, (match hex2 (UInt8.ofNat n) with
      | [x, y] => (match Numeral.digit x, Numeral.digit y with
        | some a, some b => decide (a < 16 ∧ b < 16 ∧ n.1 = 16 * a + b)
        | _, _ => false)
      | _ => false) = true := by decide +kernel
  intro c
  have h := h ⟨c.toNat, c.toNat_lt⟩
  simp only [UInt8.ofNat_toNat] at h
  split at h
  · rename_i x y e
    split at h
    · rename_i a b ha hb
      exact ⟨x, y, a, b, e, ha, hb, by simpa using h⟩
    · cases h
  · cases h

theorem isprint_iff (c : UInt8) : isprint c = true ↔ 32 ≤ c.toNat ∧ c.toNat ≤ 126 := by
  simp [isprint, UInt8.le_iff_toNat_le]

theorem strPieces_shown : ∀ bs : List UInt8, Shown bs (strPieces bs).flatten
  | [] => .nil
  | c :: r => by
    unfold strPieces
    by_cases hp : isprint c = true
    · rw [if_pos hp]
      have := (isprint_iff c).1 hp
      exact .plain this.1 this.2 (strPieces_shown r)
    · rw [if_neg hp]
      obtain ⟨x, y, a, b, e, h⟩ := hex2_digits c
      have hn : c.toNat < 32 ∨ 126 < c.toNat := by
        have : ¬ (32 ≤ c.toNat ∧ c.toNat ≤ 126) := fun h => hp ((isprint_iff c).2 h)
        omega
      rw [e]
      exact .hex hn h.1 h.2.1 h.2.2.1 h.2.2.2.1 h.2.2.2.2 (strPieces_shown r)

/-- **C71, strings.** A string is printed as its bytes; bytes that are not printable ASCII are escaped. -/
theorem C71_string {st : Store} {v : Val} {bs : List UInt8} (hi : Mbuf.Inv st.owned) (hs : isString v = true) (h : Reads st v bs) :
    ∃ t, fprintf st v = some t ∧ Shown bs t := by
  obtain ⟨p, n, h1, h2, h3⟩ := h
  refine ⟨(strPieces bs).flatten, ?_, strPieces_shown bs⟩
  have hn : bs.length = n := load_length hi h3
  simp only [fprintf, pieces]
  rw [if_neg (by rw [show isNumber v = false from other_kind (q := .string) hs .number (by decide)]; decide),
    if_neg (by rw [show isBoolean v = false from other_kind (q := .string) hs .boolean (by decide)]; decide), if_pos hs, h1]
  simp only [Option.bind_eq_bind, Option.bind_some]
  split
  · rename_i h0
    subst h0
    cases bs with
    | nil => rfl
    | cons _ _ => cases hn
  · rw [h3]; rfl

/-- Two texts of one string are the same. -/
theorem shown_unique {bs t u : List UInt8} (h : Shown bs t) (h' : Shown bs u) : t = u := by
  have hd : ∀ x y : UInt8, ∀ a, a < 16 → Numeral.digit x = some a → Numeral.digit y = some a → x = y := by
    intro x y a ha hx hy
    unfold Numeral.digit at hx hy
    have : x.toNat = y.toNat := by
      by_cases h1 : 48 ≤ x.toNat ∧ x.toNat ≤ 57 <;> by_cases h2 : 48 ≤ y.toNat ∧ y.toNat ≤ 57 <;>
        by_cases h3 : 97 ≤ x.toNat ∧ x.toNat ≤ 122 <;> by_cases h4 : 97 ≤ y.toNat ∧ y.toNat ≤ 122 <;>
        simp only [h1, h2, h3, h4, if_true, if_false, and_self, Option.some.injEq, reduceCtorEq] at hx hy <;> omega
    exact UInt8.toNat_inj.1 this
  induction h generalizing u with
  | nil => cases h'; rfl
  | plain h1 h2 _ ih =>
    cases h' with
    | plain _ _ h3 => rw [ih h3]
    | hex h3 => omega
  | hex h1 hx hy ha hb he _ ih =>
    cases h' with
    | plain h3 h4 _ => omega
    | hex _ hx' hy' ha' hb' he' h3 =>
      have e1 : _ = _ := hd _ _ _ ha hx (by rw [hx']; congr 1; omega)
      have e2 : _ = _ := hd _ _ _ hb hy (by rw [hy']; congr 1; omega)
      rw [ih h3, e1, e2]

/-- **C71, objects, functions and pointers.** -/
theorem C71_others (st : Store) {v : Val} :
    (isArray v = true → fprintf st v = some (txt "<array>")) ∧
    (isObject v = true → isArray v = false → fprintf st v = some (txt "<object>")) ∧
    (isForeign v = true → ∃ t, Numeral.Nat 16 (getPtr v).toNat t ∧ fprintf st v = some (txt "<foreign_ptr@" ++ t ++ txt ">")) ∧
    (isFunction v = true → (getFuncAddr v).toNat < 2 ^ 31 →
      ∃ t, Numeral.Nat 10 (getFuncAddr v).toNat t ∧ fprintf st v = some (txt "<function@" ++ t ++ txt ">")) := by
  have no : ∀ {q q' : Kind}, asks q v = true → q ≠ q' → ¬ asks q' v = true := fun h hne => by
    rw [other_kind h _ hne]; decide
  refine ⟨fun h => ?_, fun h ha => ?_, fun h => ?_, fun h hs => ?_⟩
  · have ho : asks .object v = true := by
      simp only [asks, isObject, isArray] at h ⊢
      rw [h]; simp
    simp only [fprintf, pieces]
    rw [if_neg (show ¬ isNumber v = true from no ho (q' := .number) (by decide)), if_neg (show ¬ isBoolean v = true from no ho (q' := .boolean) (by decide)), if_neg (show ¬ isString v = true from no ho (q' := .string) (by decide)), if_pos h]
    rfl
  · have ho : asks .object v = true := h
    simp only [fprintf, pieces]
    rw [if_neg (show ¬ isNumber v = true from no ho (q' := .number) (by decide)), if_neg (show ¬ isBoolean v = true from no ho (q' := .boolean) (by decide)), if_neg (show ¬ isString v = true from no ho (q' := .string) (by decide)),
      if_neg (by rw [ha]; decide), if_pos h]
    rfl
  · have ho : asks .foreign v = true := h
    refine ⟨_, Printf.digitsRev_numeral (getPtr v).toNat 16 (by decide) (by decide), ?_⟩
    have hna : ¬ isArray v = true := fun ha => no ho (q' := .object) (by decide) (by
      simp only [asks, isObject, isArray] at ha ⊢
      rw [ha]; simp)
    simp only [fprintf, pieces]
    rw [if_neg (show ¬ isNumber v = true from no ho (q' := .number) (by decide)), if_neg (show ¬ isBoolean v = true from no ho (q' := .boolean) (by decide)), if_neg (show ¬ isString v = true from no ho (q' := .string) (by decide)),
      if_neg hna, if_neg (show ¬ isObject v = true from no ho (q' := .object) (by decide)), if_pos h]
    simp
  · have ho : asks .function v = true := h
    refine ⟨_, dec_numeral (getFuncAddr v).toNat, ?_⟩
    have hna : ¬ isArray v = true := fun ha => no ho (q' := .object) (by decide) (by
      simp only [asks, isObject, isArray] at ha ⊢
      rw [ha]; simp)
    have hi : ((getFuncAddr v).setWidth 32).toInt = (getFuncAddr v).toNat := by
      rw [BitVec.toInt_eq_toNat_of_lt (by rw [BitVec.toNat_setWidth]; omega), BitVec.toNat_setWidth]
      omega
    simp only [fprintf, pieces]
    rw [if_neg (show ¬ isNumber v = true from no ho (q' := .number) (by decide)), if_neg (show ¬ isBoolean v = true from no ho (q' := .boolean) (by decide)), if_neg (show ¬ isString v = true from no ho (q' := .string) (by decide)),
      if_neg hna, if_neg (show ¬ isObject v = true from no ho (q' := .object) (by decide)), if_neg (show ¬ isForeign v = true from no ho (q' := .foreign) (by decide)), if_pos h, hi]
    simp [decInt]

example (st : Store) : fprintf st (mkFn 500) = some (txt "<foreign_ptr@1f4>") := by
  obtain ⟨t, _, e⟩ := (C71_others st (v := mkFn 500)).2.2.1 (by decide)
  have h : pieces st (mkFn 500) = some [txt "<foreign_ptr@", (Printf.digitsRev 500 16 (by decide)).reverse, txt ">"] := rfl
  unfold fprintf
  rw [h]
  decide +kernel

/-! ## Printing in a buffer -/

theorem splice_getElem? {mem p : List UInt8} {a : Nat} (h : a + p.length ≤ mem.length) (j : Nat) :
    (mem.take a ++ p ++ mem.drop (a + p.length))[j]? = if a ≤ j ∧ j < a + p.length then p[j - a]? else mem[j]? := by
  have hl : (mem.take a).length = a := by rw [List.length_take]; omega
  by_cases h1 : j < a
  · rw [if_neg (by omega), List.append_assoc, List.getElem?_append_left (by omega), List.getElem?_take, if_pos h1]
  · by_cases h2 : j < a + p.length
    · rw [if_pos (by omega), List.getElem?_append_left (by rw [List.length_append]; omega), List.getElem?_append_right (by omega), hl]
    · rw [if_neg (by omega), List.getElem?_append_right (by rw [List.length_append]; omega), List.getElem?_drop, List.length_append, hl]
      congr 1; omega

/-- What is in the buffer after the pieces `acc`. -/
structure Printed (mem : List UInt8) (off size : Nat) (acc : List UInt8) (some' : Bool) (st : List UInt8 × Nat) : Prop where
  len : st.2 = min acc.length size
  only : Json.OnlyAt off size mem st.1
  text : ∀ i, i < acc.length → i < size - 1 → st.1[off + i]? = acc[i]?
  nul : some' = true → 0 < size → st.1[off + min acc.length (size - 1)]? = some 0

theorem printed_step {mem : List UInt8} {off size : Nat} (hv : off + size ≤ mem.length) {acc : List UInt8} {b : Bool} {st : List UInt8 × Nat}
    (h : Printed mem off size acc b st) (piece : List UInt8) : ∃ st', printerBuf off size st piece = some st' ∧ Printed mem off size (acc ++ piece) true st' := by
  obtain ⟨m, l⟩ := st
  have hlen : l = min acc.length size := h.len
  have hml : m.length = mem.length := h.only.1
  obtain ⟨n, hn⟩ : ∃ n, n = min piece.length (size - l) := ⟨_, rfl⟩
  have hnl : (piece.take n).length = n := by rw [List.length_take]; omega
  obtain ⟨m2, hm2⟩ : ∃ m2, m2 = m.take (off + l) ++ piece.take n ++ m.drop (off + l + n) := ⟨_, rfl⟩
  have hl2 : m2.length = m.length := by
    rw [hm2, List.length_append, List.length_append, List.length_take, List.length_drop, hnl]; omega
  have hg : ∀ j, m2[j]? = if off + l ≤ j ∧ j < off + l + n then (piece.take n)[j - (off + l)]? else m[j]? := by
    intro j
    have := splice_getElem? (mem := m) (p := piece.take n) (a := off + l) (by rw [hnl]; omega) j
    rwa [hnl, ← hm2] at this
  have hacc : ∀ i, i < (acc ++ piece).length → i < size - 1 → m2[off + i]? = (acc ++ piece)[i]? := by
    intro i h1 h2
    rw [List.length_append] at h1
    rw [hg]
    by_cases hi : i < acc.length
    · rw [if_neg (by omega), List.getElem?_append_left hi]
      exact h.text i hi h2
    · rw [if_pos (by omega), List.getElem?_append_right (by omega), List.getElem?_take, if_pos (by omega)]
      congr 1; omega
  have honly : Json.OnlyAt off size mem m2 := by
    refine ⟨hl2.trans hml, fun i hi => ?_⟩
    rw [hg, if_neg (by omega)]
    exact h.only.2 i hi
  unfold printerBuf
  dsimp only
  rw [← hn, if_pos (by omega), ← hm2]
  by_cases hs : size = 0
  · rw [if_pos hs]
    exact ⟨_, rfl, ⟨by rw [List.length_append]; dsimp only; omega, honly, fun i _ hi => by omega, fun _ h => by omega⟩⟩
  · rw [if_neg hs]
    obtain ⟨k, hk⟩ : ∃ k, k = (if l + n ≥ size then size - 1 else l + n) := ⟨_, rfl⟩
    have hk' : k = min (acc ++ piece).length (size - 1) := by
      rw [hk, List.length_append]; split <;> omega
    rw [← hk, if_pos (by omega)]
    refine ⟨_, rfl, ⟨by rw [List.length_append]; dsimp only; omega, ⟨by rw [List.length_set]; exact honly.1, fun i hi => ?_⟩, fun i h1 h2 => ?_, fun _ _ => ?_⟩⟩
    · rw [List.getElem?_set_ne (by omega)]; exact honly.2 i hi
    · rw [List.getElem?_set_ne (by omega)]; exact hacc i h1 h2
    · rw [← hk']
      exact List.getElem?_set_self (by omega)

theorem printed_fold {mem : List UInt8} {off size : Nat} (hv : off + size ≤ mem.length) : ∀ (ps : List (List UInt8)) {acc : List UInt8} {b : Bool} {st},
    Printed mem off size acc b st → ∃ st', ps.foldlM (printerBuf off size) st = some st' ∧ Printed mem off size (acc ++ ps.flatten) (b || !ps.isEmpty) st'
  | [], acc, b, st, h => ⟨st, rfl, by simpa using h⟩
  | p :: ps, acc, b, st, h => by
    obtain ⟨st1, e1, h1⟩ := printed_step hv h p
    obtain ⟨st2, e2, h2⟩ := printed_fold hv ps h1
    refine ⟨st2, ?_, by simpa using h2⟩
    rw [List.foldlM_cons, e1]
    exact e2

/-- **C71, buffers.** For every value that is printed as a text `t`, `mjs_sprintf` writes in the buffer only, and leaves there as much of
the text as fits, and a NUL byte.  The empty text is excepted (`C71_violation_empty`). -/
theorem C71_sprintf_partial {st : Store} {v : Val} {t : List UInt8} (ht : fprintf st v = some t) {mem : List UInt8} {off size : Nat}
    (hv : off + size ≤ mem.length) :
    ∃ mem', sprintf st v mem off size = some mem' ∧ Json.OnlyAt off size mem mem' ∧ (0 < size → t ≠ [] → Json.Holds mem' off (t.take (size - 1) ++ [0])) := by
  unfold fprintf at ht
  cases hp : pieces st v with
  | none => rw [hp] at ht; cases ht
  | some ps =>
    rw [hp, Option.map_some, Option.some.injEq] at ht
    obtain ⟨st', e, h⟩ := printed_fold hv ps (acc := []) (b := false) (st := (mem, 0))
      ⟨by simp, ⟨rfl, fun _ _ => rfl⟩, fun i hi _ => by simp at hi, fun h => by cases h⟩
    rw [List.nil_append, ht] at h
    refine ⟨st'.1, ?_, h.only, fun hs hne i hi => ?_⟩
    · unfold sprintf
      rw [hp, Option.bind_eq_bind, Option.bind_some, e, Option.map_some]
    · have hb : (false || !ps.isEmpty) = true := by
        cases ps with
        | nil => exact absurd (by rw [← ht]; rfl) hne
        | cons _ _ => rfl
      rw [List.length_append, List.length_take, List.length_cons, List.length_nil] at hi
      by_cases h1 : i < min (size - 1) t.length
      · rw [List.getElem?_append_left (by rw [List.length_take]; exact h1), List.getElem?_take, if_pos (by omega)]
        exact h.text i (by omega) (by omega)
      · have hi' : i = min t.length (size - 1) := by omega
        rw [List.getElem?_append_right (by rw [List.length_take]; omega), List.length_take, hi', h.nul hb hs]
        rw [show min t.length (size - 1) - min (size - 1) t.length = 0 by omega]
        rfl

/-- The string `a`, NUL, `b` printed in a buffer of 4 bytes in the middle of a block. -/
example (st : Store) : sprintf st 0xFFF6000062006103#64 (List.replicate 6 7) 1 4 = some [7, 97, 92, 120, 0, 7] := by
  have h : pieces st 0xFFF6000062006103#64 = some (strPieces [97, 0, 98]) := rfl
  unfold sprintf
  rw [h]
  decide +kernel

/-- **C71, violated**: the empty string is not written at all; the buffer has no NUL byte afterwards if it had none before. -/
theorem C71_violation_empty {st : Store} {v : Val} {p : Ptr} (hs : isString v = true) (hg : getString st v = some (p, 0)) (mem : List UInt8) (off size : Nat) :
    fprintf st v = some [] ∧ sprintf st v mem off size = some mem := by
  have hp : pieces st v = some [] := by
    simp only [pieces]
    rw [if_neg (by rw [show isNumber v = false from other_kind (q := .string) hs .number (by decide)]; decide),
      if_neg (by rw [show isBoolean v = false from other_kind (q := .string) hs .boolean (by decide)]; decide), if_pos hs, hg]
    rfl
  constructor
  · unfold fprintf; rw [hp]; rfl
  · unfold sprintf; rw [hp]; rfl

example (st : Store) (mem : List UInt8) : sprintf st 0xFFF6000000000000#64 mem 0 mem.length = some mem :=
  (C71_violation_empty (p := .loc (bytesFrom 0xFFF6000000000000#64 1)) (by decide) rfl mem 0 mem.length).2

theorem dec_ne (n : Nat) : dec n ≠ [] := (dec_numeral n).2.1

/-- It is the only one: all other values have a text. -/
theorem C71_nonempty {st : Store} {v : Val} (h : fprintf st v = some []) : isString v = true := by
  cases hs : isString v with
  | true => rfl
  | false =>
    exfalso
    unfold fprintf pieces at h
    rw [hs] at h
    by_cases hn : isNumber v = true
    · rw [if_pos hn] at h
      simp only [Option.map_some, Option.some.injEq, List.flatten_cons, List.flatten_nil, List.append_nil] at h
      unfold Print.numText at h
      dsimp only at h
      split at h
      · unfold decInt at h
        exact dec_ne _ (List.append_eq_nil_iff.1 h).2
      · unfold fixed at h
        have h := (List.append_eq_nil_iff.1 h).2
        split at h
        · cases h
        · simp at h
    · rw [if_neg hn] at h
      rw [if_neg (show ¬ false = true by decide)] at h
      repeat' split at h
      all_goals simp [txt] at h

/-! ## `print` -/

theorem inCall_nargs {vm : Vm} {pre : List Val} {f : Val} {args : List Val} (h : InCall vm pre f args) : nargs vm = some (args.length : Int) := by
  obtain ⟨frames, e, hf⟩ := inCall_put h
  rw [e]; exact put_nargs hf

theorem printArgs_eq {vm : Vm} {pre : List Val} {f : Val} {args : List Val} (h : InCall vm pre f args) :
    ∀ (rest done : List Val) (texts : List (List UInt8)), args = done ++ rest → rest.map (fprintf vm.heap.str) = texts.map some →
      printArgs vm done.length rest.length = some (texts.map (· ++ [32])).flatten
  | [], _, texts, _, hf => by
    cases texts with
    | nil => rfl
    | cons _ _ => cases hf
  | v :: rest, done, texts, e, hf => by
    cases texts with
    | nil => cases hf
    | cons t ts =>
      obtain ⟨h1, h2⟩ := List.cons.inj hf
      have ih := printArgs_eq h rest (done ++ [v]) ts (by simp [e]) h2
      rw [List.length_append] at ih
      simp only [List.length_cons, printArgs]
      rw [inCall_arg h, argument, e, List.getElem?_append_right (Nat.le_refl _)]
      simp only [Nat.sub_self, List.getElem?_cons_zero, Option.getD_some, Option.bind_eq_bind, Option.bind_some, h1]
      simp only [List.length_cons, List.length_nil, Nat.zero_add] at ih
      rw [ih]
      simp

/-- **C71, print.** `print(a, b, …)` writes the texts of its arguments, in order, each followed by a space, and then a newline; its value is
undefined and nothing else of the engine changes. -/
theorem C71_print {vm : Vm} {pre : List Val} {f : Val} {args : List Val} {texts : List (List UInt8)} (h : InCall vm pre f args)
    (ht : args.map (fprintf vm.heap.str) = texts.map some) :
    print vm = some ((texts.map (· ++ [32])).flatten ++ [10], { vm with stack := pre ++ [mkUndefined] }) := by
  have := printArgs_eq h args [] texts rfl ht
  unfold Print.print
  rw [inCall_nargs h]
  simp only [Option.bind_eq_bind, Option.bind_some, Int.toNat_natCast]
  rw [show ([] : List Val).length = 0 from rfl] at this
  rw [this, inCall_ret h]
  rfl

/-- `print(42, null, "a\0b")`. -/
example (vm : Vm) (h : InCall vm [] (mkFn 7) [mkInt 42, mkNull, 0xFFF6000062006103#64]) :
    Print.print vm = some (txt "42 null a\\x00b \n", { vm with stack := [mkUndefined] }) := by
  have h3 : fprintf vm.heap.str 0xFFF6000062006103#64 = some (txt "a\\x00b") := by
    have h : pieces vm.heap.str 0xFFF6000062006103#64 = some (strPieces [97, 0, 98]) := rfl
    unfold fprintf
    rw [h]
    decide +kernel
  have h1 : fprintf vm.heap.str (mkInt 42) = some (txt "42") := by
    rw [C71_number _ (by decide +kernel)]
    decide +kernel
  refine (C71_print (texts := [txt "42", txt "null", txt "a\\x00b"]) h ?_).trans rfl
  show [_, _, _] = [_, _, _]
  rw [h1, h3, (C71_words _).2.1]

end Mjs.Props
