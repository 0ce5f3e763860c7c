import Verif.Lemmas.JsonValue
import Verif.Spec.JsonDoc

/-!
# The callbacks the JSON parser makes for a well-formed text
-/

namespace Mjs.Spec.Json
open Mjs Mjs.Json Mjs.Spec

/-- The type of a word, number or string. -/
def atomType (raw : List UInt8) : TokT :=
  if raw.head? = some 34 then .string
  else if raw.head? = some 110 then .null
  else if raw.head? = some 116 then .true
  else if raw.head? = some 102 then .false
  else .number

/-- What a callback gets to see of it: strings without the opening quote. -/
def atomPtr (raw : List UInt8) : List UInt8 := if raw.head? = some 34 then raw.drop 1 else raw

/-- Strings are shorter by their quotes. -/
def atomLen (raw : List UInt8) : Nat := if raw.head? = some 34 then raw.length - 2 else raw.length

mutual
/-- The callbacks for a text with this name and path, followed by `r`. -/
def Doc.events (nm : Option (List UInt8)) (p r : List UInt8) : Doc → List Event
  | .atom raw => [⟨nm, atomType raw, atomPtr raw ++ r, atomLen raw, p⟩]
  | .list w l => ⟨nm, .arrayStart, [], 0, p⟩ :: (l.events p 0 (93 :: r) ++
      [⟨none, .arrayEnd, 91 :: (w ++ (l.text ++ 93 :: r)), w.length + l.text.length + 2, p⟩])
  | .record w l => ⟨nm, .objectStart, [], 0, p⟩ :: (l.events p (125 :: r) ++
      [⟨none, .objectEnd, 123 :: (w ++ (l.text ++ 125 :: r)), w.length + l.text.length + 2, p⟩])
def Elems.events (p : List UInt8) (i : Nat) (r : List UInt8) : Elems → List Event
  | .nil => []
  | .cons d w w' l => d.events (some (dec i)) (p ++ indexText i) (w ++ (l.comma w' ++ (l.text ++ r))) ++ l.events p (i + 1) r
def Members.events (p r : List UInt8) : Members → List Event
  | .nil => []
  | .cons k _ _ d w w' l => d.events (some k) (p ++ 46 :: k) (w ++ (l.comma w' ++ (l.text ++ r))) ++ l.events p r
end

end Mjs.Spec.Json

namespace Mjs.Json
open Mjs Mjs.Spec Mjs.Spec.Json

/-- What may follow a text: the end, a blank, a comma, a closing bracket. -/
def Ends (r : List UInt8) : Prop := r = [] ∨ Stops r

theorem run_blank {f : UInt8 → Bool} (hf : f 32 = false) : ∀ x : List UInt8, run f (x ++ [32]) = run f x
  | [] => by simp [run, hf]
  | c :: x => by
    unfold run
    rw [List.cons_append]
    cases hc : f c with
    | true => rw [List.takeWhile_cons_of_pos hc, List.takeWhile_cons_of_pos hc]; have := run_blank hf x; unfold run at this; simp [this]
    | false => rw [List.takeWhile_cons_of_neg (by simp [hc]), List.takeWhile_cons_of_neg (by simp [hc])]

theorem digits1_blank {x : List UInt8} {n : Nat} {f : UInt8 → Bool} (hf : f 32 = false) (h : digits1 f (x ++ [32]) = .ok n) : digits1 f x = .ok n := by
  cases x with
  | nil => simp [digits1, hf] at h
  | cons c t =>
    have hr := run_blank hf (c :: t)
    simp only [List.cons_append, digits1] at h hr ⊢
    rw [hr] at h
    exact h

theorem map_blank {a b : Except Fail Nat} {g : Nat → Nat} {n : Nat} (h : a.map g = .ok n) (hab : ∀ m, a = .ok m → b = .ok m) : b.map g = .ok n := by
  obtain ⟨m, e, e'⟩ := map_ok h
  rw [hab m e, ← e']; rfl

theorem fraction_blank {x : List UInt8} {n : Nat} (h : fraction (x ++ [32]) = .ok n) : fraction x = .ok n := by
  cases x with
  | nil => exact h
  | cons c t =>
    by_cases hc : c = 46
    · subst hc
      simp only [List.cons_append, fraction] at h ⊢
      exact map_blank h fun m hm => digits1_blank (by rfl) hm
    · have e : ∀ t, fraction (c :: t) = .ok 0 := by
        intro t
        rw [fraction]
        rintro t' h; injection h with h; exact hc h
      rw [List.cons_append, e] at h
      rw [e, h]

theorem exponent_blank {x : List UInt8} {n : Nat} (h : exponent (x ++ [32]) = .ok n) : exponent x = .ok n := by
  cases x with
  | nil => exact h
  | cons c t =>
    simp only [List.cons_append, exponent] at h ⊢
    by_cases hc : c = 101 ∨ c = 69
    · rw [if_pos hc] at h ⊢
      cases t with
      | nil =>
        simp only [List.nil_append] at h
        rw [if_neg (by decide)] at h
        simp [digits1, isDigit, Except.map] at h
      | cons d u =>
        simp only [List.cons_append] at h ⊢
        by_cases hd : d = 43 ∨ d = 45
        · rw [if_pos hd] at h ⊢
          exact map_blank h fun m hm => digits1_blank (by rfl) hm
        · rw [if_neg hd] at h ⊢
          exact map_blank h fun m hm => digits1_blank (by rfl) hm
    · rw [if_neg hc] at h ⊢
      exact h

/-- A number that is read whole before a blank is read whole at the end. -/
theorem scanNumber_blank {x : List UInt8} {n : Nat} (hx : 2 ≤ x.length ∨ x.head? ≠ some 45) (hne : x ≠ []) (h : scanNumber (x ++ [32]) = .ok n) :
    scanNumber x = .ok n := by
  have hh : (x ++ [32]).head? = x.head? := by cases x with
    | nil => exact (hne rfl).elim
    | cons c x => rfl
  unfold scanNumber at h ⊢
  simp only [hh, bind, Except.bind] at h ⊢
  have hm : (if x.head? = some 45 then 1 else 0) < x.length := by
    by_cases h1 : x.head? = some 45
    · rw [if_pos h1]
      rcases hx with h | h
      · omega
      · exact (h h1).elim
    · rw [if_neg h1]
      cases x with
      | nil => exact (hne rfl).elim
      | cons => simp
  generalize (if x.head? = some 45 then 1 else 0 : Nat) = m at h hm ⊢
  rw [List.drop_append_of_le_length (by omega)] at h
  have hy : x.drop m ≠ [] := by
    intro e
    have := congrArg List.length e
    simp at this
    omega
  generalize x.drop m = y at h hy ⊢
  rw [if_neg (by simp)] at h
  rw [if_neg hy]
  by_cases h2 : y.take 2 = [48, 120]
  · have : (y ++ [32]).take 2 = [48, 120] := by
      match y, h2 with
      | a :: b :: y, h2 => simpa using h2
    rw [if_pos this] at h
    rw [if_pos h2]
    cases h3 : digits1 isXDigit (List.drop 2 (y ++ [32])) with
    | error e => rw [h3] at h; cases h
    | ok k =>
      rw [h3] at h
      have hl : 2 ≤ y.length := by
        match y, h2 with
        | a :: b :: y, h2 => simp
      rw [List.drop_append_of_le_length hl] at h3
      rw [digits1_blank (by rfl) h3]
      exact h
  · have : (y ++ [32]).take 2 ≠ [48, 120] := by
      match y, h2 with
      | [], _ => simp
      | [a], _ => simp
      | a :: b :: y, h2 => simpa using h2
    rw [if_neg this] at h
    rw [if_neg h2]
    cases h3 : digits1 isDigit (y ++ [32]) with
    | error e => rw [h3] at h; cases h
    | ok k =>
      have h3' := digits1_blank (by rfl) h3
      rw [h3] at h
      rw [h3']
      have hk := (digits1_le h3').1
      simp only at h ⊢
      rw [List.drop_append_of_le_length hk] at h
      cases h4 : fraction (List.drop k y ++ [32]) with
      | error e => rw [h4] at h; cases h
      | ok f =>
        have h4' := fraction_blank h4
        rw [h4] at h
        rw [h4']
        have hf := fraction_le h4'
        simp only [List.length_drop] at hf
        simp only at h ⊢
        rw [List.drop_append_of_le_length (by omega)] at h
        cases h5 : exponent (List.drop (k + f) y ++ [32]) with
        | error e => rw [h5] at h; cases h
        | ok e =>
          rw [h5] at h
          rw [exponent_blank h5]
          exact h

/-- A numeral is read whole, whatever may follow. -/
theorem numeral_ends {t r : List UInt8} (h : IsNumeral t) (hr : Ends r) (neg : Bool) :
    scanNumber ((if neg then [45] else []) ++ (t ++ r)) = .ok ((if neg then [45] else []) ++ t).length := by
  rcases hr with rfl | hr
  · obtain ⟨h1, _, c, u, rfl, hc⟩ := numeral_scan h (r := [32]) ⟨32, [], rfl, by simp⟩ neg
    rw [List.append_nil]
    rw [← List.append_assoc] at h1
    refine scanNumber_blank ?_ (by simp) h1
    cases neg with
    | true => left; simp
    | false =>
      right
      simp only [Bool.false_eq_true, if_false, List.nil_append, List.head?_cons, ne_eq, Option.some.injEq]
      rintro rfl; exact absurd hc.1 (by decide)
  · exact (numeral_scan h hr neg).1

variable {σ : Type} {cb : σ → Event → Option σ}

theorem expect_event {s : S σ} {word r : List UInt8} {t : TokT} {c' : σ} (hr : s.rest = word ++ r) (hp : s.path.getLast? ≠ some 46)
    (h : cb s.ctx ⟨s.name, t, word ++ r, word.length, s.path⟩ = some c') : expect cb s word t = .ok ⟨r, s.path, none, c'⟩ := by
  unfold expect
  rw [hr, if_pos (by rw [List.take_left]), callBack_some hp h]
  simp [Res.bind, advance, hr]

/-- Words, numbers and strings. -/
theorem atom_walk {j : J} {raw : List UInt8} (h : Writes PlainKey j raw) (ha : ∀ l, j ≠ .arr l) (ho : ∀ ms, j ≠ .obj ms) {d : Nat} {s : S σ} {w r : List UInt8}
    {c' : σ} (hr : s.rest = w ++ (raw ++ r)) (hw : Blank w) (he : Ends r) (hp : s.path.getLast? ≠ some 46)
    (hc : cb s.ctx ⟨s.name, atomType raw, atomPtr raw ++ r, atomLen raw, s.path⟩ = some c') :
    parseValue cb (d + 1) s = .ok ⟨r, s.path, none, c'⟩ := by
  cases h with
  | null =>
    rw [parseValue, skip_blank (r := [117, 108, 108] ++ r) hr hw (by rfl)]
    exact expect_event (s := { s with rest := [110, 117, 108, 108] ++ r }) rfl hp hc
  | true =>
    rw [parseValue, skip_blank (r := [114, 117, 101] ++ r) hr hw (by rfl)]
    exact expect_event (s := { s with rest := [116, 114, 117, 101] ++ r }) rfl hp hc
  | false =>
    rw [parseValue, skip_blank (r := [97, 108, 115, 101] ++ r) hr hw (by rfl)]
    exact expect_event (s := { s with rest := [102, 97, 108, 115, 101] ++ r }) rfl hp hc
  | @str body bs hb =>
    rw [parseValue, skip_blank (r := body ++ 34 :: r) (c := 34) (by rw [hr]; simp) hw (by rfl)]
    simp only [List.head?_cons]
    rw [if_pos trivial, parseString_eq rfl hb, callBack_some (s := { s with rest := body ++ 34 :: r }) (c := c') hp]
    · simp only [Res.bind, advance, drop_body]
    · have e1 : atomType (34 :: (body ++ [34])) = .string := rfl
      have e2 : atomPtr (34 :: (body ++ [34])) ++ r = body ++ 34 :: r := by simp [atomPtr]
      have e3 : atomLen (34 :: (body ++ [34])) = body.length := by simp [atomLen]
      rw [e1, e2, e3] at hc
      exact hc
  | arr => exact (ha _ rfl).elim
  | obj => exact (ho _ rfl).elim
  | @num neg t hn =>
    have h1 := numeral_ends hn he neg
    obtain ⟨_, _, c0, u, hcu, hdig⟩ := numeral_scan hn (r := [32]) ⟨32, [], rfl, by simp⟩ neg
    rw [List.append_assoc] at hr
    obtain ⟨c1, u1, hcu1, hsp, _⟩ := writes_head (K := PlainKey) (.num (neg := neg) hn)
    have hsk : skip s = { s with rest := (if neg then [45] else []) ++ (t ++ r) } := by
      rw [← List.append_assoc, hcu1]
      exact skip_blank (by rw [hr, ← List.append_assoc _ t, hcu1]; rfl) hw hsp
    have hd1 : isDigit c0 = true := (digit_iff c0).1.2 hdig
    have hb := hdig
    unfold Digit at hb
    have hh : ∀ x : UInt8, x ≠ 45 → ¬ (48 ≤ x.toNat ∧ x.toNat ≤ 57) → ((if neg then [45] else []) ++ t : List UInt8).head? ≠ some x := by
      intro x hx1 hx2 e
      cases neg with
      | true => cases e; exact hx1 rfl
      | false => rw [hcu] at e; cases e; exact hx2 hb
    have ht : atomType ((if neg then [45] else []) ++ t) = .number := by
      unfold atomType
      rw [if_neg (hh 34 (by decide) (by decide)), if_neg (hh 110 (by decide) (by decide)), if_neg (hh 116 (by decide) (by decide)),
        if_neg (hh 102 (by decide) (by decide))]
    have hpt : atomPtr ((if neg then [45] else []) ++ t) ++ r = (if neg then [45] else []) ++ (t ++ r) := by
      unfold atomPtr
      rw [if_neg (hh 34 (by decide) (by decide)), List.append_assoc]
    have hln : atomLen ((if neg then [45] else []) ++ t) = ((if neg then [45] else []) ++ t : List UInt8).length := by
      unfold atomLen
      rw [if_neg (hh 34 (by decide) (by decide))]
    rw [ht, hpt, hln] at hc
    have hnum : parseNumber cb { s with rest := (if neg then [45] else []) ++ (t ++ r) } = .ok ⟨r, s.path, none, c'⟩ := by
      unfold parseNumber
      have : skip { s with rest := (if neg then [45] else []) ++ (t ++ r) } = { s with rest := (if neg then [45] else []) ++ (t ++ r) } := by
        rw [← List.append_assoc, hcu1]
        exact skip_blank (w := []) rfl blank_nil hsp
      rw [this]
      simp only [h1]
      rw [callBack_some (s := { s with rest := (if neg then [45] else []) ++ (t ++ r) }) (c := c') hp hc]
      simp only [Res.bind, advance]
      rw [← List.append_assoc, List.drop_left]
    rw [parseValue, hsk, ← hnum]
    cases neg with
    | true => rfl
    | false =>
      simp only [Bool.false_eq_true, if_false, List.nil_append, hcu, List.cons_append, List.head?_cons]
      rw [if_neg, if_neg, if_neg, if_neg, if_neg, if_neg, if_pos (.inr hd1)]
      all_goals rintro rfl; revert hb; decide

theorem doc_head {D : Doc} {j : J} (h : D.Says j) : ∃ c u, D.text = c :: u ∧ isSpace c = false ∧ c ≠ 93 := by
  cases D with
  | atom raw => simp only [Doc.Says] at h; simp only [Doc.text]; exact writes_head h.1
  | list w l => exact ⟨91, _, by rw [Doc.text], rfl, by decide⟩
  | record w l => exact ⟨123, _, by rw [Doc.text], rfl, by decide⟩

theorem fold_bind {α β : Type} {f : β → α → Option β} {a b : List α} {c c' : β} (h : (a ++ b).foldlM f c = some c') :
    ∃ c1, a.foldlM f c = some c1 ∧ b.foldlM f c1 = some c' := by
  rw [List.foldlM_append] at h
  exact Option.bind_eq_some_iff.1 h

theorem fold_cons {α β : Type} {f : β → α → Option β} {a : α} {b : List α} {c c' : β} (h : (a :: b).foldlM f c = some c') :
    ∃ c1, f c a = some c1 ∧ b.foldlM f c1 = some c' := by
  rw [List.foldlM_cons] at h
  exact Option.bind_eq_some_iff.1 h

theorem elems_stops {l : Elems} {w w' r : List UInt8} {c : UInt8} (hw : Blank w) (hc : c = 93 ∨ c = 125) :
    Stops (w ++ (l.comma w' ++ (l.text ++ c :: r))) := by
  cases l with
  | nil => exact stops_close hw (.inr hc)
  | cons => exact stops_close hw (.inl rfl)

theorem members_stops {l : Members} {w w' r : List UInt8} {c : UInt8} (hw : Blank w) (hc : c = 93 ∨ c = 125) :
    Stops (w ++ (l.comma w' ++ (l.text ++ c :: r))) := by
  cases l with
  | nil => exact stops_close hw (.inr hc)
  | cons => exact stops_close hw (.inl rfl)

mutual
/-- A text: the parser makes its callbacks. -/
theorem doc_walk : ∀ (D : Doc) (j : J), D.Says j → ∀ (d : Nat) (s : S σ) (w r : List UInt8) (c' : σ), s.rest = w ++ (D.text ++ r) → Blank w → Ends r → D.depth ≤ d →
    (0 : UInt8) ∉ s.path → s.path.getLast? ≠ some 46 → Fits s.path.length j → (D.events s.name s.path r).foldlM cb s.ctx = some c' →
    parseValue cb d s = .ok ⟨r, s.path, none, c'⟩
  | .atom raw, j, hj, d, s, w, r, c', hr, hw, he, hd, h0, hp, hf, hc => by
    simp only [Doc.Says] at hj
    simp only [Doc.text] at hr
    simp only [Doc.depth] at hd
    simp only [Doc.events] at hc
    obtain ⟨d, rfl⟩ := Nat.exists_eq_add_of_le' hd
    obtain ⟨c1, h1, h2⟩ := fold_cons hc
    cases h2
    exact atom_walk hj.1 hj.2.1 hj.2.2 hr hw he hp h1
  | .list w0 l, j, hj, d, s, w, r, c', hr, hw, he, hd, h0, hp, hf, hc => by
    simp only [Doc.Says] at hj
    simp only [Doc.text] at hr
    simp only [Doc.depth] at hd
    simp only [Doc.events] at hc
    obtain ⟨js, rfl, hw0, hl⟩ := hj
    obtain ⟨d, rfl⟩ := Nat.exists_eq_add_of_le' (show 1 ≤ d by omega)
    obtain ⟨c1, h1, h2⟩ := fold_cons hc
    obtain ⟨c2, h2, h3⟩ := fold_bind h2
    obtain ⟨c3, h3, h4⟩ := fold_cons h3
    cases h4
    have hsk : skip s = { s with rest := 91 :: (w0 ++ (l.text ++ 93 :: r)) } := skip_blank (by rw [hr]; simp) hw (by rfl)
    simp only [parseValue, hsk, List.head?_cons]
    rw [if_neg (by decide), if_neg (by decide), if_pos trivial]
    unfold parseArray
    rw [callBack_some (s := { s with rest := 91 :: (w0 ++ (l.text ++ 93 :: r)) }) (c := c1) hp h1]
    simp only [Res.bind]
    rw [testAndSkip_blank (w := []) rfl blank_nil (by rfl)]
    simp only
    cases hf with
    | arr hf1 hf2 =>
    rw [elems_walk l js hl d ((w0 ++ (l.text ++ 93 :: r)).length + 1) 0 ⟨w0 ++ (l.text ++ 93 :: r), s.path, none, c1⟩ w0 r c2 rfl hw0
      (by simp; omega) (by omega) h0 rfl (fun q j hq => by
        rw [Nat.zero_add]
        exact ⟨hf1 q j _ hq (dec_numeral q), hf2 q j _ hq (dec_numeral q)⟩) h2]
    simp only
    rw [testAndSkip_blank (w := []) rfl blank_nil (by rfl)]
    simp only
    rw [truncate_back (p := s.path) (str := []) (by simp)]
    simp only
    rw [callBack_some (s := ⟨r, s.path, none, c2⟩) (c := c') hp]
    rw [← h3]
    congr 1
    simp
    omega
  | .record w0 l, j, hj, d, s, w, r, c', hr, hw, he, hd, h0, hp, hf, hc => by
    simp only [Doc.Says] at hj
    simp only [Doc.text] at hr
    simp only [Doc.depth] at hd
    simp only [Doc.events] at hc
    obtain ⟨ms, rfl, hw0, hl⟩ := hj
    obtain ⟨d, rfl⟩ := Nat.exists_eq_add_of_le' (show 1 ≤ d by omega)
    obtain ⟨c1, h1, h2⟩ := fold_cons hc
    obtain ⟨c2, h2, h3⟩ := fold_bind h2
    obtain ⟨c3, h3, h4⟩ := fold_cons h3
    cases h4
    have hsk : skip s = { s with rest := 123 :: (w0 ++ (l.text ++ 125 :: r)) } := skip_blank (by rw [hr]; simp) hw (by rfl)
    simp only [parseValue, hsk, List.head?_cons]
    rw [if_neg (by decide), if_pos trivial]
    unfold parseObject
    rw [callBack_some (s := { s with rest := 123 :: (w0 ++ (l.text ++ 125 :: r)) }) (c := c1) hp h1]
    simp only [Res.bind]
    rw [testAndSkip_blank (w := []) rfl blank_nil (by rfl)]
    simp only
    cases hf with
    | obj hf0 hf1 hf2 =>
    rw [append_full hf0]
    simp only
    rw [members_walk l ms hl d ((w0 ++ (l.text ++ 125 :: r)).length + 1) s.path ⟨w0 ++ (l.text ++ 125 :: r), s.path ++ [46], none, c1⟩ w0 r c2 rfl rfl hw0
      (by simp; omega) (by omega) h0 rfl (fun k j hq => ⟨hf1 k j hq, hf2 k j hq⟩) h2]
    simp only
    rw [testAndSkip_blank (w := []) rfl blank_nil (by rfl)]
    simp only
    rw [truncate_back (p := s.path) (str := [46]) (by simp)]
    simp only
    rw [callBack_some (s := ⟨r, s.path, none, c2⟩) (c := c') hp]
    rw [← h3]
    congr 1
    simp
    omega
/-- The elements of an array. -/
theorem elems_walk : ∀ (L : Elems) (js : List J), L.Says js → ∀ (d n i : Nat) (s : S σ) (w r : List UInt8) (c' : σ), s.rest = w ++ (L.text ++ 93 :: r) → Blank w →
    L.text.length < n → L.depth ≤ d → (0 : UInt8) ∉ s.path → s.name = none →
    (∀ (q : Nat) (j : J), js[q]? = some j → s.path.length + (dec (i + q)).length + 2 ≤ 255 ∧ Fits (s.path.length + (dec (i + q)).length + 2) j) →
    (L.events s.path i (93 :: r)).foldlM cb s.ctx = some c' → arrLoop (parseValue cb d) n i s = .ok ⟨93 :: r, s.path, none, c'⟩
  | .nil, js, hl, d, n, i, s, w, r, c', hr, hw, hn, hd, h0, hnm, hf, hc => by
    simp only [Elems.text, List.nil_append] at hr
    simp only [Elems.events] at hc
    cases hc
    obtain ⟨n, rfl⟩ := Nat.exists_eq_add_of_le' (show 1 ≤ n by omega)
    rw [arrLoop]
    simp only [skip_blank hr hw (show isSpace 93 = false from rfl), List.head?_cons, if_true, hnm]
  | .cons D w1 w2 l, js, hl, d, n, i, s, w, r, c', hr, hw, hn, hd, h0, hnm, hf, hc => by
    simp only [Elems.Says] at hl
    simp only [Elems.text] at hr hn
    simp only [Elems.depth] at hd
    simp only [Elems.events] at hc
    obtain ⟨j, js, rfl, hD, hw1, hw2, hl⟩ := hl
    obtain ⟨n, rfl⟩ := Nat.exists_eq_add_of_le' (show 1 ≤ n by omega)
    obtain ⟨c1, h1, h2⟩ := fold_bind hc
    obtain ⟨c0, u, hcu, hsp, h93⟩ := doc_head hD
    obtain ⟨f1, f2⟩ := hf 0 j rfl
    rw [Nat.add_zero] at f1 f2
    have hlen : (indexText i).length = (dec i).length + 2 := by rw [indexText_eq]; simp
    have hrr : s.rest = w ++ (D.text ++ (w1 ++ (l.comma w2 ++ (l.text ++ 93 :: r)))) := by rw [hr]; simp
    have hsk : skip s = { s with rest := c0 :: (u ++ (w1 ++ (l.comma w2 ++ (l.text ++ 93 :: r)))) } := skip_blank (by rw [hrr, hcu]; rfl) hw hsp
    have hap := append_full (s := { s with rest := c0 :: (u ++ (w1 ++ (l.comma w2 ++ (l.text ++ 93 :: r)))) }) (str := indexText i) (by simp only [hlen]; omega)
    have hlast : (s.path ++ indexText i).getLast? ≠ some 46 := by
      rw [indexText_eq, ← List.cons_append, ← List.append_assoc, List.getLast?_append]; simp
    have hnul : (0 : UInt8) ∉ s.path ++ indexText i := by
      intro h
      rcases List.mem_append.1 h with h | h
      · exact h0 h
      · exact indexText_noNul i h
    have hv := doc_walk D j hD d ⟨D.text ++ (w1 ++ (l.comma w2 ++ (l.text ++ 93 :: r))), s.path ++ indexText i, some (dec i), s.ctx⟩ []
      (w1 ++ (l.comma w2 ++ (l.text ++ 93 :: r))) c1 rfl blank_nil (.inr (elems_stops hw1 (.inl rfl))) (by omega) hnul hlast
      (by simp only [List.length_append, hlen]; rw [← Nat.add_assoc]; exact f2) h1
    rw [arrLoop]
    simp only [hsk, List.head?_cons, Option.some.injEq]
    rw [if_neg h93]
    simp only [hap, elemName_eq h0]
    rw [hcu] at hv
    simp only [List.cons_append] at hv
    rw [hv]
    simp only [Res.bind]
    rw [truncate_back (p := s.path) rfl]
    simp only
    cases l with
    | nil =>
      rw [skipComma_none (w := w1) (r := r) (c := 93) (by simp [Elems.comma, Elems.text]) hw1 (by rfl) (by decide)]
      refine elems_walk .nil js hl d n (i + 1) ⟨93 :: r, s.path, none, c1⟩ [] r c' (by simp [Elems.text]) blank_nil ?_ (by simp [Elems.depth]) h0 rfl
        (fun q j hq => ?_) h2
      · have := congrArg List.length hcu
        simp only [List.length_append, List.length_cons, Elems.text, List.length_nil] at this hn ⊢
        omega
      · have := hf (q + 1) j hq
        rw [show i + 1 + q = i + (q + 1) by omega]
        exact this
    | cons D' w1' w2' l' =>
      rw [skipComma_comma (w := w1) (r := w2 ++ ((Elems.cons D' w1' w2' l').text ++ 93 :: r)) (by simp [Elems.comma]) hw1]
      refine elems_walk _ js hl d n (i + 1) ⟨w2 ++ ((Elems.cons D' w1' w2' l').text ++ 93 :: r), s.path, none, c1⟩ w2 r c' rfl hw2 ?_ (by omega) h0 rfl
        (fun q j hq => ?_) h2
      · have := congrArg List.length hcu
        simp only [List.length_append, List.length_cons, Elems.comma] at this hn ⊢
        omega
      · have := hf (q + 1) j hq
        rw [show i + 1 + q = i + (q + 1) by omega]
        exact this
/-- The members of an object. -/
theorem members_walk : ∀ (L : Members) (ms : List (Key × J)), L.Says ms → ∀ (d n : Nat) (p : List UInt8) (s : S σ) (w r : List UInt8) (c' : σ), s.path = p ++ [46] →
    s.rest = w ++ (L.text ++ 125 :: r) → Blank w → L.text.length < n → L.depth ≤ d → (0 : UInt8) ∉ p → s.name = none →
    (∀ k j, (k, j) ∈ ms → p.length + 1 + k.length ≤ 255 ∧ Fits (p.length + 1 + k.length) j) →
    (L.events p (125 :: r)).foldlM cb s.ctx = some c' → objLoop cb (parseValue cb d) n s = .ok ⟨125 :: r, p ++ [46], none, c'⟩
  | .nil, ms, hl, d, n, p, s, w, r, c', hpp, hr, hw, hn, hd, h0, hnm, hf, hc => by
    simp only [Members.text, List.nil_append] at hr
    simp only [Members.events] at hc
    cases hc
    obtain ⟨n, rfl⟩ := Nat.exists_eq_add_of_le' (show 1 ≤ n by omega)
    rw [objLoop]
    simp only [skip_blank hr hw (show isSpace 125 = false from rfl), List.head?_cons, if_true, hnm, hpp]
  | .cons k u1 u2 D w1 w2 l, ms, hl, d, n, p, s, w, r, c', hpp, hr, hw, hn, hd, h0, hnm, hf, hc => by
    simp only [Members.Says] at hl
    simp only [Members.text, quoted] at hr hn
    simp only [Members.depth] at hd
    simp only [Members.events] at hc
    obtain ⟨j, ms, rfl, hk, hD, hu1, hu2, hw1, hw2, hl⟩ := hl
    obtain ⟨n, rfl⟩ := Nat.exists_eq_add_of_le' (show 1 ≤ n by omega)
    obtain ⟨c1, h1, h2⟩ := fold_bind hc
    obtain ⟨f1, f2⟩ := hf k j (by simp)
    obtain ⟨_, hch, h92, hne, h46⟩ := hk
    have hk0 := chars_noNul hch
    have hsk : skip s = { s with rest := 34 :: (k ++ 34 :: (u1 ++ 58 :: (u2 ++ (D.text ++ (w1 ++ (l.comma w2 ++ (l.text ++ 125 :: r))))))) } :=
      skip_blank (by rw [hr]; simp) hw (by rfl)
    have hnul : (0 : UInt8) ∉ p ++ 46 :: k := by
      intro h
      rcases List.mem_append.1 h with h | h
      · exact h0 h
      · rcases List.mem_cons.1 h with h | h
        · cases h
        · exact hk0 h
    have hlast : (p ++ 46 :: k).getLast? ≠ some 46 := by
      rw [List.getLast?_append, List.getLast?_cons]
      cases hg : k.getLast? with
      | none => exact (hne (List.getLast?_eq_none_iff.1 hg)).elim
      | some c => rw [hg] at h46; simpa using h46
    have hv := doc_walk D j hD d ⟨u2 ++ (D.text ++ (w1 ++ (l.comma w2 ++ (l.text ++ 125 :: r)))), p ++ 46 :: k, some k, s.ctx⟩ u2
      (w1 ++ (l.comma w2 ++ (l.text ++ 125 :: r))) c1 rfl hu2 (.inr (members_stops hw1 (.inr rfl))) (by omega) hnul hlast
      (by simp only [List.length_append, List.length_cons]; rw [show p.length + (k.length + 1) = p.length + 1 + k.length by omega]; exact f2) h1
    rw [objLoop]
    simp only [hsk, List.head?_cons, Option.some.injEq]
    rw [if_neg (by decide)]
    unfold parsePair
    rw [skip_blank (w := []) rfl blank_nil (by rfl)]
    dsimp only
    rw [parseKey_eq (k := k) (tail := u1 ++ 58 :: (u2 ++ (D.text ++ (w1 ++ (l.comma w2 ++ (l.text ++ 125 :: r)))))) rfl hch (by simp [hpp])]
    simp only [Res.bind]
    have hkn : keyName (34 :: (k ++ 34 :: (u1 ++ 58 :: (u2 ++ (D.text ++ (w1 ++ (l.comma w2 ++ (l.text ++ 125 :: r))))))))
        ((34 :: (k ++ 34 :: (u1 ++ 58 :: (u2 ++ (D.text ++ (w1 ++ (l.comma w2 ++ (l.text ++ 125 :: r)))))))).length -
          (u1 ++ 58 :: (u2 ++ (D.text ++ (w1 ++ (l.comma w2 ++ (l.text ++ 125 :: r)))))).length) = k := by
      unfold keyName
      rw [if_pos (by rfl)]
      rw [show (34 :: (k ++ 34 :: (u1 ++ 58 :: (u2 ++ (D.text ++ (w1 ++ (l.comma w2 ++ (l.text ++ 125 :: r)))))))).length -
          (u1 ++ 58 :: (u2 ++ (D.text ++ (w1 ++ (l.comma w2 ++ (l.text ++ 125 :: r)))))).length - 2 = k.length from by
        simp only [List.length_cons, List.length_append]; omega]
      simp
    rw [hkn, append_full (by rw [hpp]; simp; omega), testAndSkip_blank rfl hu1 (by rfl)]
    simp only [hpp, List.append_assoc, List.cons_append, List.nil_append]
    rw [hv]
    simp only
    rw [truncate_back (p := p ++ [46]) (str := k) (by simp)]
    simp only
    cases l with
    | nil =>
      rw [skipComma_none (w := w1) (r := r) (c := 125) (by simp [Members.comma, Members.text]) hw1 (by rfl) (by decide)]
      refine members_walk .nil ms hl d n p ⟨125 :: r, p ++ [46], none, c1⟩ [] r c' rfl (by simp [Members.text]) blank_nil ?_ (by simp [Members.depth]) h0 rfl
        (fun q j hq => hf q j (List.mem_cons_of_mem _ hq)) h2
      simp only [List.length_append, List.length_cons, Members.text, List.length_nil] at hn ⊢
      omega
    | cons k' u1' u2' D' w1' w2' l' =>
      rw [skipComma_comma (w := w1) (r := w2 ++ ((Members.cons k' u1' u2' D' w1' w2' l').text ++ 125 :: r)) (by simp [Members.comma]) hw1]
      refine members_walk _ ms hl d n p ⟨w2 ++ ((Members.cons k' u1' u2' D' w1' w2' l').text ++ 125 :: r), p ++ [46], none, c1⟩ w2 r c' rfl rfl hw2 ?_ (by omega) h0 rfl
        (fun q j hq => hf q j (List.mem_cons_of_mem _ hq)) h2
      simp only [List.length_append, List.length_cons, Members.comma] at hn ⊢
      omega
end

/-! ### Every text is a tree -/

mutual
theorem Doc.writes : ∀ (D : Doc) (j : J), D.Says j → Writes PlainKey j D.text
  | .atom raw, j, h => by simp only [Doc.Says] at h; rw [Doc.text]; exact h.1
  | .list w l, j, h => by
    simp only [Doc.Says] at h
    obtain ⟨js, rfl, hw, hl⟩ := h
    rw [Doc.text]
    exact .arr hw (Elems.writes l js hl)
  | .record w l, j, h => by
    simp only [Doc.Says] at h
    obtain ⟨js, rfl, hw, hl⟩ := h
    rw [Doc.text]
    exact .obj hw (Members.writes l js hl)
theorem Elems.writes : ∀ (l : Elems) (js : List J), l.Says js → Sep (Writes PlainKey) js l.text
  | .nil, js, h => by simp only [Elems.Says] at h; subst h; rw [Elems.text]; exact .none
  | .cons d w w' l, js, h => by
    simp only [Elems.Says] at h
    obtain ⟨j, js, rfl, hd, hw, hw', hl⟩ := h
    have h1 := Doc.writes d j hd
    have h2 := Elems.writes l js hl
    rw [Elems.text]
    cases l with
    | nil => simp only [Elems.Says] at hl; subst hl; simpa [Elems.comma, Elems.text] using Sep.last h1 hw
    | cons d' u u' l =>
      simp only [Elems.Says] at hl
      obtain ⟨j', js', rfl, _⟩ := hl
      exact .more h1 hw hw' h2
theorem Members.writes : ∀ (l : Members) (js : List (Key × J)), l.Says js → Sep (Member PlainKey (Writes PlainKey)) js l.text
  | .nil, js, h => by simp only [Members.Says] at h; subst h; rw [Members.text]; exact .none
  | .cons k u1 u2 d w w' l, js, h => by
    simp only [Members.Says] at h
    obtain ⟨j, js, rfl, hk, hd, hu1, hu2, hw, hw', hl⟩ := h
    have h1 : Member PlainKey (Writes PlainKey) (k, j) _ := .mk hk hu1 hu2 (Doc.writes d j hd)
    have h2 := Members.writes l js hl
    rw [Members.text]
    cases l with
    | nil => simp only [Members.Says] at hl; subst hl; simpa [Members.comma, Members.text, quoted] using Sep.last h1 hw
    | cons k' u1' u2' d' u u' l =>
      simp only [Members.Says] at hl
      obtain ⟨j', js', rfl, _⟩ := hl
      simpa [quoted, Members.comma] using Sep.more h1 hw hw' h2
end

theorem elems_of {M : Nat} (ih : ∀ (j : J) (t : List UInt8), Writes PlainKey j t → t.length < M → ∃ D : Doc, D.Says j ∧ D.text = t) {js : List J} {t : List UInt8}
    (h : Sep (Writes PlainKey) js t) : t.length < M → ∃ l : Elems, l.Says js ∧ l.text = t := by
  induction h with
  | none => exact fun _ => ⟨.nil, by simp [Elems.Says], by simp [Elems.text]⟩
  | @last a t w ha hw =>
    intro hM
    obtain ⟨D, h1, rfl⟩ := ih a t ha (by simp at hM; omega)
    exact ⟨.cons D w [] .nil, by simp only [Elems.Says]; exact ⟨_, _, rfl, h1, hw, blank_nil, rfl⟩, by simp [Elems.text, Elems.comma]⟩
  | @more a b l t w w' t' ha hw hw' _ ih' =>
    intro hM
    obtain ⟨D, h1, rfl⟩ := ih a t ha (by simp at hM; omega)
    obtain ⟨L, h2, rfl⟩ := ih' (by simp at hM; omega)
    refine ⟨.cons D w w' L, by rw [Elems.Says]; exact ⟨_, _, rfl, h1, hw, hw', h2⟩, ?_⟩
    cases L with
    | nil => simp [Elems.Says] at h2
    | cons => simp [Elems.text, Elems.comma]

theorem members_of {M : Nat} (ih : ∀ (j : J) (t : List UInt8), Writes PlainKey j t → t.length < M → ∃ D : Doc, D.Says j ∧ D.text = t) {js : List (Key × J)}
    {t : List UInt8} (h : Sep (Member PlainKey (Writes PlainKey)) js t) : t.length < M → ∃ l : Members, l.Says js ∧ l.text = t := by
  induction h with
  | none => exact fun _ => ⟨.nil, by simp [Members.Says], by simp [Members.text]⟩
  | @last a t w ha hw =>
    intro hM
    cases ha with
    | @mk body k j u1 u2 t hk hu1 hu2 hj =>
    obtain rfl := hk.1
    obtain ⟨D, h1, rfl⟩ := ih j t hj (by simp at hM; omega)
    exact ⟨.cons body u1 u2 D w [] .nil, by simp only [Members.Says]; exact ⟨_, _, rfl, hk, h1, hu1, hu2, hw, blank_nil, rfl⟩, by simp [Members.text, Members.comma, quoted]⟩
  | @more a b l t w w' t' ha hw hw' _ ih' =>
    intro hM
    cases ha with
    | @mk body k j u1 u2 t hk hu1 hu2 hj =>
    obtain rfl := hk.1
    obtain ⟨D, h1, rfl⟩ := ih j t hj (by simp at hM; omega)
    obtain ⟨L, h2, rfl⟩ := ih' (by simp at hM; omega)
    refine ⟨.cons body u1 u2 D w w' L, by rw [Members.Says]; exact ⟨_, _, rfl, hk, h1, hu1, hu2, hw, hw', h2⟩, ?_⟩
    cases L with
    | nil => simp [Members.Says] at h2
    | cons => simp [Members.text, Members.comma, quoted]

theorem doc_of : ∀ (M : Nat) (j : J) (t : List UInt8), Writes PlainKey j t → t.length < M → ∃ D : Doc, D.Says j ∧ D.text = t
  | 0, _, _, _, h => by omega
  | M + 1, j, t, hw, h => by
    have ih := doc_of M
    have atom : (∀ l, j ≠ .arr l) → (∀ ms, j ≠ .obj ms) → ∃ D : Doc, D.Says j ∧ D.text = t := fun h1 h2 =>
      ⟨.atom t, by simp only [Doc.Says]; exact ⟨hw, h1, h2⟩, by rw [Doc.text]⟩
    cases hw with
    | null => exact atom (by simp) (by simp)
    | true => exact atom (by simp) (by simp)
    | false => exact atom (by simp) (by simp)
    | num => exact atom (by simp) (by simp)
    | str => exact atom (by simp) (by simp)
    | @arr l w t hw hs =>
      obtain ⟨L, h1, rfl⟩ := elems_of ih hs (by simp at h; omega)
      exact ⟨.list w L, by simp only [Doc.Says]; exact ⟨_, rfl, hw, h1⟩, by rw [Doc.text]⟩
    | @obj l w t hw hs =>
      obtain ⟨L, h1, rfl⟩ := members_of ih hs (by simp at h; omega)
      exact ⟨.record w L, by simp only [Doc.Says]; exact ⟨_, rfl, hw, h1⟩, by rw [Doc.text]⟩

end Mjs.Json
