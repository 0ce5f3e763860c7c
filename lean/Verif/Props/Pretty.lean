import Verif.Lemmas.JsonDoc
import Verif.Model.Pretty

/-!
# C87: laying out JSON texts
-/

namespace Mjs.Props
open Mjs Mjs.Json Mjs.Pretty Mjs.Spec Mjs.Spec.Json

/-! ### The layout keeps the value, and laying out twice changes nothing -/

theorem newline_blank (n : Nat) : Blank (newline n) := by
  intro c hc
  rcases List.mem_cons.1 hc with h | h
  · exact .inr (.inr (.inl h))
  · obtain ⟨l, hl, hc⟩ := List.mem_flatten.1 h
    rw [(List.mem_replicate.1 hl).2] at hc
    left; simpa using hc

mutual
theorem doc_lay_says : ∀ (D : Doc) (n : Nat) (j : J), D.Says j → (D.lay n).Says j
  | .atom raw, n, j, h => by rw [Doc.lay]; exact h
  | .list w l, n, j, h => by
    rw [Doc.lay]
    simp only [Doc.Says] at h ⊢
    obtain ⟨js, rfl, hw, hl⟩ := h
    refine ⟨js, rfl, ?_, elems_lay_says l n js hl⟩
    cases l with
    | nil => exact blank_nil
    | cons => exact newline_blank _
  | .record w l, n, j, h => by
    rw [Doc.lay]
    simp only [Doc.Says] at h ⊢
    obtain ⟨js, rfl, hw, hl⟩ := h
    refine ⟨js, rfl, ?_, members_lay_says l n js hl⟩
    cases l with
    | nil => exact blank_nil
    | cons => exact newline_blank _
theorem elems_lay_says : ∀ (l : Elems) (n : Nat) (js : List J), l.Says js → (l.lay n).Says js
  | .nil, n, js, h => by rw [Elems.lay]; exact h
  | .cons d w w' l, n, js, h => by
    rw [Elems.lay]
    simp only [Elems.Says] at h ⊢
    obtain ⟨j, js, rfl, hd, hw, hw', hl⟩ := h
    refine ⟨j, js, rfl, doc_lay_says d (n + 1) j hd, ?_, newline_blank _, elems_lay_says l n js hl⟩
    cases l with
    | nil => exact newline_blank _
    | cons => exact blank_nil
theorem members_lay_says : ∀ (l : Members) (n : Nat) (js : List (Key × J)), l.Says js → (l.lay n).Says js
  | .nil, n, js, h => by rw [Members.lay]; exact h
  | .cons k u1 u2 d w w' l, n, js, h => by
    rw [Members.lay]
    simp only [Members.Says] at h ⊢
    obtain ⟨j, js, rfl, hk, hd, hu1, hu2, hw, hw', hl⟩ := h
    refine ⟨j, js, rfl, hk, doc_lay_says d (n + 1) j hd, blank_nil, ?_, ?_, newline_blank _, members_lay_says l n js hl⟩
    · intro c hc; left; simpa using hc
    · cases l with
      | nil => exact newline_blank _
      | cons => exact blank_nil
end

mutual
theorem doc_lay_lay : ∀ (D : Doc) (n : Nat), (D.lay n).lay n = D.lay n
  | .atom raw, n => by rw [Doc.lay, Doc.lay]
  | .list w l, n => by
    rw [Doc.lay, Doc.lay, elems_lay_lay l n]
    cases l <;> simp [Elems.lay, Elems.close]
  | .record w l, n => by
    rw [Doc.lay, Doc.lay, members_lay_lay l n]
    cases l <;> simp [Members.lay, Members.close]
theorem elems_lay_lay : ∀ (l : Elems) (n : Nat), (l.lay n).lay n = l.lay n
  | .nil, n => by rw [Elems.lay, Elems.lay]
  | .cons d w w' l, n => by
    have h1 := doc_lay_lay d (n + 1)
    have h2 := elems_lay_lay l n
    rw [Elems.lay, Elems.lay, h1, h2]
    cases l <;> simp [Elems.lay, Elems.ending]
theorem members_lay_lay : ∀ (l : Members) (n : Nat), (l.lay n).lay n = l.lay n
  | .nil, n => by rw [Members.lay, Members.lay]
  | .cons k u1 u2 d w w' l, n => by
    have h1 := doc_lay_lay d (n + 1)
    have h2 := members_lay_lay l n
    rw [Members.lay, Members.lay, h1, h2]
    cases l <;> simp [Members.lay, Members.ending]
end

mutual
theorem doc_lay_keys {P : Key → Prop} : ∀ (D : Doc) (n : Nat), D.Keys P → (D.lay n).Keys P
  | .atom raw, n, h => by rw [Doc.lay]; exact h
  | .list w l, n, h => by rw [Doc.lay]; simp only [Doc.Keys] at h ⊢; exact elems_lay_keys l n h
  | .record w l, n, h => by rw [Doc.lay]; simp only [Doc.Keys] at h ⊢; exact members_lay_keys l n h
theorem elems_lay_keys {P : Key → Prop} : ∀ (l : Elems) (n : Nat), l.Keys P → (l.lay n).Keys P
  | .nil, n, h => by rw [Elems.lay]; exact h
  | .cons d w w' l, n, h => by
    rw [Elems.lay]; simp only [Elems.Keys] at h ⊢
    exact ⟨doc_lay_keys d (n + 1) h.1, elems_lay_keys l n h.2⟩
theorem members_lay_keys {P : Key → Prop} : ∀ (l : Members) (n : Nat), l.Keys P → (l.lay n).Keys P
  | .nil, n, h => by rw [Members.lay]; exact h
  | .cons k u1 u2 d w w' l, n, h => by
    rw [Members.lay]; simp only [Members.Keys] at h ⊢
    exact ⟨h.1, doc_lay_keys d (n + 1) h.2.1, members_lay_keys l n h.2.2⟩
end

mutual
theorem doc_lay_depth : ∀ (D : Doc) (n : Nat), (D.lay n).depth = D.depth
  | .atom raw, n => by rw [Doc.lay]
  | .list w l, n => by rw [Doc.lay, Doc.depth, Doc.depth, elems_lay_depth l n]
  | .record w l, n => by rw [Doc.lay, Doc.depth, Doc.depth, members_lay_depth l n]
theorem elems_lay_depth : ∀ (l : Elems) (n : Nat), (l.lay n).depth = l.depth
  | .nil, n => by rw [Elems.lay]
  | .cons d w w' l, n => by rw [Elems.lay, Elems.depth, Elems.depth, doc_lay_depth d (n + 1), elems_lay_depth l n]
theorem members_lay_depth : ∀ (l : Members) (n : Nat), (l.lay n).depth = l.depth
  | .nil, n => by rw [Members.lay]
  | .cons k u1 u2 d w w' l, n => by rw [Members.lay, Members.depth, Members.depth, doc_lay_depth d (n + 1), members_lay_depth l n]
end

/-! ### What is printed -/

/-- Keys that do not end in a bracket. -/
def Unbracketed (k : Key) : Prop := k.getLast? ≠ some 93

theorem cstr_eq {p : List UInt8} (h : (0 : UInt8) ∉ p) : cstr p = p := Json.takeWhile_noNul h

/-- What is printed before an element. -/
theorem printKey_elem (pd : PD) (p : List UInt8) (i n : Nat) (nm : Option (List UInt8)) (hl : pd.level = n) :
    printKey pd (p ++ indexText i) nm = { pd with out := pd.out ++ ((if pd.behind then [44] else []) ++ newline n) } := by
  have h1 : p ++ indexText i ≠ [] := by rw [indexText_eq]; simp
  have h2 : (p ++ indexText i).getLast? = some 93 := by
    rw [indexText_eq, ← List.cons_append, ← List.append_assoc, List.getLast?_append]; simp
  unfold printKey
  simp only [h2]
  cases pd.behind <;> simp [PD.print, PD.indent, newline, h1, hl]

/-- What is printed before a member. -/
theorem printKey_member (pd : PD) (p k : List UInt8) (n : Nat) (hk : Unbracketed k) (hne : k ≠ []) (hl : pd.level = n) :
    printKey pd (p ++ 46 :: k) (some k) = { pd with out := pd.out ++ ((if pd.behind then [44] else []) ++ (newline n ++ (quoted k ++ [58, 32]))) } := by
  have h2 : (p ++ 46 :: k).getLast? ≠ some 93 := by
    rw [List.getLast?_append, List.getLast?_cons]
    unfold Unbracketed at hk
    cases hg : k.getLast? with
    | none => exact (hne (List.getLast?_eq_none_iff.1 hg)).elim
    | some c => rw [hg] at hk; simpa using hk
  have h3 : p ++ 46 :: k ≠ [] := by simp
  generalize p ++ 46 :: k = q at h2 h3
  unfold printKey
  cases pd.behind <;> simp [PD.print, PD.indent, newline, h2, h3, hl, quoted]

/-- The token of a word, number or string is printed as it is written. -/
theorem atom_printed {j : J} {raw r : List UInt8} (h : Writes PlainKey j raw) (ha : ∀ l, j ≠ .arr l) (ho : ∀ ms, j ≠ .obj ms) (pd : PD) {nm : Option (List UInt8)}
    {p x : List UInt8} (h0 : (0 : UInt8) ∉ p) (hx : printKey pd p nm = { pd with out := pd.out ++ x }) :
    prettifyCb pd ⟨nm, atomType raw, atomPtr raw ++ r, atomLen raw, p⟩ = some { pd with out := pd.out ++ (x ++ raw), last := some (atomType raw) } ∧
      ∀ t, some (atomType raw) = some t → t ≠ .arrayStart ∧ t ≠ .objectStart := by
  have hs : ∀ t, some (atomType raw) = some t → t ≠ .arrayStart ∧ t ≠ .objectStart := by
    intro t ht
    cases ht
    unfold atomType
    repeat' split
    all_goals decide
  refine ⟨?_, hs⟩
  by_cases h34 : raw.head? = some 34
  · have hq : ∃ body, raw = 34 :: (body ++ [34]) := by
      cases h with
      | null => cases h34
      | true => cases h34
      | false => cases h34
      | str => exact ⟨_, rfl⟩
      | arr => exact (ha _ rfl).elim
      | obj => exact (ho _ rfl).elim
      | @num neg t hn =>
        obtain ⟨_, _, c, u, rfl, hc⟩ := numeral_scan hn (r := [32]) ⟨32, [], rfl, by simp⟩ false
        cases neg with
        | true => cases h34
        | false => cases h34; exact absurd hc.1 (by decide)
    obtain ⟨body, rfl⟩ := hq
    simp [prettifyCb, atomType, atomPtr, atomLen, cstr_eq h0, hx, PD.print]
  · have ht : atomType raw ≠ .string ∧ atomType raw ≠ .objectStart ∧ atomType raw ≠ .objectEnd ∧ atomType raw ≠ .arrayStart ∧ atomType raw ≠ .arrayEnd := by
      unfold atomType
      rw [if_neg h34]
      repeat' split
      all_goals decide
    unfold prettifyCb
    simp only [atomPtr, atomLen, h34, if_false, cstr_eq h0, hx, PD.print]
    generalize atomType raw = t at ht
    cases t <;> simp_all

mutual
theorem doc_pretty : ∀ (D : Doc) (j : J), D.Says j → D.Keys Unbracketed → ∀ (pd : PD) (n : Nat) (nm : Option (List UInt8)) (p r x : List UInt8), pd.level = n → (0 : UInt8) ∉ p →
    printKey pd p nm = { pd with out := pd.out ++ x } →
    ∃ t, (D.events nm p r).foldlM prettifyCb pd = some ⟨pd.out ++ (x ++ (D.lay n).text), n, some t⟩ ∧ t ≠ .arrayStart ∧ t ≠ .objectStart
  | .atom raw, j, hj, hk, pd, n, nm, p, r, x, hl, h0, hx => by
    simp only [Doc.Says] at hj
    obtain ⟨h1, h2⟩ := atom_printed (r := r) hj.1 hj.2.1 hj.2.2 pd h0 hx
    refine ⟨atomType raw, ?_, h2 _ rfl⟩
    simp only [Doc.events, List.foldlM_cons, h1, Option.bind_eq_bind, Option.bind_some, List.foldlM_nil, Doc.lay, Doc.text, hl]
    rfl
  | .list w l, j, hj, hk, pd, n, nm, p, r, x, hl, h0, hx => by
    simp only [Doc.Says] at hj
    simp only [Doc.Keys] at hk
    obtain ⟨js, rfl, hw, hjs⟩ := hj
    have h1 : prettifyCb pd ⟨nm, .arrayStart, [], 0, p⟩ = some ⟨pd.out ++ (x ++ [91]), (n + 1 : Nat), some .arrayStart⟩ := by
      simp [prettifyCb, cstr_eq h0, hx, PD.print, hl]
    obtain ⟨pd', h2, h3, h4, h5⟩ := elems_pretty l js hjs hk ⟨pd.out ++ (x ++ [91]), (n + 1 : Nat), some .arrayStart⟩ n 0 p (93 :: r) rfl h0
    refine ⟨.arrayEnd, ?_, by decide, by decide⟩
    rw [Doc.events, List.foldlM_cons, h1, Option.bind_eq_bind, Option.bind_some, List.foldlM_append, h2, Option.bind_eq_bind, Option.bind_some, List.foldlM_cons]
    have h6 : prettifyCb pd' ⟨none, .arrayEnd, 91 :: (w ++ (l.text ++ 93 :: r)), w.length + l.text.length + 2, p⟩ =
        some ⟨pd'.out ++ (l.close n ++ [93]), n, some .arrayEnd⟩ := by
      cases l with
      | nil =>
        have : pd'.behind = false := by rw [h5.1 rfl]; rfl
        have hb : ∀ x, PD.behind { pd' with level := x } = false := fun x => this
        simp [prettifyCb, hb, PD.print, h3, Elems.close]
      | cons d' u u' l' =>
        have : pd'.behind = true := h5.2 (by simp)
        have hb : ∀ x, PD.behind { pd' with level := x } = true := fun x => this
        simp [prettifyCb, hb, PD.print, PD.indent, h3, Elems.close, newline]
    rw [h6]
    have h7 : pd'.out ++ (l.close n ++ [93]) = pd.out ++ (x ++ ((Doc.list w l).lay n).text) := by
      rw [← List.append_assoc, h4]
      have : PD.behind ⟨pd.out ++ (x ++ [91]), (n + 1 : Nat), some .arrayStart⟩ = false := rfl
      rw [this]
      simp [Doc.lay, Doc.text]
    rw [h7]
    rfl
  | .record w l, j, hj, hk, pd, n, nm, p, r, x, hl, h0, hx => by
    simp only [Doc.Says] at hj
    simp only [Doc.Keys] at hk
    obtain ⟨js, rfl, hw, hjs⟩ := hj
    have h1 : prettifyCb pd ⟨nm, .objectStart, [], 0, p⟩ = some ⟨pd.out ++ (x ++ [123]), (n + 1 : Nat), some .objectStart⟩ := by
      simp [prettifyCb, cstr_eq h0, hx, PD.print, hl]
    obtain ⟨pd', h2, h3, h4, h5⟩ := members_pretty l js hjs hk ⟨pd.out ++ (x ++ [123]), (n + 1 : Nat), some .objectStart⟩ n p (125 :: r) rfl h0
    refine ⟨.objectEnd, ?_, by decide, by decide⟩
    rw [Doc.events, List.foldlM_cons, h1, Option.bind_eq_bind, Option.bind_some, List.foldlM_append, h2, Option.bind_eq_bind, Option.bind_some, List.foldlM_cons]
    have h6 : prettifyCb pd' ⟨none, .objectEnd, 123 :: (w ++ (l.text ++ 125 :: r)), w.length + l.text.length + 2, p⟩ =
        some ⟨pd'.out ++ (l.close n ++ [125]), n, some .objectEnd⟩ := by
      cases l with
      | nil =>
        have : pd'.behind = false := by rw [h5.1 rfl]; rfl
        have hb : ∀ x, PD.behind { pd' with level := x } = false := fun x => this
        simp [prettifyCb, hb, PD.print, h3, Members.close]
      | cons =>
        have : pd'.behind = true := h5.2 (by simp)
        have hb : ∀ x, PD.behind { pd' with level := x } = true := fun x => this
        simp [prettifyCb, hb, PD.print, PD.indent, h3, Members.close, newline]
    rw [h6]
    have h7 : pd'.out ++ (l.close n ++ [125]) = pd.out ++ (x ++ ((Doc.record w l).lay n).text) := by
      rw [← List.append_assoc, h4]
      have : PD.behind ⟨pd.out ++ (x ++ [123]), (n + 1 : Nat), some .objectStart⟩ = false := rfl
      rw [this]
      simp [Doc.lay, Doc.text]
    rw [h7]
    rfl
theorem elems_pretty : ∀ (l : Elems) (js : List J), l.Says js → l.Keys Unbracketed → ∀ (pd : PD) (n i : Nat) (p r : List UInt8), pd.level = (n + 1 : Nat) → (0 : UInt8) ∉ p →
    ∃ pd', (l.events p i r).foldlM prettifyCb pd = some pd' ∧ pd'.level = (n + 1 : Nat) ∧
      pd'.out ++ l.close n = pd.out ++ ((if pd.behind then l.comma [] else []) ++ (l.close (n + 1) ++ (l.lay n).text)) ∧
      (l = .nil → pd' = pd) ∧ (l ≠ .nil → pd'.behind = true)
  | .nil, js, hl, hk, pd, n, i, p, r, hlv, h0 => by
    refine ⟨pd, by simp [Elems.events], hlv, ?_, fun _ => rfl, fun h => (h rfl).elim⟩
    cases pd.behind <;> simp [Elems.close, Elems.comma, Elems.lay, Elems.text, Elems.ending]
  | .cons D w w' l, js, hl, hk, pd, n, i, p, r, hlv, h0 => by
    simp only [Elems.Says] at hl
    simp only [Elems.Keys] at hk
    obtain ⟨j, js, rfl, hd, hw, hw', hl⟩ := hl
    have hnul : (0 : UInt8) ∉ p ++ indexText i := by
      intro h
      rcases List.mem_append.1 h with h | h
      · exact h0 h
      · exact indexText_noNul i h
    obtain ⟨t, h1, ht⟩ := doc_pretty D j hd hk.1 pd (n + 1) (some (dec i)) (p ++ indexText i) (w ++ (l.comma w' ++ (l.text ++ r))) _ hlv hnul
      (printKey_elem pd p i (n + 1) _ hlv)
    obtain ⟨pd', h2, h3, h4, h5⟩ := elems_pretty l js hl hk.2 ⟨pd.out ++ (((if pd.behind then [44] else []) ++ newline (n + 1)) ++ (D.lay (n + 1)).text), (n + 1 : Nat), some t⟩ n (i + 1) p r rfl h0
    refine ⟨pd', ?_, h3, ?_, fun h => by simp at h, fun _ => ?_⟩
    · rw [Elems.events, List.foldlM_append, h1]
      exact h2
    · cases l with
      | nil =>
        rw [h5.1 rfl]
        cases pd.behind <;> simp [Elems.close, Elems.comma, Elems.lay, Elems.text, Elems.ending]
      | cons d' u u' l' =>
        have hb : ∀ o v, PD.behind ⟨o, v, some t⟩ = true := by
          intro o v; simp [PD.behind, ht]
        simp only [hb, if_true] at h4
        have e1 : ∀ (d : Doc) (u u' : List UInt8) (l : Elems) (n : Nat), (Elems.cons d u u' l).close n = newline n := fun _ _ _ _ _ => rfl
        rw [e1] at h4 ⊢
        rw [h4]
        cases pd.behind <;> simp [Elems.close, Elems.comma, Elems.lay, Elems.text, Elems.ending]
    · cases l with
      | nil => rw [h5.1 rfl]; simp [PD.behind, ht]
      | cons => exact h5.2 (by simp)
theorem members_pretty : ∀ (l : Members) (js : List (Key × J)), l.Says js → l.Keys Unbracketed → ∀ (pd : PD) (n : Nat) (p r : List UInt8), pd.level = (n + 1 : Nat) → (0 : UInt8) ∉ p →
    ∃ pd', (l.events p r).foldlM prettifyCb pd = some pd' ∧ pd'.level = (n + 1 : Nat) ∧
      pd'.out ++ l.close n = pd.out ++ ((if pd.behind then l.comma [] else []) ++ (l.close (n + 1) ++ (l.lay n).text)) ∧
      (l = .nil → pd' = pd) ∧ (l ≠ .nil → pd'.behind = true)
  | .nil, js, hl, hk, pd, n, p, r, hlv, h0 => by
    refine ⟨pd, by simp [Members.events], hlv, ?_, fun _ => rfl, fun h => (h rfl).elim⟩
    cases pd.behind <;> simp [Members.close, Members.comma, Members.lay, Members.text, Members.ending]
  | .cons k u1 u2 D w w' l, js, hl, hk, pd, n, p, r, hlv, h0 => by
    simp only [Members.Says] at hl
    simp only [Members.Keys] at hk
    obtain ⟨j, js, rfl, hkey, hd, hu1, hu2, hw, hw', hl⟩ := hl
    have hnul : (0 : UInt8) ∉ p ++ 46 :: k := by
      intro h
      rcases List.mem_append.1 h with h | h
      · exact h0 h
      · rcases List.mem_cons.1 h with h | h
        · cases h
        · exact chars_noNul hkey.2.1 h
    obtain ⟨t, h1, ht⟩ := doc_pretty D j hd hk.2.1 pd (n + 1) (some k) (p ++ 46 :: k) (w ++ (l.comma w' ++ (l.text ++ r))) _ hlv hnul
      (printKey_member pd p k (n + 1) hk.1 hkey.2.2.2.1 hlv)
    obtain ⟨pd', h2, h3, h4, h5⟩ := members_pretty l js hl hk.2.2 ⟨pd.out ++ (((if pd.behind then [44] else []) ++ (newline (n + 1) ++ (quoted k ++ [58, 32]))) ++ (D.lay (n + 1)).text), (n + 1 : Nat), some t⟩ n p r rfl h0
    refine ⟨pd', ?_, h3, ?_, fun h => by simp at h, fun _ => ?_⟩
    · rw [Members.events, List.foldlM_append, h1]
      exact h2
    · cases l with
      | nil =>
        rw [h5.1 rfl]
        cases pd.behind <;> simp [Members.close, Members.comma, Members.lay, Members.text, Members.ending]
      | cons =>
        have hb : ∀ o v, PD.behind ⟨o, v, some t⟩ = true := by
          intro o v; simp [PD.behind, ht]
        simp only [hb, if_true] at h4
        have e1 : ∀ k v v' (d : Doc) (u u' : List UInt8) (l : Members) (n : Nat), (Members.cons k v v' d u u' l).close n = newline n := fun _ _ _ _ _ _ _ _ => rfl
        rw [e1] at h4 ⊢
        rw [h4]
        cases pd.behind <;> simp [Members.close, Members.comma, Members.lay, Members.text, Members.ending]
    · cases l with
      | nil => rw [h5.1 rfl]; simp [PD.behind, ht]
      | cons => exact h5.2 (by simp)
end

/-! ### The theorems -/

/-- **C87**: the trees are the JSON texts, and they describe the same values. -/
theorem C87_trees (j : J) (t : List UInt8) : Writes PlainKey j t ↔ ∃ D : Doc, D.Says j ∧ D.text = t :=
  ⟨fun h => doc_of (t.length + 1) j t h (Nat.lt_succ_self _), fun ⟨D, h, e⟩ => e ▸ Doc.writes D j h⟩

/-- **C87**, partial: of a text whose keys do not end in a bracket and whose paths fit, `json_prettify` prints exactly the tree laid
out, succeeds, and stops behind the text.  `C87_violation_bracket`, `C87_violation_empty_key` and `C87_violation_long_key` show what
happens to other texts. -/
theorem C87_prettify_partial {D : Doc} {j : J} (hD : D.Says j) (hk : D.Keys Unbracketed) (hf : Fits 0 j) {d : Nat} (hd : D.depth ≤ d) {w r : List UInt8} (hw : Blank w)
    (hr : Ends r) : ∃ pd, prettify d (w ++ (D.text ++ r)) = .ok ⟨r, [], none, pd⟩ ∧ pd.out = (D.lay 0).text := by
  obtain ⟨t, h1, _⟩ := doc_pretty D j hD hk ⟨[], 0, none⟩ 0 none [] r [] rfl (by simp) (by simp [printKey, PD.behind, PD.indent, PD.print])
  obtain ⟨c, u, hcu, _⟩ := doc_head hD
  refine ⟨⟨(D.lay 0).text, 0, some t⟩, ?_, rfl⟩
  · unfold prettify walk
    rw [if_neg (by rw [hcu]; simp)]
    exact doc_walk D j hD d ⟨w ++ (D.text ++ r), [], none, (⟨[], 0, none⟩ : PD)⟩ w r _ rfl hw hr hd (by simp) (by simp) hf (by simpa using h1)

/-- **C87**: what is printed describes the same value as the text did. -/
theorem C87_same_value {D : Doc} {j : J} (hD : D.Says j) : Writes PlainKey j (D.lay 0).text := Doc.writes _ _ (doc_lay_says D 0 j hD)

/-- **C87**, partial: laying out what was laid out changes nothing. -/
theorem C87_twice_partial {D : Doc} {j : J} (hD : D.Says j) (hk : D.Keys Unbracketed) (hf : Fits 0 j) {d : Nat} (hd : D.depth ≤ d) :
    ∃ s pd, prettify d (D.lay 0).text = .ok s ∧ s.ctx = pd ∧ pd.out = (D.lay 0).text := by
  obtain ⟨pd, h1, h2⟩ := C87_prettify_partial (w := []) (r := []) (doc_lay_says D 0 j hD) (doc_lay_keys D 0 hk) hf (by rw [doc_lay_depth]; exact hd) blank_nil (.inl rfl)
  refine ⟨⟨[], [], none, pd⟩, pd, ?_, rfl, by rw [h2, doc_lay_lay]⟩
  rw [← h1]; simp

/-- **C87**, partial: two texts with the same words, numbers, strings and keys, and other blanks, are laid out alike. -/
theorem C87_blanks_partial {D D' : Doc} {j j' : J} (hD : D.Says j) (hD' : D'.Says j') (he : D.lay 0 = D'.lay 0) (hk : D.Keys Unbracketed) (hk' : D'.Keys Unbracketed) (hf : Fits 0 j)
    (hf' : Fits 0 j') {d : Nat} (hd : D.depth ≤ d) (hd' : D'.depth ≤ d) :
    ∃ s s', prettify d D.text = .ok s ∧ prettify d D'.text = .ok s' ∧ s.ctx.out = s'.ctx.out := by
  obtain ⟨pd, h1, h2⟩ := C87_prettify_partial (w := []) (r := []) hD hk hf hd blank_nil (.inl rfl)
  obtain ⟨pd', h1', h2'⟩ := C87_prettify_partial (w := []) (r := []) hD' hk' hf' hd' blank_nil (.inl rfl)
  simp only [List.nil_append, List.append_nil] at h1 h1'
  exact ⟨_, _, h1, h1', by simp only [h2, h2', he]⟩

/-- What is printed of a text. -/
def printed (text : List UInt8) : Option (List UInt8) := match prettify 100 text with
  | .ok s => some s.ctx.out
  | _ => none

/-- Non-vacuity: `{"a": [1,{}] ,"b":"x"}`. -/
def demoDoc : Doc := .record [] (.cons [97] [] [32] (.list [] (.cons (.atom [49]) [] [] (.cons (.record [] .nil) [] [] .nil))) [32] []
  (.cons [98] [] [] (.atom [34, 120, 34]) [] [] .nil))

theorem plainKey_one {c : UInt8} (h : Plain c) (h' : c ≠ 46) : PlainKey [c] [c] :=
  ⟨rfl, .plain h .nil, by simp [Ne.symm h.2.2.2], by simp, by simpa using h'⟩

theorem numeral_one : IsNumeral [49] := ⟨[49], [], [], rfl, ⟨by simp, by simp [Digit]⟩, by simp, .inl rfl, .inl rfl⟩

example : demoDoc.Says (.obj [([97], .arr [.num false [49], .obj []]), ([98], .str [120])]) ∧ demoDoc.Keys Unbracketed ∧ demoDoc.depth ≤ 100 ∧
    printed demoDoc.text = some ([123, 10, 32, 32, 34, 97, 34, 58, 32, 91, 10, 32, 32, 32, 32, 49, 44, 10, 32, 32, 32, 32, 123, 125, 10, 32, 32, 93, 44, 10, 32, 32, 34, 98, 34, 58, 32,
      34, 120, 34, 10, 125]) ∧ printed demoDoc.text = some (demoDoc.lay 0).text := by
  refine ⟨?_, ?_, by simp [demoDoc, Doc.depth, Elems.depth, Members.depth], by decide +kernel, by decide +kernel⟩
  · have k1 : PlainKey [97] [97] := plainKey_one (by simp [Plain]) (by decide)
    have k2 : PlainKey [98] [98] := plainKey_one (by simp [Plain]) (by decide)
    have n1 : Writes PlainKey (.num false [49]) [49] := .num (neg := false) numeral_one
    have s1 : Writes PlainKey (.str [120]) [34, 120, 34] := .str (.plain (by simp [Plain]) .nil)
    simp only [demoDoc, Doc.Says, Elems.Says, Members.Says]
    refine ⟨_, rfl, blank_nil, _, _, rfl, k1, ⟨_, rfl, blank_nil, _, _, rfl, ⟨n1, by simp, by simp⟩, blank_nil, blank_nil, _, _, rfl,
      ⟨_, rfl, blank_nil, rfl⟩, blank_nil, blank_nil, rfl⟩, blank_nil, by simp [Blank], by simp [Blank], blank_nil, _, _, rfl, k2, ⟨s1, by simp, by simp⟩,
      blank_nil, blank_nil, blank_nil, blank_nil, rfl⟩
  · simp [demoDoc, Doc.Keys, Elems.Keys, Members.Keys, Unbracketed]

/-- **C87** is violated: a key that ends in a bracket is not printed, `{"a]":1}` becomes `{1}` with new lines. -/
theorem C87_violation_bracket : printed [123, 34, 97, 93, 34, 58, 49, 125] = some [123, 10, 32, 32, 49, 10, 125] := by decide +kernel

/-- **C87** is violated: a member with an empty key is lost, `{"":1}` becomes `{}`. -/
theorem C87_violation_empty_key : printed [123, 34, 34, 58, 49, 125] = some [123, 125] := by decide +kernel

/-- **C87** is violated: behind a key of 253 bytes the path is full, and the element of the array `{"k…k":[1]}` is printed as a member: there are two
colons instead of one. -/
theorem C87_violation_long_key : (printed ([123, 34] ++ List.replicate 253 107 ++ [34, 58, 91, 49, 93, 125])).map (List.count 58) = some 2 ∧
    List.count 58 ([123, 34] ++ List.replicate 253 107 ++ [34, 58, 91, 49, 93, 125] : List UInt8) = 1 := by decide +kernel

end Mjs.Props
