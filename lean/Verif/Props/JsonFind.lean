import Verif.Props.Pretty

/-!
# C88, C89: finding elements and members of JSON texts
-/

namespace Mjs.Props
open Mjs Mjs.Json Mjs.Pretty Mjs.Spec Mjs.Spec.Json

theorem index_eq (i : Nat) : index i = indexText i := rfl

/-! ### Parts -/

mutual
theorem parts_text : ∀ (D : Doc) (p : List UInt8) (st : Step) (r : List UInt8) (x : Part), x ∈ D.parts p st r →
    x = ⟨p, st, D, r⟩ ∨ ∃ c q, x.path = p ++ st.text ++ c :: q ∧ (c = 46 ∨ c = 91)
  | .atom raw, p, st, r, x, h => by
    simp only [Doc.parts, List.mem_singleton] at h
    exact .inl h
  | .list w l, p, st, r, x, h => by
    simp only [Doc.parts, List.mem_cons] at h
    rcases h with h | h
    · exact .inl h
    · exact .inr (parts_elems l _ 0 _ x h)
  | .record w l, p, st, r, x, h => by
    simp only [Doc.parts, List.mem_cons] at h
    rcases h with h | h
    · exact .inl h
    · exact .inr (parts_members l _ _ x h)
theorem parts_elems : ∀ (l : Elems) (p : List UInt8) (i : Nat) (r : List UInt8) (x : Part), x ∈ l.parts p i r → ∃ c q, x.path = p ++ c :: q ∧ (c = 46 ∨ c = 91)
  | .nil, p, i, r, x, h => by simp [Elems.parts] at h
  | .cons d w w' l, p, i, r, x, h => by
    simp only [Elems.parts, List.mem_append] at h
    rcases h with h | h
    · rcases parts_text d _ _ _ x h with h | ⟨c, q, h1, h2⟩
      · exact ⟨91, _, by rw [h]; rfl, .inr rfl⟩
      · exact ⟨91, (dec i ++ [93]) ++ c :: q, by rw [h1]; simp [Step.text, index, dec], .inr rfl⟩
    · exact parts_elems l p (i + 1) r x h
theorem parts_members : ∀ (l : Members) (p r : List UInt8) (x : Part), x ∈ l.parts p r → ∃ c q, x.path = p ++ c :: q ∧ (c = 46 ∨ c = 91)
  | .nil, p, r, x, h => by simp [Members.parts] at h
  | .cons k u u' d w w' l, p, r, x, h => by
    simp only [Members.parts, List.mem_append] at h
    rcases h with h | h
    · rcases parts_text d _ _ _ x h with h | ⟨c, q, h1, h2⟩
      · exact ⟨46, _, by rw [h]; rfl, .inl rfl⟩
      · exact ⟨46, k ++ c :: q, by rw [h1]; simp [Step.text], .inl rfl⟩
    · exact parts_members l p r x h
end

/-- The type of the token of a value. -/
def endType : Doc → TokT
  | .atom raw => atomType raw
  | .list .. => .arrayEnd
  | .record .. => .objectEnd

/-- The token of a part. -/
def partToken (x : Part) : Token := ⟨some (x.doc.from x.post), x.doc.shown.length, endType x.doc⟩

theorem atom_token {raw r : List UInt8} {nm : Option (List UInt8)} {p p' : List UInt8} {st : Step} :
    tokenOf ⟨nm, atomType raw, atomPtr raw ++ r, atomLen raw, p⟩ = partToken ⟨p', st, .atom raw, r⟩ := by
  have ht : ¬ (atomType raw = .objectStart ∨ atomType raw = .arrayStart) := by
    unfold atomType
    repeat' split
    all_goals decide
  unfold tokenOf partToken Doc.from Doc.shown Doc.isString
  simp only [if_neg ht, Doc.text, endType, atomPtr, atomLen]
  by_cases h : raw.head? = some 34
  · simp [h]; omega
  · simp [h]

theorem list_token {w r : List UInt8} {l : Elems} {p p' : List UInt8} {st : Step} :
    tokenOf ⟨none, .arrayEnd, 91 :: (w ++ (l.text ++ 93 :: r)), w.length + l.text.length + 2, p⟩ = partToken ⟨p', st, .list w l, r⟩ := by
  simp [tokenOf, partToken, Doc.from, Doc.shown, Doc.isString, Doc.text, endType]
  omega

theorem record_token {w r : List UInt8} {l : Members} {p p' : List UInt8} {st : Step} :
    tokenOf ⟨none, .objectEnd, 123 :: (w ++ (l.text ++ 125 :: r)), w.length + l.text.length + 2, p⟩ = partToken ⟨p', st, .record w l, r⟩ := by
  simp [tokenOf, partToken, Doc.from, Doc.shown, Doc.isString, Doc.text, endType]
  omega

/-! ### One element -/

/-- The last part with this path. -/
def lastAt (l : List Part) (want : List UInt8) : Option Part := (l.filter fun x => x.path = want).getLast?

theorem lastAt_append (a b : List Part) (want : List UInt8) : lastAt (a ++ b) want = (lastAt b want).or (lastAt a want) := by
  unfold lastAt
  rw [List.filter_append, List.getLast?_append]

theorem lastAt_none {l : List Part} {want : List UInt8} (h : ∀ x ∈ l, x.path ≠ want) : lastAt l want = none := by
  unfold lastAt
  rw [List.getLast?_eq_none_iff, List.filter_eq_nil_iff]
  simpa using h

/-- The context after the callbacks: the last token with the path that is searched. -/
def kept (c : Option Token) (x : Option Part) : Option Token := match x with
  | none => c
  | some x => some (partToken x)

theorem kept_or (c : Option Token) (a b : Option Part) : kept c (b.or a) = kept (kept c a) b := by
  cases b <;> rfl

theorem elemCb_eq (want : List UInt8) (c : Option Token) (e : Event) (h0 : (0 : UInt8) ∉ e.path) :
    arrayElemCb want c e = some (if e.path = want then some (tokenOf e) else c) := by
  unfold arrayElemCb
  rw [cstr_eq h0]

theorem noNul_elem {p : List UInt8} (h0 : (0 : UInt8) ∉ p) (i : Nat) : (0 : UInt8) ∉ p ++ indexText i := by
  intro h
  rcases List.mem_append.1 h with h | h
  · exact h0 h
  · exact indexText_noNul i h

theorem noNul_member {p k : List UInt8} (h0 : (0 : UInt8) ∉ p) (hk : PlainKey k k) : (0 : UInt8) ∉ p ++ 46 :: k := by
  intro h
  rcases List.mem_append.1 h with h | h
  · exact h0 h
  · rcases List.mem_cons.1 h with h | h
    · cases h
    · exact chars_noNul hk.2.1 h

mutual
theorem doc_elem : ∀ (D : Doc) (j : J), D.Says j → ∀ (want : List UInt8) (c : Option Token) (nm : Option (List UInt8)) (p : List UInt8) (st : Step) (r : List UInt8), (0 : UInt8) ∉ p ++ st.text →
    (D.events nm (p ++ st.text) r).foldlM (arrayElemCb want) c = some (kept c (lastAt (D.parts p st r) want))
  | .atom raw, j, hj, want, c, nm, p, st, r, h0 => by
    simp only [Doc.events, List.foldlM_cons, List.foldlM_nil, Doc.parts]
    rw [elemCb_eq _ _ _ h0]
    simp only [atom_token (p' := p) (st := st)]
    unfold lastAt Part.path
    by_cases h : p ++ st.text = want <;> simp [h, kept]
  | .list w l, j, hj, want, c, nm, p, st, r, h0 => by
    simp only [Doc.Says] at hj
    obtain ⟨js, rfl, hw, hl⟩ := hj
    simp only [Doc.events, List.foldlM_cons, Doc.parts]
    rw [elemCb_eq _ _ _ h0]
    simp only [Option.bind_eq_bind, Option.bind_some]
    rw [List.foldlM_append, elems_elem l js hl want _ _ 0 _ h0]
    simp only [Option.bind_eq_bind, Option.bind_some, List.foldlM_cons, List.foldlM_nil]
    rw [elemCb_eq _ _ _ h0]
    simp only [list_token (p' := p) (st := st), Option.bind_some]
    rw [show (⟨p, st, .list w l, r⟩ : Part) :: l.parts (p ++ st.text) 0 (93 :: r) = [⟨p, st, .list w l, r⟩] ++ l.parts (p ++ st.text) 0 (93 :: r) from rfl, lastAt_append, kept_or]
    by_cases h : p ++ st.text = want
    · have : lastAt (l.parts (p ++ st.text) 0 (93 :: r)) want = none := lastAt_none fun x hx => by
        obtain ⟨c, q, h1, h2⟩ := parts_elems l _ 0 _ x hx
        rw [h1, ← h]
        simp
      rw [this]
      simp [kept, lastAt, Part.path, h]
    · simp [h, lastAt, kept, Part.path]
  | .record w l, j, hj, want, c, nm, p, st, r, h0 => by
    simp only [Doc.Says] at hj
    obtain ⟨js, rfl, hw, hl⟩ := hj
    simp only [Doc.events, List.foldlM_cons, Doc.parts]
    rw [elemCb_eq _ _ _ h0]
    simp only [Option.bind_eq_bind, Option.bind_some]
    rw [List.foldlM_append, members_elem l js hl want _ _ _ h0]
    simp only [Option.bind_eq_bind, Option.bind_some, List.foldlM_cons, List.foldlM_nil]
    rw [elemCb_eq _ _ _ h0]
    simp only [record_token (p' := p) (st := st), Option.bind_some]
    rw [show (⟨p, st, .record w l, r⟩ : Part) :: l.parts (p ++ st.text) (125 :: r) = [⟨p, st, .record w l, r⟩] ++ l.parts (p ++ st.text) (125 :: r) from rfl, lastAt_append, kept_or]
    by_cases h : p ++ st.text = want
    · have : lastAt (l.parts (p ++ st.text) (125 :: r)) want = none := lastAt_none fun x hx => by
        obtain ⟨c, q, h1, h2⟩ := parts_members l _ _ x hx
        rw [h1, ← h]
        simp
      rw [this]
      simp [kept, lastAt, Part.path, h]
    · simp [h, lastAt, kept, Part.path]
theorem elems_elem : ∀ (l : Elems) (js : List J), l.Says js → ∀ (want : List UInt8) (c : Option Token) (p : List UInt8) (i : Nat) (r : List UInt8), (0 : UInt8) ∉ p →
    (l.events p i r).foldlM (arrayElemCb want) c = some (kept c (lastAt (l.parts p i r) want))
  | .nil, js, hl, want, c, p, i, r, h0 => by simp [Elems.events, Elems.parts, lastAt, kept]
  | .cons d w w' l, js, hl, want, c, p, i, r, h0 => by
    simp only [Elems.Says] at hl
    obtain ⟨j, js, rfl, hd, hw, hw', hl⟩ := hl
    simp only [Elems.events, Elems.parts]
    rw [List.foldlM_append, show p ++ indexText i = p ++ (Step.index i).text from rfl, doc_elem d j hd want c _ _ _ _ (noNul_elem h0 i), lastAt_append, kept_or]
    exact elems_elem l js hl want _ p (i + 1) r h0
theorem members_elem : ∀ (l : Members) (js : List (Key × J)), l.Says js → ∀ (want : List UInt8) (c : Option Token) (p r : List UInt8), (0 : UInt8) ∉ p →
    (l.events p r).foldlM (arrayElemCb want) c = some (kept c (lastAt (l.parts p r) want))
  | .nil, js, hl, want, c, p, r, h0 => by simp [Members.events, Members.parts, lastAt, kept]
  | .cons k u u' d w w' l, js, hl, want, c, p, r, h0 => by
    simp only [Members.Says] at hl
    obtain ⟨j, js, rfl, hk, hd, hu, hu', hw, hw', hl⟩ := hl
    simp only [Members.events, Members.parts]
    rw [List.foldlM_append, show p ++ 46 :: k = p ++ (Step.key k).text from rfl, doc_elem d j hd want c _ _ _ _ (noNul_member h0 hk), lastAt_append, kept_or]
    exact members_elem l js hl want _ p r h0
end

/-- **C88**: in a JSON text whose paths fit, `json_scanf_array_elem` finds the last part whose path is the given one with the index behind it: the token shows it,
and the result is its length.  If there is none, the result is −1 and there is no token. -/
theorem C88_array_elem {D : Doc} {j : J} (hD : D.Says j) (hf : Fits 0 j) {d : Nat} (hd : D.depth ≤ d) {w r : List UInt8} (hw : Blank w) (hr : Ends r) (path : List UInt8) (i : Nat)
    (hl : (path ++ index i).length ≤ 255) :
    arrayElem d (w ++ (D.text ++ r)) path i = some (match lastAt (D.parts [] .root r) (path ++ index i) with
      | none => (-1, none)
      | some x => (x.doc.shown.length, some (partToken x))) := by
  have h1 := doc_elem D j hD (elemPath path i) none none [] .root r (by simp [Step.text])
  obtain ⟨c, u, hcu, _⟩ := doc_head hD
  have hp : elemPath path i = path ++ index i := by
    unfold elemPath
    rw [if_neg (by omega), ← index_eq, Int.natAbs_natCast, List.take_of_length_le hl]
  rw [hp] at h1
  unfold arrayElem walk
  rw [if_neg (by rw [hcu]; simp), hp, doc_walk D j hD d ⟨w ++ (D.text ++ r), [], none, none⟩ w r _ rfl hw hr hd (by simp) (by simp) hf h1]
  cases lastAt (D.parts [] .root r) (path ++ index i) <;> rfl

/-! ### Elements of an array -/

theorem dec_inj {i n : Nat} (h : dec i = dec n) : i = n := by
  have h1 := (Arr.value_fold (dec_value i).1).2
  have h2 := (Arr.value_fold (dec_value n).1).2
  rw [h] at h1
  exact h1.symm.trans h2

theorem dec_decimal (i : Nat) : ∀ c ∈ dec i, 48 ≤ c.toNat ∧ c.toNat ≤ 57 := fun c hc => by
  have := List.all_eq_true.1 (Arr.value_fold (dec_value i).1).1 c hc
  simpa [isDecimal] using this

theorem dec_no {i : Nat} {c : UInt8} (h : ¬ (48 ≤ c.toNat ∧ c.toNat ≤ 57)) : c ∉ dec i := fun hc => h (dec_decimal i c hc)

theorem index_prefix {p : List UInt8} {i n : Nat} {y : List UInt8} (h : p ++ index i ++ y = p ++ index n) : i = n ∧ y = [] := by
  rw [List.append_assoc, List.append_cancel_left_eq, index_eq, index_eq, indexText_eq, indexText_eq] at h
  simp only [List.cons_append, List.append_assoc, List.cons.injEq, true_and, List.nil_append] at h
  have h1 : ∀ {a : Nat} {t : List UInt8}, (dec a ++ 93 :: t).takeWhile (· != 93) = dec a := fun {a t} => by
    rw [List.takeWhile_append_of_pos (by intro c hc; simpa using fun e : c = 93 => dec_no (i := a) (c := 93) (by decide) (e ▸ hc))]
    simp
  have h2 := congrArg (List.takeWhile (· != (93 : UInt8))) h
  rw [h1, h1] at h2
  have h3 := dec_inj h2
  subst h3
  simpa using h

theorem parts_cons (D : Doc) (p : List UInt8) (st : Step) (r : List UInt8) :
    ∃ l, D.parts p st r = ⟨p, st, D, r⟩ :: l ∧ ∀ x ∈ l, ∃ c q, x.path = p ++ st.text ++ c :: q ∧ (c = 46 ∨ c = 91) := by
  cases D with
  | atom raw => exact ⟨[], rfl, by simp⟩
  | list w l => exact ⟨_, rfl, fun x hx => parts_elems l _ 0 _ x hx⟩
  | record w l => exact ⟨_, rfl, fun x hx => parts_members l _ _ x hx⟩

theorem elems_last : ∀ (l : Elems) (p : List UInt8) (i n : Nat) (r : List UInt8),
    (lastAt (l.parts p i r) (p ++ index n)).map (·.doc) = if n < i then none else l.docs[n - i]?
  | .nil, p, i, n, r => by simp [Elems.parts, lastAt, Elems.docs]
  | .cons d w w' l, p, i, n, r => by
    rw [Elems.parts, lastAt_append, Option.map_or, elems_last l p (i + 1) n r]
    obtain ⟨t, ht, hx⟩ := parts_cons d p (.index i) (w ++ (l.comma w' ++ (l.text ++ r)))
    have hn : lastAt t (p ++ index n) = none := lastAt_none fun x h => by
      obtain ⟨c, q, h1, _⟩ := hx x h
      intro h2
      rw [h1] at h2
      exact absurd (index_prefix h2).2 (by simp)
    rw [ht, show ∀ x : Part, x :: t = [x] ++ t from fun _ => rfl, lastAt_append, hn, Option.none_or]
    by_cases h : n = i
    · subst h
      rw [if_pos (by omega), Option.none_or, if_neg (by omega), Nat.sub_self]
      simp [lastAt, Part.path, Step.text, Elems.docs]
    · have : lastAt [(⟨p, .index i, d, w ++ (l.comma w' ++ (l.text ++ r))⟩ : Part)] (p ++ index n) = none := lastAt_none fun x hx' => by
        rw [List.mem_singleton] at hx'
        subst hx'
        intro h2
        exact h (index_prefix (p := p) (y := []) (by simpa [Part.path, Step.text] using h2)).1.symm
      rw [this, Option.map_none, Option.or_none]
      by_cases h' : n < i
      · rw [if_pos (by omega), if_pos h']
      · rw [if_neg (by omega), if_neg h', Elems.docs, show n - i = (n - (i + 1)) + 1 by omega, List.getElem?_cons_succ]

/-- **C88**: in a JSON text that is an array, `json_scanf_array_elem` with the empty path finds the element with the index: the result is the length of its text
(of a string without its quotes), and −1 if the array has no such element. -/
theorem C88_root_array {w0 : List UInt8} {l : Elems} {j : J} (hD : (Doc.list w0 l).Says j) (hf : Fits 0 j) {d : Nat} (hd : (Doc.list w0 l).depth ≤ d) {w r : List UInt8}
    (hw : Blank w) (hr : Ends r) (i : Nat) (hi : (index i).length ≤ 255) :
    (arrayElem d (w ++ ((Doc.list w0 l).text ++ r)) [] i).map (·.1) = some (match l.docs[i]? with
      | none => -1
      | some e => (e.shown.length : Int)) := by
  rw [C88_array_elem hD hf hd hw hr [] i (by simpa using hi)]
  have h := elems_last l [] 0 i (93 :: r)
  rw [if_neg (by omega), Nat.sub_zero] at h
  have h2 : lastAt ((Doc.list w0 l).parts [] .root r) ([] ++ index i) = lastAt (l.parts [] 0 (93 :: r)) ([] ++ index i) := by
    rw [Doc.parts, show ∀ (x : Part) t, x :: t = [x] ++ t from fun _ _ => rfl, lastAt_append, lastAt_none (l := [_]) (fun x hx => by
      rw [List.mem_singleton] at hx
      subst hx
      simp [Part.path, Step.text, index]), Option.or_none]
    rfl
  rw [h2, ← h]
  cases lastAt (l.parts [] 0 (93 :: r)) ([] ++ index i) <;> rfl

/-- `[1, "ab",{}]`. -/
def demoArray : Elems := .cons (.atom [49]) [] [32] (.cons (.atom [34, 97, 98, 34]) [] [] (.cons (.record [] .nil) [] [] .nil))

example : (Doc.list [] demoArray).Says (.arr [.num false [49], .str [97, 98], .obj []]) ∧ (Doc.list [] demoArray).depth ≤ 100 ∧
    (arrayElem 100 (Doc.list [] demoArray).text [] 1).map (·.1) = some 2 ∧ (arrayElem 100 (Doc.list [] demoArray).text [] 3).map (·.1) = some (-1) := by
  refine ⟨?_, by simp [demoArray, Doc.depth, Elems.depth, Members.depth], by decide +kernel, by decide +kernel⟩
  have n1 : Writes PlainKey (.num false [49]) [49] := .num (neg := false) numeral_one
  have s1 : Writes PlainKey (.str [97, 98]) [34, 97, 98, 34] := .str (.plain (by simp [Plain]) (.plain (by simp [Plain]) .nil))
  simp only [demoArray, Doc.Says, Elems.Says, Members.Says]
  exact ⟨_, rfl, blank_nil, _, _, rfl, ⟨n1, by simp, by simp⟩, blank_nil, by simp [Blank], _, _, rfl, ⟨s1, by simp, by simp⟩, blank_nil, blank_nil, _, _, rfl,
    ⟨_, rfl, blank_nil, rfl⟩, blank_nil, blank_nil, rfl⟩

end Mjs.Props
