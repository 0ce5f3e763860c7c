import Verif.Props.JsonFind

/-!
# C89: iterating over the members of an object and the elements of an array in a JSON text
-/

namespace Mjs.Props
open Mjs Mjs.Json Mjs.Pretty Mjs.Spec Mjs.Spec.Json

/-! ### Paths -/

/-- The part belongs to the array or object with the path `P`. -/
def Child (P : List UInt8) (x : Part) : Prop := x.parent = P ∧ x.step ≠ .root

instance (P : List UInt8) (x : Part) : Decidable (Child P x) := by unfold Child; infer_instance

/-- The path is `P` with one step behind it, as `json_next_cb` sees it. -/
def Near (P q : List UInt8) : Prop := ∃ c y, q = P ++ c :: y ∧ (46 : UInt8) ∉ y ∧ (91 : UInt8) ∉ y

/-- The name of the step. -/
def stepName : Step → Option (List UInt8)
  | .root => none
  | .index i => some (dec i)
  | .key k => some k

/-- The key that `json_next_key` stores. -/
def stepKey : Step → Option (List UInt8)
  | .key k => some k
  | _ => none

/-- The index that `json_next_elem` stores. -/
def stepIdx : Step → Int
  | .index i => i
  | _ => -1

/-- How many bytes there are from the value of a part to the end of the text: the handle. -/
def place (x : Part) : Nat := (x.doc.from x.post).length

theorem atoi_dec {i : Nat} (h : i ≤ 2147483647) : atoi (dec i) = some (i : Int) := by
  obtain ⟨hv, hne, _⟩ := dec_value i
  obtain ⟨c, t, hc⟩ := List.exists_cons_of_ne_nil hne
  have hd := dec_decimal i
  have h2 := (Arr.value_fold hv).2
  have hcd := hd c (by rw [hc]; simp)
  have e1 : (dec i).dropWhile (fun c => c == 32 || (9 ≤ c.toNat && c.toNat ≤ 13)) = dec i := by
    rw [hc, List.dropWhile_cons_of_neg]
    have : c ≠ 32 := fun e => by subst e; exact absurd hcd.1 (by decide)
    simp [this]
    omega
  have e2 : (dec i).head? ≠ some 45 := by
    rw [hc]
    intro e
    simp only [List.head?_cons, Option.some.injEq] at e
    subst e
    exact absurd hcd.1 (by decide)
  have e3 : (dec i).head? ≠ some 43 := by
    rw [hc]
    intro e
    simp only [List.head?_cons, Option.some.injEq] at e
    subst e
    exact absurd hcd.1 (by decide)
  have e4 : (dec i).takeWhile isDigit = dec i := by
    have : ∀ t : List UInt8, (∀ c ∈ t, 48 ≤ c.toNat ∧ c.toNat ≤ 57) → t.takeWhile isDigit = t := fun t ht => by
      induction t with
      | nil => rfl
      | cons c t ih => rw [List.takeWhile_cons_of_pos (by simpa [isDigit] using ht c (by simp)), ih fun a ha => ht a (List.mem_cons_of_mem _ ha)]
    exact this _ hd
  unfold atoi
  dsimp only
  rw [e1, if_neg (show ¬ ((dec i).head? = some 45 ∨ (dec i).head? = some 43) by simp [e2, e3]), e4, h2, if_neg e2, if_pos (by omega)]

theorem setKey_step {d : ND} {st : Step} (hst : st ≠ .root) (hi : ∀ i, st = .index i → i ≤ 2147483647) :
    setKey d (stepName st) (decide (st.text.head? = some 91)) = some { d with key := stepKey st, idx := stepIdx st } := by
  cases st with
  | root => exact absurd rfl hst
  | index i => simp [setKey, stepName, Step.text, index, atoi_dec (hi i rfl), stepKey, stepIdx]
  | key k => simp [setKey, stepName, Step.text, stepKey, stepIdx]

theorem next_found {P : List UInt8} {d : ND} {e : Event} (h : d.found = true) : nextCb P d e = some d := by
  simp [nextCb, h]

theorem next_far {P : List UInt8} {d : ND} {e : Event} (h0 : (0 : UInt8) ∉ e.path) (hn : ¬ Near P e.path) : nextCb P d e = some d := by
  unfold nextCb
  rw [cstr_eq h0]
  dsimp only
  split
  · rfl
  split
  · rfl
  split
  · rfl
  split
  · rfl
  split
  · rfl
  next h1 h2 h3 h4 =>
    exfalso
    refine hn ?_
    have e1 : e.path = P ++ e.path.drop P.length := by
      conv => lhs; rw [← List.take_append_drop P.length e.path]
      rw [Decidable.not_not.1 h2]
    cases hq : e.path.drop P.length with
    | nil =>
      have := congrArg List.length hq
      rw [List.length_drop, List.length_nil] at this
      omega
    | cons c y =>
      rw [hq] at e1 h3 h4
      exact ⟨c, y, e1, by simpa using h3, by simpa using h4⟩

theorem next_near {P : List UInt8} {d : ND} {e : Event} {st : Step} (h0 : (0 : UInt8) ∉ e.path) (hn : Near P e.path) (hp : e.path = P ++ st.text) (hst : st ≠ .root)
    (hi : ∀ i, st = .index i → i ≤ 2147483647) (hf : d.found = false) :
    (e.type = .objectStart ∨ e.type = .arrayStart → e.name = stepName st → nextCb P d e = some { d with key := stepKey st, idx := stepIdx st }) ∧
    (e.type = .objectEnd ∨ e.type = .arrayEnd → nextCb P d e = some (if d.handle.all (e.ptr.length < ·) then ⟨some e.ptr.length, true, d.key, some (tokenOf e), d.idx⟩ else d)) ∧
    (e.type ≠ .objectStart → e.type ≠ .arrayStart → e.type ≠ .objectEnd → e.type ≠ .arrayEnd → e.name = stepName st →
      nextCb P d e = some (if d.handle.all (e.ptr.length < ·) then ⟨some e.ptr.length, true, stepKey st, some (tokenOf e), stepIdx st⟩ else d)) := by
  obtain ⟨c, y, hcy, h46, h91⟩ := hn
  have hd : e.path.drop P.length = st.text := by rw [hp, List.drop_left]
  have hd' : e.path.drop P.length = c :: y := by rw [hcy, List.drop_left]
  have key : nextCb P d e = (if e.type = .objectStart ∨ e.type = .arrayStart then setKey d e.name (decide (st.text.head? = some 91))
      else if d.handle.all (e.ptr.length < ·) then
        (if e.type ≠ .objectEnd ∧ e.type ≠ .arrayEnd then setKey d e.name (decide (st.text.head? = some 91)) else some d).map fun d =>
          { d with val := some (tokenOf e), handle := some e.ptr.length, found := true }
      else some d) := by
    unfold nextCb
    rw [cstr_eq h0]
    dsimp only
    rw [if_neg (by simp [hf]), if_neg (by rw [hcy, List.length_append, List.length_cons]; omega), if_neg (by rw [hcy, List.take_left]; simp),
      if_neg (by rw [hd']; simpa using h46), if_neg (by rw [hd']; simpa using h91), hd]
  refine ⟨fun ht hnm => ?_, fun ht => ?_, fun t1 t2 t3 t4 hnm => ?_⟩
  · rw [key, if_pos ht, hnm, setKey_step hst hi]
  · have : ¬ (e.type = .objectStart ∨ e.type = .arrayStart) := by rcases ht with h | h <;> rw [h] <;> decide
    have h2 : ¬ (e.type ≠ .objectEnd ∧ e.type ≠ .arrayEnd) := by rcases ht with h | h <;> rw [h] <;> decide
    rw [key, if_neg this]
    by_cases ha : d.handle.all (e.ptr.length < ·) = true
    · rw [if_pos ha, if_neg h2, if_pos ha]
      rfl
    · rw [if_neg ha, if_neg ha]
  · rw [key, if_neg (by simp [t1, t2])]
    by_cases ha : d.handle.all (e.ptr.length < ·) = true
    · rw [if_pos ha, if_pos ⟨t3, t4⟩, hnm, setKey_step hst hi, if_pos ha]
      rfl
    · rw [if_neg ha, if_neg ha]

/-! ### The walk -/

/-- The first part that belongs to `P` and begins behind the handle. -/
def nextOf (P : List UInt8) (h : Option Nat) (l : List Part) : Option Part := l.find? fun x => decide (Child P x) && h.all (place x < ·)

/-- What is stored when a part is found. -/
def hit (x : Part) : ND := ⟨some (place x), true, stepKey x.step, some (partToken x), stepIdx x.step⟩

/-- From `d` to `d'` by the callbacks for these parts. -/
def Goes (P : List UInt8) (l : List Part) (d d' : ND) : Prop :=
  (d.found = true → d' = d) ∧ ((∀ x ∈ l, ¬ Child P x) → d' = d) ∧
  (d.found = false → match nextOf P d.handle l with
    | none => d'.found = false ∧ d'.handle = d.handle
    | some x => d' = hit x)

theorem Goes.append {P : List UInt8} {a b : List Part} {d d1 d2 : ND} (h1 : Goes P a d d1) (h2 : Goes P b d1 d2) : Goes P (a ++ b) d d2 := by
  refine ⟨fun h => ?_, fun h => ?_, fun h => ?_⟩
  · have e := h1.1 h
    subst e
    exact h2.1 h
  · have e := h1.2.1 fun x hx => h x (List.mem_append_left _ hx)
    subst e
    exact h2.2.1 fun x hx => h x (List.mem_append_right _ hx)
  · have e := h1.2.2 h
    unfold nextOf at e ⊢
    rw [List.find?_append]
    cases hfa : a.find? (fun x => decide (Child P x) && d.handle.all (place x < ·)) with
    | some x =>
      rw [hfa] at e
      simp only [Option.some_or] at e ⊢
      rw [h2.1 (by rw [e]; rfl), e]
    | none =>
      rw [hfa] at e
      simp only [Option.none_or] at e ⊢
      have e2 := h2.2.2 e.1
      rw [e.2] at e2
      exact e2

theorem Goes.nil {P : List UInt8} {d : ND} : Goes P [] d d := ⟨fun _ => rfl, fun _ => rfl, fun h => ⟨h, rfl⟩⟩

/-- What the walk needs to know about the parts. -/
def Clear (P : List UInt8) (x : Part) : Prop := (Near P x.path ↔ Child P x) ∧ ∀ i, x.step = .index i → i ≤ 2147483647

theorem atomType_ne (raw : List UInt8) : atomType raw ≠ .objectStart ∧ atomType raw ≠ .arrayStart ∧ atomType raw ≠ .objectEnd ∧ atomType raw ≠ .arrayEnd := by
  unfold atomType
  repeat' split
  all_goals decide

/-- An array or object: its first callback, its parts, its last callback. -/
theorem container_next {P : List UInt8} {x : Part} {es : List Event} {l : List Part} {d : ND} {e1 e2 : Event} (hx : Clear P x) (h0 : (0 : UInt8) ∉ x.path)
    (p1 : e1.path = x.path) (p2 : e2.path = x.path) (n1 : e1.name = stepName x.step) (t1 : e1.type = .objectStart ∨ e1.type = .arrayStart)
    (t2 : e2.type = .objectEnd ∨ e2.type = .arrayEnd) (hl : e2.ptr.length = place x) (ht : tokenOf e2 = partToken x)
    (hes : ∀ d, ∃ d', es.foldlM (nextCb P) d = some d' ∧ Goes P l d d') (hdeep : Child P x → ∀ y ∈ l, ¬ Child P y) :
    ∃ d', (e1 :: (es ++ [e2])).foldlM (nextCb P) d = some d' ∧ Goes P (x :: l) d d' := by
  rw [List.foldlM_cons]
  cases hf : d.found with
  | true =>
    rw [next_found hf]
    obtain ⟨d', h1, h2⟩ := hes d
    have e := h2.1 hf
    subst e
    refine ⟨d', ?_, fun _ => rfl, fun _ => rfl, fun h => absurd h (by simp [hf])⟩
    simp only [Option.bind_eq_bind, Option.bind_some]
    rw [List.foldlM_append, h1]
    simp [next_found hf]
  | false =>
    by_cases hc : Child P x
    · have hn := hx.1.2 hc
      have hp : x.path = P ++ x.step.text := by rw [Part.path, hc.1]
      obtain ⟨s1, _, _⟩ := next_near (d := d) (e := e1) (st := x.step) (by rw [p1]; exact h0) (by rw [p1]; exact hn) (by rw [p1]; exact hp) hc.2 hx.2 hf
      rw [s1 t1 n1]
      simp only [Option.bind_eq_bind, Option.bind_some]
      obtain ⟨d', h1, h2⟩ := hes { d with key := stepKey x.step, idx := stepIdx x.step }
      have e := h2.2.1 (hdeep hc)
      subst e
      rw [List.foldlM_append, h1]
      simp only [Option.bind_eq_bind, Option.bind_some, List.foldlM_cons, List.foldlM_nil]
      obtain ⟨_, s2, _⟩ := next_near (d := { d with key := stepKey x.step, idx := stepIdx x.step }) (e := e2) (st := x.step) (by rw [p2]; exact h0) (by rw [p2]; exact hn)
        (by rw [p2]; exact hp) hc.2 hx.2 hf
      rw [s2 t2, hl, ht]
      refine ⟨_, rfl, fun h => absurd h (by simp [hf]), fun h => absurd hc (h x (by simp)), fun _ => ?_⟩
      unfold nextOf
      by_cases ha : d.handle.all (place x < ·) = true
      · rw [List.find?_cons_of_pos (by simp [hc, ha])]
        simp only [ha, if_true]
        rfl
      · rw [List.find?_cons_of_neg (by simp [ha])]
        rw [List.find?_eq_none.2 (by intro y hy; simp [hdeep hc y hy])]
        simp only [ha]
        exact ⟨hf, rfl⟩
    · have hn : ¬ Near P x.path := fun h => hc (hx.1.1 h)
      rw [next_far (by rw [p1]; exact h0) (by rw [p1]; exact hn)]
      simp only [Option.bind_eq_bind, Option.bind_some]
      obtain ⟨d', h1, h2⟩ := hes d
      rw [List.foldlM_append, h1]
      simp only [Option.bind_eq_bind, Option.bind_some, List.foldlM_cons, List.foldlM_nil]
      rw [next_far (by rw [p2]; exact h0) (by rw [p2]; exact hn)]
      refine ⟨d', rfl, fun h => absurd h (by simp [hf]), fun h => h2.2.1 fun y hy => h y (List.mem_cons_of_mem _ hy), fun h => ?_⟩
      have e := h2.2.2 h
      unfold nextOf at e ⊢
      rw [List.find?_cons_of_neg (by simp [hc])]
      exact e

mutual
theorem parts_parent : ∀ (D : Doc) (p : List UInt8) (st : Step) (r : List UInt8) (x : Part), x ∈ D.parts p st r →
    x = ⟨p, st, D, r⟩ ∨ x.step ≠ .root ∧ ∃ z, x.parent = p ++ st.text ++ z
  | .atom raw, p, st, r, x, h => by
    simp only [Doc.parts, List.mem_singleton] at h
    exact .inl h
  | .list w l, p, st, r, x, h => by
    simp only [Doc.parts, List.mem_cons] at h
    rcases h with h | h
    · exact .inl h
    · exact .inr (elems_parent l _ 0 _ x h)
  | .record w l, p, st, r, x, h => by
    simp only [Doc.parts, List.mem_cons] at h
    rcases h with h | h
    · exact .inl h
    · exact .inr (members_parent l _ _ x h)
theorem elems_parent : ∀ (l : Elems) (p : List UInt8) (i : Nat) (r : List UInt8) (x : Part), x ∈ l.parts p i r → x.step ≠ .root ∧ ∃ z, x.parent = p ++ z
  | .nil, p, i, r, x, h => by simp [Elems.parts] at h
  | .cons d w w' l, p, i, r, x, h => by
    simp only [Elems.parts, List.mem_append] at h
    rcases h with h | h
    · rcases parts_parent d _ _ _ x h with h | ⟨h1, z, h2⟩
      · subst h
        exact ⟨by simp, [], by simp⟩
      · exact ⟨h1, _, by rw [h2, List.append_assoc]⟩
    · exact elems_parent l p (i + 1) r x h
theorem members_parent : ∀ (l : Members) (p r : List UInt8) (x : Part), x ∈ l.parts p r → x.step ≠ .root ∧ ∃ z, x.parent = p ++ z
  | .nil, p, r, x, h => by simp [Members.parts] at h
  | .cons k u u' d w w' l, p, r, x, h => by
    simp only [Members.parts, List.mem_append] at h
    rcases h with h | h
    · rcases parts_parent d _ _ _ x h with h | ⟨h1, z, h2⟩
      · subst h
        exact ⟨by simp, [], by simp⟩
      · exact ⟨h1, _, by rw [h2, List.append_assoc]⟩
    · exact members_parent l p r x h
end

theorem step_ne {st : Step} (h : st ≠ .root) : st.text ≠ [] := by
  cases st with
  | root => exact absurd rfl h
  | index i => simp [Step.text, index]
  | key k => simp [Step.text]

theorem too_deep {P p : List UInt8} {st : Step} {y : Part} (hp : p = P) (hst : st ≠ .root) (hy : ∃ z, y.parent = p ++ st.text ++ z) : ¬ Child P y := by
  rintro ⟨h, _⟩
  obtain ⟨z, hz⟩ := hy
  subst hp
  rw [hz, List.append_assoc] at h
  have := List.append_right_eq_self.1 h
  exact step_ne hst (List.append_eq_nil_iff.1 this).1

mutual
theorem doc_next : ∀ (D : Doc) (j : J), D.Says j → ∀ (P : List UInt8) (nm : Option (List UInt8)) (p : List UInt8) (st : Step) (r : List UInt8), nm = stepName st →
    (0 : UInt8) ∉ p ++ st.text → (∀ x ∈ D.parts p st r, Clear P x) → ∀ d, ∃ d', (D.events nm (p ++ st.text) r).foldlM (nextCb P) d = some d' ∧ Goes P (D.parts p st r) d d'
  | .atom raw, j, hj, P, nm, p, st, r, hnm, h0, hcl, d => by
    simp only [Doc.events, List.foldlM_cons, List.foldlM_nil, Doc.parts] at hcl ⊢
    have hx := hcl _ (List.mem_singleton.2 rfl)
    cases hf : d.found with
    | true =>
      rw [next_found hf]
      exact ⟨d, rfl, fun _ => rfl, fun _ => rfl, fun h => absurd h (by simp [hf])⟩
    | false =>
      by_cases hc : Child P ⟨p, st, .atom raw, r⟩
      · have hn := hx.1.2 hc
        obtain ⟨_, _, s⟩ := next_near (d := d) (e := ⟨nm, atomType raw, atomPtr raw ++ r, atomLen raw, p ++ st.text⟩) (st := st) h0 hn (by rw [← hc.1]) hc.2 hx.2 hf
        obtain ⟨t1, t2, t3, t4⟩ := atomType_ne raw
        have ht := atom_token (raw := raw) (r := r) (nm := nm) (p := p ++ st.text) (p' := p) (st := st)
        have hl : (atomPtr raw ++ r).length = place ⟨p, st, .atom raw, r⟩ := by
          have := congrArg (fun t : Token => t.ptr.map List.length) ht
          have ht : ¬ (atomType raw = .objectStart ∨ atomType raw = .arrayStart) := by simp [t1, t2]
          simpa [tokenOf, partToken, place, t1, t2] using this
        rw [s t1 t2 t3 t4 hnm, ht]
        simp only
        rw [hl]
        refine ⟨_, rfl, fun h => absurd h (by simp [hf]), fun h => absurd hc (h _ (by simp)), fun _ => ?_⟩
        unfold nextOf
        by_cases ha : d.handle.all (place ⟨p, st, .atom raw, r⟩ < ·) = true
        · rw [List.find?_cons_of_pos (by simp [hc, ha])]
          simp only [ha, if_true]
          rfl
        · rw [List.find?_cons_of_neg (by simp [ha])]
          simp only [ha]
          exact ⟨hf, rfl⟩
      · have hn : ¬ Near P (p ++ st.text) := fun h => hc (hx.1.1 h)
        rw [next_far h0 hn]
        refine ⟨d, rfl, fun h => absurd h (by simp [hf]), fun _ => rfl, fun _ => ?_⟩
        unfold nextOf
        rw [List.find?_cons_of_neg (by simp [hc])]
        exact ⟨hf, rfl⟩
  | .list w l, j, hj, P, nm, p, st, r, hnm, h0, hcl, d => by
    simp only [Doc.Says] at hj
    obtain ⟨js, rfl, hw, hl⟩ := hj
    simp only [Doc.events, Doc.parts] at hcl ⊢
    refine container_next (x := ⟨p, st, .list w l, r⟩) (hcl _ (by simp)) h0 rfl rfl hnm (.inr rfl) (.inr rfl) ?_ list_token
      (fun d => elems_next l js hl P _ 0 _ h0 (fun x hx => hcl x (List.mem_cons_of_mem _ hx)) d) fun hc y hy => ?_
    · simp [place, Doc.from, Doc.isString, Doc.text]
    · exact too_deep hc.1 hc.2 (elems_parent l _ _ _ y hy).2
  | .record w l, j, hj, P, nm, p, st, r, hnm, h0, hcl, d => by
    simp only [Doc.Says] at hj
    obtain ⟨js, rfl, hw, hl⟩ := hj
    simp only [Doc.events, Doc.parts] at hcl ⊢
    refine container_next (x := ⟨p, st, .record w l, r⟩) (hcl _ (by simp)) h0 rfl rfl hnm (.inl rfl) (.inl rfl) ?_ record_token
      (fun d => members_next l js hl P _ _ h0 (fun x hx => hcl x (List.mem_cons_of_mem _ hx)) d) fun hc y hy => ?_
    · simp [place, Doc.from, Doc.isString, Doc.text]
    · exact too_deep hc.1 hc.2 (members_parent l _ _ y hy).2
theorem elems_next : ∀ (l : Elems) (js : List J), l.Says js → ∀ (P p : List UInt8) (i : Nat) (r : List UInt8), (0 : UInt8) ∉ p →
    (∀ x ∈ l.parts p i r, Clear P x) → ∀ d, ∃ d', (l.events p i r).foldlM (nextCb P) d = some d' ∧ Goes P (l.parts p i r) d d'
  | .nil, js, hl, P, p, i, r, h0, hcl, d => ⟨d, by simp [Elems.events], by simp only [Elems.parts]; exact .nil⟩
  | .cons e w w' l, js, hl, P, p, i, r, h0, hcl, d => by
    simp only [Elems.Says] at hl
    obtain ⟨j, js, rfl, hd, hw, hw', hl⟩ := hl
    simp only [Elems.events, Elems.parts] at hcl ⊢
    obtain ⟨d1, h1, g1⟩ := doc_next e j hd P (some (dec i)) p (.index i) _ rfl (noNul_elem h0 i) (fun x hx => hcl x (List.mem_append_left _ hx)) d
    obtain ⟨d2, h2, g2⟩ := elems_next l js hl P p (i + 1) r h0 (fun x hx => hcl x (List.mem_append_right _ hx)) d1
    refine ⟨d2, ?_, g1.append g2⟩
    rw [List.foldlM_append, show p ++ indexText i = p ++ (Step.index i).text from rfl, h1]
    exact h2
theorem members_next : ∀ (l : Members) (js : List (Key × J)), l.Says js → ∀ (P p r : List UInt8), (0 : UInt8) ∉ p →
    (∀ x ∈ l.parts p r, Clear P x) → ∀ d, ∃ d', (l.events p r).foldlM (nextCb P) d = some d' ∧ Goes P (l.parts p r) d d'
  | .nil, js, hl, P, p, r, h0, hcl, d => ⟨d, by simp [Members.events], by simp only [Members.parts]; exact .nil⟩
  | .cons k u u' e w w' l, js, hl, P, p, r, h0, hcl, d => by
    simp only [Members.Says] at hl
    obtain ⟨j, js, rfl, hk, hd, hu, hu', hw, hw', hl⟩ := hl
    simp only [Members.events, Members.parts] at hcl ⊢
    obtain ⟨d1, h1, g1⟩ := doc_next e j hd P (some k) p (.key k) _ rfl (noNul_member h0 hk) (fun x hx => hcl x (List.mem_append_left _ hx)) d
    obtain ⟨d2, h2, g2⟩ := members_next l js hl P p r h0 (fun x hx => hcl x (List.mem_append_right _ hx)) d1
    refine ⟨d2, ?_, g1.append g2⟩
    rw [List.foldlM_append, show p ++ 46 :: k = p ++ (Step.key k).text from rfl, h1]
    exact h2
end

/-! ### Places -/

theorem atom_place {raw : List UInt8} {j : J} (h : (Doc.atom raw).Says j) (r : List UInt8) :
    r.length < ((Doc.atom raw).from r).length ∧ ((Doc.atom raw).from r).length ≤ raw.length + r.length := by
  obtain ⟨c, u, hcu, _⟩ := doc_head h
  simp only [Doc.text] at hcu
  subst hcu
  unfold Doc.from Doc.isString
  simp only [Doc.text, List.head?_cons, Option.some.injEq]
  by_cases hq : c = 34
  · subst hq
    have : u ≠ [] := by
      rintro rfl
      simp only [Doc.Says] at h
      obtain ⟨h, _⟩ := h
      generalize hx : ([34] : List UInt8) = t at h
      cases h with
      | null => cases hx
      | true => cases hx
      | false => cases hx
      | str => simp at hx
      | arr => cases hx
      | obj => cases hx
      | @num neg t hn =>
        obtain ⟨_, _, c, u, rfl, hc⟩ := numeral_scan hn (r := [32]) ⟨32, [], rfl, by simp⟩ false
        cases neg with
        | true => cases hx
        | false => cases hx; exact absurd hc.1 (by decide)
    obtain ⟨a, b, rfl⟩ := List.exists_cons_of_ne_nil this
    simp
    omega
  · simp [hq]
    omega

mutual
theorem doc_places : ∀ (D : Doc) (j : J), D.Says j → ∀ (p : List UInt8) (st : Step) (r : List UInt8),
    (D.parts p st r).Pairwise (fun x y => place y < place x) ∧ ∀ x ∈ D.parts p st r, r.length < place x ∧ place x ≤ D.text.length + r.length
  | .atom raw, j, hj, p, st, r => by
    have := atom_place hj r
    simpa [Doc.parts, place, Doc.text] using this
  | .list w l, j, hj, p, st, r => by
    simp only [Doc.Says] at hj
    obtain ⟨js, rfl, hw, hl⟩ := hj
    obtain ⟨h1, h2⟩ := elems_places l js hl (p ++ st.text) 0 (93 :: r)
    have e : place ⟨p, st, .list w l, r⟩ = w.length + l.text.length + 2 + r.length := by
      simp [place, Doc.from, Doc.isString, Doc.text]
      omega
    simp only [Doc.parts]
    refine ⟨List.pairwise_cons.2 ⟨fun y hy => ?_, h1⟩, fun x hx => ?_⟩
    · have := (h2 y hy).2
      rw [e]
      simp only [List.length_cons] at this
      omega
    · rcases List.mem_cons.1 hx with rfl | hx
      · rw [e]
        simp [Doc.text]
        omega
      · have := h2 x hx
        simp [Doc.text] at this ⊢
        omega
  | .record w l, j, hj, p, st, r => by
    simp only [Doc.Says] at hj
    obtain ⟨js, rfl, hw, hl⟩ := hj
    obtain ⟨h1, h2⟩ := members_places l js hl (p ++ st.text) (125 :: r)
    have e : place ⟨p, st, .record w l, r⟩ = w.length + l.text.length + 2 + r.length := by
      simp [place, Doc.from, Doc.isString, Doc.text]
      omega
    simp only [Doc.parts]
    refine ⟨List.pairwise_cons.2 ⟨fun y hy => ?_, h1⟩, fun x hx => ?_⟩
    · have := (h2 y hy).2
      rw [e]
      simp only [List.length_cons] at this
      omega
    · rcases List.mem_cons.1 hx with rfl | hx
      · rw [e]
        simp [Doc.text]
        omega
      · have := h2 x hx
        simp [Doc.text] at this ⊢
        omega
theorem elems_places : ∀ (l : Elems) (js : List J), l.Says js → ∀ (p : List UInt8) (i : Nat) (r : List UInt8),
    (l.parts p i r).Pairwise (fun x y => place y < place x) ∧ ∀ x ∈ l.parts p i r, r.length < place x ∧ place x ≤ l.text.length + r.length
  | .nil, js, hl, p, i, r => by simp [Elems.parts]
  | .cons d w w' l, js, hl, p, i, r => by
    simp only [Elems.Says] at hl
    obtain ⟨j, js, rfl, hd, hw, hw', hl⟩ := hl
    obtain ⟨a1, a2⟩ := doc_places d j hd p (.index i) (w ++ (l.comma w' ++ (l.text ++ r)))
    obtain ⟨b1, b2⟩ := elems_places l js hl p (i + 1) r
    simp only [Elems.parts]
    refine ⟨List.pairwise_append.2 ⟨a1, b1, fun x hx y hy => ?_⟩, fun x hx => ?_⟩
    · have h1 := (a2 x hx).1
      have h2 := (b2 y hy).2
      simp only [List.length_append] at h1
      omega
    · rcases List.mem_append.1 hx with hx | hx
      · have h1 := a2 x hx
        simp only [List.length_append, Elems.text] at h1 ⊢
        omega
      · have h1 := b2 x hx
        simp only [List.length_append, Elems.text] at h1 ⊢
        omega
theorem members_places : ∀ (l : Members) (js : List (Key × J)), l.Says js → ∀ (p r : List UInt8),
    (l.parts p r).Pairwise (fun x y => place y < place x) ∧ ∀ x ∈ l.parts p r, r.length < place x ∧ place x ≤ l.text.length + r.length
  | .nil, js, hl, p, r => by simp [Members.parts]
  | .cons k u u' d w w' l, js, hl, p, r => by
    simp only [Members.Says] at hl
    obtain ⟨j, js, rfl, hk, hd, hu, hu', hw, hw', hl⟩ := hl
    obtain ⟨a1, a2⟩ := doc_places d j hd p (.key k) (w ++ (l.comma w' ++ (l.text ++ r)))
    obtain ⟨b1, b2⟩ := members_places l js hl p r
    simp only [Members.parts]
    refine ⟨List.pairwise_append.2 ⟨a1, b1, fun x hx y hy => ?_⟩, fun x hx => ?_⟩
    · have h1 := (a2 x hx).1
      have h2 := (b2 y hy).2
      simp only [List.length_append] at h1
      omega
    · rcases List.mem_append.1 hx with hx | hx
      · have h1 := a2 x hx
        simp only [List.length_append, Members.text, List.length_cons] at h1 ⊢
        omega
      · have h1 := b2 x hx
        simp only [List.length_append, Members.text, List.length_cons] at h1 ⊢
        omega
end

/-! ### Indices and keys -/

/-- Keys without dots and opening brackets. -/
def Dotless (k : Key) : Prop := (46 : UInt8) ∉ k ∧ (91 : UInt8) ∉ k

mutual
theorem doc_steps : ∀ (D : Doc) (j : J), D.Says j → D.Keys Dotless → ∀ (p : List UInt8) (st : Step) (r : List UInt8) (x : Part), x ∈ D.parts p st r →
    x = ⟨p, st, D, r⟩ ∨ (∃ m, x.step = .index m ∧ m < D.text.length) ∨ ∃ k, x.step = .key k ∧ Dotless k
  | .atom raw, j, hj, hk, p, st, r, x, h => by
    simp only [Doc.parts, List.mem_singleton] at h
    exact .inl h
  | .list w l, j, hj, hk, p, st, r, x, h => by
    simp only [Doc.Says] at hj
    simp only [Doc.Keys] at hk
    obtain ⟨js, rfl, hw, hl⟩ := hj
    simp only [Doc.parts, List.mem_cons] at h
    rcases h with h | h
    · exact .inl h
    · rcases elems_steps l js hl hk _ 0 _ x h with ⟨m, h1, h2⟩ | h
      · exact .inr (.inl ⟨m, h1, by simp [Doc.text]; omega⟩)
      · exact .inr (.inr h)
  | .record w l, j, hj, hk, p, st, r, x, h => by
    simp only [Doc.Says] at hj
    simp only [Doc.Keys] at hk
    obtain ⟨js, rfl, hw, hl⟩ := hj
    simp only [Doc.parts, List.mem_cons] at h
    rcases h with h | h
    · exact .inl h
    · rcases members_steps l js hl hk _ _ x h with ⟨m, h1, h2⟩ | h
      · exact .inr (.inl ⟨m, h1, by simp [Doc.text]; omega⟩)
      · exact .inr (.inr h)
theorem elems_steps : ∀ (l : Elems) (js : List J), l.Says js → l.Keys Dotless → ∀ (p : List UInt8) (i : Nat) (r : List UInt8) (x : Part), x ∈ l.parts p i r →
    (∃ m, x.step = .index m ∧ m < i + l.text.length) ∨ ∃ k, x.step = .key k ∧ Dotless k
  | .nil, js, hl, hk, p, i, r, x, h => by simp [Elems.parts] at h
  | .cons d w w' l, js, hl, hk, p, i, r, x, h => by
    simp only [Elems.Says] at hl
    simp only [Elems.Keys] at hk
    obtain ⟨j, js, rfl, hd, hw, hw', hl⟩ := hl
    obtain ⟨c, u, hcu, _⟩ := doc_head hd
    have hlen : 0 < d.text.length := by rw [hcu]; simp
    simp only [Elems.parts, List.mem_append] at h
    simp only [Elems.text, List.length_append]
    rcases h with h | h
    · rcases doc_steps d j hd hk.1 _ _ _ x h with rfl | ⟨m, h1, h2⟩ | h
      · exact .inl ⟨i, rfl, by omega⟩
      · exact .inl ⟨m, h1, by omega⟩
      · exact .inr h
    · rcases elems_steps l js hl hk.2 p (i + 1) r x h with ⟨m, h1, h2⟩ | h
      · exact .inl ⟨m, h1, by omega⟩
      · exact .inr h
theorem members_steps : ∀ (l : Members) (js : List (Key × J)), l.Says js → l.Keys Dotless → ∀ (p r : List UInt8) (x : Part), x ∈ l.parts p r →
    (∃ m, x.step = .index m ∧ m < l.text.length) ∨ ∃ k, x.step = .key k ∧ Dotless k
  | .nil, js, hl, hk, p, r, x, h => by simp [Members.parts] at h
  | .cons k u u' d w w' l, js, hl, hk, p, r, x, h => by
    simp only [Members.Says] at hl
    simp only [Members.Keys] at hk
    obtain ⟨j, js, rfl, hk', hd, hu, hu', hw, hw', hl⟩ := hl
    simp only [Members.parts, List.mem_append] at h
    simp only [Members.text, List.length_append, List.length_cons]
    rcases h with h | h
    · rcases doc_steps d j hd hk.2.1 _ _ _ x h with rfl | ⟨m, h1, h2⟩ | h
      · exact .inr ⟨k, rfl, hk.1⟩
      · exact .inl ⟨m, h1, by omega⟩
      · exact .inr h
    · rcases members_steps l js hl hk.2.2 p r x h with ⟨m, h1, h2⟩ | h
      · exact .inl ⟨m, h1, by omega⟩
      · exact .inr h
end

theorem last_split {p P k y : List UInt8} {a c : UInt8} (h : p ++ a :: k = P ++ c :: y) (ha : a = 46 ∨ a = 91) (hc : c = 46 ∨ c = 91)
    (hk : (46 : UInt8) ∉ k ∧ (91 : UInt8) ∉ k) (hy : (46 : UInt8) ∉ y ∧ (91 : UInt8) ∉ y) : p = P := by
  rcases List.append_eq_append_iff.1 h with ⟨z, h1, h2⟩ | ⟨z, h1, h2⟩
  · cases z with
    | nil => simpa using h1.symm
    | cons b z =>
      rw [List.cons_append, List.cons.injEq] at h2
      have : c ∈ k := by rw [h2.2]; simp
      rcases hc with rfl | rfl
      · exact absurd this hk.1
      · exact absurd this hk.2
  · cases z with
    | nil => simpa using h1
    | cons b z =>
      rw [List.cons_append, List.cons.injEq] at h2
      have : a ∈ y := by rw [h2.2]; simp
      rcases ha with rfl | rfl
      · exact absurd this hy.1
      · exact absurd this hy.2

/-- No part has a path that goes on behind `P` with anything but a dot or a bracket: no key begins with the last key of `P` and is longer. -/
def Apart (P : List UInt8) (D : Doc) : Prop := ∀ x ∈ D.parts [] .root [], ∀ c y, x.path = P ++ c :: y → c = 46 ∨ c = 91

theorem clear_of {D : Doc} {j : J} (hj : D.Says j) (hk : D.Keys Dotless) (hlen : D.text.length ≤ 2147483647) {P r : List UInt8}
    (ha : ∀ x ∈ D.parts [] .root r, ∀ c y, x.path = P ++ c :: y → c = 46 ∨ c = 91) : ∀ x ∈ D.parts [] .root r, Clear P x := by
  intro x hx
  have hst : x = ⟨[], .root, D, r⟩ ∨ ∃ a k, x.step ≠ .root ∧ x.step.text = a :: k ∧ (a = 46 ∨ a = 91) ∧ (46 : UInt8) ∉ k ∧ (91 : UInt8) ∉ k ∧ ∀ i, x.step = .index i → i ≤ 2147483647 := by
    rcases doc_steps D j hj hk [] .root r x hx with h | ⟨m, h1, h2⟩ | ⟨k, h1, h2⟩
    · exact .inl h
    · refine .inr ⟨91, dec m ++ [93], by simp [h1], by rw [h1]; rfl, .inr rfl, ?_, ?_, fun i hi => ?_⟩
      · simp [dec_no (i := m) (c := 46) (by decide)]
      · simp [dec_no (i := m) (c := 91) (by decide)]
      · rw [h1] at hi
        cases hi
        omega
    · exact .inr ⟨46, k, by simp [h1], by rw [h1]; rfl, .inl rfl, h2.1, h2.2, fun i hi => by rw [h1] at hi; cases hi⟩
  rcases hst with rfl | ⟨a, k, h1, h2, h3, h4, h5, h6⟩
  · refine ⟨⟨?_, fun h => absurd rfl h.2⟩, fun i hi => by cases hi⟩
    rintro ⟨c, y, h, _⟩
    simp [Part.path, Step.text] at h
  · refine ⟨⟨?_, fun h => ⟨a, k, by rw [Part.path, h.1, h2], h4, h5⟩⟩, h6⟩
    rintro ⟨c, y, h, h46, h91⟩
    have hc := ha x hx c y h
    rw [Part.path, h2] at h
    exact ⟨last_split h h3 hc ⟨h4, h5⟩ ⟨h46, h91⟩, h1⟩

mutual
/-- The paths do not depend on what follows. -/
theorem doc_paths : ∀ (D : Doc) (p : List UInt8) (st : Step) (r r' : List UInt8), (D.parts p st r).map Part.path = (D.parts p st r').map Part.path
  | .atom raw, p, st, r, r' => by simp [Doc.parts, Part.path]
  | .list w l, p, st, r, r' => by simp only [Doc.parts, List.map_cons, Part.path, elems_paths l _ 0 (93 :: r) (93 :: r')]
  | .record w l, p, st, r, r' => by simp only [Doc.parts, List.map_cons, Part.path, members_paths l _ (125 :: r) (125 :: r')]
theorem elems_paths : ∀ (l : Elems) (p : List UInt8) (i : Nat) (r r' : List UInt8), (l.parts p i r).map Part.path = (l.parts p i r').map Part.path
  | .nil, p, i, r, r' => rfl
  | .cons d w w' l, p, i, r, r' => by
    simp only [Elems.parts, List.map_append, elems_paths l p (i + 1) r r', doc_paths d p (.index i) (w ++ (l.comma w' ++ (l.text ++ r))) (w ++ (l.comma w' ++ (l.text ++ r')))]
theorem members_paths : ∀ (l : Members) (p r r' : List UInt8), (l.parts p r).map Part.path = (l.parts p r').map Part.path
  | .nil, p, r, r' => rfl
  | .cons k u u' d w w' l, p, r, r' => by
    simp only [Members.parts, List.map_append, members_paths l p r r', doc_paths d p (.key k) (w ++ (l.comma w' ++ (l.text ++ r))) (w ++ (l.comma w' ++ (l.text ++ r')))]
end

theorem apart_any {P : List UInt8} {D : Doc} (h : Apart P D) (r : List UInt8) : ∀ x ∈ D.parts [] .root r, ∀ c y, x.path = P ++ c :: y → c = 46 ∨ c = 91 := by
  intro x hx c y hp
  have h1 : x.path ∈ (D.parts [] .root r).map Part.path := List.mem_map_of_mem hx
  rw [doc_paths D [] .root r []] at h1
  obtain ⟨x', h2, h3⟩ := List.mem_map.1 h1
  exact h x' h2 c y (h3.trans hp)

/-- Behind the empty path every path goes on with a dot or a bracket. -/
theorem apart_root (D : Doc) : Apart [] D := by
  intro x hx c y h
  rcases parts_text D [] .root [] x hx with rfl | ⟨c', q, h1, h2⟩
  · simp [Part.path, Step.text] at h
  · rw [h1] at h
    simp only [Step.text, List.nil_append, List.cons.injEq] at h
    rw [← h.1]
    exact h2

/-! ### The theorems -/

/-- What the caller of `json_next_key` and `json_next_elem` gets, if the result is no null pointer: the handle, the key, the value and the index. -/
def answer (a : Option Nat × ND) : Option (Nat × Option (List UInt8) × Option Token × Int) := a.1.map fun h => (h, a.2.key, a.2.val, a.2.idx)

/-- The handle, the key, the value and the index of a part. -/
def told (x : Part) : Nat × Option (List UInt8) × Option Token × Int := (place x, stepKey x.step, some (partToken x), stepIdx x.step)

/-- **C89** for keys without dots and opening brackets, and paths `P` with no key that begins with the last key of `P` and is longer: `json_next` finds the first member or
element that belongs to `P` and begins behind the handle. -/
theorem C89_next_partial {D : Doc} {j : J} (hD : D.Says j) (hf : Fits 0 j) {d : Nat} (hd : D.depth ≤ d) {w r : List UInt8} (hw : Blank w) (hr : Ends r) (hk : D.Keys Dotless)
    (hlen : D.text.length ≤ 2147483647) {P : List UInt8} (ha : Apart P D) (h : Option Nat) :
    (jsonNext d (w ++ (D.text ++ r)) h P).map answer = some ((nextOf P h (D.parts [] .root r)).map told) := by
  obtain ⟨d', h1, h2⟩ := doc_next D j hD P none [] .root r rfl (by simp [Step.text]) (clear_of hD hk hlen (apart_any ha r)) ⟨h, false, none, none, 0⟩
  obtain ⟨c, u, hcu, _⟩ := doc_head hD
  have e := h2.2.2 rfl
  unfold jsonNext walk
  rw [if_neg (by rw [hcu]; simp), doc_walk D j hD d ⟨w ++ (D.text ++ r), [], none, ⟨h, false, none, none, 0⟩⟩ w r d' rfl hw hr hd (by simp) (by simp) hf h1]
  simp only at e
  cases hn : nextOf P h (D.parts [] .root r) with
  | none =>
    rw [hn] at e
    simp [left, answer, e.1]
  | some x =>
    rw [hn] at e
    simp only at e
    subst e
    rfl

theorem find_next {l : List Part} (hl : l.Pairwise fun x y => place y < place x) : ∀ (k : Nat) (x : Part), l[k]? = some x →
    l.find? (fun y => decide (place y < place x)) = l[k + 1]? := by
  induction l with
  | nil => intro k x h; simp at h
  | cons a l ih =>
    obtain ⟨h1, h2⟩ := List.pairwise_cons.1 hl
    intro k x h
    cases k with
    | zero =>
      simp only [List.getElem?_cons_zero, Option.some.injEq] at h
      subst h
      rw [List.find?_cons_of_neg (by simp)]
      cases l with
      | nil => rfl
      | cons b l => rw [List.find?_cons_of_pos (by simpa using h1 b (by simp))]; rfl
    | succ k =>
      rw [List.getElem?_cons_succ] at h
      have := h1 x (List.mem_of_getElem? h)
      rw [List.find?_cons_of_neg (by simp; omega), ih h2 k x h, List.getElem?_cons_succ]

/-- **C89**, in the same cases: whoever begins with the null pointer and passes the result on again and again gets all members or elements that belong to `P`, each once, in the
order in which they are written, and then the null pointer. -/
theorem C89_all_partial {D : Doc} {j : J} (hD : D.Says j) (hf : Fits 0 j) {d : Nat} (hd : D.depth ≤ d) {w r : List UInt8} (hw : Blank w) (hr : Ends r) (hk : D.Keys Dotless)
    (hlen : D.text.length ≤ 2147483647) {P : List UInt8} (ha : Apart P D) {l : List Part} (hl : l = (D.parts [] .root r).filter fun x => decide (Child P x)) :
    (jsonNext d (w ++ (D.text ++ r)) none P).map answer = some (l[0]?.map told) ∧
    ∀ (k : Nat) (x : Part), l[k]? = some x → (jsonNext d (w ++ (D.text ++ r)) (some (told x).1) P).map answer = some (l[k + 1]?.map told) := by
  have hp := ((doc_places D j hD [] .root r).1.filter fun x => decide (Child P x))
  rw [← hl] at hp
  have key : ∀ h, nextOf P h (D.parts [] .root r) = l.find? fun x => h.all (place x < ·) := fun h => by
    rw [hl, List.find?_filter]
    unfold nextOf
    congr 1
    funext x
    simp
  refine ⟨?_, fun k x hx => ?_⟩
  · rw [C89_next_partial hD hf hd hw hr hk hlen ha, key]
    cases l <;> simp
  · rw [C89_next_partial hD hf hd hw hr hk hlen ha, key]
    simp only [told, Option.all_some]
    rw [find_next hp k x hx]

theorem child_head (d : Doc) (p : List UInt8) {st : Step} (hst : st ≠ .root) (r : List UInt8) :
    (d.parts p st r).filter (fun x => decide (Child p x)) = [⟨p, st, d, r⟩] := by
  have key : ∀ l : List Part, (∀ y ∈ l, ∃ z, y.parent = p ++ st.text ++ z) → (((⟨p, st, d, r⟩ : Part) :: l).filter fun x => decide (Child p x)) = [⟨p, st, d, r⟩] := fun l hl => by
    rw [List.filter_cons_of_pos (by simpa [Child] using hst), List.filter_eq_nil_iff.2 (fun y hy => by simpa using too_deep rfl hst (hl y hy))]
  cases d with
  | atom raw => exact key [] (by simp)
  | list w l => exact key _ fun y hy => (elems_parent l _ _ _ y hy).2
  | record w l => exact key _ fun y hy => (members_parent l _ _ y hy).2

theorem child_members : ∀ (l : Members) (p r : List UInt8), ((l.parts p r).filter fun x => decide (Child p x)).map (fun x => (x.step, x.doc)) =
    l.pairs.map fun m => (Step.key m.1, m.2)
  | .nil, p, r => rfl
  | .cons k u u' d w w' l, p, r => by
    rw [Members.parts, List.filter_append, List.map_append, child_members l p r, child_head d p (by simp)]
    rfl

theorem child_elems : ∀ (l : Elems) (p : List UInt8) (i : Nat) (r : List UInt8), ((l.parts p i r).filter fun x => decide (Child p x)).map (fun x => (x.step, x.doc)) =
    (l.docs.zipIdx i).map fun m => (Step.index m.2, m.1)
  | .nil, p, i, r => rfl
  | .cons d w w' l, p, i, r => by
    rw [Elems.parts, List.filter_append, List.map_append, child_elems l p (i + 1) r, child_head d p (by simp)]
    rfl

theorem root_child (D : Doc) (r : List UInt8) (l : List Part) : (((⟨[], .root, D, r⟩ : Part) :: l).filter fun x => decide (Child [] x)) = l.filter fun x => decide (Child [] x) :=
  List.filter_cons_of_neg (by simp [Child])

/-- **C89** for an object without dots and opening brackets in its keys: with the empty path, its members come one by one. -/
theorem C89_object_partial {w0 : List UInt8} {l : Members} {j : J} (hD : (Doc.record w0 l).Says j) (hf : Fits 0 j) {d : Nat} (hd : (Doc.record w0 l).depth ≤ d) {w r : List UInt8}
    (hw : Blank w) (hr : Ends r) (hk : l.Keys Dotless) (hlen : (Doc.record w0 l).text.length ≤ 2147483647) :
    ∃ xs : List Part, xs.map (fun x => (x.step, x.doc)) = l.pairs.map (fun m => (Step.key m.1, m.2)) ∧
      (jsonNext d (w ++ ((Doc.record w0 l).text ++ r)) none []).map answer = some (xs[0]?.map told) ∧
      ∀ (k : Nat) (x : Part), xs[k]? = some x → (jsonNext d (w ++ ((Doc.record w0 l).text ++ r)) (some (told x).1) []).map answer = some (xs[k + 1]?.map told) := by
  refine ⟨_, ?_, C89_all_partial hD hf hd hw hr (by simpa only [Doc.Keys] using hk) hlen (apart_root _) rfl⟩
  rw [Doc.parts, root_child]
  exact child_members l _ _

/-- **C89** for an array without dots and opening brackets in the keys of its parts: with the empty path, its elements come one by one. -/
theorem C89_array_partial {w0 : List UInt8} {l : Elems} {j : J} (hD : (Doc.list w0 l).Says j) (hf : Fits 0 j) {d : Nat} (hd : (Doc.list w0 l).depth ≤ d) {w r : List UInt8}
    (hw : Blank w) (hr : Ends r) (hk : l.Keys Dotless) (hlen : (Doc.list w0 l).text.length ≤ 2147483647) :
    ∃ xs : List Part, xs.map (fun x => (x.step, x.doc)) = l.docs.zipIdx.map (fun m => (Step.index m.2, m.1)) ∧
      (jsonNext d (w ++ ((Doc.list w0 l).text ++ r)) none []).map answer = some (xs[0]?.map told) ∧
      ∀ (k : Nat) (x : Part), xs[k]? = some x → (jsonNext d (w ++ ((Doc.list w0 l).text ++ r)) (some (told x).1) []).map answer = some (xs[k + 1]?.map told) := by
  refine ⟨_, ?_, C89_all_partial hD hf hd hw hr (by simpa only [Doc.Keys] using hk) hlen (apart_root _) rfl⟩
  rw [Doc.parts, root_child]
  exact child_elems l _ 0 _

/-! ### Concrete cases -/

/-- The keys and indices that a caller gets who passes on the handle `n` times. -/
def keysOf (text P : List UInt8) : Nat → Option Nat → List (Option (Option (List UInt8) × Int))
  | 0, _ => []
  | n + 1, h => match jsonNext 100 text h P with
    | some (some h, a) => some (a.key, a.idx) :: keysOf text P n (some h)
    | _ => [none]

/-- `{"a": [1,{}] ,"b":"x"}`: the members are `a` and `b`, the elements of `.a` are number 0 and 1. -/
example : demoDoc.Keys Dotless ∧ demoDoc.text.length ≤ 2147483647 ∧ keysOf demoDoc.text [] 5 none = [some (some [97], -1), some (some [98], -1), none] ∧
    keysOf demoDoc.text [46, 97] 5 none = [some (none, 0), some (none, 1), none] ∧ Apart [46, 97] demoDoc := by
  refine ⟨by simp [demoDoc, Doc.Keys, Elems.Keys, Members.Keys, Dotless], by decide, by decide +kernel, by decide +kernel, ?_⟩
  intro x hx c y h
  simp only [demoDoc, Doc.parts, Members.parts, Elems.parts, List.mem_cons, List.mem_append, List.not_mem_nil, or_false] at hx
  rcases hx with rfl | (rfl | rfl | rfl) | rfl <;> simp [Part.path, Step.text, index] at h
  · exact .inr h.1.symm
  · exact .inr h.1.symm

/-- **C89** is violated: in `{"a":{"x":1},"ab":2}` the members of `.a` are said to be `x` and `ab`. -/
theorem C89_violation_prefix : keysOf [123, 34, 97, 34, 58, 123, 34, 120, 34, 58, 49, 125, 44, 34, 97, 98, 34, 58, 50, 125] [46, 97] 5 none =
    [some (some [120], -1), some (some [97, 98], -1), none] := by decide +kernel

/-- **C89** is violated: `{"a.b":1}` is said to have no members. -/
theorem C89_violation_dot : keysOf [123, 34, 97, 46, 98, 34, 58, 49, 125] [] 5 none = [none] := by decide +kernel

end Mjs.Props
