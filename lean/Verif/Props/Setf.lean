import Verif.Model.Setf
import Verif.Props.JsonNext

/-!
# C90: setting a value in a JSON text
-/

namespace Mjs.Props
open Mjs Mjs.Json Mjs.Pretty Mjs.Setf Mjs.Spec Mjs.Spec.Json

theorem matchedLen_le (s : List UInt8) : ∀ t, matchedLen s t ≤ t.length := by
  induction s with
  | nil => intro t; simp [matchedLen]
  | cons a s ih =>
    intro t
    cases t with
    | nil => simp [matchedLen]
    | cons b t =>
      have := ih t
      simp only [matchedLen, List.length_cons]
      split <;> omega

theorem matchedLen_self : ∀ s : List UInt8, matchedLen s s = s.length
  | [] => rfl
  | a :: s => by simp [matchedLen, matchedLen_self s]

/-- The callback for a value: at the path, the place of the value is kept; elsewhere a place that is known stays. -/
theorem setf_value {n : Nat} {P : List UInt8} {d : SD} {e : Event} {x : Part} (h0 : (0 : UInt8) ∉ x.path) (hp : e.path = x.path) (t1 : e.type ≠ .objectStart)
    (t2 : e.type ≠ .arrayStart) (hl : e.ptr.length = place x) (hs : e.len = x.doc.shown.length) :
    ∃ d', setfCb n P d e = some d' ∧ d.matched ≤ d'.matched ∧ (d.matched ≤ P.length → d'.matched ≤ P.length) ∧
      (x.path = P → d'.pos = n - place x ∧ d'.stop = n - place x + x.doc.shown.length ∧ P.length ≤ d'.matched) ∧
      (x.path ≠ P → d.pos ≠ 0 → d'.pos = d.pos ∧ d'.stop = d.stop) := by
  have hm := matchedLen_le x.path P
  have key : ∀ (c : Prop) [Decidable c] (a b : SD), (if c then a else b) = a ∨ (if c then a else b) = b := fun c _ a b => by split <;> simp
  unfold setfCb
  rw [cstr_eq (by rw [hp]; exact h0), if_neg (by simp [t1, t2])]
  dsimp only
  rw [hp, hl, hs]
  generalize hd1 : (if matchedLen x.path P > d.matched then { d with matched := matchedLen x.path P } else d) = d1
  have f1 : d1.pos = d.pos ∧ d1.stop = d.stop ∧ d.matched ≤ d1.matched ∧ matchedLen x.path P ≤ d1.matched ∧ (d.matched ≤ P.length → d1.matched ≤ P.length) := by
    subst hd1
    split
    · exact ⟨rfl, rfl, by simp; omega, by simp, fun _ => hm⟩
    · exact ⟨rfl, rfl, Nat.le_refl _, by omega, id⟩
  generalize hd2 : (if matchedLen x.path P < d1.matched ∧ d1.pos = 0 ∧ (e.type = .objectEnd ∨ e.type = .arrayEnd) then { d1 with pos := d1.prev, stop := d1.prev } else d1) = d2
  have f2 : d2.matched = d1.matched ∧ (d.pos ≠ 0 → d2.pos = d.pos ∧ d2.stop = d.stop) := by
    subst hd2
    split
    next h => exact ⟨rfl, fun hne => absurd (f1.1 ▸ h.2.1) hne⟩
    · exact ⟨rfl, fun _ => ⟨f1.1, f1.2.1⟩⟩
  generalize hd3 : (if x.path = P then { d2 with pos := n - place x, stop := n - place x + x.doc.shown.length } else d2) = d3
  have f3 : d3.matched = d2.matched ∧ (x.path = P → d3.pos = n - place x ∧ d3.stop = n - place x + x.doc.shown.length) ∧ (x.path ≠ P → d3.pos = d2.pos ∧ d3.stop = d2.stop) := by
    subst hd3
    split
    next h => exact ⟨rfl, fun _ => ⟨rfl, rfl⟩, fun hne => absurd h hne⟩
    next h => exact ⟨rfl, fun he => absurd he h, fun _ => ⟨rfl, rfl⟩⟩
  refine ⟨_, rfl, ?_⟩
  generalize hd4 : (if d3.pos = 0 then ({ d3 with prev := n - place x + x.doc.shown.length } : SD) else
    if (e.ptr.head? = some 91 ∨ e.ptr.head? = some 123) ∧ n - place x + 1 < d3.pos ∧ n - place x + 1 > d3.prev then { d3 with prev := n - place x + 1 } else d3) = d4
  have f4 : d4.matched = d3.matched ∧ d4.pos = d3.pos ∧ d4.stop = d3.stop := by
    subst hd4
    repeat' split
    all_goals exact ⟨rfl, rfl, rfl⟩
  rw [f4.1, f4.2.1, f4.2.2, f3.1, f2.1]
  refine ⟨f1.2.2.1, f1.2.2.2.2, fun he => ⟨(f3.2.1 he).1, (f3.2.1 he).2, ?_⟩, fun hne h => ?_⟩
  · have := f1.2.2.2.1
    rw [he, matchedLen_self] at this
    exact this
  · rw [(f3.2.2 hne).1, (f3.2.2 hne).2]
    exact f2.2 h

theorem setf_start {n : Nat} {P : List UInt8} {d : SD} {e : Event} (h : e.type = .objectStart ∨ e.type = .arrayStart) : setfCb n P d e = some d := by
  unfold setfCb
  dsimp only
  rw [if_pos h]

/-- From `d` to `d'` by the callbacks for these parts. -/
def Sets (n : Nat) (P : List UInt8) (l : List Part) (d d' : SD) : Prop :=
  d.matched ≤ d'.matched ∧ (d.matched ≤ P.length → d'.matched ≤ P.length) ∧ match lastAt l P with
    | some x => d'.pos = n - place x ∧ d'.stop = n - place x + x.doc.shown.length ∧ P.length ≤ d'.matched
    | none => d.pos ≠ 0 → d'.pos = d.pos ∧ d'.stop = d.stop

theorem lastAt_mem {l : List Part} {P : List UInt8} {x : Part} (h : lastAt l P = some x) : x ∈ l ∧ x.path = P := by
  have := List.mem_of_getLast? h
  simpa using List.mem_filter.1 this

theorem Sets.append {n : Nat} {P : List UInt8} {a b : List Part} {d d1 d2 : SD} (hn : ∀ x ∈ a, place x < n) (h1 : Sets n P a d d1) (h2 : Sets n P b d1 d2) :
    Sets n P (a ++ b) d d2 := by
  obtain ⟨m1, m2, m3⟩ := h1
  obtain ⟨k1, k2, k3⟩ := h2
  refine ⟨Nat.le_trans m1 k1, fun h => k2 (m2 h), ?_⟩
  rw [lastAt_append]
  cases hb : lastAt b P with
  | some y =>
    rw [hb] at k3
    exact k3
  | none =>
    rw [hb] at k3
    rw [Option.none_or]
    cases ha : lastAt a P with
    | some x =>
      rw [ha] at m3
      have := hn x (lastAt_mem ha).1
      obtain ⟨e1, e2⟩ := k3 (by rw [m3.1]; omega)
      exact ⟨e1.trans m3.1, e2.trans m3.2.1, Nat.le_trans m3.2.2 k1⟩
    | none =>
      rw [ha] at m3
      intro h
      obtain ⟨e1, e2⟩ := m3 h
      obtain ⟨e3, e4⟩ := k3 (by rw [e1]; exact h)
      exact ⟨e3.trans e1, e4.trans e2⟩

theorem Sets.nil {n : Nat} {P : List UInt8} {d : SD} : Sets n P [] d d := ⟨Nat.le_refl _, id, fun _ => ⟨rfl, rfl⟩⟩

/-- An array or object. -/
theorem container_sets {n : Nat} {P : List UInt8} {x : Part} {es : List Event} {l : List Part} {d : SD} {e1 e2 : Event} (h0 : (0 : UInt8) ∉ x.path)
    (p2 : e2.path = x.path) (t1 : e1.type = .objectStart ∨ e1.type = .arrayStart) (t2 : e2.type = .objectEnd ∨ e2.type = .arrayEnd) (hl : e2.ptr.length = place x)
    (hs : e2.len = x.doc.shown.length) (hes : ∀ d, ∃ d', es.foldlM (setfCb n P) d = some d' ∧ Sets n P l d d') (hn : ∀ y ∈ l, place y < n)
    (hdeep : ∀ y ∈ l, ∃ c q, y.path = x.path ++ c :: q) :
    ∃ d', (e1 :: (es ++ [e2])).foldlM (setfCb n P) d = some d' ∧ Sets n P (x :: l) d d' := by
  rw [List.foldlM_cons, setf_start t1]
  simp only [Option.bind_eq_bind, Option.bind_some]
  obtain ⟨d1, h1, m1, m2, m3⟩ := hes d
  have t2' : e2.type ≠ .objectStart ∧ e2.type ≠ .arrayStart := by rcases t2 with h | h <;> rw [h] <;> decide
  obtain ⟨d2, h2, k1, k2, k3, k4⟩ := setf_value (n := n) (P := P) (d := d1) (e := e2) h0 p2 t2'.1 t2'.2 hl hs
  refine ⟨d2, ?_, Nat.le_trans m1 k1, fun h => k2 (m2 h), ?_⟩
  · rw [List.foldlM_append, h1]
    simp [h2]
  · rw [show x :: l = [x] ++ l from rfl, lastAt_append]
    by_cases hx : x.path = P
    · have : lastAt l P = none := lastAt_none fun y hy => by
        obtain ⟨c, q, h⟩ := hdeep y hy
        rw [h, hx]
        simp
      rw [this, Option.none_or, show lastAt [x] P = some x by simp [lastAt, hx]]
      exact k3 hx
    · rw [show lastAt [x] P = none from lastAt_none fun y hy => by rw [List.mem_singleton.1 hy]; exact hx, Option.or_none]
      cases ha : lastAt l P with
      | some y =>
        rw [ha] at m3
        have := hn y (lastAt_mem ha).1
        obtain ⟨e1, e2⟩ := k4 hx (by rw [m3.1]; omega)
        exact ⟨e1.trans m3.1, e2.trans m3.2.1, Nat.le_trans m3.2.2 k1⟩
      | none =>
        rw [ha] at m3
        intro h
        obtain ⟨e1, e2⟩ := m3 h
        obtain ⟨e3, e4⟩ := k4 hx (by rw [e1]; exact h)
        exact ⟨e3.trans e1, e4.trans e2⟩

mutual
theorem doc_sets : ∀ (D : Doc) (j : J), D.Says j → ∀ (n : Nat) (P : List UInt8) (nm : Option (List UInt8)) (p : List UInt8) (st : Step) (r : List UInt8),
    (0 : UInt8) ∉ p ++ st.text → D.text.length + r.length ≤ n → ∀ d, ∃ d', (D.events nm (p ++ st.text) r).foldlM (setfCb n P) d = some d' ∧ Sets n P (D.parts p st r) d d'
  | .atom raw, j, hj, n, P, nm, p, st, r, h0, hn, d => by
    simp only [Doc.events, List.foldlM_cons, List.foldlM_nil, Doc.parts]
    obtain ⟨t1, t2, t3, t4⟩ := atomType_ne raw
    have ht := atom_token (raw := raw) (r := r) (nm := nm) (p := p ++ st.text) (p' := p) (st := st)
    have hl : (atomPtr raw ++ r).length = place ⟨p, st, .atom raw, r⟩ := by
      have := congrArg (fun t : Token => t.ptr.map List.length) ht
      simpa [tokenOf, partToken, place, t1, t2] using this
    have hs : atomLen raw = (Doc.atom raw).shown.length := congrArg Token.len ht
    obtain ⟨d2, h2, k1, k2, k3, k4⟩ := setf_value (n := n) (P := P) (d := d) (e := ⟨nm, atomType raw, atomPtr raw ++ r, atomLen raw, p ++ st.text⟩)
      (x := ⟨p, st, .atom raw, r⟩) h0 rfl t1 t2 hl hs
    refine ⟨d2, by rw [h2]; rfl, k1, k2, ?_⟩
    by_cases hx : p ++ st.text = P
    · rw [show lastAt [(⟨p, st, .atom raw, r⟩ : Part)] P = some ⟨p, st, .atom raw, r⟩ by simp [lastAt, Part.path, hx]]
      exact k3 hx
    · rw [show lastAt [(⟨p, st, .atom raw, r⟩ : Part)] P = none from lastAt_none fun y hy => by rw [List.mem_singleton.1 hy]; exact hx]
      exact k4 hx
  | .list w l, j, hj, n, P, nm, p, st, r, h0, hn, d => by
    simp only [Doc.Says] at hj
    obtain ⟨js, rfl, hw, hl⟩ := hj
    simp only [Doc.text, List.length_cons, List.length_append, List.length_nil] at hn
    simp only [Doc.events, Doc.parts]
    refine container_sets (x := ⟨p, st, .list w l, r⟩) h0 rfl (.inr rfl) (.inr rfl) ?_ ?_
      (fun d => elems_sets l js hl n P _ 0 _ h0 (by simp only [List.length_cons]; omega) d) (fun y hy => ?_) fun y hy => ?_
    · simp [place, Doc.from, Doc.isString, Doc.text]
    · simp [Doc.shown, Doc.isString, Doc.text]; omega
    · have := ((elems_places l js hl _ 0 (93 :: r)).2 y hy).2
      simp only [List.length_cons] at this
      omega
    · obtain ⟨c, q, h, _⟩ := parts_elems l _ _ _ y hy
      exact ⟨c, q, h⟩
  | .record w l, j, hj, n, P, nm, p, st, r, h0, hn, d => by
    simp only [Doc.Says] at hj
    obtain ⟨js, rfl, hw, hl⟩ := hj
    simp only [Doc.text, List.length_cons, List.length_append, List.length_nil] at hn
    simp only [Doc.events, Doc.parts]
    refine container_sets (x := ⟨p, st, .record w l, r⟩) h0 rfl (.inl rfl) (.inl rfl) ?_ ?_
      (fun d => members_sets l js hl n P _ _ h0 (by simp only [List.length_cons]; omega) d) (fun y hy => ?_) fun y hy => ?_
    · simp [place, Doc.from, Doc.isString, Doc.text]
    · simp [Doc.shown, Doc.isString, Doc.text]; omega
    · have := ((members_places l js hl _ (125 :: r)).2 y hy).2
      simp only [List.length_cons] at this
      omega
    · obtain ⟨c, q, h, _⟩ := parts_members l _ _ y hy
      exact ⟨c, q, h⟩
theorem elems_sets : ∀ (l : Elems) (js : List J), l.Says js → ∀ (n : Nat) (P p : List UInt8) (i : Nat) (r : List UInt8), (0 : UInt8) ∉ p →
    l.text.length + r.length < n → ∀ d, ∃ d', (l.events p i r).foldlM (setfCb n P) d = some d' ∧ Sets n P (l.parts p i r) d d'
  | .nil, js, hl, n, P, p, i, r, h0, hn, d => ⟨d, by simp [Elems.events], by simp only [Elems.parts]; exact .nil⟩
  | .cons e w w' l, js, hl, n, P, p, i, r, h0, hn, d => by
    simp only [Elems.Says] at hl
    obtain ⟨j, js, rfl, hd, hw, hw', hl⟩ := hl
    simp only [Elems.text, List.length_append] at hn
    simp only [Elems.events, Elems.parts]
    obtain ⟨d1, h1, g1⟩ := doc_sets e j hd n P (some (dec i)) p (.index i) (w ++ (l.comma w' ++ (l.text ++ r))) (noNul_elem h0 i) (by simp only [List.length_append]; omega) d
    obtain ⟨d2, h2, g2⟩ := elems_sets l js hl n P p (i + 1) r h0 (by omega) d1
    refine ⟨d2, ?_, g1.append (fun x hx => ?_) g2⟩
    · rw [List.foldlM_append, show p ++ indexText i = p ++ (Step.index i).text from rfl, h1]
      exact h2
    · have := ((doc_places e j hd p (.index i) (w ++ (l.comma w' ++ (l.text ++ r)))).2 x hx).2
      simp only [List.length_append] at this
      omega
theorem members_sets : ∀ (l : Members) (js : List (Key × J)), l.Says js → ∀ (n : Nat) (P p r : List UInt8), (0 : UInt8) ∉ p →
    l.text.length + r.length < n → ∀ d, ∃ d', (l.events p r).foldlM (setfCb n P) d = some d' ∧ Sets n P (l.parts p r) d d'
  | .nil, js, hl, n, P, p, r, h0, hn, d => ⟨d, by simp [Members.events], by simp only [Members.parts]; exact .nil⟩
  | .cons k u u' e w w' l, js, hl, n, P, p, r, h0, hn, d => by
    simp only [Members.Says] at hl
    obtain ⟨j, js, rfl, hk, hd, hu, hu', hw, hw', hl⟩ := hl
    simp only [Members.text, List.length_append, List.length_cons] at hn
    simp only [Members.events, Members.parts]
    obtain ⟨d1, h1, g1⟩ := doc_sets e j hd n P (some k) p (.key k) (w ++ (l.comma w' ++ (l.text ++ r))) (noNul_member h0 hk) (by simp only [List.length_append]; omega) d
    obtain ⟨d2, h2, g2⟩ := members_sets l js hl n P p r h0 (by omega) d1
    refine ⟨d2, ?_, g1.append (fun x hx => ?_) g2⟩
    · rw [List.foldlM_append, show p ++ 46 :: k = p ++ (Step.key k).text from rfl, h1]
      exact h2
    · have := ((doc_places e j hd p (.key k) (w ++ (l.comma w' ++ (l.text ++ r)))).2 x hx).2
      simp only [List.length_append] at this
      omega
end

mutual
/-- Where a part stands in the text. -/
theorem doc_where : ∀ (D : Doc) (p : List UInt8) (st : Step) (r : List UInt8) (x : Part), x ∈ D.parts p st r → ∃ pre, D.text ++ r = pre ++ (x.doc.text ++ x.post)
  | .atom raw, p, st, r, x, h => by
    simp only [Doc.parts, List.mem_singleton] at h
    subst h
    exact ⟨[], rfl⟩
  | .list w l, p, st, r, x, h => by
    simp only [Doc.parts, List.mem_cons] at h
    rcases h with rfl | h
    · exact ⟨[], rfl⟩
    · obtain ⟨pre, h⟩ := elems_where l _ _ _ x h
      refine ⟨91 :: (w ++ pre), ?_⟩
      simp only [Doc.text, List.cons_append, List.append_assoc, List.nil_append, ← h]
  | .record w l, p, st, r, x, h => by
    simp only [Doc.parts, List.mem_cons] at h
    rcases h with rfl | h
    · exact ⟨[], rfl⟩
    · obtain ⟨pre, h⟩ := members_where l _ _ x h
      refine ⟨123 :: (w ++ pre), ?_⟩
      simp only [Doc.text, List.cons_append, List.append_assoc, List.nil_append, ← h]
theorem elems_where : ∀ (l : Elems) (p : List UInt8) (i : Nat) (r : List UInt8) (x : Part), x ∈ l.parts p i r → ∃ pre, l.text ++ r = pre ++ (x.doc.text ++ x.post)
  | .nil, p, i, r, x, h => by simp [Elems.parts] at h
  | .cons d w w' l, p, i, r, x, h => by
    simp only [Elems.parts, List.mem_append] at h
    rcases h with h | h
    · obtain ⟨pre, h⟩ := doc_where d _ _ _ x h
      exact ⟨pre, by simp only [Elems.text, List.append_assoc, ← h]⟩
    · obtain ⟨pre, h⟩ := elems_where l _ _ _ x h
      exact ⟨d.text ++ (w ++ (l.comma w' ++ pre)), by simp only [Elems.text, List.append_assoc, ← h]⟩
theorem members_where : ∀ (l : Members) (p r : List UInt8) (x : Part), x ∈ l.parts p r → ∃ pre, l.text ++ r = pre ++ (x.doc.text ++ x.post)
  | .nil, p, r, x, h => by simp [Members.parts] at h
  | .cons k u u' d w w' l, p, r, x, h => by
    simp only [Members.parts, List.mem_append] at h
    rcases h with h | h
    · obtain ⟨pre, h⟩ := doc_where d _ _ _ x h
      exact ⟨quoted k ++ (u ++ 58 :: (u' ++ pre)), by simp only [Members.text, List.append_assoc, List.cons_append, ← h]⟩
    · obtain ⟨pre, h⟩ := members_where l _ _ x h
      exact ⟨quoted k ++ (u ++ 58 :: (u' ++ (d.text ++ (w ++ (l.comma w' ++ pre))))), by simp only [Members.text, List.append_assoc, List.cons_append, ← h]⟩
end

theorem clip_left {a b : List UInt8} (h : (0 : UInt8) ∉ a ++ b) : clip a.length (a ++ b) = a := by
  unfold clip
  rw [List.take_left, Json.takeWhile_noNul fun h' => h (List.mem_append_left _ h')]

theorem clip_right {a b : List UInt8} (h : (0 : UInt8) ∉ a ++ b) : clip ((a ++ b).length - a.length) ((a ++ b).drop a.length) = b := by
  unfold clip
  rw [List.drop_left, List.length_append, Nat.add_sub_cancel_left, List.take_length, Json.takeWhile_noNul fun h' => h (List.mem_append_right _ h')]

/-- A value that is in the text: what stands before and behind the bytes that a token shows of it stays, and the new value is printed between. -/
theorem setf_found {D : Doc} {j : J} (hD : D.Says j) (hf : Fits 0 j) {d : Nat} (hd : D.depth ≤ d) {w r : List UInt8} (hw : Blank w) (hr : Ends r)
    (h0 : (0 : UInt8) ∉ w ++ (D.text ++ r)) {P : List UInt8} {x : Part} (hx : lastAt (D.parts [] .root r) P = some x) (v pre post : List UInt8)
    (hpre : w ++ (D.text ++ r) = pre ++ (x.doc.shown ++ post)) (hplace : place x = x.doc.shown.length + post.length) :
    setf d (w ++ (D.text ++ r)) P (some v) = some (pre ++ (v ++ post), if x.doc.shown = [] then 0 else 1) := by
  obtain ⟨d', h1, m1, m2, m3⟩ := doc_sets D j hD (w ++ (D.text ++ r)).length P none [] .root r (by simp [Step.text]) (by simp) ⟨0, 0, (w ++ (D.text ++ r)).length, 0⟩
  obtain ⟨c, u, hcu, _⟩ := doc_head hD
  rw [hx] at m3
  have hm : d'.matched = P.length := Nat.le_antisymm (m2 (Nat.zero_le _)) m3.2.2
  have hpos : d'.pos = pre.length := by
    rw [m3.1, hplace, hpre]
    simp only [List.length_append]
    omega
  have hstop : d'.stop = (pre ++ x.doc.shown).length := by
    rw [m3.2.1, ← m3.1, hpos, List.length_append]
  unfold setf walk
  rw [if_neg (by rw [hcu]; simp), doc_walk D j hD d ⟨w ++ (D.text ++ r), [], none, ⟨0, 0, (w ++ (D.text ++ r)).length, 0⟩⟩ w r d' rfl hw hr hd (by simp) (by simp) hf h1]
  simp only [left, Option.bind_some]
  rw [addKeys]
  simp only [hm, List.drop_length, show stepLen [] = 0 from rfl, Nat.lt_irrefl, gt_iff_lt, if_false, Option.map_some, List.nil_append]
  have hc : closeKeys P P.length P.length = [] := by simp [closeKeys]
  rw [hc, List.nil_append, hpos, hstop]
  have e1 : clip pre.length (w ++ (D.text ++ r)) = pre := by
    rw [hpre]
    exact clip_left (by rw [← hpre]; exact h0)
  have e2 : clip ((w ++ (D.text ++ r)).length - (pre ++ x.doc.shown).length) ((w ++ (D.text ++ r)).drop (pre ++ x.doc.shown).length) = post := by
    rw [hpre, ← List.append_assoc]
    exact clip_right (by rw [List.append_assoc, ← hpre]; exact h0)
  rw [e1, e2]
  congr 2
  cases x.doc.shown with
  | nil => simp
  | cons a t => simp

mutual
/-- All parts are JSON texts. -/
theorem doc_says : ∀ (D : Doc) (j : J), D.Says j → ∀ (p : List UInt8) (st : Step) (r : List UInt8) (x : Part), x ∈ D.parts p st r → ∃ j', x.doc.Says j'
  | .atom raw, j, hj, p, st, r, x, h => by
    simp only [Doc.parts, List.mem_singleton] at h
    subst h
    exact ⟨j, hj⟩
  | .list w l, j, hj, p, st, r, x, h => by
    simp only [Doc.parts, List.mem_cons] at h
    rcases h with rfl | h
    · exact ⟨j, hj⟩
    · simp only [Doc.Says] at hj
      obtain ⟨js, rfl, hw, hl⟩ := hj
      exact elems_says l js hl _ _ _ x h
  | .record w l, j, hj, p, st, r, x, h => by
    simp only [Doc.parts, List.mem_cons] at h
    rcases h with rfl | h
    · exact ⟨j, hj⟩
    · simp only [Doc.Says] at hj
      obtain ⟨js, rfl, hw, hl⟩ := hj
      exact members_says l js hl _ _ x h
theorem elems_says : ∀ (l : Elems) (js : List J), l.Says js → ∀ (p : List UInt8) (i : Nat) (r : List UInt8) (x : Part), x ∈ l.parts p i r → ∃ j', x.doc.Says j'
  | .nil, js, hl, p, i, r, x, h => by simp [Elems.parts] at h
  | .cons d w w' l, js, hl, p, i, r, x, h => by
    simp only [Elems.Says] at hl
    obtain ⟨j, js, rfl, hd, hw, hw', hl⟩ := hl
    simp only [Elems.parts, List.mem_append] at h
    rcases h with h | h
    · exact doc_says d j hd _ _ _ x h
    · exact elems_says l js hl _ _ _ x h
theorem members_says : ∀ (l : Members) (js : List (Key × J)), l.Says js → ∀ (p r : List UInt8) (x : Part), x ∈ l.parts p r → ∃ j', x.doc.Says j'
  | .nil, js, hl, p, r, x, h => by simp [Members.parts] at h
  | .cons k u u' d w w' l, js, hl, p, r, x, h => by
    simp only [Members.Says] at hl
    obtain ⟨j, js, rfl, hk, hd, hu, hu', hw, hw', hl⟩ := hl
    simp only [Members.parts, List.mem_append] at h
    rcases h with h | h
    · exact doc_says d j hd _ _ _ x h
    · exact members_says l js hl _ _ x h
end

/-- A string is written between quotes. -/
theorem string_text {D : Doc} {j : J} (hD : D.Says j) (hs : D.isString = true) : ∃ body, D.text = 34 :: (body ++ [34]) := by
  have hs : D.text.head? = some 34 := by simpa [Doc.isString] using hs
  cases D with
  | list w l => cases hs
  | record w l => cases hs
  | atom raw =>
    simp only [Doc.Says, Doc.text] at hD hs ⊢
    obtain ⟨h, _⟩ := hD
    cases h with
    | null => cases hs
    | true => cases hs
    | false => cases hs
    | str => exact ⟨_, rfl⟩
    | arr => cases hs
    | obj => cases hs
    | @num neg t hn =>
      obtain ⟨_, _, c, u, rfl, hc⟩ := numeral_scan hn (r := [32]) ⟨32, [], rfl, by simp⟩ false
      cases neg with
      | true => cases hs
      | false => cases hs; exact absurd hc.1 (by decide)

/-- **C90** for values that are no strings: `json_setf` prints the text with the new value in place of the last one with the path, and everything else as it was; the result is 1. -/
theorem C90_replace_partial {D : Doc} {j : J} (hD : D.Says j) (hf : Fits 0 j) {d : Nat} (hd : D.depth ≤ d) {w r : List UInt8} (hw : Blank w) (hr : Ends r)
    (h0 : (0 : UInt8) ∉ w ++ (D.text ++ r)) {P : List UInt8} {x : Part} (hx : lastAt (D.parts [] .root r) P = some x) (hs : x.doc.isString = false) (v : List UInt8) :
    ∃ pre, w ++ (D.text ++ r) = pre ++ (x.doc.text ++ x.post) ∧ setf d (w ++ (D.text ++ r)) P (some v) = some (pre ++ (v ++ x.post), 1) := by
  obtain ⟨pre, h⟩ := doc_where D [] .root r x (lastAt_mem hx).1
  have e : x.doc.shown = x.doc.text := by simp [Doc.shown, hs]
  have hne : x.doc.text ≠ [] := by
    obtain ⟨j', hj'⟩ := doc_says D j hD [] .root r x (lastAt_mem hx).1
    obtain ⟨c, u, hcu, _⟩ := doc_head hj'
    rw [hcu]
    simp
  refine ⟨w ++ pre, by rw [h, List.append_assoc], ?_⟩
  rw [setf_found hD hf hd hw hr h0 hx v (w ++ pre) x.post (by rw [h, e, List.append_assoc]) (by rw [e]; simp [place, Doc.from, hs]), e, if_neg hne]

/-- **C90** is violated by every string: the new value is printed between the quotes of the old one, which stay. -/
theorem C90_violation_string {D : Doc} {j : J} (hD : D.Says j) (hf : Fits 0 j) {d : Nat} (hd : D.depth ≤ d) {w r : List UInt8} (hw : Blank w) (hr : Ends r)
    (h0 : (0 : UInt8) ∉ w ++ (D.text ++ r)) {P : List UInt8} {x : Part} (hx : lastAt (D.parts [] .root r) P = some x) (hs : x.doc.isString = true) (v : List UInt8) :
    ∃ pre body, x.doc.text = 34 :: (body ++ [34]) ∧ w ++ (D.text ++ r) = pre ++ (34 :: (body ++ 34 :: x.post)) ∧
      setf d (w ++ (D.text ++ r)) P (some v) = some (pre ++ (34 :: (v ++ 34 :: x.post)), if body = [] then 0 else 1) := by
  obtain ⟨pre, h⟩ := doc_where D [] .root r x (lastAt_mem hx).1
  obtain ⟨j', hj'⟩ := doc_says D j hD [] .root r x (lastAt_mem hx).1
  obtain ⟨body, hb⟩ := string_text hj' hs
  have e : x.doc.shown = body := by simp [Doc.shown, hs, hb]
  have h' : w ++ (D.text ++ r) = (w ++ pre) ++ (34 :: (body ++ 34 :: x.post)) := by
    rw [h, hb]
    simp
  refine ⟨w ++ pre, body, hb, h', ?_⟩
  rw [setf_found hD hf hd hw hr h0 hx v (w ++ pre ++ [34]) (34 :: x.post) (by rw [h', e]; simp) (by rw [e]; simp [place, Doc.from, hs, hb]), e]
  simp

/-! ### Adding a member -/

/-- The path begins with a dot and another byte than the first of `k`. -/
def Other (k q : List UInt8) : Prop := ∃ c y, q = 46 :: c :: y ∧ c ≠ 0 ∧ k.head? ≠ some c

theorem other_len {k q : List UInt8} (h : Other k q) : matchedLen (cstr q) (46 :: k) = 1 ∧ cstr q ≠ 46 :: k := by
  obtain ⟨c, y, rfl, h0, hk⟩ := h
  have e : cstr (46 :: c :: y) = 46 :: c :: cstr y := by
    simp [cstr, List.takeWhile_cons, h0]
  rw [e]
  constructor
  · rw [matchedLen, if_pos rfl]
    cases k with
    | nil => rfl
    | cons a k =>
      rw [matchedLen, if_neg]
      rintro rfl
      exact hk rfl
  · intro h
    cases k with
    | nil => simp at h
    | cons a k =>
      simp only [List.cons.injEq, true_and] at h
      exact hk (by rw [h.1]; rfl)

/-- The callback elsewhere. -/
theorem setf_other {n : Nat} {k : List UInt8} {d : SD} {e : Event} (ho : Other k e.path) (hm : d.matched ≤ 1) (hp : d.pos = 0) :
    setfCb n (46 :: k) d e = some (if e.type = .objectStart ∨ e.type = .arrayStart then d else ⟨1, 0, d.stop, n - e.ptr.length + e.len⟩) := by
  obtain ⟨h1, h2⟩ := other_len ho
  unfold setfCb
  dsimp only
  rw [h1]
  by_cases ht : e.type = .objectStart ∨ e.type = .arrayStart
  · rw [if_pos ht, if_pos ht]
  · rw [if_neg ht, if_neg ht]
    have hd : (if 1 > d.matched then { d with matched := 1 } else d : SD) = ⟨1, 0, d.stop, d.prev⟩ := by
      obtain ⟨m, p, s, v⟩ := d
      simp only at hm hp
      subst hp
      split
      · rfl
      next h =>
        have : m = 1 := by simp only at h; omega
        subst this
        rfl
    rw [hd]
    simp [h2]

theorem others_fold {n : Nat} {k : List UInt8} : ∀ (es : List Event) (d : SD), (∀ e ∈ es, Other k e.path) → d.matched ≤ 1 → d.pos = 0 →
    ∃ d', es.foldlM (setfCb n (46 :: k)) d = some d' ∧ d'.matched ≤ 1 ∧ d'.pos = 0 ∧ d'.stop = d.stop
  | [], d, _, hm, hp => ⟨d, rfl, hm, hp, rfl⟩
  | e :: es, d, ho, hm, hp => by
    rw [List.foldlM_cons, setf_other (ho e (by simp)) hm hp]
    simp only [Option.bind_eq_bind, Option.bind_some]
    have hes : ∀ e ∈ es, Other k e.path := fun e he => ho e (List.mem_cons_of_mem _ he)
    split
    · exact others_fold es d hes hm hp
    · obtain ⟨d', h1, h2, h3, h4⟩ := others_fold es ⟨1, 0, d.stop, n - e.ptr.length + e.len⟩ hes (by simp) rfl
      exact ⟨d', h1, h2, h3, h4⟩

mutual
/-- All callbacks inside a text have paths that begin with its path. -/
theorem events_path : ∀ (D : Doc) (nm : Option (List UInt8)) (p r : List UInt8), ∀ e ∈ D.events nm p r, ∃ z, e.path = p ++ z
  | .atom raw, nm, p, r, e, h => by
    simp only [Doc.events, List.mem_singleton] at h
    exact ⟨[], by rw [h]; simp⟩
  | .list w l, nm, p, r, e, h => by
    simp only [Doc.events, List.mem_cons, List.mem_append, List.not_mem_nil, or_false] at h
    rcases h with rfl | h | rfl
    · exact ⟨[], by simp⟩
    · exact events_path_elems l p 0 _ e h
    · exact ⟨[], by simp⟩
  | .record w l, nm, p, r, e, h => by
    simp only [Doc.events, List.mem_cons, List.mem_append, List.not_mem_nil, or_false] at h
    rcases h with rfl | h | rfl
    · exact ⟨[], by simp⟩
    · exact events_path_members l p _ e h
    · exact ⟨[], by simp⟩
theorem events_path_elems : ∀ (l : Elems) (p : List UInt8) (i : Nat) (r : List UInt8), ∀ e ∈ l.events p i r, ∃ z, e.path = p ++ z
  | .nil, p, i, r, e, h => by simp [Elems.events] at h
  | .cons d w w' l, p, i, r, e, h => by
    simp only [Elems.events, List.mem_append] at h
    rcases h with h | h
    · obtain ⟨z, hz⟩ := events_path d _ _ _ e h
      exact ⟨indexText i ++ z, by rw [hz, List.append_assoc]⟩
    · exact events_path_elems l p (i + 1) r e h
theorem events_path_members : ∀ (l : Members) (p r : List UInt8), ∀ e ∈ l.events p r, ∃ z, e.path = p ++ z
  | .nil, p, r, e, h => by simp [Members.events] at h
  | .cons k u u' d w w' l, p, r, e, h => by
    simp only [Members.events, List.mem_append] at h
    rcases h with h | h
    · obtain ⟨z, hz⟩ := events_path d _ _ _ e h
      exact ⟨(46 :: k) ++ z, by rw [hz, List.append_assoc]⟩
    · exact events_path_members l p r e h
end

/-- The last callback of a text. -/
theorem events_last {D : Doc} {j : J} (hD : D.Says j) (nm : Option (List UInt8)) (p r : List UInt8) : ∃ es e, D.events nm p r = es ++ [e] ∧ e.type ≠ .objectStart ∧ e.type ≠ .arrayStart ∧
    (D.isString = false → e.ptr.length = D.text.length + r.length ∧ e.len = D.text.length) := by
  cases D with
  | atom raw =>
    obtain ⟨t1, t2, _, _⟩ := atomType_ne raw
    refine ⟨[], _, rfl, t1, t2, fun h => ?_⟩
    have h : ¬ raw.head? = some 34 := of_decide_eq_false h
    simp [atomPtr, atomLen, h, Doc.text]
  | list w l =>
    refine ⟨_ :: _, _, rfl, by simp, by simp, fun _ => ?_⟩
    simp [Doc.text]
    omega
  | record w l =>
    refine ⟨_ :: _, _, rfl, by simp, by simp, fun _ => ?_⟩
    simp [Doc.text]
    omega

theorem numeral_bytes {t : List UInt8} (h : IsNumeral t) : ∀ c ∈ t, c ≠ 123 ∧ c ≠ 91 := by
  have dg : ∀ ds : List UInt8, Digits ds → ∀ c ∈ ds, c ≠ 123 ∧ c ≠ 91 := fun ds hd c hc => by
    have := hd.2 c hc
    constructor <;> (rintro rfl; revert this; simp [Digit])
  obtain ⟨i, f, e, rfl, hi, _, hf, he⟩ := h
  intro c hc
  simp only [List.mem_append] at hc
  rcases hc with hc | hc | hc
  · exact dg i hi c hc
  · rcases hf with rfl | ⟨ds, rfl, hds⟩
    · simp at hc
    · rcases List.mem_cons.1 hc with rfl | hc
      · decide
      · exact dg ds hds c hc
  · rcases he with rfl | ⟨x, s, ds, rfl, hx, hs, hds⟩
    · simp at hc
    · rcases List.mem_cons.1 hc with rfl | hc
      · rcases hx with rfl | rfl <;> decide
      · rcases List.mem_append.1 hc with hc | hc
        · rcases hs with rfl | rfl | rfl
          · simp at hc
          · rw [List.mem_singleton.1 hc]; decide
          · rw [List.mem_singleton.1 hc]; decide
        · exact dg ds hds c hc

/-- No value ends in an opening bracket. -/
theorem text_end {D : Doc} {j : J} (hD : D.Says j) : ∃ t c, D.text = t ++ [c] ∧ c ≠ 123 ∧ c ≠ 91 := by
  cases D with
  | atom raw =>
    simp only [Doc.Says] at hD
    obtain ⟨hj, h1, h2⟩ := hD
    cases hj with
    | null => exact ⟨[110, 117, 108], 108, rfl, by decide, by decide⟩
    | true => exact ⟨[116, 114, 117], 101, rfl, by decide, by decide⟩
    | false => exact ⟨[102, 97, 108, 115], 101, rfl, by decide, by decide⟩
    | @num neg t hn =>
      have hne : t ≠ [] := by
        obtain ⟨i, f, e, rfl, hi, _⟩ := hn
        simp [hi.1]
      obtain ⟨g1, g2⟩ := numeral_bytes hn _ (List.getLast_mem hne)
      refine ⟨(if neg then [45] else []) ++ t.dropLast, t.getLast hne, ?_, g1, g2⟩
      rw [List.append_assoc, List.dropLast_concat_getLast]
      rfl
    | @str body bs hb => exact ⟨34 :: body, 34, rfl, by decide, by decide⟩
    | arr => exact absurd rfl (h1 _)
    | obj => exact absurd rfl (h2 _)
  | list w l => exact ⟨91 :: (w ++ l.text), 93, by simp [Doc.text], by decide, by decide⟩
  | record w l => exact ⟨123 :: (w ++ l.text), 125, by simp [Doc.text], by decide, by decide⟩

/-- The value of the last member is no string. -/
def EndsWell (l : Members) : Prop := ∀ m, l.pairs.getLast? = some m → m.2.isString = false

/-- The callbacks for the members of the text: nothing matches more than the dot, and the end of the last value is kept. -/
theorem members_other : ∀ (l : Members) (ms : List (Key × J)), l.Says ms → ∀ (n : Nat) (K r : List UInt8), (∀ m ∈ l.pairs, m.1.head? ≠ K.head?) → l.pairs ≠ [] → EndsWell l →
    l.text.length + r.length ≤ n → ∀ d : SD, d.matched ≤ 1 → d.pos = 0 →
    ∃ a c b, l.text = a ++ c :: b ∧ c ≠ 123 ∧ c ≠ 91 ∧ (l.events [] r).foldlM (setfCb n (46 :: K)) d = some ⟨1, 0, d.stop, n - (b ++ r).length⟩ ∧
      ∀ (k : Key) (v : Doc), (l.add k v).text = a ++ c :: 44 :: (quoted k ++ 58 :: (v.text ++ b))
  | .nil, ms, hl, n, K, r, hk, hne, he, hn, d, hm, hp => absurd rfl hne
  | .cons k' u u' e w w' l, ms, hl, n, K, r, hk, hne, he, hn, d, hm, hp => by
    simp only [Members.Says] at hl
    obtain ⟨j, ms, rfl, hk', hd, hu, hu', hw, hw', hl⟩ := hl
    obtain ⟨c, t, rfl⟩ := List.exists_cons_of_ne_nil hk'.2.2.2.1
    have hc : c ≠ 0 := fun h => chars_noNul hk'.2.1 (by rw [h]; simp)
    have ho : ∀ r' nm, ∀ x ∈ e.events nm ([] ++ 46 :: c :: t) r', Other K x.path := fun r' nm x hx => by
      obtain ⟨z, hz⟩ := events_path e _ _ _ x hx
      refine ⟨c, t ++ z, by rw [hz]; simp, hc, ?_⟩
      have := hk (c :: t, e) (by simp [Members.pairs])
      exact fun h => this (by rw [h]; rfl)
    simp only [Members.events]
    obtain ⟨es, e1, h1, t1, t2, h2⟩ := events_last hd (some (c :: t)) ([] ++ 46 :: c :: t) (w ++ (l.comma w' ++ (l.text ++ r)))
    have ho' := ho (w ++ (l.comma w' ++ (l.text ++ r))) (some (c :: t))
    rw [h1] at ho'
    obtain ⟨d1, f1, f2, f3, f4⟩ := others_fold (n := n) es d (fun x hx => ho' x (List.mem_append_left _ hx)) hm hp
    have f5 : (e.events (some (c :: t)) ([] ++ 46 :: c :: t) (w ++ (l.comma w' ++ (l.text ++ r)))).foldlM (setfCb n (46 :: K)) d =
        some ⟨1, 0, d.stop, n - e1.ptr.length + e1.len⟩ := by
      rw [h1, List.foldlM_append, f1]
      simp only [Option.bind_eq_bind, Option.bind_some, List.foldlM_cons, List.foldlM_nil]
      rw [setf_other (ho' e1 (by simp)) f2 f3, if_neg (by simp [t1, t2]), f4]
      rfl
    rw [List.foldlM_append, f5]
    simp only [Option.bind_eq_bind, Option.bind_some]
    simp only [Members.text, List.length_append, List.length_cons] at hn
    cases l with
    | nil =>
      have hs := he (c :: t, e) (by simp [Members.pairs])
      obtain ⟨g1, g2⟩ := h2 hs
      obtain ⟨et, ec, g3, g4, g5⟩ := text_end hd
      refine ⟨quoted (c :: t) ++ (u ++ 58 :: (u' ++ et)), ec, w, by simp [Members.text, Members.comma, g3], g4, g5, ?_, fun k v => by simp [Members.add, Members.text, Members.comma, quoted, g3]⟩
      simp only [Members.events, List.foldlM_nil]
      simp only [Members.text, Members.comma, List.length_append, List.length_nil, List.nil_append] at g1 hn ⊢
      rw [g1, g2]
      show some (_ : SD) = some _
      congr 2
      omega
    | cons k2 u2 u2' e2 w2 w2' l2 =>
      obtain ⟨a, ec, b, q1, q2, q2', q3, q4⟩ := members_other (.cons k2 u2 u2' e2 w2 w2' l2) ms hl n K r (fun m hm => hk m (by simp only [Members.pairs] at hm ⊢; exact List.mem_cons_of_mem _ hm))
        (by simp [Members.pairs]) (fun m hm => he m (by simp only [Members.pairs] at hm ⊢; rw [List.getLast?_cons_cons]; exact hm)) (by omega)
        ⟨1, 0, d.stop, n - e1.ptr.length + e1.len⟩ (by simp) rfl
      refine ⟨quoted (c :: t) ++ (u ++ 58 :: (u' ++ (e.text ++ (w ++ 44 :: (w' ++ a))))), ec, b, ?_, q2, q2', q3, fun k v => ?_⟩
      · rw [Members.text, q1]
        simp [Members.comma]
      · have := q4 k v
        rw [Members.add, Members.text, this]
        · cases l2 <;> simp [Members.comma, Members.add]
        · simp

/-- Keys that are printed as they are. -/
def Easy (k : Key) : Prop := ∀ c ∈ k, 32 ≤ c.toNat ∧ c.toNat ≤ 126 ∧ c ≠ 34 ∧ c ≠ 92 ∧ c ≠ 46 ∧ c ≠ 91

theorem escape_easy {k : List UInt8} (h : Easy k) (z : List UInt8) : JsonEsc.escape (k ++ z) k.length = some k := by
  have key : ∀ m i, m + i = k.length → JsonEsc.escapeFrom (k ++ z) k.length i = some (k.drop i) := fun m => by
    induction m with
    | zero =>
      intro i hi
      rw [JsonEsc.escapeFrom, if_neg (by omega), List.drop_eq_nil_of_le (by omega)]
    | succ m ih =>
      intro i hi
      have hlt : i < k.length := by omega
      have hc := h _ (List.getElem_mem hlt)
      rw [JsonEsc.escapeFrom, if_pos hlt, List.getElem?_append_left hlt, List.getElem?_eq_getElem hlt, Option.bind_some, if_neg (by simp [hc.2.2.1, hc.2.2.2.1]), if_neg (by omega),
        if_pos (by simp [JsonEsc.isPrint, hc.1, hc.2.1]), ih (i + 1) (by omega), Option.map_some, List.drop_eq_getElem_cons hlt]
      rfl
  exact key k.length 0 (by omega)

theorem easy_span {k : List UInt8} (h : Easy k) {z : List UInt8} (hz : z = [] ∨ ∃ y, z = 46 :: y) : stepLen (k ++ z) = k.length := by
  unfold stepLen
  rw [List.takeWhile_append_of_pos (by intro c hc; simp [(h c hc).2.2.2.2.1, (h c hc).2.2.2.2.2])]
  rcases hz with rfl | ⟨y, rfl⟩ <;> simp

theorem keyPath_starts (ks : List Key) : keyPath ks = [] ∨ ∃ y, keyPath ks = 46 :: y := by
  cases ks with
  | nil => exact .inl rfl
  | cons k ks => exact .inr ⟨k ++ keyPath ks, rfl⟩

/-- What is printed before a value inside objects. -/
def opens : List Key → List UInt8
  | [] => []
  | k :: ks => 123 :: (quoted k ++ 58 :: opens ks)

theorem nest_text (v : Doc) : ∀ ks : List Key, (nest v ks).text = opens ks ++ (v.text ++ List.replicate ks.length 125)
  | [] => by simp [nest, opens]
  | k :: ks => by
    simp [nest, opens, Doc.text, Members.text, Members.comma, nest_text v ks, List.replicate_succ']

/-- The loop that adds keys. -/
theorem add_keys {s : List UInt8} {prev : Nat} {c : UInt8} (hs : before s prev = some c) : ∀ (ks : List Key) (k : Key) (A : List UInt8) (fuel depth : Nat), (∀ k' ∈ k :: ks, Easy k' ∧ k' ≠ []) →
    ks.length + 2 ≤ fuel → addKeys s prev (A ++ 46 :: (k ++ keyPath ks)) fuel (A.length + 1) depth =
      some ((if c ≠ 123 ∧ c ≠ 91 ∧ depth = 0 then ([44] : List UInt8) else []) ++ (quoted k ++ 58 :: opens ks), (A ++ 46 :: (k ++ keyPath ks)).length)
  | ks, k, A, 0, depth, _, hf => absurd hf (by omega)
  | ks, k, A, fuel + 1, depth, hk, hf => by
    obtain ⟨h1, h2⟩ := hk k (by simp)
    have hd : (A ++ 46 :: (k ++ keyPath ks)).drop (A.length + 1) = k ++ keyPath ks := by
      rw [show A ++ 46 :: (k ++ keyPath ks) = (A ++ [46]) ++ (k ++ keyPath ks) by simp, show A.length + 1 = (A ++ [46]).length by simp, List.drop_left]
    have hi : (A ++ 46 :: (k ++ keyPath ks))[A.length + 1 + k.length]? = (keyPath ks)[0]? := by
      rw [show A ++ 46 :: (k ++ keyPath ks) = (A ++ (46 :: k)) ++ keyPath ks by simp, show A.length + 1 + k.length = (A ++ (46 :: k)).length + 0 by simp; omega, List.getElem?_append_right (by omega)]
      simp
    rw [addKeys]
    simp only [hd, easy_span h1 (keyPath_starts ks)]
    rw [if_pos (List.length_pos_iff.2 h2), hs, Option.bind_some, if_neg (by simp), escape_easy h1, Option.bind_some, hi]
    cases ks with
    | nil =>
      obtain ⟨fuel, rfl⟩ : ∃ f, fuel = f + 1 := ⟨fuel - 1, by simp at hf; omega⟩
      simp only [keyPath, List.flatMap_nil, List.append_nil, List.getElem?_nil]
      rw [addKeys]
      simp only
      rw [show (A ++ 46 :: k).drop (A.length + 1 + k.length) = [] from List.drop_eq_nil_of_le (by simp; omega)]
      simp [stepLen, quoted, opens]
      omega
    | cons k' ks =>
      have := add_keys hs ks k' (A ++ 46 :: k) fuel (depth + 1) (fun a ha => hk a (List.mem_cons_of_mem _ ha)) (by simp at hf ⊢; omega)
      simp only [keyPath, List.flatMap_cons, List.cons_append, List.getElem?_cons_zero] at this ⊢
      rw [show A ++ 46 :: (k ++ 46 :: (k' ++ ks.flatMap (46 :: ·))) = A ++ 46 :: k ++ 46 :: (k' ++ ks.flatMap (46 :: ·)) by simp, show A.length + 1 + k.length + 1 = (A ++ 46 :: k).length + 1 by simp; omega, this]
      simp [quoted, opens]

/-- Closing brackets for the dots of a path, from its end. -/
def closers (q : List UInt8) : List UInt8 := (q.reverse.map fun c => if c = 46 then [125] else if c = 91 then [93] else ([] : List UInt8)).flatten

/-- The bracket for a byte. -/
def bracket : Option UInt8 → List UInt8
  | some 46 => [125]
  | some 91 => [93]
  | _ => []

theorem bracket_some (c : UInt8) : bracket (some c) = if c = 46 then [125] else if c = 91 then [93] else [] := by
  unfold bracket
  split
  next h => cases h; rfl
  next h => cases h; rfl
  next h1 h2 =>
    rw [if_neg (fun h => h1 (by rw [h])), if_neg (fun h => h2 (by rw [h]))]

theorem last_bytes (p q : List UInt8) : (List.range q.length).map (fun i => (p ++ q)[(p ++ q).length - 1 - i]?) = q.reverse.map some := by
  apply List.ext_getElem
  · simp
  · intro i h1 h2
    have hi : i < q.length := by simpa using h1
    simp only [List.getElem_map, List.getElem_range, List.getElem_reverse, List.length_append]
    rw [List.getElem?_append_right (by omega), show p.length + q.length - 1 - i - p.length = q.length - 1 - i by omega, List.getElem?_eq_getElem]

theorem close_eq (path : List UInt8) (m : Nat) : closeKeys path m path.length = closers (path.drop (m + 1)) := by
  have h1 : closeKeys path m path.length = (((List.range (path.length - m)).map (fun i => path[path.length - i]?)).map bracket).flatten := by
    unfold closeKeys
    rw [List.map_map]
    rfl
  have h2 : closers (path.drop (m + 1)) = (((path.drop (m + 1)).reverse.map some).map bracket).flatten := by
    unfold closers
    rw [List.map_map]
    congr 1
    exact List.map_congr_left fun c _ => (bracket_some c).symm
  rw [h1, h2]
  by_cases h : m < path.length
  · have e := last_bytes (path.take (m + 1)) (path.drop (m + 1))
    rw [List.take_append_drop, List.length_drop] at e
    rw [← e, show path.length - m = (path.length - (m + 1)) + 1 by omega, List.range_succ_eq_map, List.map_cons, List.map_map]
    simp [bracket, Function.comp_def, Nat.sub_sub, Nat.add_comm]
  · rw [show path.length - m = 0 by omega, List.drop_eq_nil_of_le (by omega)]
    rfl

theorem closers_append (a b : List UInt8) : closers (a ++ b) = closers b ++ closers a := by simp [closers]

theorem closers_easy {k : List UInt8} (h : Easy k) : closers k = [] := by
  unfold closers
  rw [List.flatten_eq_nil_iff]
  intro x hx
  obtain ⟨c, hc, rfl⟩ := List.mem_map.1 hx
  have := h c (by simpa using hc)
  rw [if_neg this.2.2.2.2.1, if_neg this.2.2.2.2.2]

theorem closers_path : ∀ {ks : List Key}, (∀ k ∈ ks, Easy k) → closers (keyPath ks) = List.replicate ks.length 125
  | [], _ => rfl
  | k :: ks, h => by
    rw [show keyPath (k :: ks) = [46] ++ (k ++ keyPath ks) from rfl, closers_append, closers_append, closers_easy (h k (by simp)), closers_path fun a ha => h a (List.mem_cons_of_mem _ ha)]
    simp [closers, List.replicate_succ']

theorem easy_key {k : Key} (h : Easy k) (h0 : k ≠ []) : PlainKey k k := by
  refine ⟨rfl, ?_, fun h' => (h _ h').2.2.2.1 rfl, h0, fun h' => (h _ (List.mem_of_getLast? h')).2.2.2.2.1 rfl⟩
  clear h0
  induction k with
  | nil => exact .nil
  | cons c k ih =>
    obtain ⟨h1, h2, h3, h4, _⟩ := h c (by simp)
    exact .plain ⟨h1, by omega, h3, h4⟩ (ih fun a ha => h a (List.mem_cons_of_mem _ ha))

/-- What an object says with one more member. -/
theorem add_says {k : Key} {v : Doc} {jv : J} (hk : PlainKey k k) (hv : v.Says jv) : ∀ (l : Members) (ms : List (Key × J)), l.Says ms → (l.add k v).Says (ms ++ [(k, jv)])
  | .nil, ms, hl => by
    simp only [Members.Says] at hl
    subst hl
    simp only [Members.add, Members.Says]
    exact ⟨_, _, rfl, hk, hv, blank_nil, blank_nil, blank_nil, blank_nil, rfl⟩
  | .cons k' u u' d w w' .nil, ms, hl => by
    simp only [Members.Says] at hl
    obtain ⟨j, _, rfl, h1, h2, h3, h4, h5, h6, rfl⟩ := hl
    simp only [Members.add, Members.Says]
    exact ⟨_, _, rfl, h1, h2, h3, h4, blank_nil, blank_nil, _, _, rfl, hk, hv, blank_nil, blank_nil, h5, blank_nil, rfl⟩
  | .cons k' u u' d w w' (.cons k2 u2 u2' d2 w2 w2' l), ms, hl => by
    rw [Members.Says] at hl
    obtain ⟨j, ms', rfl, h1, h2, h3, h4, h5, h6, h7⟩ := hl
    rw [Members.add, Members.Says]
    · exact ⟨_, _, rfl, h1, h2, h3, h4, h5, h6, add_says hk hv _ _ h7⟩
    · simp

theorem nest_says {v : Doc} {jv : J} (hv : v.Says jv) : ∀ ks : List Key, (∀ k ∈ ks, Easy k ∧ k ≠ []) → (nest v ks).Says (nestValue jv ks)
  | [], _ => hv
  | k :: ks, h => by
    simp only [nest, nestValue, Doc.Says, Members.Says]
    obtain ⟨h1, h2⟩ := h k (by simp)
    exact ⟨_, rfl, blank_nil, _, _, rfl, easy_key h1 h2, nest_says hv ks fun a ha => h a (List.mem_cons_of_mem _ ha), blank_nil, blank_nil, blank_nil, blank_nil, rfl⟩

/-- **C90** for objects whose last value is no string, and a new key that begins with another byte than all keys there are: `json_setf` adds a member at the end.  If more keys follow, its
value is an object with one member, and so on. -/
theorem C90_add_partial {w0 : List UInt8} {l : Members} {j : J} (hD : (Doc.record w0 l).Says j) (hf : Fits 0 j) {d : Nat} (hd : (Doc.record w0 l).depth ≤ d) {w r : List UInt8} (hw : Blank w)
    (hr : Ends r) (h0 : (0 : UInt8) ∉ w ++ ((Doc.record w0 l).text ++ r)) {k : Key} {ks : List Key} (hk : ∀ k' ∈ k :: ks, Easy k' ∧ k' ≠ []) (hne : l.pairs ≠ []) (hother : ∀ m ∈ l.pairs, m.1.head? ≠ k.head?)
    (he : EndsWell l) {v : Doc} {jv : J} (hv : v.Says jv) :
    setf d (w ++ ((Doc.record w0 l).text ++ r)) (keyPath (k :: ks)) (some v.text) = some (w ++ ((Doc.record w0 (l.add k (nest v ks))).text ++ r), 0) ∧
      ∃ ms, j = .obj ms ∧ (Doc.record w0 (l.add k (nest v ks))).Says (.obj (ms ++ [(k, nestValue jv ks)])) := by
  have hD' := hD
  simp only [Doc.Says] at hD'
  obtain ⟨ms, rfl, hw0, hl⟩ := hD'
  obtain ⟨hk1, hk0⟩ := hk k (by simp)
  refine ⟨?_, ms, rfl, by rw [Doc.Says]; exact ⟨_, rfl, hw0, add_says (easy_key hk1 hk0) (nest_says hv ks fun a ha => hk a (List.mem_cons_of_mem _ ha)) l ms hl⟩⟩
  obtain ⟨K, hK⟩ : ∃ K, K = k ++ keyPath ks := ⟨_, rfl⟩
  have hK0 : K.head? = k.head? := by
    obtain ⟨c, t, rfl⟩ := List.exists_cons_of_ne_nil hk0
    rw [hK]
    rfl
  rw [show keyPath (k :: ks) = 46 :: K by rw [hK]; rfl]
  have hN : (w ++ ((Doc.record w0 l).text ++ r)).length = w.length + (w0.length + l.text.length + 2 + r.length) := by
    simp [Doc.text]
    omega
  obtain ⟨a, c, b, q1, q2, q2', q3, q4⟩ := members_other l ms hl (w ++ ((Doc.record w0 l).text ++ r)).length K (125 :: r) (by rw [hK0]; exact hother) hne he (by rw [hN]; simp only [List.length_cons]; omega)
    ⟨0, 0, (w ++ ((Doc.record w0 l).text ++ r)).length, 0⟩ (by simp) rfl
  obtain ⟨pre, hpre⟩ : ∃ pre, pre = w ++ 123 :: (w0 ++ a) := ⟨_, rfl⟩
  have hsplit : w ++ ((Doc.record w0 l).text ++ r) = (pre ++ [c]) ++ (b ++ 125 :: r) := by
    simp [Doc.text, q1, hpre]
  have hprev : (w ++ ((Doc.record w0 l).text ++ r)).length - (b ++ 125 :: r).length = (pre ++ [c]).length := by
    rw [hsplit, List.length_append (as := pre ++ [c])]
    omega
  have hev : ((Doc.record w0 l).events none [] r).foldlM (setfCb (w ++ ((Doc.record w0 l).text ++ r)).length (46 :: K)) ⟨0, 0, (w ++ ((Doc.record w0 l).text ++ r)).length, 0⟩ =
      some ⟨1, (pre ++ [c]).length, (pre ++ [c]).length, (pre ++ [c]).length⟩ := by
    simp only [Doc.events, List.foldlM_cons]
    rw [setf_start (.inl rfl)]
    simp only [Option.bind_eq_bind, Option.bind_some]
    rw [List.foldlM_append, q3, hprev]
    simp only [Option.bind_eq_bind, Option.bind_some, List.foldlM_cons, List.foldlM_nil]
    have hbig : (w ++ ((Doc.record w0 l).text ++ r)).length - (123 :: (w0 ++ (l.text ++ 125 :: r))).length = w.length := by
      rw [hN]
      simp only [List.length_append, List.length_cons]
      omega
    have hlt : w.length + 1 ≤ (pre ++ [c]).length := by
      rw [hpre]
      simp only [List.length_append, List.length_cons]
      omega
    unfold setfCb
    dsimp only
    rw [if_neg (by simp), hbig]
    simp only [cstr, matchedLen, List.takeWhile_nil]
    simp
    omega
  have hw1 : left (walk (setfCb (w ++ ((Doc.record w0 l).text ++ r)).length (46 :: K)) d (w ++ ((Doc.record w0 l).text ++ r)) ⟨0, 0, (w ++ ((Doc.record w0 l).text ++ r)).length, 0⟩) =
      some ⟨1, (pre ++ [c]).length, (pre ++ [c]).length, (pre ++ [c]).length⟩ := by
    unfold walk
    rw [if_neg (by simp [Doc.text]), doc_walk (.record w0 l) _ hD d ⟨w ++ ((Doc.record w0 l).text ++ r), [], none, (⟨0, 0, (w ++ ((Doc.record w0 l).text ++ r)).length, 0⟩ : SD)⟩ w r ⟨1, (pre ++ [c]).length, (pre ++ [c]).length, (pre ++ [c]).length⟩ rfl hw hr hd (by simp) (by simp) hf hev]
    rfl
  unfold setf
  rw [hw1]
  simp only [Option.bind_some, Nat.lt_irrefl, gt_iff_lt, if_false]
  have e0 : before (w ++ ((Doc.record w0 l).text ++ r)) (pre ++ [c]).length = some c := by
    rw [before, if_neg (by simp), hsplit]
    simp
  have e1 : addKeys (w ++ ((Doc.record w0 l).text ++ r)) (pre ++ [c]).length (46 :: K) ((46 :: K).length + 1) 1 0 = some (44 :: (quoted k ++ 58 :: opens ks), (46 :: K).length) := by
    have hlen : ∀ ks : List Key, ks.length ≤ (keyPath ks).length := fun ks => by
      induction ks with
      | nil => simp
      | cons k ks ih => rw [show keyPath (k :: ks) = 46 :: (k ++ keyPath ks) from rfl]; simp; omega
    have := add_keys e0 ks k [] ((46 :: K).length + 1) 0 hk (by
      have := hlen ks
      have := List.length_pos_iff.2 hk0
      rw [hK]
      simp only [List.length_cons, List.length_append]
      omega)
    simp only [List.nil_append, List.length_nil, Nat.zero_add, ← hK] at this
    rw [this, if_pos (by simp [q2, q2'])]
    rfl
  have e4 : closeKeys (46 :: K) 1 (46 :: K).length = List.replicate ks.length 125 := by
    obtain ⟨c, t, rfl⟩ := List.exists_cons_of_ne_nil hk0
    rw [close_eq, hK, show ∀ z : List UInt8, (46 :: (c :: t ++ z)).drop (1 + 1) = t ++ z from fun _ => rfl, closers_append, closers_easy fun a ha => hk1 a (List.mem_cons_of_mem _ ha),
      closers_path fun a ha => (hk a (List.mem_cons_of_mem _ ha)).1, List.append_nil]
  have e2 : clip (pre ++ [c]).length (w ++ ((Doc.record w0 l).text ++ r)) = pre ++ [c] := by
    rw [hsplit]
    exact clip_left (by rw [← hsplit]; exact h0)
  have e3 : clip ((w ++ ((Doc.record w0 l).text ++ r)).length - (pre ++ [c]).length) ((w ++ ((Doc.record w0 l).text ++ r)).drop (pre ++ [c]).length) = b ++ 125 :: r := by
    rw [hsplit]
    exact clip_right (by rw [← hsplit]; exact h0)
  rw [e1, e2, e3, Option.map_some, e4]
  simp [Doc.text, q4, hpre, nest_text]

/-! ### Concrete cases -/

/-- In `{"a": [1,{}] ,"b":"x"}` there is a value at `.a[0]`; setting it to `7`, adding `"c":7` and deleting `.a[1]` fail only behind the string. -/
example : (lastAt (demoDoc.parts [] .root []) [46, 97, 91, 48, 93]).map (fun x => (x.doc.isString, x.doc.text)) = some (false, [49]) ∧
    setf 100 demoDoc.text [46, 97, 91, 48, 93] (some [55]) = some ([123, 34, 97, 34, 58, 32, 91, 55, 44, 123, 125, 93, 32, 44, 34, 98, 34, 58, 34, 120, 34, 125], 1) ∧
    setf 100 demoDoc.text [46, 97, 91, 49, 93] none = some ([123, 34, 97, 34, 58, 32, 91, 49, 93, 32, 44, 34, 98, 34, 58, 34, 120, 34, 125], 1) ∧
    (0 : UInt8) ∉ demoDoc.text := by
  refine ⟨by decide +kernel, by decide +kernel, by decide +kernel, by decide⟩

/-- `{"b":"x", "a":1 }`, and `"c":[]` is added. -/
example : let l : Members := .cons [98] [] [] (.atom [34, 120, 34]) [] [32] (.cons [97] [] [] (.atom [49]) [32] [] .nil)
    l.pairs ≠ [] ∧ (∀ m ∈ l.pairs, m.1.head? ≠ ([99] : Key).head?) ∧ EndsWell l ∧ Easy [99] ∧ (Doc.record [] l).text = [123, 34, 98, 34, 58, 34, 120, 34, 44, 32, 34, 97, 34, 58, 49, 32, 125] ∧
      setf 100 (Doc.record [] l).text [46, 99] (some [91, 93]) = some ([123, 34, 98, 34, 58, 34, 120, 34, 44, 32, 34, 97, 34, 58, 49, 44, 34, 99, 34, 58, 91, 93, 32, 125], 0) := by
  refine ⟨by decide, by decide, ?_, by simp [Easy], by decide +kernel, by decide +kernel⟩
  intro m hm
  simp only [Members.pairs, List.getLast?_cons_cons, List.getLast?_singleton, Option.some.injEq] at hm
  subst hm
  decide

/-- In `{"b":2}`, `.x.y` is set to `5`: `{"b":2,"x":{"y":5}}`; `.x.y[0]` is set to `5`: `{"b":2,"x":{"y":[5]}}`.  Deleting `.b` from
`{"b":2 , "a":3}` gives `{ "a":3}`, deleting `.a` gives `{"b":2}`. -/
example : setf 100 [123, 34, 98, 34, 58, 50, 125] [46, 120, 46, 121] (some [53]) = some ([123, 34, 98, 34, 58, 50, 44, 34, 120, 34, 58, 123, 34, 121, 34, 58, 53, 125, 125], 0) ∧
    setf 100 [123, 34, 98, 34, 58, 50, 125] [46, 120, 46, 121, 91, 48, 93] (some [53]) =
      some ([123, 34, 98, 34, 58, 50, 44, 34, 120, 34, 58, 123, 34, 121, 34, 58, 91, 53, 93, 125, 125], 0) ∧
    setf 100 [123, 34, 98, 34, 58, 50, 32, 44, 32, 34, 97, 34, 58, 51, 125] [46, 98] none = some ([123, 32, 34, 97, 34, 58, 51, 125], 1) ∧
    setf 100 [123, 34, 98, 34, 58, 50, 32, 44, 32, 34, 97, 34, 58, 51, 125] [46, 97] none = some ([123, 34, 98, 34, 58, 50, 125], 1) := by
  refine ⟨by decide +kernel, by decide +kernel, by decide +kernel, by decide +kernel⟩

/-- **C90** is violated: setting `.a` of `{"a":"x"}` to `"y"` prints `{"a":""y""}`. -/
theorem C90_violation_quotes : setf 100 [123, 34, 97, 34, 58, 34, 120, 34, 125] [46, 97] (some [34, 121, 34]) =
    some ([123, 34, 97, 34, 58, 34, 34, 121, 34, 34, 125], 1) := by decide +kernel

/-- **C90** is violated: setting `.b` of `{"a":"x"}` to `1` prints `{"a":"x,"b":1"}`. -/
theorem C90_violation_append : setf 100 [123, 34, 97, 34, 58, 34, 120, 34, 125] [46, 98] (some [49]) =
    some ([123, 34, 97, 34, 58, 34, 120, 44, 34, 98, 34, 58, 49, 34, 125], 0) := by decide +kernel

/-- **C90** is violated: deleting `.b` of `{"a":"x","b":1}` prints `{"a":"x}`. -/
theorem C90_violation_delete : setf 100 [123, 34, 97, 34, 58, 34, 120, 34, 44, 34, 98, 34, 58, 49, 125] [46, 98] none =
    some ([123, 34, 97, 34, 58, 34, 120, 125], 1) := by decide +kernel

/-- **C90** is violated: setting `.ac` of `{"ab":1}` to `2` prints `{"ab":1,2}`. -/
theorem C90_violation_similar_key : setf 100 [123, 34, 97, 98, 34, 58, 49, 125] [46, 97, 99] (some [50]) = some ([123, 34, 97, 98, 34, 58, 49, 44, 50, 125], 0) := by decide +kernel

/-- **C90** is violated: setting `.a` of `{}` to `2` prints `2`. -/
theorem C90_violation_empty : setf 100 [123, 125] [46, 97] (some [50]) = some ([50], 1) := by decide +kernel

/-- **C90** is violated: deleting `.a` of `{"ab":1,"c":{},"a":2}` prints `{"ab":1}`. -/
theorem C90_violation_delete_neighbour : setf 100 [123, 34, 97, 98, 34, 58, 49, 44, 34, 99, 34, 58, 123, 125, 44, 34, 97, 34, 58, 50, 125] [46, 97] none = some ([123, 34, 97, 98, 34, 58, 49, 125], 1) := by decide +kernel

/-- **C90** is violated: deleting `.a` of `{"b":2,"a":[1]}` prints `{"b":2,"a":[1}`. -/
theorem C90_violation_delete_container : setf 100 [123, 34, 98, 34, 58, 50, 44, 34, 97, 34, 58, 91, 49, 93, 125] [46, 97] none = some ([123, 34, 98, 34, 58, 50, 44, 34, 97, 34, 58, 91, 49, 125], 1) := by decide +kernel

end Mjs.Props
