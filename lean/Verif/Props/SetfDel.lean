import Verif.Props.Setf
import Verif.Spec.JsonDel

/-!
# C90: deleting a value from a JSON text
-/

namespace Mjs.Props
open Mjs Mjs.Json Mjs.Pretty Mjs.Setf Mjs.Spec Mjs.Spec.Json

/-- The rest of a path behind a key: nothing, or a dot or a bracket. -/
def Behind (z : List UInt8) : Prop := z = [] ∨ ∃ y, z = 46 :: y ∨ z = 91 :: y

theorem Behind.append {a b : List UInt8} (ha : Behind a) (hb : Behind b) : Behind (a ++ b) := by
  rcases ha with rfl | ⟨y, rfl | rfl⟩
  · exact hb
  · exact .inr ⟨y ++ b, .inl rfl⟩
  · exact .inr ⟨y ++ b, .inr rfl⟩

mutual
/-- The callbacks inside a text: their paths, and that their places are not before it. -/
theorem events_bound : ∀ (D : Doc) (nm : Option (List UInt8)) (p r : List UInt8), ∀ e ∈ D.events nm p r, (∃ z, Behind z ∧ e.path = p ++ z) ∧
    ((e.type = .objectStart ∨ e.type = .arrayStart) ∨ e.ptr.length ≤ D.text.length + r.length)
  | .atom raw, nm, p, r, e, h => by
    simp only [Doc.events, List.mem_singleton] at h
    subst h
    refine ⟨⟨[], .inl rfl, by simp⟩, .inr ?_⟩
    simp only [atomPtr, Doc.text, List.length_append]
    split <;> simp
  | .list w l, nm, p, r, e, h => by
    simp only [Doc.events, List.mem_cons, List.mem_append, List.not_mem_nil, or_false] at h
    rcases h with rfl | h | rfl
    · exact ⟨⟨[], .inl rfl, by simp⟩, .inl (by simp)⟩
    · obtain ⟨h1, h2⟩ := events_bound_elems l p 0 _ e h
      refine ⟨h1, h2.imp id fun h => ?_⟩
      simp only [Doc.text, List.length_cons, List.length_append, List.length_nil] at h ⊢
      omega
    · refine ⟨⟨[], .inl rfl, by simp⟩, .inr ?_⟩
      simp only [Doc.text, List.length_cons, List.length_append, List.length_nil]
      omega
  | .record w l, nm, p, r, e, h => by
    simp only [Doc.events, List.mem_cons, List.mem_append, List.not_mem_nil, or_false] at h
    rcases h with rfl | h | rfl
    · exact ⟨⟨[], .inl rfl, by simp⟩, .inl (by simp)⟩
    · obtain ⟨⟨m, z, h0, h1, h1'⟩, h2⟩ := events_bound_members l p _ e h
      refine ⟨⟨_, .inr ⟨m.1 ++ z, .inl rfl⟩, h1'⟩, h2.imp id fun h => ?_⟩
      simp only [Doc.text, List.length_cons, List.length_append, List.length_nil] at h ⊢
      omega
    · refine ⟨⟨[], .inl rfl, by simp⟩, .inr ?_⟩
      simp only [Doc.text, List.length_cons, List.length_append, List.length_nil]
      omega
theorem events_bound_elems : ∀ (l : Elems) (p : List UInt8) (i : Nat) (r : List UInt8), ∀ e ∈ l.events p i r, (∃ z, Behind z ∧ e.path = p ++ z) ∧
    ((e.type = .objectStart ∨ e.type = .arrayStart) ∨ e.ptr.length ≤ l.text.length + r.length)
  | .nil, p, i, r, e, h => by simp [Elems.events] at h
  | .cons d w w' l, p, i, r, e, h => by
    simp only [Elems.events, List.mem_append] at h
    rcases h with h | h
    · obtain ⟨⟨z, h1, hz⟩, h2⟩ := events_bound d _ _ _ e h
      refine ⟨⟨indexText i ++ z, .append (.inr ⟨_, .inr rfl⟩) h1, by rw [hz, List.append_assoc]⟩, h2.imp id fun h => ?_⟩
      simp only [Elems.text, List.length_append] at h ⊢
      omega
    · obtain ⟨h1, h2⟩ := events_bound_elems l p (i + 1) r e h
      refine ⟨h1, h2.imp id fun h => ?_⟩
      simp only [Elems.text, List.length_append] at h ⊢
      omega
theorem events_bound_members : ∀ (l : Members) (p r : List UInt8), ∀ e ∈ l.events p r, (∃ m z, m ∈ l.pairs ∧ Behind z ∧ e.path = p ++ 46 :: (m.1 ++ z)) ∧
    ((e.type = .objectStart ∨ e.type = .arrayStart) ∨ e.ptr.length ≤ l.text.length + r.length)
  | .nil, p, r, e, h => by simp [Members.events] at h
  | .cons k u u' d w w' l, p, r, e, h => by
    simp only [Members.events, List.mem_append] at h
    rcases h with h | h
    · obtain ⟨⟨z, h1, hz⟩, h2⟩ := events_bound d _ _ _ e h
      refine ⟨⟨(k, d), z, by simp [Members.pairs], h1, by rw [hz]; simp⟩, h2.imp id fun h => ?_⟩
      simp only [Members.text, List.length_append, List.length_cons] at h ⊢
      omega
    · obtain ⟨⟨m, z, h0, h1, h1'⟩, h2⟩ := events_bound_members l p r e h
      refine ⟨⟨m, z, by simp [Members.pairs, h0], h1, h1'⟩, h2.imp id fun h => ?_⟩
      simp only [Members.text, List.length_append, List.length_cons] at h ⊢
      omega
end

/-- Keys without dots and brackets. -/
def NoSep (k : List UInt8) : Prop := (46 : UInt8) ∉ k ∧ (91 : UInt8) ∉ k

/-- A path behind another key is another path. -/
theorem other_key {k k' z : List UInt8} (hk : NoSep k) (h0 : (0 : UInt8) ∉ k') (hne : k' ≠ k) (hz : Behind z) : cstr (46 :: (k' ++ z)) ≠ 46 :: k := by
  have e : cstr (46 :: (k' ++ z)) = 46 :: (k' ++ cstr z) := by
    unfold cstr
    rw [List.takeWhile_cons_of_pos (by decide), List.takeWhile_append_of_pos]
    intro c hc
    simp only [ne_eq, decide_eq_true_eq]
    rintro rfl
    exact h0 hc
  rw [e]
  intro h
  have h := (List.cons.inj h).2
  rcases hz with rfl | ⟨y, rfl | rfl⟩
  · exact hne (by rw [← h]; simp [cstr])
  · exact hk.1 (by rw [← h]; simp [cstr])
  · exact hk.2 (by rw [← h]; simp [cstr])

/-- Once the value is found, callbacks behind it change nothing. -/
theorem setf_quiet {n : Nat} {P : List UInt8} {d : SD} {e : Event} (hq : cstr e.path ≠ P) (hm : d.matched = P.length) (hp : d.pos ≠ 0)
    (hb : (e.type = .objectStart ∨ e.type = .arrayStart) ∨ d.pos ≤ n - e.ptr.length + 1) : setfCb n P d e = some d := by
  by_cases ht : e.type = .objectStart ∨ e.type = .arrayStart
  · exact setf_start ht
  · have hb := hb.resolve_left ht
    have := matchedLen_le (cstr e.path) P
    have hp2 : ¬(matchedLen (cstr e.path) P < d.matched ∧ d.pos = 0 ∧ (e.type = .objectEnd ∨ e.type = .arrayEnd)) := fun h => hp h.2.1
    have hp3 : ¬((e.ptr.head? = some 91 ∨ e.ptr.head? = some 123) ∧ n - e.ptr.length + 1 < d.pos ∧ n - e.ptr.length + 1 > d.prev) := fun h => by omega
    unfold setfCb
    dsimp only
    rw [if_neg ht, if_neg (show ¬ matchedLen (cstr e.path) P > d.matched by omega), if_neg hp2, if_neg hq, if_neg hp, if_neg hp3]

theorem quiet_fold {n : Nat} {P : List UInt8} {d : SD} (hm : d.matched = P.length) (hp : d.pos ≠ 0) : ∀ es : List Event,
    (∀ e ∈ es, cstr e.path ≠ P ∧ ((e.type = .objectStart ∨ e.type = .arrayStart) ∨ d.pos ≤ n - e.ptr.length + 1)) → es.foldlM (setfCb n P) d = some d
  | [], _ => rfl
  | e :: es, h => by
    rw [List.foldlM_cons, setf_quiet (h e (by simp)).1 hm hp (h e (by simp)).2]
    exact quiet_fold hm hp es fun e he => h e (List.mem_cons_of_mem _ he)

theorem pairs_noNul : ∀ (l : Members) (ms : List (Key × J)), l.Says ms → ∀ m ∈ l.pairs, (0 : UInt8) ∉ m.1
  | .nil, _, _, m, hm => by simp [Members.pairs] at hm
  | .cons k u u' d w w' l, ms, hl, m, hm => by
    simp only [Members.Says] at hl
    obtain ⟨j, ms, rfl, hk', _, _, _, _, _, hl⟩ := hl
    simp only [Members.pairs, List.mem_cons] at hm
    rcases hm with rfl | hm
    · exact Json.chars_noNul hk'.2.1
    · exact pairs_noNul l ms hl m hm

/-- The members behind the value. -/
theorem behind_fold {l : Members} {ms : List (Key × J)} (hl : l.Says ms) {n : Nat} {k r : List UInt8} {d : SD} (hk : NoSep k) (hB : ∀ m ∈ l.pairs, m.1 ≠ k)
    (hm : d.matched = k.length + 1) (hp : d.pos ≠ 0) (hb : d.pos ≤ n - (l.text ++ r).length) : (l.events [] r).foldlM (setfCb n (46 :: k)) d = some d := by
  refine quiet_fold (by simpa using hm) hp _ fun e he => ?_
  obtain ⟨⟨m, z, h0, h1, h2⟩, h3⟩ := events_bound_members l [] r e he
  refine ⟨by rw [h2]; exact other_key hk (pairs_noNul l ms hl m h0) (hB m h0) h1, h3.imp id fun h => ?_⟩
  simp only [List.length_append] at hb
  omega

/-- The value that is deleted. -/
theorem flat_fold {D : Doc} (hD : D.flat = true) {n : Nat} {k r : List UInt8} (nm : Option (List UInt8)) (h0 : (0 : UInt8) ∉ k) {m s v : Nat} (hm : m ≤ k.length + 1)
    (hn : D.text.length + r.length < n) :
    (D.events nm (46 :: k) r).foldlM (setfCb n (46 :: k)) ⟨m, 0, s, v⟩ =
      some ⟨k.length + 1, n - (D.text.length + r.length), n - r.length, v⟩ := by
  have one : ∀ e : Event, e.path = 46 :: k → ¬(e.type = .objectStart ∨ e.type = .arrayStart) → e.ptr.length = D.text.length + r.length → e.len = D.text.length →
      setfCb n (46 :: k) ⟨m, 0, s, v⟩ e = some ⟨k.length + 1, n - (D.text.length + r.length), n - r.length, v⟩ := by
    intro e h1 h2 h3 h4
    have hc : cstr e.path = 46 :: k := by
      rw [h1]
      exact cstr_eq (by simp [h0])
    have hmm : (if k.length + 1 > m then (⟨k.length + 1, 0, s, v⟩ : SD) else ⟨m, 0, s, v⟩) = ⟨k.length + 1, 0, s, v⟩ := by
      split
      · rfl
      · rw [show m = k.length + 1 by omega]
    unfold setfCb
    dsimp only
    rw [if_neg h2, hc, matchedLen_self, List.length_cons, hmm]
    dsimp only
    have hn2 : ¬(k.length + 1 < k.length + 1 ∧ (0 : Nat) = 0 ∧ (e.type = .objectEnd ∨ e.type = .arrayEnd)) := fun h => by omega
    have hn3 : ¬((e.ptr.head? = some 91 ∨ e.ptr.head? = some 123) ∧ n - (D.text.length + r.length) + 1 < n - (D.text.length + r.length) ∧
      n - (D.text.length + r.length) + 1 > v) := fun h => by omega
    rw [if_neg hn2, if_pos rfl, h3, h4]
    dsimp only
    rw [if_neg (show ¬ n - (D.text.length + r.length) = 0 by omega), if_neg hn3]
    congr 2
    omega
  cases D with
  | atom raw =>
    obtain ⟨t1, t2, _, _⟩ := atomType_ne raw
    have h : ¬ raw.head? = some 34 := by simpa [Doc.flat] using hD
    simp only [Doc.events, List.foldlM_cons, List.foldlM_nil]
    rw [one _ rfl (by simp [t1, t2]) (by simp [atomPtr, h, Doc.text]) (by simp [atomLen, h, Doc.text])]
    rfl
  | list w l =>
    cases l with
    | cons => simp [Doc.flat] at hD
    | nil =>
      simp only [Doc.events, Elems.events, List.nil_append, List.foldlM_cons, List.foldlM_nil]
      rw [setf_start (.inr rfl)]
      simp only [Option.bind_eq_bind, Option.bind_some]
      rw [one _ rfl (by simp) (by simp [Doc.text, Elems.text]; omega) (by simp [Doc.text, Elems.text])]
      rfl
  | record w l =>
    cases l with
    | cons => simp [Doc.flat] at hD
    | nil =>
      simp only [Doc.events, Members.events, List.nil_append, List.foldlM_cons, List.foldlM_nil]
      rw [setf_start (.inl rfl)]
      simp only [Option.bind_eq_bind, Option.bind_some]
      rw [one _ rfl (by simp) (by simp [Doc.text, Members.text]; omega) (by simp [Doc.text, Members.text])]
      rfl

/-- The members up to the one that is deleted, and those behind it. -/
theorem members_del {n : Nat} {k : Key} (hk : NoSep k) (hk0 : k ≠ []) {k0 : Key} {d0 D : Doc} {B : List (Key × Doc)} (hs : d0.isString = false) (hD : D.flat = true)
    (hB : ∀ m ∈ B, m.1 ≠ k) (r : List UInt8) : ∀ (l : Members) (ms : List (Key × J)), l.Says ms → ∀ A, l.pairs = A ++ (k0, d0) :: (k, D) :: B →
    (∀ m ∈ A ++ [(k0, d0)], m.1.head? ≠ k.head?) → l.text.length + r.length ≤ n → ∀ d : SD, d.matched ≤ 1 → d.pos = 0 →
    ∃ a c x b p, l.text = a ++ c :: (x ++ b) ∧ c ≠ 123 ∧ c ≠ 91 ∧
      (l.events [] r).foldlM (setfCb n (46 :: k)) d = some ⟨k.length + 1, p, n - (b ++ r).length, n - (x ++ (b ++ r)).length⟩ ∧ p ≠ 0 ∧
      p < n - (b ++ r).length ∧ (l.drop k).text = a ++ c :: b
  | .nil, ms, hl, A, hA, hh, hn, d, hm, hp => by
    cases A <;> simp [Members.pairs] at hA
  | .cons k' u u' e w w' l, ms, hl, A, hA, hh, hn, d, hm, hp => by
    simp only [Members.Says] at hl
    obtain ⟨j, ms, rfl, hk', hd, hu, hu', hw, hw', hl⟩ := hl
    have hhead : k'.head? ≠ k.head? := by
      cases A with
      | nil =>
        simp only [Members.pairs, List.nil_append, List.cons.injEq, Prod.mk.injEq] at hA
        have := hh (k0, d0) (by simp)
        rw [hA.1.1]; exact this
      | cons m A =>
        simp only [Members.pairs, List.cons_append, List.cons.injEq] at hA
        have := hh m (by simp)
        rw [← hA.1] at this; exact this
    obtain ⟨c, t, rfl⟩ := List.exists_cons_of_ne_nil hk'.2.2.2.1
    have hc : c ≠ 0 := fun h => chars_noNul hk'.2.1 (by rw [h]; simp)
    have ho : ∀ r' nm, ∀ x ∈ e.events nm ([] ++ 46 :: c :: t) r', Other k x.path := fun r' nm x hx => by
      obtain ⟨z, hz⟩ := events_path e _ _ _ x hx
      exact ⟨c, t ++ z, by rw [hz]; simp, hc, fun h => hhead (by rw [h]; rfl)⟩
    simp only [Members.events]
    obtain ⟨es, e1, h1, t1, t2, h2⟩ := events_last hd (some (c :: t)) ([] ++ 46 :: c :: t) (w ++ (l.comma w' ++ (l.text ++ r)))
    have ho' := ho (w ++ (l.comma w' ++ (l.text ++ r))) (some (c :: t))
    rw [h1] at ho'
    obtain ⟨d1, f1, f2, f3, f4⟩ := others_fold (n := n) es d (fun x hx => ho' x (List.mem_append_left _ hx)) hm hp
    have f5 : (e.events (some (c :: t)) ([] ++ 46 :: c :: t) (w ++ (l.comma w' ++ (l.text ++ r)))).foldlM (setfCb n (46 :: k)) d =
        some ⟨1, 0, d.stop, n - e1.ptr.length + e1.len⟩ := by
      rw [h1, List.foldlM_append, f1]
      simp only [Option.bind_eq_bind, Option.bind_some, List.foldlM_cons, List.foldlM_nil]
      rw [setf_other (ho' e1 (by simp)) f2 f3, if_neg (by simp [t1, t2]), f4]
      rfl
    rw [List.foldlM_append, f5]
    simp only [Option.bind_eq_bind, Option.bind_some]
    simp only [Members.text, List.length_append, List.length_cons] at hn
    cases l with
    | nil =>
      cases A with
      | nil => simp [Members.pairs] at hA
      | cons m A => cases A <;> simp [Members.pairs] at hA
    | cons k2 u2 u2' e2 w2 w2' l2 =>
      cases A with
      | nil =>
        simp only [Members.pairs, List.nil_append, List.cons.injEq, Prod.mk.injEq] at hA
        obtain ⟨⟨hA1, hA2⟩, ⟨hA3, hA4⟩, hA5⟩ := hA
        subst hA1 hA2 hA3 hA4 hA5
        obtain ⟨g1, g2⟩ := h2 hs
        obtain ⟨et, ec, g3, g4, g5⟩ := text_end hd
        simp only [Members.Says] at hl
        obtain ⟨j2, ms2, rfl, hk2, hd2, hu2, hu2', hw2, hw2', hl2⟩ := hl
        have hlen : k2.length > 0 := List.length_pos_iff.2 hk0
        have hcm : ∀ w, (Members.cons k2 u2 u2' e2 w2 w2' l2).comma w = 44 :: w := fun _ => rfl
        simp only [Members.text, hcm, List.length_append, List.length_cons, quoted, List.length_nil] at hn g1
        refine ⟨quoted (c :: t) ++ (u ++ 58 :: (u' ++ et)), ec, w ++ 44 :: (w' ++ (quoted k2 ++ (u2 ++ 58 :: (u2' ++ e2.text)))), w2 ++ (l2.comma w2' ++ l2.text),
          n - (e2.text.length + (w2 ++ (l2.comma w2' ++ (l2.text ++ r))).length), ?_, g4, g5, ?_, ?_, ?_, ?_⟩
        · simp [Members.text, Members.comma, g3]
        · simp only [Members.events, List.nil_append]
          rw [List.foldlM_append, flat_fold hD _ (chars_noNul hk2.2.1) (by omega) (by simp only [List.length_append]; omega)]
          simp only [Option.bind_eq_bind, Option.bind_some]
          rw [behind_fold hl2 hk hB rfl (by simp only [List.length_append]; omega) (by simp only [List.length_append]; omega), g1, g2]
          show some (_ : SD) = some _
          congr 2
          · simp only [List.length_append]; omega
          · simp only [List.length_append, List.length_cons, quoted, List.length_nil]; omega
        · simp only [List.length_append]; omega
        · have : e2.text.length > 0 := by
            obtain ⟨a, b, hab, _⟩ := text_end hd2
            rw [hab]; simp
          simp only [List.length_append]; omega
        · rw [Members.drop, if_pos rfl]
          simp [Members.text, g3]
      | cons m A =>
        have hA' := hA
        simp only [Members.pairs, List.cons_append, List.cons.injEq] at hA'
        obtain ⟨hm1, hA'⟩ := hA'
        obtain ⟨a, ec, x, b, p, q1, q2, q2', q3, q4, q5, q6⟩ := members_del (n := n) hk hk0 hs hD hB r (.cons k2 u2 u2' e2 w2 w2' l2) ms hl A (by rw [Members.pairs]; exact hA')
          (fun m hm => hh m (by simp only [List.cons_append]; exact List.mem_cons_of_mem _ hm)) (by omega)
          ⟨1, 0, d.stop, n - e1.ptr.length + e1.len⟩ (by simp) rfl
        have hne : k2 ≠ k := by
          have : k2.head? ≠ k.head? := by
            cases A with
            | nil =>
              simp only [List.nil_append, List.cons.injEq, Prod.mk.injEq] at hA'
              have := hh (k0, d0) (by simp)
              rw [hA'.1.1]; exact this
            | cons m' A =>
              simp only [List.cons_append, List.cons.injEq] at hA'
              have := hh m' (by simp)
              rw [← hA'.1] at this; exact this
          rintro rfl
          exact this rfl
        refine ⟨quoted (c :: t) ++ (u ++ 58 :: (u' ++ (e.text ++ (w ++ 44 :: (w' ++ a))))), ec, x, b, p, ?_, q2, q2', q3, q4, q5, ?_⟩
        · rw [Members.text, q1]
          simp [Members.comma]
        · rw [Members.drop, if_neg hne, Members.text, q6]
          have hcomma : ((Members.cons k2 u2 u2' e2 w2 w2' l2).drop k).comma w' = 44 :: w' := by
            cases l2 with
            | nil => rfl
            | cons => rw [Members.drop]; split <;> rfl
          rw [hcomma]
          simp

theorem keep_all {k : Key} : ∀ (l : Members) (ms : List (Key × J)), l.Says ms → (∀ m ∈ l.pairs, m.1 ≠ k) → ms.filter (fun m => m.1 ≠ k) = ms
  | .nil, ms, h, _ => by rw [Members.Says] at h; rw [h]; rfl
  | .cons k1 u u' d w w' l, ms, h, hne => by
    rw [Members.Says] at h
    obtain ⟨j, ms, rfl, _, _, _, _, _, _, h⟩ := h
    rw [List.filter_cons_of_pos (by simpa using hne (k1, d) (by simp [Members.pairs])), keep_all l ms h fun m hm => hne m (by simp [Members.pairs, hm])]

theorem pairs_key : ∀ (l : Members) (ms : List (Key × J)), l.Says ms → ∀ m ∈ l.pairs, m.1 ≠ []
  | .nil, _, _, m, hm => by simp [Members.pairs] at hm
  | .cons k u u' d w w' l, ms, hl, m, hm => by
    simp only [Members.Says] at hl
    obtain ⟨j, ms, rfl, hk', _, _, _, _, _, hl⟩ := hl
    simp only [Members.pairs, List.mem_cons] at hm
    rcases hm with rfl | hm
    · exact hk'.2.2.2.1
    · exact pairs_key l ms hl m hm

/-- What is left has the other members. -/
theorem drop_says {k k0 : Key} {d0 D : Doc} {B : List (Key × Doc)} (hB : ∀ m ∈ B, m.1 ≠ k) : ∀ (l : Members) (ms : List (Key × J)), l.Says ms → ∀ A, l.pairs = A ++ (k0, d0) :: (k, D) :: B →
    (∀ m ∈ A ++ [(k0, d0)], m.1 ≠ k) → (l.drop k).Says (ms.filter fun m => m.1 ≠ k)
  | .nil, ms, hl, A, hA, hh => by cases A <;> simp [Members.pairs] at hA
  | .cons k' u u' e w w' .nil, ms, hl, A, hA, hh => by
    cases A with
    | nil => simp [Members.pairs] at hA
    | cons m A => cases A <;> simp [Members.pairs] at hA
  | .cons k' u u' e w w' (.cons k2 u2 u2' e2 w2 w2' l2), ms, hl, A, hA, hh => by
    rw [Members.Says] at hl
    obtain ⟨j, ms, rfl, hk', hd, hu, hu', hw, hw', hl⟩ := hl
    cases A with
    | nil =>
      simp only [Members.pairs, List.nil_append, List.cons.injEq, Prod.mk.injEq] at hA
      obtain ⟨⟨hA1, hA2⟩, ⟨hA3, hA4⟩, hA5⟩ := hA
      subst hA1 hA2 hA3 hA4 hA5
      rw [Members.Says] at hl
      obtain ⟨j2, ms2, rfl, hk2, hd2, hu2, hu2', hw2, hw2', hl2⟩ := hl
      rw [Members.drop, if_pos rfl, List.filter_cons_of_pos (by simpa using hh (k', e) (by simp)), List.filter_cons_of_neg (by simp), keep_all l2 ms2 hl2 hB, Members.Says]
      exact ⟨j, ms2, rfl, hk', hd, hu, hu', hw2, hw2', hl2⟩
    | cons m A =>
      simp only [Members.pairs, List.cons_append, List.cons.injEq] at hA
      obtain ⟨hm1, hA'⟩ := hA
      have hne : k2 ≠ k := by
        cases A with
        | nil =>
          simp only [List.nil_append, List.cons.injEq, Prod.mk.injEq] at hA'
          have := hh (k0, d0) (by simp)
          rw [hA'.1.1]; exact this
        | cons m' A =>
          simp only [List.cons_append, List.cons.injEq] at hA'
          have := hh m' (by simp)
          rw [← hA'.1] at this; exact this
      have := drop_says hB (.cons k2 u2 u2' e2 w2 w2' l2) ms hl A (by rw [Members.pairs]; exact hA') (fun m hm => hh m (by simp only [List.cons_append]; exact List.mem_cons_of_mem _ hm))
      rw [Members.drop, if_neg hne, List.filter_cons_of_pos (by have := hh m (by simp); rw [← hm1] at this; simpa using this), Members.Says]
      exact ⟨j, _, rfl, hk', hd, hu, hu', hw, hw', this⟩

/-- The end of the outermost object, once the value is found. -/
theorem setf_close {n : Nat} {P : List UInt8} {d : SD} {e : Event} (hP : P ≠ []) (hpath : e.path = []) (ht : e.type = .objectEnd) (hh : e.ptr.head? = some 123) (hp : d.pos ≠ 0) :
    setfCb n P d e = some (if n - e.ptr.length + 1 < d.pos ∧ n - e.ptr.length + 1 > d.prev then { d with prev := n - e.ptr.length + 1 } else d) := by
  have h1 : cstr e.path = [] := by rw [hpath]; rfl
  have h2 : matchedLen [] P = 0 := by cases P <;> rfl
  have h3 : ¬(e.type = .objectStart ∨ e.type = .arrayStart) := by rw [ht]; decide
  have h4 : ¬(0 < d.matched ∧ d.pos = 0 ∧ (e.type = .objectEnd ∨ e.type = .arrayEnd)) := fun h => hp h.2.1
  unfold setfCb
  dsimp only
  rw [if_neg h3, h1, h2, if_neg (show ¬ 0 > d.matched by omega), if_neg h4, if_neg (show ¬ [] = P from fun h => hP h.symm), if_neg hp, hh]
  simp

/-- **C90, deleting.** A member of the outermost object that is not the first is deleted, with the comma before it, and nothing else: its value is a word,
a number or an empty container, the value before it is no string, and no key before it begins with the same byte. -/
theorem C90_delete_partial {w0 : List UInt8} {l : Members} {j : J} (hD : (Doc.record w0 l).Says j) (hf : Fits 0 j) {d : Nat} (hd : (Doc.record w0 l).depth ≤ d) {w r : List UInt8} (hw : Blank w)
    (hr : Ends r) (h0 : (0 : UInt8) ∉ w ++ ((Doc.record w0 l).text ++ r)) {k k0 : Key} {d0 v : Doc} {A B : List (Key × Doc)} (hA : l.pairs = A ++ (k0, d0) :: (k, v) :: B)
    (hk : (46 : UInt8) ∉ k ∧ (91 : UInt8) ∉ k) (hv : v.flat = true) (hs : d0.isString = false) (hother : ∀ m ∈ A ++ [(k0, d0)], m.1.head? ≠ k.head?) (hB : ∀ m ∈ B, m.1 ≠ k) :
    setf d (w ++ ((Doc.record w0 l).text ++ r)) (46 :: k) none = some (w ++ ((Doc.record w0 (l.drop k)).text ++ r), 1) ∧
      ∃ ms, j = .obj ms ∧ (Doc.record w0 (l.drop k)).Says (.obj (ms.filter fun m => m.1 ≠ k)) := by
  have hD' := hD
  simp only [Doc.Says] at hD'
  obtain ⟨ms, rfl, hw0, hl⟩ := hD'
  have hk0 : k ≠ [] := pairs_key l ms hl (k, v) (by rw [hA]; simp)
  refine ⟨?_, ms, rfl, by rw [Doc.Says]; exact ⟨_, rfl, hw0, drop_says hB l ms hl A hA fun m hm h => hother m hm (by rw [h])⟩⟩
  have hN : (w ++ ((Doc.record w0 l).text ++ r)).length = w.length + (w0.length + l.text.length + 2 + r.length) := by
    simp [Doc.text]
    omega
  obtain ⟨a, c, x, b, p, q1, q2, q2', q3, q4, q5, q6⟩ := members_del (n := (w ++ ((Doc.record w0 l).text ++ r)).length) hk hk0 hs hv hB (125 :: r) l ms hl A hA hother (by rw [hN]; simp only [List.length_cons]; omega)
    ⟨0, 0, (w ++ ((Doc.record w0 l).text ++ r)).length, 0⟩ (by simp) rfl
  obtain ⟨pre, hpre⟩ : ∃ pre, pre = w ++ 123 :: (w0 ++ a) := ⟨_, rfl⟩
  have hsplit : w ++ ((Doc.record w0 l).text ++ r) = (pre ++ [c]) ++ (x ++ (b ++ 125 :: r)) := by
    simp [Doc.text, q1, hpre]
  have hsplit2 : w ++ ((Doc.record w0 l).text ++ r) = (pre ++ c :: x) ++ (b ++ 125 :: r) := by
    rw [hsplit]; simp
  have hprev : (w ++ ((Doc.record w0 l).text ++ r)).length - (x ++ (b ++ 125 :: r)).length = (pre ++ [c]).length := by
    rw [hsplit, List.length_append (as := pre ++ [c])]
    omega
  have hstop : (w ++ ((Doc.record w0 l).text ++ r)).length - (b ++ 125 :: r).length = (pre ++ c :: x).length := by
    rw [hsplit2, List.length_append (as := pre ++ c :: x)]
    omega
  rw [hprev, hstop] at q3
  rw [hstop] at q5
  have hev : ((Doc.record w0 l).events none [] r).foldlM (setfCb (w ++ ((Doc.record w0 l).text ++ r)).length (46 :: k)) ⟨0, 0, (w ++ ((Doc.record w0 l).text ++ r)).length, 0⟩ =
      some ⟨k.length + 1, p, (pre ++ c :: x).length, (pre ++ [c]).length⟩ := by
    simp only [Doc.events, List.foldlM_cons]
    rw [setf_start (.inl rfl)]
    simp only [Option.bind_eq_bind, Option.bind_some]
    rw [List.foldlM_append, q3]
    simp only [Option.bind_eq_bind, Option.bind_some, List.foldlM_cons, List.foldlM_nil]
    have hbig : (w ++ ((Doc.record w0 l).text ++ r)).length - (123 :: (w0 ++ (l.text ++ 125 :: r))).length = w.length := by
      rw [hN]
      simp only [List.length_append, List.length_cons]
      omega
    have hlt : w.length + 1 ≤ (pre ++ [c]).length := by
      rw [hpre]
      simp only [List.length_append, List.length_cons]
      omega
    rw [setf_close (by simp) rfl rfl rfl (by exact q4), hbig, if_neg (fun h => by have := h.2; dsimp only at this; omega)]
    rfl
  have hw1 : left (walk (setfCb (w ++ ((Doc.record w0 l).text ++ r)).length (46 :: k)) d (w ++ ((Doc.record w0 l).text ++ r)) ⟨0, 0, (w ++ ((Doc.record w0 l).text ++ r)).length, 0⟩) =
      some ⟨k.length + 1, p, (pre ++ c :: x).length, (pre ++ [c]).length⟩ := by
    unfold walk
    rw [if_neg (by simp [Doc.text]), doc_walk (.record w0 l) _ hD d ⟨w ++ ((Doc.record w0 l).text ++ r), [], none, (⟨0, 0, (w ++ ((Doc.record w0 l).text ++ r)).length, 0⟩ : SD)⟩ w r ⟨k.length + 1, p, (pre ++ c :: x).length, (pre ++ [c]).length⟩ rfl hw hr hd (by simp) (by simp) hf hev]
    rfl
  unfold setf
  rw [hw1]
  simp only [Option.bind_some]
  have e0 : before (w ++ ((Doc.record w0 l).text ++ r)) (pre ++ [c]).length = some c := by
    rw [before, if_neg (by simp), hsplit]
    simp
  rw [e0, Option.map_some, if_neg (fun h => by rcases h.1 with h | h <;> contradiction), if_pos q5]
  have e2 : clip (pre ++ [c]).length (w ++ ((Doc.record w0 l).text ++ r)) = pre ++ [c] := by
    rw [hsplit]
    exact clip_left (by rw [← hsplit]; exact h0)
  have e3 : clip ((w ++ ((Doc.record w0 l).text ++ r)).length - (pre ++ c :: x).length) ((w ++ ((Doc.record w0 l).text ++ r)).drop (pre ++ c :: x).length) = b ++ 125 :: r := by
    rw [hsplit2]
    exact clip_right (by rw [← hsplit2]; exact h0)
  rw [e2, e3]
  simp [Doc.text, q6, hpre]

theorem takeWhile_blanks {w r : List UInt8} (h : Json.Blank w) {c : UInt8} (hc : Json.isSpace c = false) : (w ++ c :: r).takeWhile Json.isSpace = w := by
  rw [List.takeWhile_append_of_pos, List.takeWhile_cons_of_neg (by simp [hc]), List.append_nil]
  intro a ha
  rcases h a ha with rfl | rfl | rfl | rfl <;> decide

/-- **C90, deleting the first member.** It is deleted with the comma behind it and the blanks around, and nothing else, if its value is a word, a number or an
empty container. -/
theorem C90_delete_first_partial {w0 u u' w1 w1' : List UInt8} {k : Key} {v : Doc} {l : Members} {j : J} (hD : (Doc.record w0 (.cons k u u' v w1 w1' l)).Says j) (hf : Fits 0 j) {d : Nat}
    (hd : (Doc.record w0 (.cons k u u' v w1 w1' l)).depth ≤ d) {w r : List UInt8} (hw : Blank w) (hr : Ends r) (h0 : (0 : UInt8) ∉ w ++ ((Doc.record w0 (.cons k u u' v w1 w1' l)).text ++ r))
    (hk : (46 : UInt8) ∉ k ∧ (91 : UInt8) ∉ k) (hv : v.flat = true) (hB : ∀ m ∈ l.pairs, m.1 ≠ k) :
    setf d (w ++ ((Doc.record w0 (.cons k u u' v w1 w1' l)).text ++ r)) (46 :: k) none = some (w ++ ((Doc.record (l.lead w1 w1') l).text ++ r), 1) ∧
      ∃ j' ms, j = .obj ((k, j') :: ms) ∧ (Doc.record (l.lead w1 w1') l).Says (.obj ms) := by
  have hD' := hD
  simp only [Doc.Says, Members.Says] at hD'
  obtain ⟨ms, rfl, hw0, jv, ms, rfl, hk', hvs, hu, hu', hw1, hw1', hl⟩ := hD'
  have hlead : Json.Blank (l.lead w1 w1') := by cases l <;> assumption
  refine ⟨?_, jv, ms, rfl, by rw [Doc.Says]; exact ⟨_, rfl, hlead, hl⟩⟩
  obtain ⟨s, hs⟩ : ∃ s, s = w ++ ((Doc.record w0 (.cons k u u' v w1 w1' l)).text ++ r) := ⟨_, rfl⟩
  obtain ⟨T, hT⟩ : ∃ T, T = w1 ++ (l.comma w1' ++ (l.text ++ 125 :: r)) := ⟨_, rfl⟩
  obtain ⟨mid, hmid⟩ : ∃ mid, mid = w0 ++ (quoted k ++ (u ++ 58 :: u')) := ⟨_, rfl⟩
  rw [← hs] at h0 ⊢
  have split1 : s = (w ++ 123 :: (mid ++ v.text)) ++ T := by rw [hs, hT, hmid]; simp [Doc.text, Members.text]
  have split2 : s = (w ++ [123]) ++ (mid ++ (v.text ++ T)) := by rw [split1]; simp
  have hN : s.length = w.length + 1 + mid.length + v.text.length + T.length := by
    rw [split2]; simp only [List.length_append, List.length_cons, List.length_nil]; omega
  have hvl : v.text.length > 0 := by
    obtain ⟨a, b, hab, _⟩ := text_end hvs
    rw [hab]; simp
  have hml : mid.length > 0 := by rw [hmid]; simp [quoted]; omega
  have hTl : (l.text ++ 125 :: r).length ≤ T.length := by rw [hT]; simp only [List.length_append]; omega
  have hev : ((Doc.record w0 (.cons k u u' v w1 w1' l)).events none [] r).foldlM (setfCb s.length (46 :: k)) ⟨0, 0, s.length, 0⟩ =
      some ⟨k.length + 1, s.length - (v.text.length + T.length), s.length - T.length, w.length + 1⟩ := by
    simp only [Doc.events, List.foldlM_cons]
    rw [setf_start (.inl rfl)]
    simp only [Option.bind_eq_bind, Option.bind_some]
    simp only [Members.events, List.nil_append]
    rw [← hT, List.foldlM_append, List.foldlM_append, flat_fold hv _ (chars_noNul hk'.2.1) (by omega) (by omega)]
    simp only [Option.bind_eq_bind, Option.bind_some]
    rw [behind_fold hl hk hB rfl (by simp only []; omega) (by simp only []; omega)]
    simp only [Option.bind_some, List.foldlM_cons, List.foldlM_nil]
    have hbig : s.length - (123 :: (w0 ++ ((Members.cons k u u' v w1 w1' l).text ++ 125 :: r))).length = w.length := by
      rw [hs]
      simp only [Doc.text, List.length_append, List.length_cons, List.length_nil]
      omega
    rw [setf_close (by simp) rfl rfl rfl (by dsimp only; omega), hbig, if_pos ⟨by dsimp only; omega, by dsimp only; omega⟩]
    rfl
  have hw2 : left (walk (setfCb s.length (46 :: k)) d s ⟨0, 0, s.length, 0⟩) =
      some ⟨k.length + 1, s.length - (v.text.length + T.length), s.length - T.length, w.length + 1⟩ := by
    unfold walk
    rw [if_neg (by rw [hs]; simp [Doc.text]), doc_walk (.record w0 (.cons k u u' v w1 w1' l)) _ hD d ⟨s, [], none, (⟨0, 0, s.length, 0⟩ : SD)⟩ w r
      ⟨k.length + 1, s.length - (v.text.length + T.length), s.length - T.length, w.length + 1⟩ hs hw hr hd (by simp) (by simp) hf hev]
    rfl
  unfold setf
  rw [hw2]
  simp only [Option.bind_some]
  have e0 : before s (w.length + 1) = some 123 := by
    rw [before, if_neg (by simp), split2]
    simp
  have hst : s.length - T.length = (w ++ 123 :: (mid ++ v.text)).length := by
    rw [split1, List.length_append (as := w ++ 123 :: (mid ++ v.text))]; omega
  have hdrop : s.drop (s.length - T.length) = T := by
    rw [hst, split1, List.drop_left]
  have e2 : clip (w.length + 1) s = w ++ [123] := by
    rw [show w.length + 1 = (w ++ [123]).length by simp, split2]
    exact clip_left (by rw [← split2]; exact h0)
  rw [e0, Option.map_some, hdrop, e2]
  cases l with
  | nil =>
    have hT' : T = w1 ++ 125 :: r := by rw [hT]; simp [Members.comma, Members.text]
    rw [if_neg (fun h => by
      have := h.2
      rw [hT', Json.dropWhile_blank hw1, List.dropWhile_cons_of_neg (by decide)] at this
      simp at this), if_pos (by omega)]
    have e3 : clip (s.length - (s.length - T.length)) (s.drop (s.length - T.length)) = T := by
      rw [hst, split1]
      exact clip_right (by rw [← split1]; exact h0)
    rw [e3, hT']
    simp [Doc.text, Members.text, Members.lead]
  | cons k2 u2 u2' v2 w2 w2' l2 =>
    obtain ⟨L, hL⟩ : ∃ L, L = Members.cons k2 u2 u2' v2 w2 w2' l2 := ⟨_, rfl⟩
    have hT' : T = w1 ++ 44 :: (w1' ++ (L.text ++ 125 :: r)) := by rw [hT, hL]; simp [Members.comma]
    rw [← hL]
    have split3 : s = (w ++ 123 :: (mid ++ (v.text ++ (w1 ++ [44])))) ++ (w1' ++ (L.text ++ 125 :: r)) := by
      rw [split1, hT']; simp
    have hst2 : s.length - T.length + w1.length + 1 = (w ++ 123 :: (mid ++ (v.text ++ (w1 ++ [44])))).length := by
      rw [hst]; simp only [List.length_append, List.length_cons, List.length_nil]; omega
    rw [if_pos ⟨.inl rfl, by rw [hT', Json.dropWhile_blank hw1, List.dropWhile_cons_of_neg (by decide)]; rfl⟩, show T.takeWhile Json.isSpace = w1 by rw [hT']; exact takeWhile_blanks hw1 rfl,
      if_pos (by omega), hst2]
    have e3 : clip (s.length - (w ++ 123 :: (mid ++ (v.text ++ (w1 ++ [44])))).length) (s.drop (w ++ 123 :: (mid ++ (v.text ++ (w1 ++ [44])))).length) = w1' ++ (L.text ++ 125 :: r) := by
      rw [split3]
      exact clip_right (by rw [← split3]; exact h0)
    rw [e3]
    rw [show L.lead w1 w1' = w1' by rw [hL]; rfl]
    simp [Doc.text]

/-- In `{"b":[2], "a":3 ,"aa":4}` the member `a` can be deleted; in `{ "a":{} , "b":1}` it is the first. -/
example : let l : Members := .cons [98] [] [] (.list [] (.cons (.atom [50]) [] [] .nil)) [] [32] (.cons [97] [] [] (.atom [51]) [32] [] (.cons [97, 97] [] [] (.atom [52]) [] [] .nil))
    l.pairs = [] ++ ([98], .list [] (.cons (.atom [50]) [] [] .nil)) :: ([97], .atom [51]) :: [([97, 97], .atom [52])] ∧ (Doc.atom [51]).flat = true ∧
      (Doc.record [] (l.drop [97])).text = [123, 34, 98, 34, 58, 91, 50, 93, 32, 44, 34, 97, 97, 34, 58, 52, 125] ∧
      setf 100 (Doc.record [] l).text [46, 97] none = some ([123, 34, 98, 34, 58, 91, 50, 93, 32, 44, 34, 97, 97, 34, 58, 52, 125], 1) := by
  refine ⟨rfl, by decide, by decide +kernel, by decide +kernel⟩

example : let l : Members := .cons [98] [] [] (.atom [49]) [] [] .nil
    (Doc.record [] .nil).flat = true ∧ (∀ m ∈ l.pairs, m.1 ≠ ([97] : Key)) ∧
      setf 100 (Doc.record [32] (.cons [97] [] [] (.record [] .nil) [32] [32] l)).text [46, 97] none = some ([123, 32, 34, 98, 34, 58, 49, 125], 1) := by
  refine ⟨rfl, by decide, by decide +kernel⟩

end Mjs.Props
