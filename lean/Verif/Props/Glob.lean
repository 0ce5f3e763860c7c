import Verif.Spec.Glob

/-!
# C81: comma separated lists and patterns
-/

namespace Mjs.Props

open Mjs Mjs.Spec Mjs.Glob

theorem lower_same {c d : UInt8} : lower c = lower d ↔ SameLetter c d := by
  unfold lower SameLetter
  simp only [UInt8.le_iff_toNat_le, ← UInt8.toNat_inj]
  have hc := c.toNat_lt; have hd := d.toNat_lt
  split <;> split <;> simp_all [UInt8.toNat_add] <;> omega

theorem memchr_none {c : UInt8} : ∀ {p : List UInt8}, memchr c p = none ↔ c ∉ p
  | [] => by simp [memchr]
  | b :: bs => by
    unfold memchr
    split
    · next h => simp [h]
    · next h => simp [memchr_none (p := bs), Ne.symm h]

theorem memchr_some {c : UInt8} : ∀ {p : List UInt8} {k : Nat}, memchr c p = some k → c ∉ p.take k ∧ p = p.take k ++ c :: p.drop (k + 1)
  | [], _, h => by simp [memchr] at h
  | b :: bs, k, h => by
    unfold memchr at h
    split at h
    · next hb => cases h; simp [hb]
    · next hb =>
      obtain ⟨m, hm, rfl⟩ := Option.map_eq_some_iff.1 h
      obtain ⟨g1, g2⟩ := memchr_some hm
      refine ⟨by simp [g1, Ne.symm hb], ?_⟩
      simp only [List.take_succ_cons, List.drop_succ_cons, List.cons_append]
      exact congrArg (b :: ·) g2

theorem matchN_plain {p : List UInt8} (h1 : 124 ∉ p) (h2 : 44 ∉ p) (s : List UInt8) : matchN p s = loop p s 0 := by
  rw [matchN]
  split
  · next k hk => rw [memchr_none.2 h1, memchr_none.2 h2] at hk; simp at hk
  · rfl

/-- How the inner loop ends. -/
theorem back_spec (p s : List UInt8) : ∀ len, (back p s len).2 ≤ len ∧ (back p s len).1 = matchN p (s.drop (back p s len).2) ∧
    ((back p s len).1 = 0 → ∀ l ≤ len, matchN p (s.drop l) = 0)
  | 0 => by
    rw [back]
    refine ⟨by simp, by simp, fun h l hl => ?_⟩
    have : l = 0 := by omega
    subst this; exact h
  | len + 1 => by
    obtain ⟨h1, h2, h3⟩ := back_spec p s len
    rw [back]
    split
    · next h0 =>
      refine ⟨by omega, h2, fun h l hl => ?_⟩
      rcases Nat.lt_or_eq_of_le hl with h' | rfl
      · exact h3 h l (by omega)
      · exact h0
    · next h0 => exact ⟨by simp, rfl, fun h => absurd h h0⟩

theorem takeWhile_no {s : List UInt8} {l : Nat} (h : l ≤ (s.takeWhile (· != 47)).length) : 47 ∉ s.take l := by
  intro hm
  have hp : s.take l = (s.takeWhile (· != 47)).take l := by
    conv => lhs; rw [← List.takeWhile_append_dropWhile (p := (· != 47)) (l := s)]
    rw [List.take_append_of_le_length h]
  rw [hp] at hm
  have := List.all_takeWhile (p := (· != (47 : UInt8))) (l := s)
  rw [List.all_eq_true] at this
  have := this _ (List.mem_of_mem_take hm)
  simp at this

theorem takeWhile_long {u x : List UInt8} (h : 47 ∉ u) : u.length ≤ ((u ++ x).takeWhile (· != 47)).length := by
  induction u with
  | nil => simp
  | cons b u ih =>
    simp only [List.mem_cons, not_or] at h
    have hb : (b != 47) = true := by simpa using Ne.symm h.1
    rw [List.cons_append, List.takeWhile_cons, if_pos hb]
    simpa using ih h.2

theorem starLen_le (two : Bool) (s : List UInt8) : starLen two s ≤ s.length := by
  unfold starLen
  split
  · exact Nat.le_refl _
  · exact (List.takeWhile_prefix _).length_le

/-- The text matched, from the text that a star stands for and the rest. -/
theorem take_split (s : List UInt8) (l m : Nat) : s.take (l + m) = s.take l ++ (s.drop l).take m := by
  rw [List.take_add]

/-- What is demanded of the pattern and of the dollar sign `e` that may end it. -/
structure Form (p e s : List UInt8) : Prop where
  dollar : 36 ∉ p
  bar : 124 ∉ p
  comma : 44 ∉ p
  ends : e = [] ∨ e = [36] ∧ 36 ∉ s ∧ (p = [] ∨ p.getLast? ≠ some 42)

theorem getLast_tail {c : UInt8} {p : List UInt8} (hp : p ≠ []) : (c :: p).getLast? = p.getLast? := by
  cases p with
  | nil => exact absurd rfl hp
  | cons a p => simp [List.getLast?_cons]

theorem Form.tail {c d : UInt8} {p e s : List UInt8} (h : Form (c :: p) e (d :: s)) : Form p e s := by
  obtain ⟨h1, h2, h3, h4⟩ := h
  simp only [List.mem_cons, not_or] at h1 h2 h3 h4
  refine ⟨h1.2, h2.2, h3.2, h4.imp id fun ⟨g1, g2, g3⟩ => ⟨g1, g2.2, ?_⟩⟩
  rcases g3 with g | g
  · cases g
  · by_cases hp : p = []
    · exact .inl hp
    · rw [getLast_tail hp] at g; exact .inr g

theorem Form.sub {c : UInt8} {p e s : List UInt8} (h : Form (c :: p) e s) (l : Nat) : Form p e (s.drop l) := by
  obtain ⟨h1, h2, h3, h4⟩ := h
  simp only [List.mem_cons, not_or] at h1 h2 h3 h4
  refine ⟨h1.2, h2.2, h3.2, h4.imp id fun ⟨g1, g2, g3⟩ => ⟨g1, fun hm => g2 (List.mem_of_mem_drop hm), ?_⟩⟩
  rcases g3 with g | g
  · cases g
  · by_cases hp : p = []
    · exact .inl hp
    · rw [getLast_tail hp] at g; exact .inr g

/-- One star or two in a pattern with its end. -/
theorem stars_cases {p e s : List UInt8} (h : Form (42 :: p) e s) :
    (∃ q, p = 42 :: q ∧ stars (p ++ e) = (true, q ++ e)) ∨ ((∀ q, p ≠ 42 :: q) ∧ stars (p ++ e) = (false, p ++ e)) := by
  cases p with
  | nil =>
    right
    refine ⟨by simp, ?_⟩
    rcases h.ends with rfl | ⟨rfl, _, _⟩ <;> rfl
  | cons c q =>
    by_cases hc : c = 42
    · subst hc; exact .inl ⟨q, rfl, by simp [stars]⟩
    · right
      refine ⟨fun q' hq => hc (List.cons.inj hq).1, ?_⟩
      simp [stars, hc]

theorem plain_tail {p e s : List UInt8} (h : Form p e s) (x : List UInt8) : matchN (p ++ e) x = loop (p ++ e) x 0 := by
  apply matchN_plain
  · intro hm
    rcases List.mem_append.1 hm with hm | hm
    · exact h.bar hm
    · rcases h.ends with rfl | ⟨rfl, _⟩ <;> simp at hm
  · intro hm
    rcases List.mem_append.1 hm with hm | hm
    · exact h.comma hm
    · rcases h.ends with rfl | ⟨rfl, _⟩ <;> simp at hm

/-- What the loop finds is there. -/
theorem loop_sound : ∀ (n : Nat) {p e s : List UInt8} {j : Nat}, p.length ≤ n → Form p e s →
    loop (p ++ e) s j = 0 ∨ ∃ m ≤ s.length, loop (p ++ e) s j = j + m ∧ Stands p (s.take m) ∧ (e ≠ [] → m = s.length)
  | n, [], e, s, j, _, h => by
    rcases h.ends with rfl | ⟨rfl, hs, _⟩
    · right
      refine ⟨0, by simp, ?_, ?_, by simp⟩
      · rw [List.append_nil, loop] <;> simp [finish]
      · simpa using Stands.done
    · cases s with
      | nil =>
        right
        refine ⟨0, by simp, ?_, by simpa using Stands.done, by simp⟩
        rw [List.nil_append, loop] <;> simp [finish]
      | cons d s =>
        left
        have hne : lower 36 ≠ lower d := by
          intro hh
          rcases lower_same.1 hh with rfl | ⟨h1, _⟩ | ⟨h1, h2, h3⟩
          · simp at hs
          · exact absurd h1 (by decide)
          · have := congrArg UInt8.toNat h3
            rw [UInt8.toNat_add] at this
            rw [UInt8.le_iff_toNat_le] at h1 h2
            have e1 : (65 : UInt8).toNat = 65 := rfl
            have e2 : (90 : UInt8).toNat = 90 := rfl
            have e3 : (32 : UInt8).toNat = 32 := rfl
            have e4 : (36 : UInt8).toNat = 36 := rfl
            omega
        rw [List.nil_append, loop, if_neg (by decide), if_neg (by decide), if_pos hne]
        simp [finish]
  | n, c :: p, e, [], j, _, h => by
    left
    have hc : c ≠ 36 := fun hc => h.dollar (by simp [hc])
    rw [List.cons_append, loop] <;> simp [finish, hc]
  | 0, c :: p, e, d :: s, j, hl, h => by simp at hl
  | n + 1, c :: p, e, d :: s, j, hl, h => by
    have hl' : p.length ≤ n := by simpa using hl
    have step : ∀ j, loop (p ++ e) s j = 0 ∨ ∃ m ≤ s.length, loop (p ++ e) s j = j + m ∧ Stands p (s.take m) ∧ (e ≠ [] → m = s.length) :=
      fun j => loop_sound n hl' h.tail
    have hc : c ≠ 36 := fun hc => h.dollar (by simp [hc])
    rw [List.cons_append, loop]
    by_cases h1 : c = 63
    · subst h1
      rw [if_pos rfl]
      rcases step (j + 1) with h0 | ⟨m, g1, g2, g3, g4⟩
      · exact .inl h0
      · exact .inr ⟨m + 1, by simpa using g1, by omega, .any g3, fun he => by have := g4 he; simp; omega⟩
    rw [if_neg h1]
    by_cases h2 : c = 42
    · subst h2
      rw [if_pos rfl]
      dsimp only
      -- the pattern behind the stars, and what the stars stand for
      have key : ∀ (two : Bool) (q : List UInt8), stars (p ++ e) = (two, q ++ e) → q.length ≤ n →
          (∀ l, Form q e ((d :: s).drop l)) → (q = [] → e = []) →
          (∀ l ≤ starLen two (d :: s), ∀ t, Stands q t → Stands (42 :: p) ((d :: s).take l ++ t)) →
          (if (stars (p ++ e)).2 = [] ∨ (stars (p ++ e)).2 = [36] then j + starLen (stars (p ++ e)).1 (d :: s)
            else if (back (stars (p ++ e)).2 (d :: s) (starLen (stars (p ++ e)).1 (d :: s))).1 = 0 then 0
              else j + (back (stars (p ++ e)).2 (d :: s) (starLen (stars (p ++ e)).1 (d :: s))).1 +
                (back (stars (p ++ e)).2 (d :: s) (starLen (stars (p ++ e)).1 (d :: s))).2) = 0 ∨
          ∃ m ≤ (d :: s).length, (if (stars (p ++ e)).2 = [] ∨ (stars (p ++ e)).2 = [36] then j + starLen (stars (p ++ e)).1 (d :: s)
            else if (back (stars (p ++ e)).2 (d :: s) (starLen (stars (p ++ e)).1 (d :: s))).1 = 0 then 0
              else j + (back (stars (p ++ e)).2 (d :: s) (starLen (stars (p ++ e)).1 (d :: s))).1 +
                (back (stars (p ++ e)).2 (d :: s) (starLen (stars (p ++ e)).1 (d :: s))).2) = j + m ∧
            Stands (42 :: p) ((d :: s).take m) ∧ (e ≠ [] → m = (d :: s).length) := by
        intro two q hst hq hF hqe hstar
        rw [hst]
        dsimp only
        have hle := starLen_le two (d :: s)
        by_cases hend : q ++ e = [] ∨ q ++ e = [36]
        · rw [if_pos hend]
          have hq0 : q = [] ∧ e = [] := by
            rcases hend with h' | h'
            · simpa using h'
            · cases q with
              | nil => exact ⟨rfl, hqe rfl⟩
              | cons a q =>
                exfalso
                rw [List.cons_append] at h'
                exact (hF 0).dollar (by simp [(List.cons.inj h').1])
          obtain ⟨rfl, rfl⟩ := hq0
          refine .inr ⟨_, hle, rfl, ?_, by simp⟩
          simpa using hstar _ (Nat.le_refl _) [] .done
        · rw [if_neg hend]
          obtain ⟨b1, b2, _⟩ := back_spec (q ++ e) (d :: s) (starLen two (d :: s))
          rw [plain_tail (hF 0)] at b2
          generalize back (q ++ e) (d :: s) (starLen two (d :: s)) = r at b1 b2
          by_cases h0 : r.1 = 0
          · rw [if_pos h0]; exact .inl rfl
          · rw [if_neg h0]
            rcases loop_sound n (j := 0) hq (hF r.2) with g | ⟨m, g1, g2, g3, g4⟩
            · exact absurd (b2.trans g) h0
            · rw [g2] at b2
              rw [List.length_drop] at g1 g4
              refine .inr ⟨r.2 + m, by omega, by omega, ?_, fun he => by have := g4 he; omega⟩
              rw [take_split]
              exact hstar _ b1 _ g3
      rcases stars_cases h with ⟨q, rfl, hst⟩ | ⟨hno, hst⟩
      · refine key true q hst (by simp at hl'; omega) (fun l => ?_) ?_ (fun l _ t ht => .stars ht)
        · have := (h.sub 0).sub l
          simpa using this
        · rintro rfl
          rcases h.ends with he | ⟨_, _, g | g⟩
          · exact he
          · cases g
          · simp at g
      · refine key false p hst hl' (fun l => h.sub l) ?_ (fun l hl t ht => .star (takeWhile_no hl) ht)
        rintro rfl
        rcases h.ends with he | ⟨_, _, g | g⟩
        · exact he
        · cases g
        · simp at g
    rw [if_neg h2]
    by_cases h3 : lower c = lower d
    · rw [if_neg (by simpa using h3)]
      rcases step (j + 1) with h0 | ⟨m, g1, g2, g3, g4⟩
      · exact .inl h0
      · exact .inr ⟨m + 1, by simpa using g1, by omega, .same h1 h2 (lower_same.1 h3) g3, fun he => by have := g4 he; simp; omega⟩
    · rw [if_pos h3]
      left
      simp [finish, hc]

/-- A pattern that does not end in a star stands for no empty text. -/
theorem stands_ne {p t : List UInt8} (h : Stands p t) (hp : p ≠ []) (hl : p.getLast? ≠ some 42) : t ≠ [] := by
  induction h with
  | done => exact absurd rfl hp
  | any => simp
  | same => simp
  | @star p t u hu hs ih =>
    have hp' : p ≠ [] := by rintro rfl; simp at hl
    rw [getLast_tail hp'] at hl
    have := ih hp' hl
    simp [this]
  | @stars p t u hs ih =>
    have hp' : p ≠ [] := by rintro rfl; simp at hl
    rw [getLast_tail (by simp), getLast_tail hp'] at hl
    have := ih hp' hl
    simp [this]

/-- What is there the loop finds, if the pattern does not end in a star. -/
theorem loop_complete : ∀ (n : Nat) {p e t r : List UInt8} {j : Nat}, p.length ≤ n → Stands p t → p ≠ [] → p.getLast? ≠ some 42 →
    36 ∉ p → 124 ∉ p → 44 ∉ p → (e = [] ∨ e = [36] ∧ r = []) → j < loop (p ++ e) (t ++ r) j
  | 0, p, _, _, _, _, hl, _, hp, _, _, _, _, _ => absurd (List.length_eq_zero_iff.1 (by omega)) hp
  | n + 1, p, e, t, r, j, hl, h, hp, hlast, hd, hb, hc, he => by
    have nil_end : ∀ j, loop ([] ++ e) r j = j := by
      intro j
      rcases he with rfl | ⟨rfl, rfl⟩ <;> rw [List.nil_append, loop] <;> simp [finish]
    have key : ∀ (u t : List UInt8) (p q : List UInt8) (two : Bool), stars (p ++ e) = (two, q ++ e) → q.length ≤ n → Stands q t → q ≠ [] →
        q.getLast? ≠ some 42 → 36 ∉ q → 124 ∉ q → 44 ∉ q → u.length ≤ starLen two (u ++ t ++ r) →
        j < loop (42 :: p ++ e) (u ++ t ++ r) j := by
      intro u t p q two hst hql hs hq0 hql' hqd hqb hqc hu
      have hne := stands_ne hs hq0 hql'
      obtain ⟨d, s, hds⟩ : ∃ d s, u ++ t ++ r = d :: s := by
        cases hx : u ++ t ++ r with
        | nil => simp [hne] at hx
        | cons d s => exact ⟨d, s, rfl⟩
      have hF : Form q [] ([] : List UInt8) := ⟨hqd, hqb, hqc, .inl rfl⟩
      have hplain : ∀ x, matchN (q ++ e) x = loop (q ++ e) x 0 := by
        intro x
        rcases he with rfl | ⟨rfl, _⟩
        · exact plain_tail hF x
        · exact plain_tail (e := [36]) (s := []) ⟨hqd, hqb, hqc, .inr ⟨rfl, by simp, .inr hql'⟩⟩ x
      have hfound : 0 < matchN (q ++ e) ((d :: s).drop u.length) := by
        rw [hplain, ← hds, List.append_assoc, List.drop_left]
        exact loop_complete n hql hs hq0 hql' hqd hqb hqc he
      rw [hds, List.cons_append, loop, if_neg (by decide), if_pos rfl]
      dsimp only
      rw [hst]
      dsimp only
      rw [if_neg]
      · obtain ⟨b1, b2, b3⟩ := back_spec (q ++ e) (d :: s) (starLen two (d :: s))
        rw [hds] at hu
        rw [if_neg]
        · have : (back (q ++ e) (d :: s) (starLen two (d :: s))).1 ≠ 0 := fun h0 => by have := b3 h0 _ hu; omega
          omega
        · intro h0
          have := b3 h0 _ hu
          omega
      · rintro (h' | h')
        · simp [hq0] at h'
        · cases q with
          | nil => exact hq0 rfl
          | cons a q =>
            rw [List.cons_append] at h'
            exact hqd (by simp [(List.cons.inj h').1])
    cases h with
    | done => exact absurd rfl hp
    | @any p t d hs =>
      rw [List.cons_append, List.cons_append, loop, if_pos rfl]
      by_cases hp' : p = []
      · subst hp'
        cases hs
        rw [List.nil_append r, nil_end]
        omega
      · rw [getLast_tail hp'] at hlast
        have := loop_complete n (j := j + 1) (r := r) (by simpa using hl) hs hp' hlast (fun h => hd (by simp [h])) (fun h => hb (by simp [h]))
          (fun h => hc (by simp [h])) he
        omega
    | @same p t c d h1 h2 h3 hs =>
      rw [List.cons_append, List.cons_append, loop, if_neg h1, if_neg h2, if_neg (by simpa using lower_same.2 h3)]
      by_cases hp' : p = []
      · subst hp'
        cases hs
        rw [List.nil_append r, nil_end]
        omega
      · rw [getLast_tail hp'] at hlast
        have := loop_complete n (j := j + 1) (r := r) (by simpa using hl) hs hp' hlast (fun h => hd (by simp [h])) (fun h => hb (by simp [h]))
          (fun h => hc (by simp [h])) he
        omega
    | @star p t u hu hs =>
      have hp' : p ≠ [] := by rintro rfl; simp at hlast
      rw [getLast_tail hp'] at hlast
      have hd' : 36 ∉ p := fun h => hd (by simp [h])
      have hb' : 124 ∉ p := fun h => hb (by simp [h])
      have hc' : 44 ∉ p := fun h => hc (by simp [h])
      rcases stars_cases (p := p) (e := e) (s := []) ⟨by simpa using hd', by simpa using hb', by simpa using hc',
          he.imp id fun ⟨g, _⟩ => ⟨g, by simp, .inr (by rw [getLast_tail hp']; exact hlast)⟩⟩ with ⟨q, rfl, hst⟩ | ⟨hno, hst⟩
      · have hq : q ≠ [] := by rintro rfl; simp at hlast
        rw [getLast_tail hq] at hlast
        obtain ⟨u', t', rfl, hs'⟩ : ∃ u' t', t = u' ++ t' ∧ Stands q t' := by
          cases hs with
          | @star _ t' u' _ hs => exact ⟨u', t', rfl, hs⟩
          | @stars p' t' u' hs => exact ⟨u', t', rfl, by simpa using Stands.star (u := []) (by simp) hs⟩
          | same _ h2 => exact absurd rfl h2
        have := key (u ++ u') t' (42 :: q) q true hst (by simp at hl; omega) hs' hq hlast (fun h => hd' (by simp [h])) (fun h => hb' (by simp [h]))
          (fun h => hc' (by simp [h])) (by simp [starLen])
        simpa using this
      · refine key u t p p false hst (by simpa using hl) hs hp' hlast hd' hb' hc' ?_
        rw [List.append_assoc]
        exact takeWhile_long hu
    | @stars q t u hs =>
      have hq : q ≠ [] := by rintro rfl; simp at hlast
      rw [getLast_tail (by simp), getLast_tail hq] at hlast
      exact key u t (42 :: q) q true (by simp [stars]) (by simp at hl; omega) hs hq hlast (fun h => hd (by simp [h])) (fun h => hb (by simp [h]))
        (fun h => hc (by simp [h])) (by simp [starLen])

/-- The alternatives on either side of a separator. -/
theorem alternatives_split {p : List UInt8} {as : List (List UInt8)} (h : Alternatives p as) :
    ∀ {x y : List UInt8} {c : UInt8}, c = 124 ∨ c = 44 → p = x ++ c :: y → ∃ as1 as2, Alternatives x as1 ∧ Alternatives y as2 ∧ as = as1 ++ as2 := by
  induction h with
  | @one a h1 h2 =>
    rintro x y c hc rfl
    rcases hc with rfl | rfl
    · simp at h1
    · simp at h2
  | @more a c0 p as h1 h2 hc0 hp ih =>
    intro x y c hc he
    rcases List.append_eq_append_iff.1 he with ⟨z, rfl, hz⟩ | ⟨z, rfl, hz⟩
    · cases z with
      | nil =>
        simp only [List.nil_append, List.cons.injEq] at hz
        obtain ⟨rfl, rfl⟩ := hz
        exact ⟨[a], as, by simpa using Alternatives.one h1 h2, hp, rfl⟩
      | cons b z =>
        simp only [List.cons_append, List.cons.injEq] at hz
        obtain ⟨rfl, hz⟩ := hz
        obtain ⟨as1, as2, g1, g2, rfl⟩ := ih hc hz
        exact ⟨a :: as1, as2, .more h1 h2 hc0 g1, g2, rfl⟩
    · cases z with
      | nil =>
        simp only [List.nil_append, List.cons.injEq] at hz
        obtain ⟨rfl, rfl⟩ := hz
        exact ⟨[x], as, .one (by simpa using h1) (by simpa using h2), hp, by simp⟩
      | cons b z =>
        simp only [List.cons_append, List.cons.injEq] at hz
        obtain ⟨rfl, hz⟩ := hz
        rcases hc with rfl | rfl
        · simp at h1
        · simp at h2

/-- Where the pattern is split, if it is. -/
theorem matchN_cases (p s : List UInt8) :
    (124 ∉ p ∧ 44 ∉ p ∧ matchN p s = loop p s 0) ∨
    ∃ x c y, (c = 124 ∨ c = 44) ∧ p = x ++ c :: y ∧ matchN p s = if matchN x s > 0 then matchN x s else matchN y s := by
  cases h1 : memchr 124 p with
  | some k =>
    right
    refine ⟨p.take k, 124, p.drop (k + 1), .inl rfl, (memchr_some h1).2, ?_⟩
    conv => lhs; rw [matchN]
    split
    · next k' hk => rw [h1] at hk; simp at hk; subst hk; rfl
    · next hk => rw [h1] at hk; simp at hk
  | none =>
    cases h2 : memchr 44 p with
    | some k =>
      right
      refine ⟨p.take k, 44, p.drop (k + 1), .inr rfl, (memchr_some h2).2, ?_⟩
      conv => lhs; rw [matchN]
      split
      · next k' hk => rw [h1, h2] at hk; simp at hk; subst hk; rfl
      · next hk => rw [h1, h2] at hk; simp at hk
    | none => exact .inl ⟨memchr_none.1 h1, memchr_none.1 h2, matchN_plain (memchr_none.1 h1) (memchr_none.1 h2) s⟩

theorem alternatives_plain {p : List UInt8} {as : List (List UInt8)} (h : Alternatives p as) (h1 : 124 ∉ p) (h2 : 44 ∉ p) : as = [p] := by
  cases h with
  | one => rfl
  | more _ _ hc =>
    rcases hc with rfl | rfl
    · simp at h1
    · simp at h2

/-- **C81, what is matched is there.** If a pattern without `$` matches `n` bytes of a text, the text has so many, and one of
the alternatives of the pattern stands for the first `n`. -/
theorem C81_sound {p s : List UInt8} {as : List (List UInt8)} (ha : Alternatives p as) (hd : 36 ∉ p) (hm : 0 < matchN p s) :
    matchN p s ≤ s.length ∧ ∃ a ∈ as, Stands a (s.take (matchN p s)) := by
  induction hn : p.length using Nat.strongRecOn generalizing p as with
  | ind n ih =>
    rcases matchN_cases p s with ⟨h1, h2, e⟩ | ⟨x, c, y, hc, rfl, e⟩
    · rw [alternatives_plain ha h1 h2]
      have hF : Form p [] s := ⟨hd, h1, h2, .inl rfl⟩
      rcases loop_sound p.length (j := 0) (Nat.le_refl _) hF with g | ⟨m, g1, g2, g3, _⟩
      · rw [List.append_nil] at g; omega
      · rw [List.append_nil, ← e, Nat.zero_add] at g2
        rw [g2]
        exact ⟨g1, p, by simp, g3⟩
    · obtain ⟨as1, as2, g1, g2, rfl⟩ := alternatives_split ha hc rfl
      rw [e] at hm ⊢
      split at hm
      · next h =>
        rw [if_pos h]
        obtain ⟨i1, a, i2, i3⟩ := ih x.length (by rw [← hn]; simp) g1 (fun h => hd (by simp [h])) h rfl
        exact ⟨i1, a, by simp [i2], i3⟩
      · next h =>
        rw [if_neg h]
        obtain ⟨i1, a, i2, i3⟩ := ih y.length (by rw [← hn]; simp; omega) g2 (fun h => hd (by simp [h])) hm rfl
        exact ⟨i1, a, by simp [i2], i3⟩

/-- **C81, what is there is matched.** If an alternative of a pattern without `$`, which does not end in a star, stands for the
beginning of the text, the pattern matches. -/
theorem C81_complete_partial {p t r : List UInt8} {as : List (List UInt8)} {a : List UInt8} (ha : Alternatives p as) (hd : 36 ∉ p) (hm : a ∈ as)
    (hs : Stands a t) (h0 : a ≠ []) (hl : a.getLast? ≠ some 42) : 0 < matchN p (t ++ r) := by
  induction hn : p.length using Nat.strongRecOn generalizing p as with
  | ind n ih =>
    rcases matchN_cases p (t ++ r) with ⟨h1, h2, e⟩ | ⟨x, c, y, hc, rfl, e⟩
    · rw [alternatives_plain ha h1 h2, List.mem_singleton] at hm
      subst hm
      have := loop_complete a.length (j := 0) (e := []) (r := r) (Nat.le_refl _) hs h0 hl hd h1 h2 (.inl rfl)
      rw [List.append_nil] at this
      omega
    · obtain ⟨as1, as2, g1, g2, rfl⟩ := alternatives_split ha hc rfl
      rw [e]
      rcases List.mem_append.1 hm with hm | hm
      · have := ih x.length (by rw [← hn]; simp) g1 (fun h => hd (by simp [h])) hm rfl
        rw [if_pos this]; exact this
      · have := ih y.length (by rw [← hn]; simp; omega) g2 (fun h => hd (by simp [h])) hm rfl
        split <;> omega

/-- **C81, the whole text.** A pattern that ends in `$`, with no star before it, matches a text without `$` if and only if the
pattern before the `$` stands for the whole text, and then matches all of it. -/
theorem C81_whole_partial {p s : List UInt8} (hd : 36 ∉ p) (h1 : 124 ∉ p) (h2 : 44 ∉ p) (h0 : p ≠ []) (hl : p.getLast? ≠ some 42) (hs : 36 ∉ s) :
    (Stands p s → 0 < matchN (p ++ [36]) s) ∧ (0 < matchN (p ++ [36]) s → matchN (p ++ [36]) s = s.length ∧ Stands p s) := by
  have hF : Form p [36] s := ⟨hd, h1, h2, .inr ⟨rfl, hs, .inr hl⟩⟩
  rw [plain_tail hF]
  refine ⟨fun h => ?_, fun h => ?_⟩
  · have := loop_complete p.length (j := 0) (e := [36]) (r := []) (Nat.le_refl _) h h0 hl hd h1 h2 (.inr ⟨rfl, rfl⟩)
    rwa [List.append_nil] at this
  · rcases loop_sound p.length (j := 0) (Nat.le_refl _) hF with g | ⟨m, g1, g2, g3, g4⟩
    · omega
    · have := g4 (by simp)
      subst this
      rw [List.take_length] at g3
      exact ⟨by omega, g3⟩

/-- **C81, violation: a star at the end of the text.** `x*` does not match the text `x`, although a star may stand for nothing. -/
theorem C81_violation_star {x : List UInt8} (h1 : 124 ∉ x) (h2 : 44 ∉ x) (h3 : 63 ∉ x) (h4 : 42 ∉ x) :
    Stands (x ++ [42]) x ∧ matchN (x ++ [42]) x = 0 := by
  constructor
  · clear h1 h2
    induction x with
    | nil => exact .star (u := []) (t := []) (by simp) .done
    | cons c x ih =>
      simp only [List.mem_cons, not_or] at h3 h4
      exact .same (Ne.symm h3.1) (Ne.symm h4.1) (.inl rfl) (ih h3.2 h4.2)
  · rw [matchN_plain (by simpa using h1) (by simpa using h2)]
    clear h1 h2
    have : ∀ j, loop (x ++ [42]) x j = 0 := by
      induction x with
      | nil => intro j; rw [List.nil_append, loop] <;> simp [finish]
      | cons c x ih =>
        intro j
        simp only [List.mem_cons, not_or] at h3 h4
        rw [List.cons_append, loop, if_neg (Ne.symm h3.1), if_neg (Ne.symm h4.1), if_neg (by simp)]
        exact ih h3.2 h4.2 _
    exact this 0

/-- **C81, violation: `*$`.** It matches up to a slash, although the text goes on. -/
theorem C81_violation_dollar {x y : List UInt8} (hx : 47 ∉ x) : matchN [42, 36] (x ++ 47 :: y) = x.length := by
  rw [matchN_plain (by decide) (by decide)]
  have hlen : starLen false (x ++ 47 :: y) = x.length := by
    unfold starLen
    rw [if_neg (by decide)]
    induction x with
    | nil => simp
    | cons c x ih =>
      simp only [List.mem_cons, not_or] at hx
      have hc : (c != 47) = true := by simpa using Ne.symm hx.1
      rw [List.cons_append, List.takeWhile_cons, if_pos hc]
      simpa using ih hx.2
  obtain ⟨d, s, hds⟩ : ∃ d s, x ++ 47 :: y = d :: s := by cases x <;> exact ⟨_, _, rfl⟩
  rw [hds] at hlen ⊢
  rw [loop, if_neg (by decide), if_pos rfl]
  rw [if_pos (by decide), show (stars [36]).1 = false from rfl, hlen]
  omega

/-- **C81, violation: `$` for itself.** `x$` matches a text that goes on, if it goes on with `$`. -/
theorem C81_violation_literal {x y : List UInt8} (h1 : 124 ∉ x) (h2 : 44 ∉ x) (h3 : 63 ∉ x) (h4 : 42 ∉ x) :
    matchN (x ++ [36]) (x ++ 36 :: y) = x.length + 1 := by
  rw [matchN_plain (by simpa using h1) (by simpa using h2)]
  clear h1 h2
  have : ∀ j, loop (x ++ [36]) (x ++ 36 :: y) j = j + (x.length + 1) := by
    induction x with
    | nil =>
      intro j
      rw [List.nil_append, List.nil_append, loop, if_neg (by decide), if_neg (by decide), if_neg (by simp), loop] <;> simp [finish]
    | cons c x ih =>
      intro j
      simp only [List.mem_cons, not_or] at h3 h4
      rw [List.cons_append, List.cons_append, loop, if_neg (Ne.symm h3.1), if_neg (Ne.symm h4.1), if_neg (by simp), ih h3.2 h4.2]
      simp; omega
  rw [this 0]; omega

/-! ## Lists -/

theorem globStrchr_spec {c : UInt8} (hc : c.toNat < 128) : ∀ (i : Nat) (s : List UInt8),
    MgStr.strchrFrom i (c.toNat : Int) s = (memchr c s).map (i + ·)
  | _, [] => rfl
  | i, b :: bs => by
    have hb : MgStr.schar b = (c.toNat : Int) ↔ b = c := by
      unfold MgStr.schar
      rw [BitVec.toInt_eq_toNat_cond]
      have := b.toNat_lt
      have e : b.toBitVec.toNat = b.toNat := rfl
      rw [e, ← UInt8.toNat_inj]
      split <;> omega
    unfold MgStr.strchrFrom memchr
    by_cases h : b = c
    · rw [if_pos (hb.2 h), if_pos h]; rfl
    · rw [if_neg (fun g => h (hb.1 g)), if_neg h, globStrchr_spec hc]
      cases memchr c bs with
      | none => rfl
      | some k => simp; omega

theorem memchr_first {c : UInt8} {x y : List UInt8} (h : c ∉ x) : memchr c (x ++ c :: y) = some x.length := by
  induction x with
  | nil => simp [memchr]
  | cons b x ih =>
    simp only [List.mem_cons, not_or] at h
    rw [List.cons_append, memchr, if_neg (Ne.symm h.1), ih h.2]
    rfl

theorem strchr_comma (s : List UInt8) : MgStr.strchr s 44 = memchr 44 s := by
  have := globStrchr_spec (c := 44) (by decide) 0 s
  unfold MgStr.strchr
  rw [show ((44 : UInt8).toNat : Int) = 44 from rfl] at this
  rw [this]
  cases memchr 44 s <;> simp

/-- **C81, without `=`.** If the caller does not ask for values, an entry is the part up to the comma. -/
theorem C81_plain {x rest l : List UInt8} (hx : 44 ∉ x) (h0 : l ≠ []) (hl : l = x ++ 44 :: rest ∨ l = x ∧ rest = []) :
    nextPlain l = some (x, rest) := by
  unfold nextPlain
  rw [if_neg (by simpa using h0), strchr_comma]
  rcases hl with rfl | ⟨rfl, rfl⟩
  · rw [memchr_first hx]; simp
  · rw [memchr_none.2 hx]

/-- One entry. -/
theorem next_spec {x rest l : List UInt8} (hx : 44 ∉ x) (h0 : l ≠ []) (hl : l = x ++ 44 :: rest ∨ l = x ∧ rest = []) :
    ∃ e, next l = some e ∧ e.rest = rest ∧ entryText (e.val, e.eq) = x ∧ 61 ∉ e.val := by
  unfold next
  rw [C81_plain hx h0 hl, Option.bind_some]
  dsimp only
  cases h : memchr 61 x with
  | none => exact ⟨_, rfl, rfl, rfl, memchr_none.1 h⟩
  | some k =>
    obtain ⟨g1, g2⟩ := memchr_some h
    exact ⟨_, rfl, rfl, g2.symm, g1⟩

/-- **C81, lists.** A walk over a list sees its parts in their order, each split at its first `=` if it has one, but not
the last part if it is empty. -/
theorem C81_list {parts : List (List UInt8)} (h : ∀ x ∈ parts, 44 ∉ x) :
    ∃ es, Walk (commas parts) es ∧ es.map entryText = (if parts.getLast? = some [] then parts.dropLast else parts) ∧ ∀ e ∈ es, 61 ∉ e.1 := by
  induction parts with
  | nil => exact ⟨[], .stop (by simp [next, nextPlain, commas]), by simp, by simp⟩
  | cons x r ih =>
    cases r with
    | nil =>
      by_cases hx : x = []
      · subst hx
        exact ⟨[], .stop (by simp [next, nextPlain, commas]), by simp, by simp⟩
      · obtain ⟨e, g1, g2, g3, g4⟩ := next_spec (rest := []) (h x (by simp)) hx (.inr ⟨rfl, rfl⟩)
        refine ⟨[(e.val, e.eq)], .step g1 (by rw [g2]; exact .stop (by simp [next, nextPlain])), ?_, by simpa using g4⟩
        simp [g3, hx]
    | cons y r =>
      obtain ⟨es, i1, i2, i3⟩ := ih fun z hz => h z (by simp at hz ⊢; exact .inr hz)
      obtain ⟨e, g1, g2, g3, g4⟩ := next_spec (l := commas (x :: y :: r)) (rest := commas (y :: r)) (h x (by simp)) (by simp [commas]) (.inl rfl)
      refine ⟨(e.val, e.eq) :: es, .step g1 (by rw [g2]; exact i1), ?_, ?_⟩
      · rw [List.map_cons, g3, i2, List.getLast?_cons_cons]
        split <;> simp
      · intro e' he'
        rcases List.mem_cons.1 he' with rfl | he'
        · exact g4
        · exact i3 _ he'

/-- **C81, a walk sees one thing.** -/
theorem C81_walk_once {l : List UInt8} {es es' : List (List UInt8 × Option (List UInt8))} (h : Walk l es) (h' : Walk l es') : es = es' := by
  induction h generalizing es' with
  | stop h =>
    cases h' with
    | stop => rfl
    | step g => rw [h] at g; cases g
  | step h _ ih =>
    cases h' with
    | stop g => rw [h] at g; cases g
    | step g w => rw [h] at g; cases g; rw [ih w]

/-- The hypotheses can be met: `a*.js|**.c` matches `ab.JS`, and `a=1,,b,` has the entries `a=1`, an empty one and `b`. -/
example : 0 < matchN ([97, 42, 46, 106, 115] ++ 124 :: [42, 42, 46, 99]) ([97, 98, 46, 74, 83] ++ [33]) :=
  C81_complete_partial (as := [[97, 42, 46, 106, 115], [42, 42, 46, 99]]) (a := [97, 42, 46, 106, 115])
    (.more (by decide) (by decide) (.inl rfl) (.one (by decide) (by decide))) (by decide) (by simp)
    (.same (by decide) (by decide) (.inl rfl) (.star (u := [98]) (by decide) (.same (by decide) (by decide) (.inl rfl)
      (.same (by decide) (by decide) (.inr (.inr ⟨by decide, by decide, rfl⟩)) (.same (by decide) (by decide) (.inr (.inr ⟨by decide, by decide, rfl⟩)) .done)))))
    (by decide) (by decide)

example : ∃ es, Walk [97, 61, 49, 44, 44, 98, 44] es ∧ es.map entryText = [[97, 61, 49], [], [98]] ∧ ∀ e ∈ es, 61 ∉ e.1 := by
  simpa [commas] using C81_list (parts := [[97, 61, 49], [], [98], []]) (by decide)

end Mjs.Props
