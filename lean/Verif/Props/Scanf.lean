import Verif.Model.Scanf
import Verif.Spec.Scanf
import Verif.Props.Setf
import Verif.Props.JsonEsc

/-!
# C91: reading values out of a JSON text
-/

namespace Mjs.Props
open Mjs Mjs.Json Mjs.Pretty Mjs.Scanf Mjs.Spec Mjs.Spec.Json

/-! ### The format -/

theorem plan_fuel : ∀ (a b : Nat) (f p : List UInt8), f.length < a → f.length < b → plan a f p = plan b f p
  | 0, _, _, _, h, _ => absurd h (by omega)
  | _, 0, _, _, _, h => absurd h (by omega)
  | a + 1, b + 1, [], p, _, _ => rfl
  | a + 1, b + 1, c :: f, p, ha, hb => by
    simp only [List.length_cons] at ha hb
    have hd : ∀ (g : UInt8 → Bool) (n : Nat), ((f.drop n).dropWhile g).length ≤ f.length := fun g n => by
      have h1 := (List.dropWhile_sublist (p := g) (l := f.drop n)).length_le
      have h2 : (f.drop n).length ≤ f.length := by simp
      omega
    unfold plan
    dsimp only
    by_cases h1 : c = 123
    · rw [if_pos h1, if_pos h1, plan_fuel a b f _ (by omega) (by omega)]
    · rw [if_neg h1, if_neg h1]
      by_cases h2 : c = 125
      · rw [if_pos h2, if_pos h2, plan_fuel a b f _ (by omega) (by omega)]
      · rw [if_neg h2, if_neg h2]
        by_cases h3 : c = 37
        · rw [if_pos h3, if_pos h3, plan_fuel a b (f.drop 1) _ (by simp; omega) (by simp; omega), plan_fuel a b ((f.drop _).dropWhile delim) _
            (by have := hd delim (f.takeWhile fun c => !delim c).length; omega) (by have := hd delim (f.takeWhile fun c => !delim c).length; omega)]
        · rw [if_neg h3, if_neg h3]
          by_cases h4 : (isAlpha c || charLen c > 1) = true
          · have hk : keyDelim c = false := by
              have : ∀ n : Fin 256, (isAlpha (UInt8.ofNat n.val) || charLen (UInt8.ofNat n.val) > 1) = true → keyDelim (UInt8.ofNat n.val) = false := by decide +kernel
              have := this ⟨c.toNat, c.toNat_lt⟩
              simp only [UInt8.ofNat_toNat] at this
              exact this h4
            have hl : (((c :: f).drop ((c :: f).takeWhile fun c => !keyDelim c).length).dropWhile keyDelim).length ≤ f.length := by
              rw [List.takeWhile_cons_of_pos (by simp [hk]), List.length_cons, List.drop_succ_cons]
              exact hd keyDelim _
            rw [if_pos h4, if_pos h4, plan_fuel a b _ _ (by omega) (by omega)]
          · rw [if_neg h4, if_neg h4, plan_fuel a b f _ (by omega) (by omega)]

/-- The loop with enough fuel. -/
def loop (f p : List UInt8) : Option (List Conv) := plan (f.length + 1) f p

theorem loop_nil (p : List UInt8) : loop [] p = some [] := rfl

theorem loop_open {f p : List UInt8} (h : p.length + 1 ≤ 255) : loop (123 :: f) p = loop f (p ++ [46]) := by
  unfold loop
  rw [List.length_cons, plan, if_pos rfl, if_pos h]

theorem upToDot_eq {p x : List UInt8} (h : (46 : UInt8) ∉ x) : upToDot (p ++ 46 :: x) = p ++ [46] := by
  unfold upToDot
  rw [List.reverse_append, List.reverse_cons, List.append_assoc, List.dropWhile_append_of_pos]
  · simp
  · intro a ha
    simpa using fun e : a = 46 => h (by rw [← e]; simpa using ha)

theorem loop_close {f p x : List UInt8} (h : (46 : UInt8) ∉ x) : loop (125 :: f) (p ++ 46 :: x) = loop f p := by
  unfold loop
  rw [List.length_cons, plan, if_neg (by decide), if_pos rfl, if_pos (by simp), upToDot_eq h]
  simp

theorem loop_skip {c : UInt8} {f p : List UInt8} (h : c ≠ 123 ∧ c ≠ 125 ∧ c ≠ 37 ∧ (isAlpha c || charLen c > 1) = false) : loop (c :: f) p = loop f p := by
  unfold loop
  rw [List.length_cons, plan, if_neg h.1, if_neg h.2.1, if_neg h.2.2.1, if_neg (by simp [h.2.2.2])]

theorem blank_skip {c : UInt8} (h : c = 32 ∨ c = 9 ∨ c = 10 ∨ c = 13 ∨ c = 44 ∨ c = 93) : c ≠ 123 ∧ c ≠ 125 ∧ c ≠ 37 ∧ (isAlpha c || charLen c > 1) = false := by
  rcases h with rfl | rfl | rfl | rfl | rfl | rfl <;> decide

theorem loop_blank {f p : List UInt8} : ∀ {w : List UInt8}, Blank w → loop (w ++ f) p = loop f p
  | [], _ => rfl
  | c :: w, h => by
    rw [List.cons_append, loop_skip (blank_skip (by have := h c (by simp); grind))]
    exact loop_blank fun a ha => h a (List.mem_cons_of_mem _ ha)

/-- Only delimiters. -/
theorem loop_delims : ∀ {r : List UInt8} (p : List UInt8), (∀ c ∈ r, delim c = true) → loop r p = some []
  | [], p, _ => rfl
  | c :: r, p, h => by
    have hc := h c (by simp)
    have hr : ∀ c ∈ r, delim c = true := fun a ha => h a (List.mem_cons_of_mem _ ha)
    simp only [delim, Bool.or_eq_true, decide_eq_true_eq] at hc
    by_cases h5 : c = 125
    · subst h5
      unfold loop
      rw [List.length_cons, plan, if_neg (by decide), if_pos rfl]
      exact loop_delims _ hr
    · rw [loop_skip (blank_skip (by grind))]
      exact loop_delims p hr

theorem loop_letter {t : List UInt8} (h : Letter t) (f p : List UInt8) : loop (37 :: (t ++ f)) p = (loop f p).map (⟨t.head?.getD 0, [], p⟩ :: ·) := by
  have key : ∀ c : UInt8, (c = 77 ∨ c = 86 ∨ c = 72 ∨ c = 66 ∨ c = 81 ∨ c = 84) → loop (37 :: ([c] ++ f)) p = (loop f p).map (⟨([c] : List UInt8).head?.getD 0, [], p⟩ :: ·) := fun c hc => by
    unfold loop
    rw [List.length_cons, plan, if_neg (by decide), if_neg (by decide), if_pos rfl]
    simp only [List.cons_append, List.nil_append, List.head?_cons, Option.getD_some, List.drop_one, List.tail_cons]
    rw [if_pos hc, plan_fuel _ (f.length + 1) f p (by simp; omega) (by simp)]
  rcases h with rfl | rfl | rfl | rfl | rfl | rfl <;> exact key _ (by decide)

theorem loop_number {t : List UInt8} (h : Number t) {w r : List UInt8} (p : List UInt8) (hw : ∀ c ∈ w, delim c = true) (hw0 : w ≠ [] ∨ r = []) (hr : ∀ c, r.head? = some c → delim c = false) :
    loop (37 :: (t ++ (w ++ r))) p = (loop r p).map (⟨t.head?.getD 0, 37 :: t, p⟩ :: ·) := by
  obtain ⟨h0, h1, h2, h3⟩ := h
  have hd : ∀ c ∈ t, delim c = false := fun c hc => by
    have := h2 c hc
    simp only [List.mem_cons, List.not_mem_nil, or_false, not_or] at this
    simp [delim, this]
  have e1 : (t ++ (w ++ r)).takeWhile (fun c => !delim c) = t := by
    rw [List.takeWhile_append_of_pos (by intro c hc; simp [hd c hc])]
    cases w with
    | nil =>
      rcases hw0 with h | h
      · exact absurd rfl h
      · subst h
        simp
    | cons c w => simp [hw c]
  have e2 : (w ++ r).dropWhile delim = r := by
    rw [List.dropWhile_append_of_pos hw]
    cases r with
    | nil => rfl
    | cons c r => rw [List.dropWhile_cons_of_neg (by simp [hr c rfl])]
  have e3 : ¬ ((t ++ (w ++ r)).head?.getD 0 = 77 ∨ (t ++ (w ++ r)).head?.getD 0 = 86 ∨ (t ++ (w ++ r)).head?.getD 0 = 72 ∨ (t ++ (w ++ r)).head?.getD 0 = 66 ∨
      (t ++ (w ++ r)).head?.getD 0 = 81 ∨ (t ++ (w ++ r)).head?.getD 0 = 84) := by
    cases t with
    | nil => exact absurd rfl h0
    | cons c t =>
      have := h3 c rfl
      simpa [Letter] using this
  unfold loop
  rw [List.length_cons, plan, if_neg (by decide), if_neg (by decide), if_pos rfl]
  simp only []
  rw [if_neg e3, e1, if_pos (by omega), List.drop_left, e2, plan_fuel _ (r.length + 1) r p (by simp; omega) (by simp)]
  cases t with
  | nil => exact absurd rfl h0
  | cons c t => rfl

theorem key_start {c : UInt8} (h : (97 ≤ c.toNat ∧ c.toNat ≤ 122) ∨ (65 ≤ c.toNat ∧ c.toNat ≤ 90) ∨ 128 ≤ c.toNat) :
    c ≠ 123 ∧ c ≠ 125 ∧ c ≠ 37 ∧ (isAlpha c || charLen c > 1) = true ∧ delim c = false := by
  have : ∀ n : Fin 256, (97 ≤ n.val ∧ n.val ≤ 122) ∨ (65 ≤ n.val ∧ n.val ≤ 90) ∨ 128 ≤ n.val →
      UInt8.ofNat n.val ≠ 123 ∧ UInt8.ofNat n.val ≠ 125 ∧ UInt8.ofNat n.val ≠ 37 ∧ (isAlpha (UInt8.ofNat n.val) || charLen (UInt8.ofNat n.val) > 1) = true ∧
        delim (UInt8.ofNat n.val) = false := by decide +kernel
  have := this ⟨c.toNat, c.toNat_lt⟩ h
  simpa only [UInt8.ofNat_toNat] using this

theorem blank_keyDelim {w : List UInt8} (h : Blank w) : ∀ c ∈ w, keyDelim c = true := fun c hc => by
  rcases h c hc with rfl | rfl | rfl | rfl <;> decide

theorem blank_delim {w : List UInt8} (h : Blank w) : ∀ c ∈ w, delim c = true := fun c hc => by
  rcases h c hc with rfl | rfl | rfl | rfl <;> decide

theorem loop_key {k : Key} (hk : FmtKey k) {u u' f : List UInt8} (hu : Blank u) (hu' : Blank u') (hf : ∀ c, f.head? = some c → keyDelim c = false) {p x : List UInt8} (hx : (46 : UInt8) ∉ x)
    (hl : p.length + 1 + k.length ≤ 255) : loop (k ++ (u ++ 58 :: (u' ++ f))) (p ++ 46 :: x) = loop f (p ++ 46 :: k) := by
  obtain ⟨h1, c, t, rfl, hc⟩ := hk
  obtain ⟨c1, c2, c3, c4, _⟩ := key_start hc
  have hd : ∀ a ∈ c :: t, keyDelim a = false := fun a ha => by
    have := h1 a ha
    simp only [List.mem_cons, List.not_mem_nil, or_false, not_or] at this
    simp [keyDelim, this]
  have e1 : ((c :: t) ++ (u ++ 58 :: (u' ++ f))).takeWhile (fun c => !keyDelim c) = c :: t := by
    rw [List.takeWhile_append_of_pos (by intro a ha; simp [hd a ha])]
    cases u with
    | nil => simp [keyDelim]
    | cons a u => simp [blank_keyDelim hu a]
  have e2 : (u ++ 58 :: (u' ++ f)).dropWhile keyDelim = f := by
    rw [List.dropWhile_append_of_pos (blank_keyDelim hu), List.dropWhile_cons_of_pos (by decide), List.dropWhile_append_of_pos (blank_keyDelim hu')]
    cases f with
    | nil => rfl
    | cons c f => rw [List.dropWhile_cons_of_neg (by simp [hf c rfl])]
  unfold loop
  rw [List.cons_append, List.length_cons, plan, if_neg c1, if_neg c2, if_neg c3, if_pos c4]
  rw [show c :: (t ++ (u ++ 58 :: (u' ++ f))) = (c :: t) ++ (u ++ 58 :: (u' ++ f)) from rfl]
  simp only []
  have e3 : (if 46 ∈ p ++ 46 :: x then upToDot (p ++ 46 :: x) else p ++ 46 :: x) = p ++ [46] := by rw [if_pos (by simp), upToDot_eq hx]
  rw [e1, List.drop_left, e2, e3, List.append_assoc, if_pos (by simp at hl ⊢; omega)]
  exact plan_fuel _ _ _ _ (by simp; omega) (by simp)

/-- What `json_vscanf` asks for. -/
def convOf (x : List UInt8 × List UInt8) : Conv := ⟨x.1.head?.getD 0, if x.1 = [77] ∨ x.1 = [86] ∨ x.1 = [72] ∨ x.1 = [66] ∨ x.1 = [81] ∨ x.1 = [84] then [] else 37 :: x.1, x.2⟩

mutual
theorem fmt_loop : ∀ (f : Fmt) (p r : List UInt8) (R : List Conv) (e : Bool), f.Fine p.length e → (e = true → ∀ c ∈ r, delim c = true) → loop r p = some R →
    loop (f.text ++ r) p = some ((f.wants p).map convOf ++ R)
  | .conv t, p, r, R, e, hf, he, hr => by
    simp only [Fmt.Fine] at hf
    simp only [Fmt.text, Fmt.wants, List.cons_append, List.map_cons, List.map_nil, List.nil_append]
    rcases hf with hf | ⟨rfl, hf⟩
    · rw [loop_letter hf, hr, Option.map_some]
      rcases hf with rfl | rfl | rfl | rfl | rfl | rfl <;> rfl
    · have hR : R = [] := by rw [loop_delims p (he rfl)] at hr; simpa using hr.symm
      have := loop_number hf (r := []) p (he rfl) (.inr rfl) (by simp)
      rw [List.append_nil, loop_nil] at this
      rw [this, hR, Option.map_some]
      have hn : ¬ (t = [77] ∨ t = [86] ∨ t = [72] ∨ t = [66] ∨ t = [81] ∨ t = [84]) := fun h => by
        rcases h with rfl | rfl | rfl | rfl | rfl | rfl <;> exact hf.2.2.2 _ rfl (by simp [Letter])
      simp [convOf, hn]
  | .obj w l, p, r, R, e, hf, he, hr => by
    simp only [Fmt.Fine] at hf
    simp only [Fmt.text, Fmt.wants, List.cons_append, List.append_assoc, List.nil_append]
    rw [loop_open hf.1, loop_blank hf.2.1]
    refine fields_loop l p [] (125 :: r) R e hf.2.2 (by simp) (fun h c hc => ?_) fun x' hx' => by rw [loop_close hx', hr]
    rcases List.mem_cons.1 hc with rfl | hc
    · decide
    · exact he h c hc
theorem fields_loop : ∀ (l : Fields) (p x r : List UInt8) (R : List Conv) (e : Bool), l.Fine p.length e → (46 : UInt8) ∉ x → (e = true → ∀ c ∈ r, delim c = true) →
    (∀ x', (46 : UInt8) ∉ x' → loop r (p ++ 46 :: x') = some R) → loop (l.text ++ r) (p ++ 46 :: x) = some ((l.wants p).map convOf ++ R)
  | .nil, p, x, r, R, e, hl, hx, he, hr => by
    simp only [Fields.text, Fields.wants, List.nil_append, List.map_nil]
    exact hr x hx
  | .cons k u u' f w w' l, p, x, r, R, e, hl, hx, he, hr => by
    simp only [Fields.Fine] at hl
    obtain ⟨hk, hu, hu', hw, hw', hlen, hl, hf⟩ := hl
    have hk' : (46 : UInt8) ∉ k := fun h => by simpa using hk.1 _ h
    have hp : (p ++ 46 :: k).length = p.length + 1 + k.length := by simp; omega
    have hfh : ∀ z c, (f.text ++ z).head? = some c → keyDelim c = false := fun z c h => by
      cases f with
      | conv t => simp only [Fmt.text, List.cons_append, List.head?_cons, Option.some.injEq] at h; subst h; decide
      | obj w l => simp only [Fmt.text, List.cons_append, List.head?_cons, Option.some.injEq] at h; subst h; decide
    simp only [Fields.text, Fields.wants, List.append_assoc, List.cons_append, List.map_append]
    rw [loop_key hk hu hu' (hfh _) hx hlen]
    have ih := fields_loop l p k r R e hl hk' he hr
    rcases hf with ⟨rfl, hf⟩ | ⟨hne, hf⟩
    · simp only [Fields.comma, Fields.text, Fields.wants, List.nil_append, List.map_nil] at ih ⊢
      refine fmt_loop f _ _ R e (by rw [hp]; exact hf) (fun h c hc => ?_) (by rw [loop_blank hw]; exact ih)
      rcases List.mem_append.1 hc with hc | hc
      · exact blank_delim hw c hc
      · exact he h c hc
    · obtain ⟨k2, u2, u2', f2, w2, w2', l2, rfl⟩ : ∃ k2 u2 u2' f2 w2 w2' l2, l = .cons k2 u2 u2' f2 w2 w2' l2 := by
        cases l with
        | nil => exact absurd rfl hne
        | cons => exact ⟨_, _, _, _, _, _, _, rfl⟩
      rw [Fields.comma, List.cons_append]
      have hrest : loop (w ++ 44 :: (w' ++ ((Fields.cons k2 u2 u2' f2 w2 w2' l2).text ++ r))) (p ++ 46 :: k) = some (((Fields.cons k2 u2 u2' f2 w2 w2' l2).wants p).map convOf ++ R) := by
        rw [loop_blank hw, loop_skip (blank_skip (by simp)), loop_blank hw', ih]
      rcases hf with hf | ⟨t, rfl, ht⟩
      · exact fmt_loop f _ _ _ false (by rw [hp]; exact hf) (by simp) hrest
      · have hs : ∀ c, ((Fields.cons k2 u2 u2' f2 w2 w2' l2).text ++ r).head? = some c → delim c = false := fun c hc => by
          rw [Fields.Fine] at hl
          obtain ⟨_, a, b, h2, h3⟩ := hl.1
          rw [Fields.text, h2] at hc
          simp only [List.cons_append, List.head?_cons, Option.some.injEq] at hc
          subst hc
          exact (key_start h3).2.2.2.2
        have := loop_number ht (w := w ++ 44 :: w') (r := (Fields.cons k2 u2 u2' f2 w2 w2' l2).text ++ r) (p ++ 46 :: k) (fun c hc => by
          rcases List.mem_append.1 hc with hc | hc
          · exact blank_delim hw c hc
          · rcases List.mem_cons.1 hc with rfl | hc
            · decide
            · exact blank_delim hw' c hc) (.inl (by simp)) hs
        simp only [List.append_assoc, List.cons_append] at this
        simp only [Fmt.text, List.cons_append]
        have hn : ¬ (t = [77] ∨ t = [86] ∨ t = [72] ∨ t = [66] ∨ t = [81] ∨ t = [84]) := fun h => by
          rcases h with rfl | rfl | rfl | rfl | rfl | rfl <;> exact ht.2.2.2 _ rfl (by simp [Letter])
        rw [this, ih]
        simp [Fmt.wants, convOf, hn]
end

/-- The loop finds what a format asks for. -/
theorem plan_format {F : Fmt} (h : F.Fine 0 true) : plan (F.text.length + 1) F.text [] = some ((F.wants []).map convOf) := by
  have := fmt_loop F [] [] [] true h (by simp) rfl
  simpa [loop] using this

/-! ### The callbacks -/

/-- The parts with this path. -/
def hits (l : List Part) (want : List UInt8) : List Part := l.filter fun x => x.path = want

theorem hits_append (a b : List Part) (want : List UInt8) : hits (a ++ b) want = hits a want ++ hits b want := List.filter_append ..

theorem hits_none {l : List Part} {want : List UInt8} (h : ∀ x ∈ l, x.path ≠ want) : hits l want = [] := by
  unfold hits
  rw [List.filter_eq_nil_iff]
  simpa using h

variable {α : Type} (lib : List UInt8 → List UInt8 → Int × Option α)

/-- What is stored for a part. -/
def storePart (c : Conv) (i : Info α) (x : Part) : Info α := store lib c i (partToken x) x.doc.shown

theorem scanf_skip {c : Conv} {i : Info α} {e : Event} (h : (e.type = .objectStart ∨ e.type = .arrayStart) ∨ (0 : UInt8) ∉ e.path ∧ e.path ≠ c.path) : scanfCb lib c i e = some i := by
  unfold scanfCb
  by_cases ht : e.type = .objectStart ∨ e.type = .arrayStart
  · simp [tokenOf, ht]
  · rcases h with h | ⟨h0, h⟩
    · exact absurd h ht
    · simp [tokenOf, ht, cstr_eq h0, h]

theorem scanf_hit {c : Conv} {i : Info α} {e : Event} {x : Part} (ht : ¬ (e.type = .objectStart ∨ e.type = .arrayStart)) (h0 : (0 : UInt8) ∉ e.path) (h : e.path = c.path)
    (hx : tokenOf e = partToken x) : scanfCb lib c i e = some (storePart lib c i x) := by
  have h1 : (tokenOf e).ptr = some (x.doc.from x.post) := by rw [hx]; rfl
  have h2 : e.len = x.doc.shown.length := by
    have : (tokenOf e).len = x.doc.shown.length := by rw [hx]; rfl
    exact this
  have h3 : (x.doc.from x.post).take x.doc.shown.length = x.doc.shown := by
    unfold Doc.from Doc.shown
    cases hs : x.doc.isString with
    | false => simp
    | true =>
      simp only [if_true]
      rw [List.take_append_of_le_length (by simp), List.length_dropLast, ← List.dropLast_eq_take]
  unfold scanfCb storePart
  rw [h1]
  simp only
  rw [cstr_eq h0, h, hx, h2, h3, if_neg (by simp)]

mutual
theorem doc_scan : ∀ (D : Doc) (j : J), D.Says j → ∀ (c : Conv) (i : Info α) (nm : Option (List UInt8)) (p : List UInt8) (st : Step) (r : List UInt8), (0 : UInt8) ∉ p ++ st.text →
    (D.events nm (p ++ st.text) r).foldlM (scanfCb lib c) i = some ((hits (D.parts p st r) c.path).foldl (storePart lib c) i)
  | .atom raw, j, hj, c, i, nm, p, st, r, h0 => by
    simp only [Doc.events, List.foldlM_cons, List.foldlM_nil, Doc.parts]
    by_cases h : p ++ st.text = c.path
    · obtain ⟨t1, t2, _, _⟩ := atomType_ne raw
      rw [scanf_hit lib (x := ⟨p, st, .atom raw, r⟩) (by simp [t1, t2]) h0 h (atom_token (p' := p) (st := st))]
      simp [hits, Part.path, h]
    · rw [scanf_skip lib (.inr ⟨h0, h⟩)]
      simp [hits, Part.path, h]
  | .list w l, j, hj, c, i, nm, p, st, r, h0 => by
    simp only [Doc.Says] at hj
    obtain ⟨js, rfl, hw, hl⟩ := hj
    simp only [Doc.events, List.foldlM_cons, Doc.parts]
    rw [scanf_skip lib (.inl (.inr rfl))]
    simp only [Option.bind_eq_bind, Option.bind_some]
    rw [List.foldlM_append, elems_scan l js hl c _ _ 0 _ h0]
    simp only [Option.bind_eq_bind, Option.bind_some, List.foldlM_cons, List.foldlM_nil]
    rw [show (⟨p, st, .list w l, r⟩ : Part) :: l.parts (p ++ st.text) 0 (93 :: r) = [⟨p, st, .list w l, r⟩] ++ l.parts (p ++ st.text) 0 (93 :: r) from rfl, hits_append]
    by_cases h : p ++ st.text = c.path
    · have : hits (l.parts (p ++ st.text) 0 (93 :: r)) c.path = [] := hits_none fun x hx => by
        obtain ⟨c', q, h1, h2⟩ := parts_elems l _ 0 _ x hx
        rw [h1, ← h]
        simp
      rw [this, scanf_hit lib (x := ⟨p, st, .list w l, r⟩) (by simp) h0 h (list_token (p' := p) (st := st))]
      simp [hits, Part.path, h]
    · rw [scanf_skip lib (.inr ⟨h0, h⟩)]
      simp [hits, Part.path, h]
  | .record w l, j, hj, c, i, nm, p, st, r, h0 => by
    simp only [Doc.Says] at hj
    obtain ⟨js, rfl, hw, hl⟩ := hj
    simp only [Doc.events, List.foldlM_cons, Doc.parts]
    rw [scanf_skip lib (.inl (.inl rfl))]
    simp only [Option.bind_eq_bind, Option.bind_some]
    rw [List.foldlM_append, members_scan l js hl c _ _ _ h0]
    simp only [Option.bind_eq_bind, Option.bind_some, List.foldlM_cons, List.foldlM_nil]
    rw [show (⟨p, st, .record w l, r⟩ : Part) :: l.parts (p ++ st.text) (125 :: r) = [⟨p, st, .record w l, r⟩] ++ l.parts (p ++ st.text) (125 :: r) from rfl, hits_append]
    by_cases h : p ++ st.text = c.path
    · have : hits (l.parts (p ++ st.text) (125 :: r)) c.path = [] := hits_none fun x hx => by
        obtain ⟨c', q, h1, h2⟩ := parts_members l _ _ x hx
        rw [h1, ← h]
        simp
      rw [this, scanf_hit lib (x := ⟨p, st, .record w l, r⟩) (by simp) h0 h (record_token (p' := p) (st := st))]
      simp [hits, Part.path, h]
    · rw [scanf_skip lib (.inr ⟨h0, h⟩)]
      simp [hits, Part.path, h]
theorem elems_scan : ∀ (l : Elems) (js : List J), l.Says js → ∀ (c : Conv) (i : Info α) (p : List UInt8) (n : Nat) (r : List UInt8), (0 : UInt8) ∉ p →
    (l.events p n r).foldlM (scanfCb lib c) i = some ((hits (l.parts p n r) c.path).foldl (storePart lib c) i)
  | .nil, js, hl, c, i, p, n, r, h0 => by simp [Elems.events, Elems.parts, hits]
  | .cons d w w' l, js, hl, c, i, p, n, r, h0 => by
    simp only [Elems.Says] at hl
    obtain ⟨j, js, rfl, hd, hw, hw', hl⟩ := hl
    simp only [Elems.events, Elems.parts]
    rw [List.foldlM_append, show p ++ indexText n = p ++ (Step.index n).text from rfl, doc_scan d j hd c i _ _ _ _ (noNul_elem h0 n), hits_append, List.foldl_append]
    exact elems_scan l js hl c _ p (n + 1) r h0
theorem members_scan : ∀ (l : Members) (js : List (Key × J)), l.Says js → ∀ (c : Conv) (i : Info α) (p r : List UInt8), (0 : UInt8) ∉ p →
    (l.events p r).foldlM (scanfCb lib c) i = some ((hits (l.parts p r) c.path).foldl (storePart lib c) i)
  | .nil, js, hl, c, i, p, r, h0 => by simp [Members.events, Members.parts, hits]
  | .cons k u u' d w w' l, js, hl, c, i, p, r, h0 => by
    simp only [Members.Says] at hl
    obtain ⟨j, js, rfl, hk, hd, hu, hu', hw, hw', hl⟩ := hl
    simp only [Members.events, Members.parts]
    rw [List.foldlM_append, show p ++ 46 :: k = p ++ (Step.key k).text from rfl, doc_scan d j hd c i _ _ _ _ (noNul_member h0 hk), hits_append, List.foldl_append]
    exact members_scan l js hl c _ p r h0
end

/-! ### What is stored -/

/-- Two hexadecimal digits for each byte. -/
inductive HexText : List UInt8 → List UInt8 → Prop
  | nil : HexText [] []
  | cons {a b : UInt8} {n m : Nat} {t bs : List UInt8} : Hex a n → Hex b m → HexText t bs → HexText (a :: b :: t) (UInt8.ofNat (n * 16 + m) :: bs)

theorem hexPairs_eq {t bs : List UInt8} (h : HexText t bs) : hexPairs t = bs := by
  induction h with
  | nil => rfl
  | @cons a b n m t bs hx hy _ ih =>
    obtain ⟨_, ex, bx, _⟩ := hex_xdigit hx
    obtain ⟨_, ey, by_, _⟩ := hex_xdigit hy
    have key : ∀ n m : Fin 16, UInt8.ofNat n.val * 16 ||| UInt8.ofNat m.val = UInt8.ofNat (n.val * 16 + m.val) := by decide +kernel
    have := key ⟨n, bx⟩ ⟨m, by_⟩
    simp only at this
    rw [hexPairs, ih, ex, ey, this]

theorem number_head {neg : Bool} {t : List UInt8} (h : IsNumeral t) : ∃ c u, (if neg then [45] else []) ++ t = c :: u ∧ c ≠ 34 ∧ c ≠ 110 ∧ c ≠ 116 ∧ c ≠ 102 := by
  cases neg with
  | true => exact ⟨45, t, rfl, by decide⟩
  | false =>
    obtain ⟨i, f, e, rfl, hi, _⟩ := h
    obtain ⟨c, u, rfl⟩ := List.exists_cons_of_ne_nil hi.1
    have := hi.2 c (by simp)
    refine ⟨c, u ++ (f ++ e), rfl, ?_, ?_, ?_, ?_⟩ <;> (rintro rfl; revert this; simp [Digit])

/-- The type of a token tells `true` and `null` from all other values. -/
theorem says_type {D : Doc} {j : J} (hD : D.Says j) : (endType D = .true ↔ D.text = [116, 114, 117, 101]) ∧ (endType D = .null ↔ D.text = [110, 117, 108, 108]) := by
  cases D with
  | list w l => simp [endType, Doc.text]
  | record w l => simp [endType, Doc.text]
  | atom raw =>
    simp only [Doc.Says] at hD
    obtain ⟨hj, h1, h2⟩ := hD
    simp only [endType, Doc.text]
    cases hj with
    | null => decide
    | true => decide
    | false => decide
    | @num neg t hn =>
      obtain ⟨c, u, hc, c1, c2, c3, c4⟩ := number_head (neg := neg) hn
      rw [hc]
      simp [atomType, c1, c2, c3, c4]
    | @str body bs hb => simp [atomType]
    | arr => exact absurd rfl (h1 _)
    | obj => exact absurd rfl (h2 _)

/-- `Reads t x n ws`: reading the part `x` by `%t` stores `ws`, and counts as `n` conversions. -/
inductive Reads : List UInt8 → Part → Int → List (Write α) → Prop
  /-- `%B`: whether it is `true`. -/
  | bool {x : Part} : Reads [66] x 1 [.bool (x.doc.text = [116, 114, 117, 101])]
  /-- `%M`: a function is called with its bytes. -/
  | call {x : Part} : Reads [77] x 1 [.call x.doc.shown]
  /-- `%Q`: the bytes a string describes. -/
  | str {x : Part} {body bs : List UInt8} : x.doc.text = 34 :: (body ++ [34]) → Chars body bs → Reads [81] x 1 [.str (some bs)]
  /-- `%Q`: `null` is stored as a null pointer and not counted. -/
  | null {x : Part} : x.doc.text = [110, 117, 108, 108] → Reads [81] x 0 [.str none]
  /-- `%V`: the bytes whose Base64 form it is. -/
  | b64 {x : Part} {bs : List UInt8} : x.doc.shown = JsonEsc.b64enc bs → Reads [86] x 1 [.b64 bs]
  /-- `%H`: the bytes whose hexadecimal digits it has. -/
  | hex {x : Part} {bs : List UInt8} : HexText x.doc.shown bs → Reads [72] x 1 [.hex bs]
  /-- `%T`: its token. -/
  | token {x : Part} : Reads [84] x 1 [.token (partToken x)]
  /-- Numbers of up to 31 bytes are read by the C library. -/
  | number {x : Part} {t : List UInt8} : Number t → x.doc.shown.length ≤ 31 → Reads t x (lib (37 :: t) x.doc.shown).1 ((lib (37 :: t) x.doc.shown).2.map Write.lib).toList
  /-- Longer ones are ignored. -/
  | long {x : Part} {t : List UInt8} : Number t → 32 ≤ x.doc.shown.length → Reads t x 0 []

theorem reads_store {t : List UInt8} {x : Part} {n : Int} {ws : List (Write α)} (h : Reads lib t x n ws) {j : J} (hj : x.doc.Says j) (p : List UInt8) (i : Info α) :
    storePart lib (convOf (t, p)) i x = ⟨i.count + n, i.log ++ ws⟩ := by
  have num : ∀ t : List UInt8, Number t → t.head?.getD 0 ≠ 66 ∧ t.head?.getD 0 ≠ 77 ∧ t.head?.getD 0 ≠ 81 ∧ t.head?.getD 0 ≠ 72 ∧ t.head?.getD 0 ≠ 86 ∧ t.head?.getD 0 ≠ 84 ∧
      (convOf (t, p)).fmt = 37 :: t := fun t ht => by
    have hn : ¬ (t = [77] ∨ t = [86] ∨ t = [72] ∨ t = [66] ∨ t = [81] ∨ t = [84]) := fun h => by
      rcases h with rfl | rfl | rfl | rfl | rfl | rfl <;> exact ht.2.2.2 _ rfl (by simp [Letter])
    obtain ⟨c, u, rfl⟩ := List.exists_cons_of_ne_nil ht.1
    have := ht.2.2.2 c rfl
    simp only [Letter, List.cons.injEq, and_true, not_or] at this
    simp only [List.head?_cons, Option.getD_some]
    refine ⟨this.2.2.2.1, this.1, this.2.2.2.2.1, this.2.2.1, this.2.1, this.2.2.2.2.2, ?_⟩
    simp only [convOf]
    rw [if_neg hn]
  unfold storePart
  cases h with
  | bool => simp [store, convOf, partToken, (says_type hj).1]
  | call => simp [store, convOf]
  | @str _ body bs hb hc =>
    have hn : endType x.doc ≠ .null := fun h => by
      have := (says_type hj).2.1 h
      rw [hb] at this
      cases this
    have hs : x.doc.shown = body := by simp [Doc.shown, Doc.isString, hb]
    simp [store, convOf, partToken, hn, hs, unescape_chars hc]
  | null hx =>
    have hn : endType x.doc = .null := (says_type hj).2.2 hx
    simp [store, convOf, partToken, hn]
  | b64 hx => simp [store, convOf, hx, C85_base64]
  | hex hx => simp [store, convOf, hexPairs_eq hx]
  | token => simp [store, convOf]
  | number ht hx =>
    obtain ⟨h1, h2, h3, h4, h5, h6, h7⟩ := num t ht
    unfold store
    rw [h7]
    simp only [convOf]
    rw [if_neg h1, if_neg h2, if_neg h3, if_neg h4, if_neg h5, if_neg h6, if_neg (by omega)]
  | long ht hx =>
    obtain ⟨h1, h2, h3, h4, h5, h6, h7⟩ := num t ht
    unfold store
    simp only [convOf]
    rw [if_neg h1, if_neg h2, if_neg h3, if_neg h4, if_neg h5, if_neg h6, if_pos hx]
    simp

/-- The parts with a path are read one after the other. -/
inductive Each (t : List UInt8) : List Part → Int → List (Write α) → Prop
  | nil : Each t [] 0 []
  | cons {x xs n m ws ws'} : Reads lib t x n ws → Each t xs m ws' → Each t (x :: xs) (n + m) (ws ++ ws')

/-- What is asked for is read from the parts with these paths, in turn; the numbers of conversions are added. -/
inductive Answers (l : List Part) : List (List UInt8 × List UInt8) → Int → List (List (Write α)) → Prop
  | nil : Answers l [] 0 []
  | cons {t p cs n m ws wss} : Each lib t (hits l p) n ws → Answers l cs m wss → Answers l ((t, p) :: cs) (n + m) (ws :: wss)

theorem each_store {t : List UInt8} {xs : List Part} {n : Int} {ws : List (Write α)} (h : Each lib t xs n ws) (p : List UInt8) : (∀ x ∈ xs, ∃ j, x.doc.Says j) → ∀ i : Info α,
    xs.foldl (storePart lib (convOf (t, p))) i = ⟨i.count + n, i.log ++ ws⟩ := by
  induction h with
  | nil => intro _ i; simp
  | @cons x xs n m ws ws' hx _ ih =>
    intro hs i
    obtain ⟨j, hj⟩ := hs x (by simp)
    rw [List.foldl_cons, reads_store lib hx hj, ih fun y hy => hs y (List.mem_cons_of_mem _ hy)]
    simp [Int.add_assoc]

/-- **C91** for formats whose numbers are not the last fields of inner objects: `json_scanf` reads every value at a path the format names, as the format says, and
answers the number of conversions.  Everything else of the text is ignored. -/
theorem C91_scanf_partial {D : Doc} {j : J} (hD : D.Says j) (hf : Json.Fits 0 j) {d : Nat} (hd : D.depth ≤ d) {w r : List UInt8} (hw : Blank w) (hr : Ends r) {F : Fmt} (hF : F.Fine 0 true)
    {n : Int} {wss : List (List (Write α))} (ha : Answers lib (D.parts [] .root r) (F.wants []) n wss) :
    scanf lib d (w ++ (D.text ++ r)) F.text = some (n, wss) := by
  obtain ⟨c0, u0, hcu, _⟩ := doc_head hD
  have hwalk : ∀ (c : Conv) (i : Info α), left (walk (scanfCb lib c) d (w ++ (D.text ++ r)) i) = some ((hits (D.parts [] .root r) c.path).foldl (storePart lib c) i) := fun c i => by
    unfold walk
    rw [if_neg (by rw [hcu]; simp), doc_walk D j hD d ⟨w ++ (D.text ++ r), [], none, i⟩ w r _ rfl hw hr hd (by simp) (by simp) hf
      (doc_scan lib D j hD c i none [] .root r (by simp [Step.text]))]
    rfl
  unfold scanf
  rw [plan_format hF, Option.bind_some]
  have key : ∀ {cs : List (List UInt8 × List UInt8)} {n : Int} {wss : List (List (Write α))}, Answers lib (D.parts [] .root r) cs n wss → ∀ (m : Int) (out : List (List (Write α))),
      (cs.map convOf).foldlM (fun (a : Int × List (List (Write α))) c => (left (walk (scanfCb lib c) d (w ++ (D.text ++ r)) ⟨a.1, []⟩)).map fun i => (i.count, a.2 ++ [i.log])) (m, out) =
        some (m + n, out ++ wss) := by
    intro cs n wss h
    induction h with
    | nil => intro m out; simp
    | @cons t p cs n m ws wss he _ ih =>
      intro m' out
      rw [List.map_cons, List.foldlM_cons, hwalk, show (convOf (t, p)).path = p from rfl, each_store lib he p fun x hx => doc_says D j hD [] .root r x (List.mem_filter.1 hx).1]
      simp only [Option.map_some, Option.bind_eq_bind, Option.bind_some]
      rw [ih]
      simp [Int.add_assoc]
  have := key ha 0 []
  simpa using this

/-! ### Paths -/

/-- The members with a key, of the members with a key, and so on. -/
def Members.under (k : Key) (l : Members) : List Doc := (l.pairs.filter fun m => m.1 = k).map (·.2)

/-- The values at the end of a chain of keys. -/
def reach : List Key → Doc → List Doc
  | [], D => [D]
  | k :: ks, .record _ l => (Members.under k l).flatMap (reach ks)
  | _ :: _, _ => []

theorem dotless_split {k k' a b : List UInt8} (h : Dotless k) (h' : Dotless k') (ha : a = [] ∨ ∃ c q, a = c :: q ∧ (c = 46 ∨ c = 91)) (hb : b = [] ∨ ∃ c q, b = c :: q ∧ (c = 46 ∨ c = 91))
    (he : k ++ a = k' ++ b) : k = k' := by
  have take : ∀ (k a : List UInt8), Dotless k → (a = [] ∨ ∃ c q, a = c :: q ∧ (c = 46 ∨ c = 91)) → (k ++ a).takeWhile (fun c => c ≠ 46 && c ≠ 91) = k := fun k a hk ha => by
    rw [List.takeWhile_append_of_pos (by
      intro c hc
      have h1 : c ≠ 46 := fun e => hk.1 (e ▸ hc)
      have h2 : c ≠ 91 := fun e => hk.2 (e ▸ hc)
      simp [h1, h2])]
    rcases ha with rfl | ⟨c, q, rfl, rfl | rfl⟩ <;> simp
  rw [← take k a h ha, he, take k' b h' hb]

theorem keyPath_head (ks : List Key) : keyPath ks = [] ∨ ∃ c q, keyPath ks = c :: q ∧ (c = 46 ∨ c = 91) := by
  cases ks with
  | nil => exact .inl rfl
  | cons k ks => exact .inr ⟨46, k ++ keyPath ks, rfl, .inl rfl⟩

theorem elems_open : ∀ (l : Elems) (p : List UInt8) (i : Nat) (r : List UInt8) (x : Part), x ∈ l.parts p i r → ∃ q, x.path = p ++ 91 :: q
  | .nil, p, i, r, x, h => by simp [Elems.parts] at h
  | .cons d w w' l, p, i, r, x, h => by
    simp only [Elems.parts, List.mem_append] at h
    rcases h with h | h
    · rcases parts_text d _ _ _ x h with h | ⟨c, q, h1, h2⟩
      · exact ⟨_, by rw [h]; rfl⟩
      · exact ⟨(dec i ++ [93]) ++ c :: q, by rw [h1]; simp [Step.text, index, dec]⟩
    · exact elems_open l p (i + 1) r x h

mutual
/-- The parts with a path are the values at the end of its keys. -/
theorem doc_reach : ∀ (D : Doc), D.Keys Dotless → ∀ (ks : List Key), (∀ k ∈ ks, Dotless k) → ∀ (p : List UInt8) (st : Step) (r : List UInt8),
    (hits (D.parts p st r) (p ++ st.text ++ keyPath ks)).map (·.doc) = reach ks D
  | .atom raw, hk, [], hks, p, st, r => by simp [Doc.parts, hits, Part.path, keyPath, reach]
  | .atom raw, hk, k :: ks, hks, p, st, r => by simp [Doc.parts, hits, Part.path, keyPath, reach]
  | .list w l, hk, [], hks, p, st, r => by
    have : hits (l.parts (p ++ st.text) 0 (93 :: r)) (p ++ st.text) = [] := hits_none fun x hx => by
      obtain ⟨c, q, h1, _⟩ := parts_elems l _ 0 _ x hx
      rw [h1]
      simp
    rw [Doc.parts, show ∀ (x : Part) l, x :: l = [x] ++ l from fun _ _ => rfl, hits_append, show keyPath [] = [] from rfl, List.append_nil, this]
    simp [hits, Part.path, reach]
  | .list w l, hk, k :: ks, hks, p, st, r => by
    have : hits (l.parts (p ++ st.text) 0 (93 :: r)) (p ++ st.text ++ keyPath (k :: ks)) = [] := hits_none fun x hx => by
      have := elems_open l _ 0 _ x hx
      obtain ⟨q, h1⟩ := this
      rw [h1]
      simp [keyPath]
    rw [Doc.parts, show ∀ (x : Part) l, x :: l = [x] ++ l from fun _ _ => rfl, hits_append, this]
    simp [hits, Part.path, reach, keyPath]
  | .record w l, hk, [], hks, p, st, r => by
    have : hits (l.parts (p ++ st.text) (125 :: r)) (p ++ st.text) = [] := hits_none fun x hx => by
      obtain ⟨c, q, h1, _⟩ := parts_members l _ _ x hx
      rw [h1]
      simp
    rw [Doc.parts, show ∀ (x : Part) l, x :: l = [x] ++ l from fun _ _ => rfl, hits_append, show keyPath [] = [] from rfl, List.append_nil, this]
    simp [hits, Part.path, reach]
  | .record w l, hk, k :: ks, hks, p, st, r => by
    rw [Doc.parts, show ∀ (x : Part) l, x :: l = [x] ++ l from fun _ _ => rfl, hits_append, List.map_append, members_reach l hk k ks hks (p ++ st.text) (125 :: r)]
    simp [hits, Part.path, reach, keyPath]
theorem members_reach : ∀ (l : Members), l.Keys Dotless → ∀ (k : Key) (ks : List Key), (∀ k' ∈ k :: ks, Dotless k') → ∀ (p r : List UInt8),
    (hits (l.parts p r) (p ++ keyPath (k :: ks))).map (·.doc) = (Members.under k l).flatMap (reach ks)
  | .nil, hk, k, ks, hks, p, r => by simp [Members.parts, hits, Members.under, Members.pairs]
  | .cons k' u u' d w w' l, hk, k, ks, hks, p, r => by
    simp only [Members.Keys] at hk
    rw [Members.parts, hits_append, List.map_append, members_reach l hk.2.2 k ks hks]
    by_cases h : k' = k
    · subst h
      have := doc_reach d hk.2.1 ks (fun a ha => hks a (List.mem_cons_of_mem _ ha)) p (.key k') (w ++ (l.comma w' ++ (l.text ++ r)))
      rw [show p ++ keyPath (k' :: ks) = p ++ (Step.key k').text ++ keyPath ks by simp [keyPath, Step.text], this]
      simp [Members.under, Members.pairs]
    · have : hits (d.parts p (.key k') (w ++ (l.comma w' ++ (l.text ++ r)))) (p ++ keyPath (k :: ks)) = [] := hits_none fun x hx => by
        intro he
        apply h
        rcases parts_text d _ _ _ x hx with rfl | ⟨c, q, h1, h2⟩
        · refine dotless_split (a := []) (b := keyPath ks) hk.1 (hks k (by simp)) (.inl rfl) (keyPath_head ks) ?_
          simpa [Part.path, Step.text, keyPath] using he
        · refine dotless_split (a := c :: q) (b := keyPath ks) hk.1 (hks k (by simp)) (.inr ⟨c, q, rfl, h2⟩) (keyPath_head ks) ?_
          rw [h1] at he
          simpa [Step.text, keyPath] using he
      rw [this]
      simp [Members.under, Members.pairs, h]
end

/-- **C91**: where keys have no dots and brackets, the parts a path names are the values at the end of its keys. -/
theorem C91_paths {D : Doc} (hk : D.Keys Dotless) {ks : List Key} (hks : ∀ k ∈ ks, Dotless k) (r : List UInt8) :
    (hits (D.parts [] .root r) (keyPath ks)).map (·.doc) = reach ks D := by
  simpa [Step.text] using doc_reach D hk ks hks [] .root r

/-! ### Concrete cases, and what is violated -/

/-- `{a: %T, b:%Q}` read from `{"a": [1,{}] ,"b":"x"}`. -/
example : let F : Fmt := .obj [] (.cons [97] [] [32] (.conv [84]) [] [32] (.cons [98] [] [] (.conv [81]) [] [] .nil))
    F.text = [123, 97, 58, 32, 37, 84, 44, 32, 98, 58, 37, 81, 125] ∧ F.Fine 0 true ∧ ∃ t, Answers lib (demoDoc.parts [] .root []) (F.wants []) 2 [[.token t], [.str (some [120])]] ∧ t.len = 6 := by
  have k1 : FmtKey [97] := ⟨by decide, 97, [], rfl, by decide⟩
  have k2 : FmtKey [98] := ⟨by decide, 98, [], rfl, by decide⟩
  refine ⟨by simp [Fmt.text, Fields.text, Fields.comma], ?_, partToken ⟨[], .key [97], .list [] (.cons (.atom [49]) [] [] (.cons (.record [] .nil) [] [] .nil)), [32] ++ (44 :: ([34, 98, 34, 58, 34, 120, 34] ++ [125]))⟩, ?_, by decide⟩
  · simp only [Fmt.Fine, Fields.Fine]
    exact ⟨by omega, blank_nil, k1, blank_nil, by simp [Blank], blank_nil, by simp [Blank], by simp, ⟨k2, blank_nil, blank_nil, blank_nil, blank_nil, by simp, trivial,
      .inl ⟨trivial, .inl (by simp [Letter])⟩⟩, .inr ⟨by simp, .inl (.inl (by simp [Letter]))⟩⟩
  · exact .cons (n := 1) (m := 1) (.cons (n := 1) (m := 0) (ws' := []) .token .nil) (.cons (n := 1) (m := 0) (.cons (n := 1) (m := 0) (ws' := []) (.str (body := [120]) rfl (.plain (by simp [Plain]) .nil)) .nil) .nil)

/-- The C library takes every text. -/
def anyText : List UInt8 → List UInt8 → Int × Option (List UInt8) := fun _ s => (1, some s)

/-- The result, and how often something was stored for each conversion. -/
def tally (a : Option (Int × List (List (Write (List UInt8))))) : Option (Int × List Nat) := a.map fun a => (a.1, a.2.map List.length)

/-- **C91** is violated: behind a number the closing bracket of an inner object is skipped; `{a:{b:%d},c:%d}` does not find the `c` of `{"a":{"b":1},"c":2}`. -/
theorem C91_violation_bracket : tally (scanf anyText 100 [123, 34, 97, 34, 58, 123, 34, 98, 34, 58, 49, 125, 44, 34, 99, 34, 58, 50, 125] [123, 97, 58, 123, 98, 58, 37, 100, 125, 44, 99, 58, 37, 100, 125]) = some (1, [1, 0]) := by decide +kernel

/-- With `%T` instead it is found. -/
example : tally (scanf anyText 100 [123, 34, 97, 34, 58, 123, 34, 98, 34, 58, 49, 125, 44, 34, 99, 34, 58, 50, 125] [123, 97, 58, 123, 98, 58, 37, 84, 125, 44, 99, 58, 37, 100, 125]) = some (2, [1, 1]) := by decide +kernel

/-- **C91** is violated: a key that occurs twice is counted twice; `{a:%T}` of `{"a":1,"a":2}` gives 2. -/
theorem C91_violation_twice : tally (scanf anyText 100 [123, 34, 97, 34, 58, 49, 44, 34, 97, 34, 58, 50, 125] [123, 97, 58, 37, 84, 125]) = some (2, [2]) := by decide +kernel

/-- **C91** is violated: behind a key with a dot, keys are not found; `{x.y:%T,z:%T}` does not find the `z` of `{"x.y":1,"z":2}`. -/
theorem C91_violation_dot : tally (scanf anyText 100 [123, 34, 120, 46, 121, 34, 58, 49, 44, 34, 122, 34, 58, 50, 125] [123, 120, 46, 121, 58, 37, 84, 44, 122, 58, 37, 84, 125]) = some (1, [1, 0]) := by decide +kernel

/-- **C91** is violated: a format with more than 255 opening brackets writes behind the end of the path. -/
theorem C91_violation_deep (d n : Nat) (h : 256 ≤ n) (s : List UInt8) : scanf lib d s (List.replicate n 123) = none := by
  have key : ∀ (n : Nat) (p : List UInt8), 256 ≤ p.length + n → p.length ≤ 255 → loop (List.replicate n 123) p = none := fun n => by
    induction n with
    | zero => intro p h1 h2; omega
    | succ n ih =>
      intro p h1 h2
      rw [List.replicate_succ]
      by_cases h3 : p.length + 1 ≤ 255
      · rw [loop_open h3, ih _ (by simp; omega) (by simpa using h3)]
      · unfold loop
        rw [List.length_cons, plan, if_pos rfl, if_neg h3]
  unfold scanf
  rw [show plan ((List.replicate n (123 : UInt8)).length + 1) (List.replicate n 123) [] = none from key n [] (by simpa using h) (by simp)]
  rfl

/-- **C91** is violated: a conversion of more than 19 bytes writes behind the end of its buffer. -/
theorem C91_violation_long (d : Nat) (s t : List UInt8) (h : 19 ≤ t.length) (hd : ∀ c ∈ t, delim c = false) (ht : ∀ c, t.head? = some c → ¬ Letter [c]) : scanf lib d s (37 :: t) = none := by
  have : plan ((37 :: t).length + 1) (37 :: t) [] = none := by
    obtain ⟨c, u, rfl⟩ := List.exists_cons_of_ne_nil (l := t) (by rintro rfl; simp at h)
    have hc := ht c rfl
    simp only [Letter, List.cons.injEq, and_true, not_or] at hc
    have e : (c :: u).takeWhile (fun c => !delim c) = c :: u := by
      have := List.takeWhile_append_of_pos (p := fun c => !delim c) (l₁ := c :: u) (l₂ := []) (by intro a ha; simp [hd a ha])
      simpa using this
    rw [plan, if_neg (by decide), if_neg (by decide), if_pos rfl]
    simp only []
    rw [if_neg (by simp [hc]), e, if_neg (by omega)]
  unfold scanf
  rw [this]
  rfl

end Mjs.Props
