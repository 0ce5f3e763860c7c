import Verif.Lemmas.Ffi

/-!
# Declarations as text: what the parser's searches find in them
-/

namespace Mjs.Ffi
open Mjs.FfiSpec Mjs.Spec

theorem spells_head {t : CType} {w : List UInt8} (h : Spells t w) : ∃ c l, w = c :: l ∧ isspace c = false ∧ c ≠ 32 := by
  cases h <;> exact ⟨_, _, rfl, by decide, by decide⟩

/-- Leading spaces can be left out of a type. -/
theorem type_drop {t : CType} {s : List UInt8} (h : TypeText t s) : TypeText t (s.dropWhile (· == 32)) := by
  obtain ⟨a, w, b, ha, hw, hb, rfl⟩ := h
  refine ⟨a.dropWhile (· == 32), w, b, fun c hc => ha c ((List.dropWhile_sublist _).mem hc), hw, hb, ?_⟩
  obtain ⟨c, l, rfl, -, hc⟩ := spells_head hw
  rw [List.append_assoc, List.dropWhile_append]
  split
  · rename_i e; simp at e; simp [hc, e]
  · simp

theorem dropBlank_append {a r : List UInt8} {c : UInt8} (h : c ≠ 32) :
    (a ++ c :: r).dropWhile (· == 32) = a.dropWhile (· == 32) ++ c :: r := by
  rw [List.dropWhile_append]
  split
  · rename_i e; simp at e; simp [h, e]
  · rfl

theorem param_drop {p : Param} {s : List UInt8} (h : ParamText p s) : ParamText p (s.dropWhile (· == 32)) := by
  cases p with
  | plain t => exact ⟨h.1, type_drop h.2⟩
  | fn ret args =>
    obtain ⟨r, nm, m, as, z, hr, hn, hm, ha, hz, rfl⟩ := h
    refine ⟨r.dropWhile (· == 32), nm, m, as, z, type_drop hr, hn, hm, ha, hz, ?_⟩
    simp only [List.append_assoc, List.cons_append]
    rw [dropBlank_append (by decide)]

theorem joined_drop {l : List Param} {s : List UInt8} (h : Joined ParamText l s) :
    Joined ParamText l (s.dropWhile (· == 32)) := by
  cases h with
  | one h => exact .one (param_drop h)
  | more h h' => rw [dropBlank_append (by decide)]; exact .more (param_drop h) h'

/-- The parameters of a callback are parameters. -/
theorem joined_plain {l : List CType} {s : List UInt8} (h : Joined PlainText l s) : Joined ParamText (l.map Param.plain) s := by
  induction h with
  | one h => exact .one h
  | more h _ ih => exact .more h ih

theorem listText_plain {l : List CType} {s : List UInt8} (h : ListText PlainText l s) :
    ListText ParamText (l.map Param.plain) s := by
  cases h with
  | nil => exact .nil
  | void h => exact .void h
  | some h => exact .some (joined_plain h)

/-- The parameters of a callback have no parenthesis and no NUL. -/
theorem joined_chars {l : List CType} {s : List UInt8} (h : Joined PlainText l s) : ∀ c ∈ s, c ≠ 0 ∧ c ≠ 40 ∧ c ≠ 41 := by
  induction h with
  | one h => intro c hc; have := type_plain h.2 c hc; exact ⟨this.1, this.2.1, this.2.2.1⟩
  | more h _ ih =>
    intro c hc
    simp only [List.mem_append, List.mem_cons] at hc
    rcases hc with hc | rfl | hc
    · have := type_plain h.2 c hc; exact ⟨this.1, this.2.1, this.2.2.1⟩
    · decide
    · exact ih c hc

theorem listText_chars {l : List CType} {s : List UInt8} (h : ListText PlainText l s) : ∀ c ∈ s, c ≠ 0 ∧ c ≠ 40 ∧ c ≠ 41 := by
  cases h with
  | nil => simp
  | void h => intro c hc; have := type_plain h c hc; exact ⟨this.1, this.2.1, this.2.2.1⟩
  | some h => exact joined_chars h

theorem param_closed {p : Param} {s : List UInt8} (h : ParamText p s) : Closed s := by
  cases p with
  | plain t => exact closed_plain fun c hc => ⟨(type_plain h.2 c hc).2.1, (type_plain h.2 c hc).2.2.1⟩
  | fn ret args =>
    obtain ⟨r, nm, m, as, z, hr, hn, hm, ha, hz, rfl⟩ := h
    have e : r ++ 40 :: nm ++ 41 :: m ++ 40 :: as ++ 41 :: z = r ++ (40 :: nm ++ [41]) ++ m ++ (40 :: as ++ [41]) ++ z := by
      simp
    rw [e]
    refine closed_append (closed_append (closed_append (closed_append ?_ ?_) ?_) ?_) ?_
    · exact closed_plain fun c hc => ⟨(type_plain hr c hc).2.1, (type_plain hr c hc).2.2.1⟩
    · exact closed_paren (closed_plain fun c hc => (hn c hc).2)
    · exact closed_plain fun c hc => ⟨(blank_plain hm c hc).2.1, (blank_plain hm c hc).2.2.1⟩
    · exact closed_paren (closed_plain fun c hc => (listText_chars ha c hc).2)
    · exact closed_plain fun c hc => ⟨(blank_plain hz c hc).2.1, (blank_plain hz c hc).2.2.1⟩

theorem joined_closed {l : List Param} {s : List UInt8} (h : Joined ParamText l s) : Closed s := by
  induction h with
  | one h => exact param_closed h
  | @more _ s _ s' h _ ih =>
    have e : s ++ 44 :: s' = s ++ ([44] ++ s') := by simp
    rw [e]
    exact closed_append (param_closed h) (closed_append (closed_cons (by decide) (by decide)) ih)

theorem listText_closed {l : List Param} {s : List UInt8} (h : ListText ParamText l s) : Closed s := by
  cases h with
  | nil => exact closed_nil
  | void h => exact closed_plain fun c hc => ⟨(type_plain h c hc).2.1, (type_plain h c hc).2.2.1⟩
  | some h => exact joined_closed h

/-- Whether a parameter is a callback. -/
def isFn : Param → Bool
  | .plain _ => false
  | .fn _ _ => true

/-- Scanning one parameter up to the comma or parenthesis after it. -/
theorem scan_param {p : Param} {s : List UInt8} (h : ParamText p s) {c : UInt8} (hc : c = 44 ∨ c = 41) (r : List UInt8) :
    scanArg 0 false (s ++ c :: r) = .ok (s, isFn p, c :: r) := by
  cases p with
  | plain t =>
    rw [scan_plain (type_plain h.2), scan_stop hc]
    simp [isFn]
  | fn ret args =>
    obtain ⟨rt, nm, m, as, z, hr, hn, hm, ha, hz, rfl⟩ := h
    have e : (rt ++ 40 :: nm ++ 41 :: m ++ 40 :: as ++ 41 :: z) ++ c :: r =
        rt ++ (40 :: nm ++ 41 :: (m ++ (40 :: as ++ 41 :: (z ++ c :: r)))) := by simp
    rw [e, scan_plain (type_plain hr), scan_paren (inner_plain hn), scan_plain (blank_plain hm),
      scan_paren (inner_plain (listText_chars ha)), scan_plain (blank_plain hz), scan_stop hc]
    simp [isFn]

theorem param_nonempty {p : Param} {s : List UInt8} (h : ParamText p s) : s ≠ [] := by
  cases p with
  | plain t => have := type_nonempty h.2; intro e; simp [e] at this
  | fn ret args => obtain ⟨rt, nm, m, as, z, hr, hn, hm, ha, hz, rfl⟩ := h; simp

theorem skipBlank_eq {s r : List UInt8} {c : UInt8} (hc : c ≠ 32) :
    skipBlank (s ++ c :: r) = .ok (s.dropWhile (· == 32) ++ c :: r) := by
  induction s with
  | nil => simp [skipBlank, hc]
  | cons x s ih =>
    simp only [List.cons_append, skipBlank, List.dropWhile_cons]
    by_cases hx : x = 32 <;> simp [hx, ih]

/-! ## Head of a declaration -/

theorem backSpace_eq {a l : List UInt8} {x : UInt8} (ha : ∀ c ∈ a, isspace c = true) (hx : isspace x = false) :
    backSpace (a ++ x :: l) = x :: l := by
  induction a with
  | nil => cases l <;> simp [backSpace, hx]
  | cons c a ih =>
    have ih := ih fun c hc => ha c (by simp [hc])
    cases a with
    | nil => simp only [List.nil_append] at ih; simp [backSpace, ha c (by simp), ih]
    | cons d a => simp only [List.cons_append] at ih; simp [backSpace, ha c (by simp), ih]

theorem backName_eq {n l : List UInt8} {y : UInt8} (hn : ∀ c ∈ n, (isalnum c || c == 95) = true)
    (hy : (isalnum y || y == 95) = false) : backName (n ++ y :: l) = (n.reverse, y :: l) := by
  induction n with
  | nil =>
    simp only [Bool.or_eq_false_iff] at hy
    cases l <;> simp [backName, hy.1, hy.2]
  | cons c n ih =>
    have ih := ih fun c hc => hn c (by simp [hc])
    have hc := hn c (by simp)
    cases n with
    | nil => simp only [List.nil_append] at ih; simp [backName, ih, hc]
    | cons d n => simp only [List.cons_append] at ih; simp [backName, ih, hc]

theorem name_not_space {c : UInt8} (h : NameChar c) : isspace c = false := by
  cases e : isspace c with
  | false => rfl
  | true =>
    rw [isspace_iff] at e
    rcases e with rfl | e
    · revert h; unfold NameChar; decide
    · rcases h with h | h | h | rfl
      · omega
      · omega
      · omega
      · revert e; decide

theorem blank_not_name {c : UInt8} (h : isspace c = true) : (isalnum c || c == 95) = false := by
  cases e : (isalnum c || c == 95) with
  | false => rfl
  | true => rw [name_not_space ((nameChar_iff c).1 e)] at h; cases h

/-- The parts of a declaration. -/
theorem split_decl {d : Decl} {s : List UInt8} (h : DeclText d s) : ∃ rt as tail, TypeText d.ret rt ∧
    ListText ParamText d.params as ∧ as.length < s.length ∧
    split s [] = .ok { rt := rt, name := d.name, isCallback := false, args := as, mem := as ++ 41 :: tail,
                       paren := 40 :: (as ++ 41 :: tail) } := by
  obtain ⟨lead, r, sp, sp', as, tail, hl, hr, hs, hsp, hne, hn, hs', ha, ht, rfl⟩ := h
  refine ⟨r ++ sp, as, tail, ⟨[], r, sp, by simp [Blank], hr, hs, by simp⟩, ha, by simp; omega, ?_⟩
  obtain ⟨c, l, rfl, hc, -⟩ := spells_head hr
  have e0 : (lead ++ (c :: l) ++ sp ++ d.name ++ sp' ++ 40 :: as ++ 41 :: tail).dropWhile isspace =
      (c :: l) ++ sp ++ d.name ++ sp' ++ 40 :: (as ++ 41 :: tail) := by
    have : lead ++ (c :: l) ++ sp ++ d.name ++ sp' ++ 40 :: as ++ 41 :: tail =
      lead ++ ((c :: l) ++ sp ++ d.name ++ sp' ++ 40 :: (as ++ 41 :: tail)) := by simp
    rw [this, dropWhile_append_all (blank_isspace hl)]
    simp [hc]
  have h40 : 40 ∉ (c :: l) ++ sp ++ d.name ++ sp' := by
    intro hm
    simp only [List.mem_append] at hm
    rcases hm with ((hm | hm) | hm) | hm
    · exact (spells_plain hr _ hm).2.1 rfl
    · exact (blank_plain hs _ hm).2.1 rfl
    · have := hn _ hm; revert this; unfold NameChar; decide
    · exact (blank_plain hs' _ hm).2.1 rfl
  have hlen : 3 ≤ (c :: l).length := by
    have := type_nonempty (⟨[], _, [], by simp [Blank], hr, by simp [Blank], rfl⟩ : TypeText d.ret _)
    simpa using this
  have eback : backName (backSpace ((c :: l) ++ sp ++ d.name ++ sp').reverse) = (d.name, ((c :: l) ++ sp).reverse) := by
    have e1 : ((c :: l) ++ sp ++ d.name ++ sp').reverse = sp'.reverse ++ (d.name.reverse ++ ((c :: l) ++ sp).reverse) := by
      simp
    rw [e1]
    have hnr : d.name.reverse ≠ [] := by simpa using hne
    have hname : ∀ x ∈ d.name.reverse, (isalnum x || x == 95) = true := fun x hx => (nameChar_iff x).2 (hn x (by simpa using hx))
    have estep : backSpace (sp'.reverse ++ (d.name.reverse ++ ((c :: l) ++ sp).reverse)) =
        d.name.reverse ++ ((c :: l) ++ sp).reverse := by
      cases hdn : d.name.reverse with
      | nil => exact absurd hdn hnr
      | cons x xs =>
        rw [List.cons_append]
        refine backSpace_eq (fun c hc => blank_isspace hs' c (by simpa using hc)) ?_
        exact name_not_space (hn x (by
          have : x ∈ d.name.reverse := by rw [hdn]; simp
          simpa using this))
    rw [estep]
    -- the byte before the name
    have hlast : ∃ y ys, ((c :: l) ++ sp).reverse = y :: ys ∧ (isalnum y || y == 95) = false := by
      cases hsr : sp.reverse with
      | cons y ys =>
        refine ⟨y, ys ++ (c :: l).reverse, by simp [hsr], ?_⟩
        refine blank_not_name (blank_isspace hs y ?_)
        have : y ∈ sp.reverse := by rw [hsr]; simp
        simpa using this
      | nil =>
        have hspn : sp = [] := by simpa using hsr
        subst hspn
        rcases hsp with hsp | hsp
        · exact absurd rfl hsp
        · generalize hw : c :: l = w at hr
          revert hsp; revert hr
          generalize d.ret = t
          intro hr hsp
          cases hr <;> simp at hsp <;> exact ⟨42, _, rfl, by decide⟩
    obtain ⟨y, ys, ey, hy⟩ := hlast
    rw [ey, backName_eq hname hy]
    simp
  have hcl := closed_find (post := tail) (listText_closed ha)
  unfold split
  simp only [e0, findParen_append h40, hcl, findParen_none ht, eback]
  have hge : ¬ ((lead ++ (c :: l) ++ sp ++ d.name ++ sp' ++ 40 :: as ++ 41 :: tail).length -
      ((c :: l) ++ sp ++ d.name ++ sp' ++ 40 :: (as ++ 41 :: tail)).length + ((c :: l) ++ sp ++ d.name ++ sp').length < 2) := by
    simp at hlen ⊢; omega
  rw [if_neg hge]
  simp

/-- The parts of a callback. -/
theorem split_fn {ret : CType} {args : List CType} {s : List UInt8} (h : ParamText (.fn ret args) s) (beyond : List UInt8) :
    ∃ rt as tail, ∃ pre rest : List UInt8, TypeText ret rt ∧ ListText PlainText args as ∧ (∀ c ∈ pre, c ≠ 0 ∧ c ≠ 41) ∧
    split s beyond = .ok { rt := rt, name := [], isCallback := true, args := as, mem := as ++ 41 :: tail,
                           paren := pre ++ 41 :: rest } := by
  obtain ⟨r, nm, m, as, z, hr, hn, hm, ha, hz, rfl⟩ := h
  obtain ⟨a, w, b, ha', hw, hb, rfl⟩ := hr
  refine ⟨w ++ b, as, z ++ beyond, 40 :: nm, m ++ 40 :: as ++ 41 :: z ++ beyond,
    ⟨[], w, b, by simp [Blank], hw, hb, by simp⟩, ha, ?_, ?_⟩
  · intro c hc
    simp only [List.mem_cons] at hc
    rcases hc with rfl | hc
    · decide
    · exact ⟨(hn c hc).1, (hn c hc).2.2⟩
  obtain ⟨c, l, rfl, hc, -⟩ := spells_head hw
  have e0 : (a ++ (c :: l) ++ b ++ 40 :: nm ++ 41 :: m ++ 40 :: as ++ 41 :: z).dropWhile isspace =
      (c :: l) ++ b ++ 40 :: (nm ++ 41 :: (m ++ 40 :: (as ++ 41 :: z))) := by
    have : a ++ (c :: l) ++ b ++ 40 :: nm ++ 41 :: m ++ 40 :: as ++ 41 :: z =
      a ++ ((c :: l) ++ b ++ 40 :: (nm ++ 41 :: (m ++ 40 :: (as ++ 41 :: z)))) := by simp
    rw [this, dropWhile_append_all (blank_isspace ha')]
    simp [hc]
  have h40 : 40 ∉ (c :: l) ++ b := by
    intro hm
    simp only [List.mem_append] at hm
    rcases hm with hm | hm
    · exact (spells_plain hw _ hm).2.1 rfl
    · exact (blank_plain hb _ hm).2.1 rfl
  have hlen : 3 ≤ (c :: l).length := by
    have := type_nonempty (⟨[], _, [], by simp [Blank], hw, by simp [Blank], rfl⟩ : TypeText ret _)
    simpa using this
  have hcl1 := closed_find (post := m ++ 40 :: (as ++ 41 :: z)) (closed_plain fun c hc => (hn c hc).2)
  have hcl2 := closed_find (post := z) (closed_plain fun c hc => (listText_chars ha c hc).2)
  have hm40 : 40 ∉ m := fun h => (blank_plain hm _ h).2.1 rfl
  unfold split
  simp only [e0, findParen_append h40, hcl1, findParen_append hm40, hcl2]
  have hge : ¬ ((a ++ (c :: l) ++ b ++ 40 :: nm ++ 41 :: m ++ 40 :: as ++ 41 :: z).length -
      ((c :: l) ++ b ++ 40 :: (nm ++ 41 :: (m ++ 40 :: (as ++ 41 :: z)))).length + ((c :: l) ++ b).length < 2) := by
    simp at hlen ⊢; omega
  rw [if_neg hge]
  simp

end Mjs.Ffi
