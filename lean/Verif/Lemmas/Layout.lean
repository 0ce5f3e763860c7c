import Verif.Spec.Layout
import Verif.Lemmas.CompileDefs
import Verif.Lemmas.Tok

/-! Every script has a layout: its code is where the table of functions says, and numerals in the code end where they should. -/

namespace Mjs.Tok

/-- Nothing, or a byte below 39 first: no numeral goes on here. -/
def Low (r : List UInt8) : Prop := ∀ o, r.head? = some o → o < 39

theorem low_digit {o : UInt8} (h : o < 39) : isXDigit o = false ∧ isDigit o = false ∧ o ≠ 43 ∧ o ≠ 45 ∧ o ≠ 46 ∧ o ≠ 48 ∧ o ≠ 101 ∧ o ≠ 69 ∧
    o ≠ 112 ∧ o ≠ 80 ∧ o ≠ 120 ∧ o ≠ 88 := by
  have hn : o.toNat < 39 := h
  have ne : ∀ k : UInt8, 39 ≤ k.toNat → o ≠ k := fun k hk e => by rw [e] at hn; omega
  have le : ∀ k : UInt8, 39 ≤ k.toNat → decide (k ≤ o) = false := fun k hk => by
    rw [decide_eq_false_iff_not, UInt8.le_iff_toNat_le]; omega
  have hd : isDigit o = false := by unfold isDigit; simp only [le 48 (by decide), Bool.false_and]
  refine ⟨?_, hd, ne _ (by decide), ne _ (by decide), ne _ (by decide), ne _ (by decide), ne _ (by decide), ne _ (by decide),
    ne _ (by decide), ne _ (by decide), ne _ (by decide), ne _ (by decide)⟩
  unfold isXDigit
  simp only [hd, le 97 (by decide), le 65 (by decide), Bool.false_and, Bool.or_false]

theorem span_low {f : UInt8 → Bool} (hf : ∀ o, o < 39 → f o = false) (t : List UInt8) {r : List UInt8} (hr : Low r) :
    span f (t ++ r) = span f t := by
  unfold span
  induction t with
  | nil =>
    cases r with
    | nil => rfl
    | cons o r => simp [hf o (hr o rfl)]
  | cons c t ih =>
    simp only [List.cons_append, List.takeWhile_cons]
    split
    · simp [ih]
    · rfl

theorem signLen_low (t : List UInt8) {r : List UInt8} (hr : Low r) : signLen (t ++ r) = signLen t := by
  cases t with
  | cons c t => rfl
  | nil =>
    cases r with
    | nil => rfl
    | cons o r =>
      have := low_digit (hr o rfl)
      simp [signLen, this]

theorem fractionLen_low {f : UInt8 → Bool} (hf : ∀ o, o < 39 → f o = false) (t : List UInt8) {r : List UInt8} (hr : Low r) :
    fractionLen f (t ++ r) = fractionLen f t := by
  cases t with
  | cons c t => simp only [List.cons_append, fractionLen, span_low hf t hr]
  | nil =>
    cases r with
    | nil => rfl
    | cons o r =>
      have := low_digit (hr o rfl)
      simp [fractionLen, this]

theorem exponentLen_low {a b : UInt8} (hab : ∀ o, o < 39 → o ≠ a ∧ o ≠ b) (t : List UInt8) {r : List UInt8} (hr : Low r) :
    exponentLen a b (t ++ r) = exponentLen a b t := by
  cases t with
  | cons c t =>
    simp only [List.cons_append, exponentLen, signLen_low t hr]
    rw [List.drop_append_of_le_length (signLen_le t), span_low (fun o h => (low_digit h).2.1) _ hr]
  | nil =>
    cases r with
    | nil => rfl
    | cons o r =>
      have := hab o (hr o rfl)
      simp [exponentLen, this]

theorem hexPrefixLen_low (t : List UInt8) {r : List UInt8} (hr : Low r) : hexPrefixLen (t ++ r) = hexPrefixLen t := by
  have hl : ∀ o r', r = o :: r' → o ≠ 48 ∧ o ≠ 120 ∧ o ≠ 88 ∧ isXDigit o = false := by
    intro o r' e
    have := low_digit (hr o (by rw [e]; rfl))
    exact ⟨this.2.2.2.2.2.1, this.2.2.2.2.2.2.2.2.2.2.1, this.2.2.2.2.2.2.2.2.2.2.2, this.1⟩
  match t with
  | x :: y :: z :: t =>
    unfold hexPrefixLen
    split
    · rename_i h; cases h; rfl
    · rename_i h1
      split
      · rename_i h; cases h; exact absurd rfl (h1 _ _ _)
      · rfl
  | [x, y] =>
    cases r with
    | nil => rfl
    | cons o r =>
      have := hl o r rfl
      have e : hexPrefixLen [x, y] = 0 := by unfold hexPrefixLen; split <;> simp_all
      rw [e]
      unfold hexPrefixLen
      split
      · rename_i h; simp at h; obtain ⟨_, _, h, _⟩ := h; subst h; simp [this]
      · rfl
  | [x] =>
    have e : hexPrefixLen [x] = 0 := by unfold hexPrefixLen; split <;> simp_all
    rw [e]
    unfold hexPrefixLen
    split
    · rename_i h
      simp at h
      have := hl _ _ h.2
      simp [this]
    · rfl
  | [] =>
    unfold hexPrefixLen
    split
    · rename_i h
      have := hl _ _ h
      exact absurd rfl this.1
    · rfl

/-- What follows a numeral in the code does not extend it. -/
theorem strtodLen_low (t : List UInt8) {r : List UInt8} (hr : Low r) : strtodLen (t ++ r) = strtodLen t := by
  have tail : ∀ (f : UInt8 → Bool) (a b : UInt8) (x : Nat), (∀ o, o < 39 → f o = false) → (∀ o, o < 39 → o ≠ a ∧ o ≠ b) → x ≤ t.length →
      x + span f ((t ++ r).drop x) + fractionLen f ((t ++ r).drop (x + span f ((t ++ r).drop x)))
        + exponentLen a b ((t ++ r).drop (x + span f ((t ++ r).drop x) + fractionLen f ((t ++ r).drop (x + span f ((t ++ r).drop x))))) =
      x + span f (t.drop x) + fractionLen f (t.drop (x + span f (t.drop x)))
        + exponentLen a b (t.drop (x + span f (t.drop x) + fractionLen f (t.drop (x + span f (t.drop x))))) := by
    intro f a b x hf hab hx
    have e1 : span f ((t ++ r).drop x) = span f (t.drop x) := by
      rw [List.drop_append_of_le_length hx, span_low hf _ hr]
    rw [e1]
    have h1 := span_drop_le f t x hx
    generalize x + span f (t.drop x) = y at *
    have e2 : fractionLen f ((t ++ r).drop y) = fractionLen f (t.drop y) := by
      rw [List.drop_append_of_le_length h1, fractionLen_low hf _ hr]
    rw [e2]
    have h2 := fractionLen_le f (t.drop y)
    simp only [List.length_drop] at h2
    generalize fractionLen f (t.drop y) = z at *
    rw [List.drop_append_of_le_length (by omega), exponentLen_low hab _ hr]
  unfold strtodLen
  rw [hexPrefixLen_low t hr]
  simp only
  split
  · exact tail isXDigit 112 80 _ (fun o h => (low_digit h).1) (fun o h => by have := low_digit h; simp [this]) (hexPrefixLen_le t)
  · have := tail isDigit 101 69 0 (fun o h => (low_digit h).2.1) (fun o h => by have := low_digit h; simp [this]) (by omega)
    simpa using this

end Mjs.Tok

namespace Mjs.Code
open Mjs Mjs.Core Mjs.Exec Mjs.Sem

/-! ## The layout does not change the code -/

mutual
theorem code_layoutE (a : Nat) : ∀ e, code (layoutE a e) = code e
  | .get l => by simp only [layoutE, code, code_layoutL]
  | .obj ps => by simp only [layoutE, code, code_layoutProps]
  | .arr es => by simp only [layoutE, code, code_layoutItems]
  | .func _ name ps body => by
    cases name <;> simp only [layoutE, code, code_layoutSs]
  | .call f args => by simp only [layoutE, code, code_layoutE, code_layoutArgs]
  | .un op e => by simp only [layoutE, code, code_layoutE]
  | .incr post plus l => by simp only [layoutE, code, code_layoutL]
  | .bin op x y => by simp only [layoutE, code, code_layoutE]
  | .and x y => by simp only [layoutE, code, code_layoutE]
  | .or x y => by simp only [layoutE, code, code_layoutE]
  | .cond c x y => by simp only [layoutE, code, code_layoutE]
  | .assign op l e => by simp only [layoutE, code, code_layoutE, code_layoutL]
  | .int n => rfl
  | .dbl t => rfl
  | .str s => rfl
  | .tru => rfl
  | .fls => rfl
  | .null => rfl
  | .undef => rfl
  | .this => rfl
theorem code_layoutL (a : Nat) : ∀ l, codeL (layoutL a l) = codeL l
  | .var x => rfl
  | .dot e x => by simp only [layoutL, codeL, code_layoutE]
  | .index e k => by simp only [layoutL, codeL, code_layoutE]
theorem code_layoutArgs (a : Nat) : ∀ es, codes (layoutArgs a es) = codes es
  | [] => rfl
  | e :: es => by simp only [layoutArgs, codes, code_layoutE, code_layoutArgs]
theorem code_layoutItems (a : Nat) : ∀ es, codeItems (layoutItems a es) = codeItems es
  | [] => rfl
  | e :: es => by simp only [layoutItems, codeItems, code_layoutE, code_layoutItems]
theorem code_layoutProps (a : Nat) : ∀ ps, codeProps (layoutProps a ps) = codeProps ps
  | [] => rfl
  | (k, e) :: ps => by simp only [layoutProps, codeProps, code_layoutE, code_layoutProps]
theorem code_layoutMore (a : Nat) : ∀ es, codeMore (layoutMore a es) = codeMore es
  | [] => rfl
  | e :: es => by simp only [layoutMore, codeMore, code_layoutE, code_layoutMore]
theorem code_layoutLet (a : Nat) (x : Name) : ∀ i, codeLet x (layoutLet a x i) = codeLet x i
  | none => rfl
  | some e => by simp only [layoutLet, codeLet, code_layoutE]
theorem code_layoutLets (a : Nat) : ∀ ds, codeLets (layoutLets a ds) = codeLets ds
  | [] => rfl
  | (x, i) :: ds => by simp only [layoutLets, codeLets, code_layoutLet, code_layoutLets]
theorem code_layoutS (a : Nat) : ∀ s, codeS (layoutS a s) = codeS s
  | .empty => rfl
  | .exprs e es => by simp only [layoutS, codeS, code_layoutE, code_layoutMore]
  | .lets x i ds => by simp only [layoutS, codeS, code_layoutLet, code_layoutLets]
  | .block ss => by simp only [layoutS, codeS, code_layoutSs]
  | .ite c s => by simp only [layoutS, codeS, code_layoutE, code_layoutS]
  | .itee c s t => by simp only [layoutS, codeS, code_layoutE, code_layoutS]
  | .while c body => by simp only [layoutS, codeS, code_layoutE, code_layoutSs]
  | .for init c inc body => by simp only [layoutS, codeS, code_layoutE, code_layoutS, code_layoutSs]
  | .forIn isLet x e body => by simp only [layoutS, codeS, code_layoutE, code_layoutSs]
  | .break => rfl
  | .continue => rfl
  | .ret none => rfl
  | .ret (some e) => by simp only [layoutS, codeS, code_layoutE]
theorem code_layoutSs (a : Nat) : ∀ ss, codeSs (layoutSs a ss) = codeSs ss
  | [] => rfl
  | s :: ss => by simp only [layoutSs, codeSs, code_layoutS, code_layoutRest]
theorem code_layoutRest (a : Nat) : ∀ ss, codeRest (layoutRest a ss) = codeRest ss
  | [] => rfl
  | s :: ss => by simp only [layoutRest, codeRest, code_layoutS, code_layoutRest]
end

/-! ## Addresses are distinct -/

/-- The addresses are in a range, and no two are equal. -/
def InRange (lo hi : Nat) (l : List (Nat × Fn)) : Prop := (∀ p ∈ l, lo ≤ p.1 ∧ p.1 < hi) ∧ (l.map (·.1)).Nodup

theorem InRange.nil {lo hi : Nat} : InRange lo hi [] := ⟨fun _ h => by simp at h, by simp⟩

theorem InRange.mono {lo hi lo' hi' : Nat} {l : List (Nat × Fn)} (h : InRange lo hi l) (h1 : lo' ≤ lo) (h2 : hi ≤ hi') :
    InRange lo' hi' l := ⟨fun p hp => by have := h.1 p hp; omega, h.2⟩

theorem InRange.append {lo mid mid' hi : Nat} {l l' : List (Nat × Fn)} (h : InRange lo mid l) (h' : InRange mid' hi l') (hm : mid ≤ mid')
    (h1 : lo ≤ mid') (h2 : mid ≤ hi) : InRange lo hi (l ++ l') := by
  refine ⟨fun p hp => ?_, ?_⟩
  · rcases List.mem_append.1 hp with hp | hp
    · have := h.1 p hp; omega
    · have := h'.1 p hp; omega
  · rw [List.map_append, List.nodup_append]
    refine ⟨h.2, h'.2, ?_⟩
    intro x hx y hy e
    obtain ⟨p, hp, rfl⟩ := List.mem_map.1 hx
    obtain ⟨q, hq, rfl⟩ := List.mem_map.1 hy
    have := h.1 p hp
    have := h'.1 q hq
    omega

theorem InRange.cons {lo mid hi a : Nat} {f : Fn} {l : List (Nat × Fn)} (h : InRange mid hi l) (h1 : lo ≤ a) (h2 : a < mid) (h3 : mid ≤ hi) :
    InRange lo hi ((a, f) :: l) := by
  refine ⟨fun p hp => ?_, ?_⟩
  · rcases List.mem_cons.1 hp with rfl | hp
    · exact ⟨h1, by simp only; omega⟩
    · have := h.1 p hp; omega
  · rw [List.map_cons, List.nodup_cons]
    refine ⟨?_, h.2⟩
    intro hx
    obtain ⟨p, hp, e⟩ := List.mem_map.1 hx
    have := h.1 p hp
    simp only at e
    omega

/-- Lengths in the positions of a layout. -/
macro "lenarith" : tactic => `(tactic| ((try simp only [List.length_append, List.length_cons, List.length_nil, code, codeL, codes, codeItems,
  codeProps, codeMore, codeLet, codeLets, codeS, codeSs, codeRest, codeFun]); try omega))

mutual
theorem range_E (a : Nat) : ∀ e, InRange a (a + (code e).length) (funsE (layoutE a e))
  | .get l => by simp only [layoutE, funsE]; exact InRange.mono (range_L a l) (by omega) (by lenarith)
  | .obj ps => by simp only [layoutE, funsE]; exact InRange.mono (range_Props _ ps) (by omega) (by lenarith)
  | .arr es => by simp only [layoutE, funsE]; exact InRange.mono (range_Items _ es) (by omega) (by lenarith)
  | .func _ name ps body => by
    cases name <;> simp only [layoutE, funsE] <;>
      exact InRange.mono (InRange.cons (lo := a) (range_Ss _ body) (by omega) (by omega) (by omega)) (by omega) (by lenarith)
  | .call f args => by
    simp only [layoutE, funsE]
    exact InRange.mono (InRange.append (range_E a f) (range_Args _ args) (by omega) (by omega) (by lenarith)) (by omega) (by lenarith)
  | .un op e => by simp only [layoutE, funsE]; exact InRange.mono (range_E a e) (by omega) (by lenarith)
  | .incr post plus l => by simp only [layoutE, funsE]; exact InRange.mono (range_L a l) (by omega) (by lenarith)
  | .bin op x y => by
    simp only [layoutE, funsE]
    exact InRange.mono (InRange.append (range_E a x) (range_E _ y) (by omega) (by omega) (by lenarith)) (by omega) (by lenarith)
  | .and x y => by
    simp only [layoutE, funsE]
    exact InRange.mono (InRange.append (range_E a x) (range_E _ y) (by omega) (by omega) (by lenarith)) (by omega) (by lenarith)
  | .or x y => by
    simp only [layoutE, funsE]
    exact InRange.mono (InRange.append (range_E a x) (range_E _ y) (by omega) (by omega) (by lenarith)) (by omega) (by lenarith)
  | .cond c x y => by
    simp only [layoutE, funsE]
    exact InRange.mono (InRange.append (InRange.append (range_E a c) (range_E _ x) (by omega) (by omega) (by lenarith)) (range_E _ y) (by lenarith) (by omega) (by lenarith)) (by omega) (by lenarith)
  | .assign op l e => by
    simp only [layoutE, funsE]
    exact InRange.mono (InRange.append (range_L a l) (range_E _ e) (by omega) (by omega) (by lenarith)) (by omega) (by lenarith)
  | .int n => .nil
  | .dbl t => .nil
  | .str s => .nil
  | .tru => .nil
  | .fls => .nil
  | .null => .nil
  | .undef => .nil
  | .this => .nil
theorem range_L (a : Nat) : ∀ l, InRange a (a + (codeL l).length) (funsL (layoutL a l))
  | .var x => .nil
  | .dot e x => by simp only [layoutL, funsL]; exact InRange.mono (range_E a e) (by omega) (by lenarith)
  | .index e k => by
    simp only [layoutL, funsL]
    exact InRange.mono (InRange.append (range_E a e) (range_E _ k) (by omega) (by omega) (by lenarith)) (by omega) (by lenarith)
theorem range_Args (a : Nat) : ∀ es, InRange a (a + (codes es).length) (funsEs (layoutArgs a es))
  | [] => .nil
  | e :: es => by
    simp only [layoutArgs, funsEs]
    exact InRange.mono (InRange.append (range_E a e) (range_Args _ es) (by omega) (by omega) (by lenarith)) (by omega) (by lenarith)
theorem range_Items (a : Nat) : ∀ es, InRange a (a + (codeItems es).length) (funsEs (layoutItems a es))
  | [] => .nil
  | e :: es => by
    simp only [layoutItems, funsEs]
    exact InRange.mono (InRange.append (range_E _ e) (range_Items _ es) (by omega) (by omega) (by lenarith)) (by omega) (by lenarith)
theorem range_Props (a : Nat) : ∀ ps, InRange a (a + (codeProps ps).length) (funsProps (layoutProps a ps))
  | [] => .nil
  | (k, e) :: ps => by
    simp only [layoutProps, funsProps]
    exact InRange.mono (InRange.append (range_E _ e) (range_Props _ ps) (by omega) (by omega) (by lenarith)) (by omega) (by lenarith)
theorem range_More (a : Nat) : ∀ es, InRange a (a + (codeMore es).length) (funsEs (layoutMore a es))
  | [] => .nil
  | e :: es => by
    simp only [layoutMore, funsEs]
    exact InRange.mono (InRange.append (range_E _ e) (range_More _ es) (by omega) (by omega) (by lenarith)) (by omega) (by lenarith)
theorem range_Let (a : Nat) (x : Name) : ∀ i, InRange a (a + (codeLet x i).length) (funsO (layoutLet a x i))
  | none => .nil
  | some e => by simp only [layoutLet, funsO]; exact InRange.mono (range_E _ e) (by omega) (by lenarith)
theorem range_Lets (a : Nat) : ∀ ds, InRange a (a + (codeLets ds).length) (funsLets (layoutLets a ds))
  | [] => .nil
  | (x, i) :: ds => by
    simp only [layoutLets, funsLets]
    exact InRange.mono (InRange.append (range_Let _ x i) (range_Lets _ ds) (by omega) (by omega) (by lenarith)) (by omega) (by lenarith)
theorem range_S (a : Nat) : ∀ s, InRange a (a + (codeS s).length) (funsS (layoutS a s))
  | .empty => .nil
  | .exprs e es => by
    simp only [layoutS, funsS]
    exact InRange.mono (InRange.append (range_E a e) (range_More _ es) (by omega) (by omega) (by lenarith)) (by omega) (by lenarith)
  | .lets x i ds => by
    simp only [layoutS, funsS]
    exact InRange.mono (InRange.append (range_Let a x i) (range_Lets _ ds) (by omega) (by omega) (by lenarith)) (by omega) (by lenarith)
  | .block ss => by simp only [layoutS, funsS]; exact InRange.mono (range_Ss _ ss) (by omega) (by lenarith)
  | .ite c s => by
    simp only [layoutS, funsS]
    exact InRange.mono (InRange.append (range_E a c) (range_S _ s) (by omega) (by omega) (by lenarith)) (by omega) (by lenarith)
  | .itee c s t => by
    simp only [layoutS, funsS]
    exact InRange.mono (InRange.append (InRange.append (range_E a c) (range_S _ s) (by omega) (by omega) (by lenarith)) (range_S _ t) (by lenarith) (by omega) (by lenarith)) (by omega) (by lenarith)
  | .while c body => by
    simp only [layoutS, funsS]
    exact InRange.mono (InRange.append (range_E _ c) (range_Ss _ body) (by omega) (by omega) (by lenarith)) (by omega) (by lenarith)
  | .for init c inc body => by
    simp only [layoutS, funsS]
    exact InRange.mono (InRange.append (InRange.append (InRange.append (range_S _ init) (range_E _ inc) (by lenarith) (by omega) (by lenarith)) (range_E _ c) (by lenarith) (by omega) (by lenarith)) (range_Ss _ body) (by lenarith) (by omega) (by lenarith)) (by omega) (by lenarith)
  | .forIn isLet x e body => by
    simp only [layoutS, funsS]
    exact InRange.mono (InRange.append (range_E _ e) (range_Ss _ body) (by omega) (by omega) (by lenarith)) (by omega) (by lenarith)
  | .break => .nil
  | .continue => .nil
  | .ret none => .nil
  | .ret (some e) => by simp only [layoutS, funsS, funsO]; exact InRange.mono (range_E a e) (by omega) (by lenarith)
theorem range_Ss (a : Nat) : ∀ ss, InRange a (a + (codeSs ss).length) (funsSs (layoutSs a ss))
  | [] => .nil
  | s :: ss => by
    simp only [layoutSs, funsSs]
    exact InRange.mono (InRange.append (range_S a s) (range_Rest _ ss) (by omega) (by omega) (by lenarith)) (by omega) (by lenarith)
theorem range_Rest (a : Nat) : ∀ ss, InRange a (a + (codeRest ss).length) (funsSs (layoutRest a ss))
  | [] => .nil
  | s :: ss => by
    simp only [layoutRest, funsSs]
    exact InRange.mono (InRange.append (range_S _ s) (range_Rest _ ss) (by omega) (by omega) (by lenarith)) (by omega) (by lenarith)
end

/-! ## Every fragment of code begins with an opcode -/

open Mjs.Tok (Low)

theorem low_cons {o : UInt8} {r : List UInt8} (h : o < 39) : Low (o :: r) := fun o' e => by cases e; exact h

theorem low_pushStr (x : Name) (r : List UInt8) : Low (pushStr x ++ r) := low_cons (by decide)

theorem low_create (x : Name) (r : List UInt8) : Low (create x ++ r) := low_cons (by decide)

mutual
theorem low_E : ∀ (e : Expr) (r : List UInt8), Low (code e ++ r)
  | .get l, r => by simp only [code, List.append_assoc]; exact low_L l _
  | .obj ps, r => low_cons (by decide)
  | .arr es, r => low_cons (by decide)
  | .func _ none ps body, r => low_cons (by decide)
  | .func _ (some x) ps body, r => by simp only [code, List.append_assoc]; exact low_create x _
  | .call f args, r => by simp only [code, List.append_assoc]; exact low_E f _
  | .un op e, r => by simp only [code, List.append_assoc]; exact low_E e _
  | .incr post plus l, r => by simp only [code, List.append_assoc]; exact low_L l _
  | .bin op x y, r => by simp only [code, List.append_assoc]; exact low_E x _
  | .and x y, r => by simp only [code, List.append_assoc]; exact low_E x _
  | .or x y, r => by simp only [code, List.append_assoc]; exact low_E x _
  | .cond c x y, r => by simp only [code, List.append_assoc]; exact low_E c _
  | .assign op l e, r => by simp only [code, List.append_assoc]; exact low_L l _
  | .int n, r => low_cons (by decide)
  | .dbl t, r => low_cons (by decide)
  | .str s, r => low_cons (by decide)
  | .tru, r => low_cons (by decide)
  | .fls, r => low_cons (by decide)
  | .null, r => low_cons (by decide)
  | .undef, r => low_cons (by decide)
  | .this, r => low_cons (by decide)
theorem low_L : ∀ (l : Lval) (r : List UInt8), Low (codeL l ++ r)
  | .var x, r => low_cons (by decide)
  | .dot e x, r => by simp only [codeL, List.append_assoc]; exact low_E e _
  | .index e k, r => by simp only [codeL, List.append_assoc]; exact low_E e _
end

theorem low_Args : ∀ (es : List Expr) {r : List UInt8}, Low r → Low (codes es ++ r)
  | [], r, h => h
  | e :: es, r, h => by simp only [codes, List.append_assoc]; exact low_E e _

theorem low_Items : ∀ (es : List Expr) {r : List UInt8}, Low r → Low (codeItems es ++ r)
  | [], r, h => h
  | e :: es, r, h => low_cons (by decide)

theorem low_Props : ∀ (es : List (Name × Expr)) {r : List UInt8}, Low r → Low (codeProps es ++ r)
  | [], r, h => h
  | e :: es, r, h => low_cons (by decide)

theorem low_More : ∀ (es : List Expr) {r : List UInt8}, Low r → Low (codeMore es ++ r)
  | [], r, h => h
  | e :: es, r, h => low_cons (by decide)

theorem low_Let (x : Name) : ∀ (i : Option Expr) (r : List UInt8), Low (codeLet x i ++ r)
  | none, r => low_cons (by decide)
  | some e, r => by simp only [codeLet, List.append_assoc]; exact low_create x _

theorem low_Lets : ∀ (es : List (Name × Option Expr)) {r : List UInt8}, Low r → Low (codeLets es ++ r)
  | [], r, h => h
  | e :: es, r, h => low_cons (by decide)

theorem low_S : ∀ (s : Stmt) (r : List UInt8), Low (codeS s ++ r)
  | .empty, r => low_cons (by decide)
  | .exprs e es, r => by simp only [codeS, List.append_assoc]; exact low_E e _
  | .lets x i ds, r => by simp only [codeS, List.append_assoc]; exact low_Let x i _
  | .block ss, r => low_cons (by decide)
  | .ite c s, r => by simp only [codeS, List.append_assoc]; exact low_E c _
  | .itee c s t, r => by simp only [codeS, List.append_assoc]; exact low_E c _
  | .while c body, r => low_cons (by decide)
  | .for init c inc body, r => low_cons (by decide)
  | .forIn isLet x e body, r => low_cons (by decide)
  | .break, r => low_cons (by decide)
  | .continue, r => low_cons (by decide)
  | .ret none, r => low_cons (by decide)
  | .ret (some e), r => by simp only [codeS, List.append_assoc]; exact low_E e _

theorem low_Ss : ∀ (ss : List Stmt) (r : List UInt8), Low (codeSs ss ++ r)
  | [], r => low_cons (by decide)
  | s :: ss, r => by simp only [codeSs, List.append_assoc]; exact low_S s _

theorem low_Rest : ∀ (ss : List Stmt) {r : List UInt8}, Low r → Low (codeRest ss ++ r)
  | [], r, h => h
  | s :: ss, r, h => low_cons (by decide)

end Mjs.Code
