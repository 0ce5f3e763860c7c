import Verif.Lemmas.ParseOps
import Verif.Lemmas.Steps

/-!
Binary operators, conditionals, functions.
-/

namespace Mjs.Parse
open Mjs Mjs.Tok Mjs.Exec Mjs.Code Mjs.Bcode Mjs.Parser Mjs.Grammar

variable {E : Env} {src : List UInt8} {start p D : Nat} {ts : List Token} {pre post : List UInt8}

/-- Filling in a distance. -/
theorem tr_patch {β : Type} {a mid : List UInt8} {b : UInt8} {o v' : Nat} (v : Nat) {f : Nat → Nat → M β} {Q : β → PS → Prop}
    (h : Tr (At E src start p D ts (a ++ vint v ++ mid) post) (fun d => f d ((vint v).length - 1)) Q)
    (hpre : pre = a ++ b :: mid) (ho : o = a.length) (hv : v' = v) :
    Tr (At E src start p D ts pre post) (fun d => patch o v' >>= f d) Q := by
  subst hpre ho hv
  refine Tr.bind (Tr.patch a mid b v') fun r => Tr.fst ?_
  rintro rfl
  exact h

/-- What is known of the token of an operator. -/
theorem op_facts (op : BinOp) : op.tok.toNat ∈ levelOps (opLevel op - 3) ∧ Before op.tok.toNat ∧ op.tok.toNat ≠ 0 ∧
    op.tok.toNat ≤ 255 ∧ Ends (opLevel op - 1) op.tok.toNat ∧
    (levelOps (opLevel op - 3)).head? ≠ some LOGICAL_AND ∧ (levelOps (opLevel op - 3)).head? ≠ some LOGICAL_OR := by
  cases op <;> decide

theorem ntOf_pred {l : Nat} (h : 3 ≤ l ∧ l ≤ 12) : ntOf (l - 1) = (if l - 3 = 0 then .unary else .binop (l - 3 - 1) EOF) := by
  split
  · obtain rfl : l = 3 := by omega
    rfl
  · exact ntOf_bin (by omega)

theorem Claim.boundB {l : Nat} {c : List UInt8} {leak N : Nat} (h : Claim E src start l ts c leak D N) (hl : 3 ≤ l ∧ l ≤ 10) :
    ClaimB E src start l ts c leak D N := by
  have := h.2
  rwa [if_neg (by omega), if_pos hl] at this

theorem good_bin {op : BinOp} {a b : Expr} (ha : Good E src start a) (hb : Good E src start b) : Good E src start (.bin op a b) := by
  intro D ts hw hD
  simp only [WriteE] at hw
  obtain ⟨ta, tb, hwa, hwb, rfl⟩ := hw
  obtain ⟨l1, l2⟩ := opLevel_le op
  obtain ⟨o1, o2, o3, o4, o5, o6, o7⟩ := op_facts op
  have hca := ha.text hwa (by omega)
  have hcb := hb.text hwb (by omega)
  have hDb : D + spine a + 1 + leakE a ≤ 502 := by obtain ⟨k, _, _, _, h, _⟩ := hwb; omega
  show Claim E src start (opLevel op) _ _ _ D _
  refine ⟨⟨?_, fun h => by omega, ?_, fun h => by omega⟩, ?_⟩
  · rw [firstKind_append hca.1.ne]; exact hca.1.first
  · rw [lastKind_append, lastKind_cons, lastKind_ne hcb.1.ne (q := 0)]; exact hcb.1.last
  rw [if_neg (by omega), if_pos ⟨l1, l2⟩]
  intro d p f rest pre post hd hp hf
  simp only [List.append_assoc, List.cons_append]
  obtain ⟨n, hn, hA⟩ := hca.boundB ⟨l1, l2⟩ d p (.sym op.tok.toNat) (tb ++ f :: rest) pre post hd hp o5
  refine ⟨n + 1, by simp only [spine]; omega, fun X rest' p' pre' hck => ?_⟩
  have e1 : X - (n + 1 + 1) = X - 1 - (n + 1) := by omega
  rw [e1]
  refine hA (X - 1) rest' p' pre' ?_
  unfold check
  refine Tr.get fun s hs => ?_
  rw [show s.tok = op.tok.toNat from hs.tok]
  refine Tr.when_true (by rw [findtok_mem o1]; simpa using o3) ?_
  have hlog : ¬ ((levelOps (opLevel op - 3)).head? = some LOGICAL_AND ∨ (levelOps (opLevel op - 3)).head? = some LOGICAL_OR) :=
    fun h => h.elim o6 o7
  simp only [hlog, if_false]
  refine Tr.bind (Tr.next_ne (by simp)) fun _ => Tr.call ?_
  have hg := hcb.goes (d := d + n + 1 + leakE a) (by omega) o2 f rest (pre ++ code a) post hf
  rw [ntOf_pred ⟨l1, by omega⟩] at hg
  have hoff := off_bin (l := opLevel op) ⟨l1, by omega⟩
  refine Tr.ltrBinop (f1 := fun n => parse E src n (if opLevel op - 3 = 0 then .unary else .binop (opLevel op - 3 - 1) EOF))
      (f2 := fun n op' => parse E src n (.binop (opLevel op - 3) op')) (prev := op.tok.toNat) (X := X) ?_
      (R := At E src start (lastKind p (ta ++ .sym op.tok.toNat :: tb)) (d + off (opLevel op) + 1 + (n + 1) + leakE (.bin op a b))
        (f :: rest) (pre ++ (code a ++ code b)) post) ?_
      (Tr.when_true (by simpa using o3) (Tr.emitOp _ o4)) ?_
  · simp only [off]; omega
  · refine Tr.mono hg (fun s h => ?_) fun _ s h => ?_
    · have : d + n + 1 + leakE a + off (opLevel op - 1) = d + off (opLevel op) + 1 + n + leakE a + 1 := by omega
      rw [this]; exact h
    · have e2 : d + n + 1 + leakE a + off (opLevel op - 1) + leakE b =
        d + off (opLevel op) + 1 + (n + 1) + leakE (.bin op a b) := by simp only [leakE]; omega
      rw [e2] at h
      rw [lastKind_append, lastKind_cons]
      simpa [lastKind_ne hcb.1.ne (p := op.tok.toNat) (q := Token.kind (.sym op.tok.toNat))] using h
  · simpa [code] using hck

/-- `&&` and `||` -/
theorem goes_logic {j d leak1 leak2 l : Nat} {ta tb : List Token} {ca cb : List UInt8} {k : Nat} {b : UInt8} {N1 N2 : Nat}
    (hl : l = j + 3) (hj : j = 8 ∨ j = 9) (hk : levelOps j = [k]) (hkb : k = LOGICAL_AND ∧ b = JMP_NEUTRAL_FALSE ∨ k = LOGICAL_OR ∧ b = JMP_NEUTRAL_TRUE)
    (ha : Claim E src start (l - 1) ta ca leak1 D N1) (hb : Claim E src start l tb cb leak2 (D + 1 + leak1) N2)
    (hd : d ≤ D) (hD : D ≤ 501) (hp : Before p) :
    Goes E src start (.binop j EOF) p (d + off l) (d + off l + (leak1 + leak2)) (ta ++ .sym k :: tb)
      (ca ++ b :: vint (DROP :: cb).length ++ DROP :: cb) (Ends l) := by
  subst hl
  have hkf : Before k ∧ k ≠ 0 ∧ Ends (j + 2) k := by
    rcases hj with rfl | rfl <;> rcases hkb with ⟨rfl, _⟩ | ⟨rfl, _⟩ <;> first | decide | exact absurd hk (by decide)
  intro f rest pre post hf
  refine Tr.call ?_
  simp only [List.append_assoc, List.cons_append]
  have hga := ha.goes hd hp (.sym k) (tb ++ f :: rest) pre post hkf.2.2
  have hgb := hb.goes (d := d + 1 + leak1) (by omega) hkf.1 f rest (pre ++ ca ++ [b] ++ [0] ++ [DROP]) post hf
  have hnt : ntOf (j + 3) = .binop j EOF := by rcases hj with rfl | rfl <;> rfl
  have hnt1 : ntOf (j + 3 - 1) = (if j = 0 then .unary else .binop (j - 1) EOF) := by rcases hj with rfl | rfl <;> rfl
  have ho : off (j + 3 - 1) = off (j + 3) + 1 := by rcases hj with rfl | rfl <;> rfl
  rw [hnt] at hgb
  rw [hnt1, ho] at hga
  refine (Tr.ltrBinop (f1 := fun n => parse E src n (if j = 0 then .unary else .binop (j - 1) EOF))
      (f2 := fun n op' => parse E src n (.binop j op')) (prev := EOF) (X := d + off (j + 3) + (leak1 + leak2) + 1) ?_
      hga (Tr.when_false (by decide)) ?_)
  · have : off (j + 3) ≤ 1 := by rcases hj with rfl | rfl <;> decide
    omega
  · rw [hk]
    unfold check
    refine Tr.get fun s hs => ?_
    rw [show s.tok = k from hs.tok]
    refine Tr.when_true (by simpa [findtok] using hkf.2.1) ?_
    have hlog : [k].head? = some LOGICAL_AND ∨ [k].head? = some LOGICAL_OR := by
      rcases hkb with ⟨rfl, _⟩ | ⟨rfl, _⟩ <;> simp
    have hbb : (if [k].head? = some LOGICAL_AND then JMP_NEUTRAL_FALSE else JMP_NEUTRAL_TRUE) = b := by
      rcases hkb with ⟨rfl, rfl⟩ | ⟨rfl, rfl⟩ <;> rfl
    simp only [if_pos hlog, hbb]
    refine Tr.bind (Tr.emit _) fun _ => Tr.curIdx (Tr.bind (Tr.emit _) fun _ => Tr.bind (Tr.emit _) fun _ =>
      Tr.bind (Tr.next_ne (by simp)) fun _ => Tr.bind (R := fun _ => At E src start (lastKind k tb)
        (d + off (j + 3) + (leak1 + leak2) + 1) (f :: rest) (pre ++ ca ++ [b] ++ [0] ++ [DROP] ++ cb) post) ?_ fun _ => Tr.curIdx ?_)
    · refine Tr.mono hgb (fun s h => ?_) fun _ s h => ?_
      · have : d + 1 + leak1 + off (j + 3) = d + (off (j + 3) + 1) + leak1 := by omega
        rw [this]; exact h
      · have : d + 1 + leak1 + off (j + 3) + leak2 = d + off (j + 3) + (leak1 + leak2) + 1 := by omega
        rw [← this]; exact h
    · refine tr_patch (DROP :: cb).length (a := pre ++ ca ++ [b]) (b := 0) (mid := DROP :: cb) ((Tr.pure () fun _ h => h).conv ?_ rfl ?_)
        (by simp) rfl ?_
      · rw [lastKind_append, lastKind_cons]; rfl
      · simp
      · simp only [List.length_append, List.length_cons, List.length_nil, initOffsetSize]; omega

theorem good_and {a b : Expr} (ha : Good E src start a) (hb : Good E src start b) : Good E src start (.and a b) := by
  intro D ts hw hD
  simp only [WriteE] at hw
  obtain ⟨ta, tb, hwa, hwb, rfl⟩ := hw
  have hca := ha.text hwa (by decide)
  have hcb := hb.text hwb (by decide)
  have hDb : D + 1 + leakE a ≤ 502 := by obtain ⟨k, _, _, _, h, _⟩ := hwb; omega
  show Claim E src start 11 _ _ _ D _
  refine ⟨⟨?_, fun h => by omega, ?_, fun h => by omega⟩, ?_⟩
  · rw [firstKind_append hca.1.ne]; exact hca.1.first
  · rw [lastKind_append, lastKind_cons, lastKind_ne hcb.1.ne (q := 0)]; exact hcb.1.last
  rw [if_neg (by decide), if_neg (by decide)]
  intro d p hd hp
  exact goes_logic (j := 8) rfl (.inl rfl) rfl (.inl ⟨rfl, rfl⟩) hca hcb hd (by omega) hp

theorem good_or {a b : Expr} (ha : Good E src start a) (hb : Good E src start b) : Good E src start (.or a b) := by
  intro D ts hw hD
  simp only [WriteE] at hw
  obtain ⟨ta, tb, hwa, hwb, rfl⟩ := hw
  have hca := ha.text hwa (by decide)
  have hcb := hb.text hwb (by decide)
  have hDb : D + 1 + leakE a ≤ 502 := by obtain ⟨k, _, _, _, h, _⟩ := hwb; omega
  show Claim E src start 12 _ _ _ D _
  refine ⟨⟨?_, fun h => by omega, ?_, fun h => by omega⟩, ?_⟩
  · rw [firstKind_append hca.1.ne]; exact hca.1.first
  · rw [lastKind_append, lastKind_cons, lastKind_ne hcb.1.ne (q := 0)]; exact hcb.1.last
  rw [if_neg (by decide), if_neg (by decide)]
  intro d p hd hp
  exact goes_logic (j := 9) rfl (.inr rfl) rfl (.inr ⟨rfl, rfl⟩) hca hcb hd (by omega) hp

theorem good_cond {c a b : Expr} (hc : Good E src start c) (ha : Good E src start a) (hb : Good E src start b) :
    Good E src start (.cond c a b) := by
  intro D ts hw hD
  simp only [WriteE] at hw
  obtain ⟨tc, ta, tb, hwc, hwa, hwb, rfl⟩ := hw
  have hcc := hc.text hwc (by decide)
  have hca := ha.text hwa (by decide)
  have hcb := hb.text hwb (by decide)
  show Claim E src start 13 _ _ _ D _
  refine ⟨⟨?_, fun h => by omega, ?_, fun h => by omega⟩, ?_⟩
  · rw [List.append_assoc, firstKind_append hcc.1.ne]; exact hcc.1.first
  · rw [lastKind_append, lastKind_cons, lastKind_ne hcb.1.ne (q := 0)]; exact hcb.1.last
  rw [if_neg (by decide), if_neg (by decide)]
  intro d p hd hp f rest pre post hf
  refine Tr.call ?_
  show Tr _ (fun n => parseTernary src (parse E src n) EOF) _
  unfold parseTernary
  simp only [List.append_assoc, List.cons_append]
  have g1 := hcc.goes hd hp (.sym QUESTION) (ta ++ .sym COLON :: (tb ++ f :: rest)) pre post (by decide)
  have g2 := hca.goes (d := d + leakE c) (p := QUESTION) (by omega) (by decide) (.sym COLON) (tb ++ f :: rest)
    (pre ++ code c ++ [JMP_FALSE] ++ [0]) post (by decide)
  have g3 := hcb.goes (d := d + leakE c + leakE a) (p := COLON) (by omega) (by decide) f rest
    (pre ++ code c ++ [JMP_FALSE] ++ [0] ++ code a ++ [JMP] ++ [0] ++ [DROP]) post hf
  refine Tr.bind g1 fun _ => Tr.bind (Tr.when_false (by decide)) fun _ => Tr.get fun s hs => ?_
  rw [show s.tok = QUESTION from hs.tok]
  refine Tr.when_true rfl ?_
  refine Tr.bind (Tr.expect_ne rfl (by simp)) fun _ => Tr.bind (Tr.emit _) fun _ => Tr.curIdx (Tr.bind (Tr.emit _) fun _ =>
    Tr.bind g2 fun _ => Tr.bind (Tr.emit _) fun _ => Tr.curIdx (Tr.bind (Tr.emit _) fun _ => Tr.curIdx (Tr.bind (Tr.emit _) fun _ =>
    Tr.bind (Tr.expect_ne rfl (by simp)) fun _ => Tr.bind g3 fun _ => Tr.curIdx ?_)))
  refine tr_patch (DROP :: code b).length (a := pre ++ code c ++ [JMP_FALSE] ++ [0] ++ code a ++ [JMP]) (b := 0) (mid := DROP :: code b)
    ?_ (by simp) rfl ?_
  · refine tr_patch (code a ++ JMP :: vint (DROP :: code b).length).length (a := pre ++ code c ++ [JMP_FALSE]) (b := 0)
      (mid := code a ++ JMP :: vint (DROP :: code b).length ++ DROP :: code b) ((Tr.pure () fun _ h => h).conv ?_ ?_ ?_) (by simp) rfl ?_
    · rw [lastKind_append, lastKind_cons, lastKind_append, lastKind_cons]; rfl
    · simp only [leakE, off]; omega
    · simp [code]
    · have := vint_pos (DROP :: code b).length
      simp only [List.length_append, List.length_cons, List.length_nil, initOffsetSize] at this ⊢
      omega
  · simp only [List.length_append, List.length_cons, List.length_nil, initOffsetSize]; omega

end Mjs.Parse
