import Verif.Lemmas.ParseList

/-!
Operators.
-/

namespace Mjs.Parse
open Mjs Mjs.Tok Mjs.Exec Mjs.Code Mjs.Bcode Mjs.Parser Mjs.Grammar

variable {E : Env} {src : List UInt8} {start p D : Nat} {ts : List Token} {pre post : List UInt8}

/-- What can be assigned to is handled. -/
def GoodL (E : Env) (src : List UInt8) (start : Nat) (l : Lval) : Prop :=
  ∀ D ts, WriteL D l ts → D ≤ 502 → ClaimL E src start ts l D

theorem goodL_var (x : Name) : GoodL E src start (.var x) := by
  intro D ts hw _
  simp only [WriteL] at hw
  subst hw; exact claimL_var x

theorem goodL_dot {e : Expr} (x : Name) (h : Good E src start e) : GoodL E src start (.dot e x) := by
  intro D ts hw _
  simp only [WriteL] at hw
  obtain ⟨t, ht, rfl⟩ := hw
  exact claimL_dot x (h.text ht (by decide))

theorem goodL_index {e k : Expr} (h : Good E src start e) (hk : Good E src start k) : GoodL E src start (.index e k) := by
  intro D ts hw _
  simp only [WriteL] at hw
  obtain ⟨t, tk, ht, htk, rfl⟩ := hw
  exact claimL_index (h.text ht (by decide)) (hk.text htk (by decide))

theorem good_get {l : Lval} (h : GoodL E src start l) : Good E src start (.get l) := by
  intro D ts hw hD
  simp only [WriteE] at hw
  have hc := h D ts hw hD
  refine ⟨hc.1, ?_⟩
  rw [if_pos (by rfl)]
  intro d p f rest pre post Q hd hp hf hQ hl
  refine hc.2 d p f rest pre post Q hd hp trivial hQ ?_
  have : getB f.kind = [GET] := by unfold getB; rw [if_neg (by simpa using hf)]
  simp only [this]
  exact hl

theorem Goes.ups {l l' p d leak : Nat} {c : List UInt8} {ok : Nat → Prop} (hd : d ≤ 502) (hs : Shape l ts)
    (h : Goes E src start (ntOf l) p (d + off l) (d + off l + leak) ts c ok) (hl : l ≤ l') (hl' : l' ≤ 14)
    (hk : ∀ k, ok k → ∀ j, l < j → j ≤ l' → k ∉ checks j) :
    Goes E src start (ntOf l') p (d + off l') (d + off l' + leak) ts c ok := by
  induction l' with
  | zero => obtain rfl : l = 0 := by omega
            exact h
  | succ l' ih =>
    rcases Nat.lt_or_ge l (l' + 1) with hlt | hge
    · exact Goes.up hd (hs.mono (by omega)) (ih (by omega) (by omega) fun k h j hj hj' => hk k h j hj (by omega)) (by omega)
        fun k h => hk k h (l' + 1) hlt (Nat.le_refl _)
    · obtain rfl : l = l' + 1 := by omega
      exact h

theorem getB_assign {k : Nat} (h : k ∈ assignOps ∨ k ∈ postfixOps) : getB k = [] := if_pos h

theorem ClaimL.goes {l : Lval} {k d : Nat} (h : ClaimL E src start ts l D) (hk : k ∈ assignOps ∨ k ∈ postfixOps) (hd : d ≤ D)
    (hp : Before p) : Goes E src start .callDotMem p (d + 10) (d + 10 + leakL l) ts (codeL l) (· = k) := by
  have h1 : ∀ k, k ∈ assignOps ∨ k ∈ postfixOps → k ∉ suffixes := by
    have a : ∀ k ∈ assignOps, k ∉ suffixes := by decide
    have b : ∀ k ∈ postfixOps, k ∉ suffixes := by decide
    rintro k (h | h)
    · exact a k h
    · exact b k h
  have := h.2.goes hd hp (k := k) trivial (h1 k hk)
  simpa [getB_assign hk] using this

theorem good_assign {op : AssignOp} {l : Lval} {e : Expr} (h : GoodL E src start l) (he : Good E src start e) :
    Good E src start (.assign op l e) := by
  intro D ts hw hD
  simp only [WriteE] at hw
  obtain ⟨tl, te, hwl, hwe, hop, rfl⟩ := hw
  have hl := h D tl hwl hD
  have hc := he.text hwe (Nat.le_refl _)
  have hm : (assignTok op).toNat ∈ assignOps := by
    revert hop
    cases op with
    | none => decide
    | some op => cases op <;> decide
  have hm1 : ∀ k ∈ assignOps, ∀ j, j ≤ 13 → 0 < j → k ∉ checks j := by decide
  have hm2 : ∀ k ∈ assignOps, Before k ∧ k ≤ 255 ∧ k ≠ 0 := by decide
  show Claim E src start 14 _ _ _ D _
  refine ⟨⟨?_, fun h => by omega, ?_, fun h => by omega⟩, ?_⟩
  · rw [firstKind_append hl.1.ne]; exact hl.1.first
  · rw [lastKind_append, lastKind_cons, lastKind_ne hc.1.ne (q := 0)]; exact hc.1.last
  rw [if_neg (by decide), if_neg (by decide)]
  intro d p hd hp f rest pre post hf
  refine Tr.call ?_
  show Tr _ (fun n => parseAssignment src (parse E src n)) _
  unfold parseAssignment
  have hg := Goes.ups (l := 0) (l' := 13) (d := d) (by omega) hl.1 (hl.goes (.inl hm) hd hp) (by decide) (by decide)
    (by rintro _ rfl j hj hj'; exact hm1 _ hm j hj' hj) (.sym (assignTok op).toNat) (te ++ f :: rest) pre post rfl
  simp only [List.append_assoc, List.cons_append]
  refine Tr.bind hg fun _ => Tr.get fun s hs => ?_
  rw [show s.tok = (assignTok op).toNat from hs.tok]
  refine Tr.when_true (by rw [findtok_mem hm]; simpa using (hm2 _ hm).2.2) ?_
  have hg2 := hc.goes (d := d + leakL l) (by omega) (hm2 _ hm).1 f rest (pre ++ codeL l) post hf
  refine (Tr.bind (Tr.next_ne (by simp)) fun _ => Tr.bind hg2 fun _ => Tr.emitOp _ (hm2 _ hm).2.1).conv ?_ ?_ ?_
  · rw [lastKind_append, lastKind_cons]
    exact lastKind_ne hc.1.ne
  · simp only [leakE, off]; omega
  · simp [code]

/-! ## Unary operators -/

theorem unary_is_postfix {k : Nat} {t : Token} {d d' p' : Nat} {rest rest' : List Token} {pre' : List UInt8}
    (ht : t.kind ∉ unaryOps) (h : Tr (At E src start p d (t :: rest) pre post) (fun n => parse E src n .unary)
      fun _ => At E src start p' d' rest' pre' post) (hk : k = t.kind) :
    Tr (At E src start p d (t :: rest) pre post) (fun n => parse E src n (if findtok unaryOps k ≠ EOF then .unary else .postfix))
      fun _ => At E src start p' d' rest' pre' post := by
  subst hk
  rw [findtok_ne ht, if_neg (by decide)]
  intro s hs
  obtain ⟨a, s', ⟨d0, he⟩, hq⟩ := h s hs
  refine ⟨a, s', ⟨d0, fun n hn => ?_⟩, hq⟩
  have h1 := he (n + 1) (by omega)
  have hz : findtok unaryOps s.tok = EOF := by rw [hs.tok]; exact findtok_ne ht
  have h2 : parseUnary src (parse E src n) s = .ok a s' := h1
  simp only [parseUnary, Bind.bind, M.bind, Parser.get, hz, ne_eq, not_true, decide_false, if_false, when, M.pure,
    Bool.false_eq_true] at h2
  show parse E src n .postfix s = _
  cases hx : parse E src n .postfix s <;> rw [hx] at h2 <;> first | exact h2 | cases h2

theorem good_un {op : UnOp} {e : Expr} (h : Good E src start e) : Good E src start (.un op e) := by
  intro D ts hw hD
  simp only [WriteE] at hw
  obtain ⟨t, ht, rfl⟩ := hw
  have hc := h.text ht (by decide)
  generalize hu : Token.sym (match op with | .not => NOT | .tilda => TILDA | .typeof => KW_TYPEOF | .minus => MINUS | .plus => PLUS) = u
  have hu1 : u.kind ∈ unaryOps ∧ Before u.kind ∧ u.kind ≠ 0 ∧ u.kind ∈ starters ∧
      UInt8.ofNat (if u.kind = MINUS then UNARY_MINUS else if u.kind = PLUS then UNARY_PLUS else u.kind) = op.tok ∧
      (if u.kind = MINUS then UNARY_MINUS else if u.kind = PLUS then UNARY_PLUS else u.kind) ≤ 255 := by
    cases op <;> (subst hu; decide)
  clear hu
  obtain ⟨hu1, hu2, hu3, hu4, hu5, hu6⟩ := hu1
  show Claim E src start 2 _ _ _ D _
  refine ⟨⟨hu4, fun h => by omega, ?_, fun h => by omega⟩, ?_⟩
  · rw [lastKind_cons, lastKind_ne hc.1.ne (q := 0)]; exact hc.1.last
  rw [if_neg (by decide), if_neg (by decide)]
  intro d p hd hp f rest pre post hf
  have hg := hc.goes hd hu2 f rest pre post hf
  refine Tr.call ?_
  show Tr _ (fun n => parseUnary src (parse E src n)) _
  unfold parseUnary
  refine Tr.get fun s hs => ?_
  have hs1 : s.tok = u.kind := hs.tok
  have hz : decide (findtok unaryOps s.tok ≠ EOF) = true := by rw [hs1, findtok_mem hu1]; simpa using hu3
  rw [hz, hs1]
  refine Tr.bind (Tr.when_true rfl (Tr.next_ne (by simp))) fun _ => Tr.get fun s' hs' => ?_
  obtain ⟨a, t, rfl, ha⟩ := hc.1.cons
  refine (Tr.bind (R := fun _ => At E src start (lastKind u.kind (a :: t)) (d + off 2 + leakE e) (f :: rest) (pre ++ code e) post) ?_
    fun _ => Tr.when_true rfl (Tr.emitOp _ hu6)).conv ?_ rfl ?_
  · rw [hs'.tok]
    by_cases hau : a.kind ∈ unaryOps
    · have : findtok unaryOps a.kind ≠ EOF := by
        rw [findtok_mem hau]; intro e; rw [e] at hau; exact absurd hau (by decide)
      rw [if_pos this]
      exact hg
    · exact unary_is_postfix hau hg rfl
  · rw [lastKind_cons p]
  · simp [code, hu5]

theorem good_incr {post plus : Bool} {l : Lval} (h : GoodL E src start l) : Good E src start (.incr post plus l) := by
  intro D ts hw hD
  simp only [WriteE] at hw
  obtain ⟨t, ht, hw⟩ := hw
  generalize hu : (if plus = true then PLUS_PLUS else MINUS_MINUS) = u at hw
  have hu1 : u ∈ postfixOps := by subst hu; cases plus <;> decide
  have hu2 : ∀ k ∈ postfixOps, k ∈ unaryOps ∧ k ∈ starters ∧ k ≠ DOT ∧ k ≠ 0 ∧ k ≤ 255 ∧ k ≠ MINUS ∧ k ≠ PLUS := by decide
  obtain ⟨hu2, hu3, hu4, hu5, hu6, hu7, hu8⟩ := hu2 u hu1
  cases post with
  | true =>
    simp only [if_true] at hw
    subst hw
    have hl := h D t ht hD
    show Claim E src start 1 _ _ _ D _
    refine ⟨hl.1.concat (by simp) hu4 fun h => by omega, ?_⟩
    rw [if_neg (by decide), if_neg (by decide)]
    intro d p hd hp f rest pre post hf
    refine Tr.call ?_
    show Tr _ (fun n => parsePostfix src (parse E src n)) _
    unfold parsePostfix
    have hg := hl.goes (.inr hu1) hd hp (.sym u) (f :: rest) pre post rfl
    simp only [List.append_assoc, List.cons_append, List.nil_append]
    refine (Tr.bind hg fun _ => (Tr.get fun s hs => ?_)).conv
      (D' := d + 10 + leakL l) (p' := u) (pre' := pre ++ codeL l ++ [EXPR, incrTok true plus]) ?_ ?_ ?_
    · rw [show s.tok = u from hs.tok]
      subst hu
      cases plus
      · exact Tr.when_true rfl (Tr.bind (Tr.emitOp _ (by decide)) fun _ => Tr.next)
      · exact Tr.when_true rfl (Tr.bind (Tr.emitOp _ (by decide)) fun _ => Tr.next)
    · rw [lastKind_append]; rfl
    · simp [leakE, off]
    · simp [code]
  | false =>
    simp only [Bool.false_eq_true, if_false] at hw
    obtain ⟨⟨x, rfl⟩, rfl⟩ := hw
    simp only [WriteL] at ht
    subst ht
    show Claim E src start 2 _ _ _ D _
    refine ⟨⟨hu3, fun h => by omega, show IDENT ≠ DOT by decide, fun h => by omega⟩, ?_⟩
    rw [if_neg (by decide), if_neg (by decide)]
    intro d p hd hp f rest pre post hf
    refine Tr.call ?_
    show Tr _ (fun n => parseUnary src (parse E src n)) _
    unfold parseUnary
    refine Tr.get fun s hs => ?_
    have hs1 : s.tok = u := hs.tok
    have hz : decide (findtok unaryOps s.tok ≠ EOF) = true := by rw [hs1, findtok_mem hu2]; simpa using hu5
    rw [hz, hs1]
    refine Tr.bind (Tr.when_true rfl (Tr.next_ne (by simp))) fun _ => Tr.get fun s' hs' => ?_
    rw [show s'.tok = IDENT from hs'.tok, if_neg (by decide), if_neg hu7, if_neg hu8]
    have hid : Goes E src start .postfix u (d + 10) (d + 10) [.ident x] (codeL (.var x)) (Ends 2) := by
      refine Goes.postfix (fun f rest pre post hf => Tr.call (Tr.len fun hlen => ?_)) fun k hk => hk.post
      show Tr _ (fun n => parseCallDotMem src (parse E src n)) _
      simp only [parseCallDotMem_eq]
      refine Tr.bind (R := fun _ => At E src start IDENT (d + 10) (f :: rest) (pre ++ codeL (.var x)) post) ?_ fun _ =>
        Tr.loop_stop _ fun s hs => isSfx_false (by rw [hs.tok]; exact hf.suffix)
      refine Tr.call ?_
      show Tr _ (fun n => parseLiteral E src (parse E src n)) _
      unfold parseLiteral
      refine Tr.get fun s hs => ?_
      rw [show s.tok = IDENT from hs.tok]
      refine Tr.bind (m := fun _ => parseIdent src) (R := fun _ => At E src start u (d + 10) (.ident x :: f :: rest)
        (pre ++ codeL (.var x)) post) ?_ fun _ => Tr.next
      unfold parseIdent
      refine Tr.get fun s hs => Tr.ptest ?_
      have h0 : tokText src s = x := hs.is.2
      rw [h0, hs.prev, if_neg hu4]
      refine (Tr.bind (Tr.emit _) fun _ => Tr.bind (Tr.emitS _) fun _ => Tr.bind (Tr.emit _) fun _ => Tr.when_false ?_).to ?_
      · rw [findtok_mem (l := postfixOps) hu1]; simp [hu5]
      · simp [codeL, pushStr]
    refine (Tr.bind (hid f rest pre post hf) fun _ => Tr.when_true rfl (Tr.emitOp _ hu6)).conv rfl ?_ ?_
    · simp [leakE, leakL, off]
    · subst hu
      cases plus <;> simp [code, incrTok, PLUS_PLUS, MINUS_MINUS]

end Mjs.Parse
