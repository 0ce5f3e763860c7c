import Verif.Lemmas.ParseStmt

/-!
Conditions, loops and `return`; lists of statements.
-/

namespace Mjs.Parse
open Mjs Mjs.Tok Mjs.Exec Mjs.Code Mjs.Bcode Mjs.Parser Mjs.Grammar

variable {E : Env} {src : List UInt8} {start p D : Nat} {ts : List Token} {pre post : List UInt8}

/-! ## `return` -/

theorem err_bind {α β : Type} {m : M α} {f : α → M β} {s s' : PS} (h : m s = .err s') : (m >>= f) s = .err s' := by
  show M.bind m f s = _
  simp only [M.bind, h]

def noExpr : List Nat := [SEMICOLON, CLOSE_CURLY, EOF]

theorem err_literal {s : PS} (h : s.tok ∈ noExpr) (d : Nat) : parse E src (d + 1) .literal s = .err s := by
  show parseLiteral E src (parse E src d) s = .err s
  unfold parseLiteral
  refine (bind_ok (m := Parser.get) (a := s) (s' := s) rfl).trans ?_
  have : ∀ k ∈ noExpr, k ≠ KW_FALSE ∧ k ≠ KW_TRUE ∧ k ≠ KW_UNDEFINED ∧ k ≠ KW_NULL ∧ k ≠ IDENT ∧ k ≠ NUM ∧ k ≠ STR ∧ k ≠ OPEN_BRACKET ∧
      k ≠ OPEN_CURLY ∧ k ≠ OPEN_PAREN ∧ k ≠ KW_FUNCTION ∧ k ≠ KW_THIS := by decide
  obtain ⟨h1, h2, h3, h4, h5, h6, h7, h8, h9, h10, h11, h12⟩ := this _ h
  simp only [h1, h2, h3, h4, h5, h6, h7, h8, h9, h10, h11, h12, if_false]
  rfl

theorem err_unary {s : PS} (h : s.tok ∈ noExpr) (d : Nat) : parse E src (d + 4) .unary s = .err s := by
  have h0 : findtok unaryOps s.tok = EOF := by
    have : ∀ k ∈ noExpr, findtok unaryOps k = EOF := by decide
    exact this _ h
  show parseUnary src (parse E src (d + 3)) s = .err s
  unfold parseUnary
  refine (bind_ok (m := Parser.get) (a := s) (s' := s) rfl).trans ?_
  simp only [h0, ne_eq, not_true, decide_false]
  refine (bind_ok (a := ()) (s' := s) rfl).trans ((bind_ok (m := Parser.get) (a := s) (s' := s) rfl).trans ?_)
  simp only [h0, not_true, if_false]
  exact err_bind (err_bind (err_bind (err_literal h d)))

theorem attempt_err {m : M Unit} {s s' : PS} (h : m s = .err s') : attempt m s = .ok false s' := by
  simp only [attempt, h]

theorem err_ltr {f1 : M Unit} {f2 : Nat → M Unit} {ops : List Nat} {prev : Nat} {s : PS}
    (h : f1 { s with depth := s.depth + 1 } = .err { s with depth := s.depth + 1 }) : ltrBinop src f1 f2 ops prev s = .err s := by
  unfold ltrBinop
  refine (bind_ok (m := Parser.modify fun s => { s with depth := s.depth + 1 }) (a := ()) (s' := { s with depth := s.depth + 1 }) rfl).trans ?_
  refine (bind_ok (m := Parser.get) (a := { s with depth := s.depth + 1 }) (s' := { s with depth := s.depth + 1 }) rfl).trans ?_
  refine (bind_ok (a := false) (s' := { s with depth := s.depth + 1 }) ?_).trans ?_
  · split
    · rfl
    · exact attempt_err (err_bind h)
  · rfl

theorem err_binop {s : PS} (h : s.tok ∈ noExpr) (l d : Nat) : parse E src (d + 5 + l) (.binop l EOF) s = .err s := by
  induction l generalizing s with
  | zero =>
    show ltrBinop src (parse E src (d + 4) .unary) (fun op => parse E src (d + 4) (.binop 0 op)) (levelOps 0) EOF s = _
    exact err_ltr (err_unary (s := { s with depth := s.depth + 1 }) h d)
  | succ l ih =>
    show ltrBinop src (parse E src (d + 5 + l) (if l + 1 = 0 then .unary else .binop (l + 1 - 1) EOF))
      (fun op => parse E src (d + 5 + l) (.binop (l + 1) op)) (levelOps (l + 1)) EOF s = _
    rw [if_neg (by omega), Nat.add_sub_cancel]
    exact err_ltr (ih (s := { s with depth := s.depth + 1 }) h)

theorem err_expr {s : PS} (h : s.tok ∈ noExpr) (d : Nat) : parse E src (d + 17) .expr s = .err s :=
  err_bind (err_bind (err_binop h 9 d))

theorem goodS_ret_none : GoodS E src start (.ret none) := by
  intro D f ts hw
  simp only [WriteS] at hw
  obtain ⟨rfl, hf⟩ := hw
  refine ⟨⟨by simp, show KW_RETURN ≠ EOF ∧ KW_RETURN ≠ CLOSE_CURLY by decide, show KW_RETURN ≠ DOT by decide⟩, ?_⟩
  intro d p _ _ f rest pre post hk
  have hf : f.kind ∈ noExpr := by rw [hk]; rcases hf with rfl | rfl | rfl <;> decide
  refine Tr.call ?_
  show Tr _ (fun n => parseStatement src (parse E src n)) _
  unfold parseStatement
  refine Tr.get fun s hs => ?_
  rw [show s.tok = KW_RETURN from hs.tok]
  refine Tr.call ?_
  show Tr _ (fun n => parseReturn src (parse E src n)) _
  unfold parseReturn
  refine Tr.bind (Tr.expect rfl) fun _ => Tr.get fun saved hsv => ?_
  refine Tr.bind (R := fun b s => b = false ∧ At E src start KW_RETURN d (f :: rest) pre post (revert saved s)) ?_ fun b => Tr.fst ?_
  · intro s hs
    have ht : s.tok ∈ noExpr := by rw [hs.tok]; exact hf
    refine ⟨false, s, ⟨17, fun n hn => ?_⟩, rfl, ?_⟩
    · obtain ⟨m, rfl⟩ : ∃ m, n = m + 17 := ⟨n - 17, by omega⟩
      simp only [Parser.attempt, err_expr ht m]
    · exact {
        prev := hsv.prev, depth := hsv.depth, reads := hsv.reads, cur := hsv.cur, len := hsv.len
        start := hs.start
        buf := by
          show s.gen.buf.take saved.gen.buf.length = _
          rw [hs.buf, hsv.buf, List.take_length] }
  rintro rfl
  refine (Tr.bind (R := fun _ => At E src start KW_RETURN d (f :: rest) (pre ++ [PUSH_UNDEF]) post) (Tr.when_true rfl ?_) fun _ =>
    Tr.bind (Tr.emit _) fun _ => Tr.emit _).conv rfl ?_ ?_
  · exact Tr.bind (fun s hs => ⟨(), _, ⟨0, fun _ _ => rfl⟩, hs⟩) fun _ => Tr.emit _
  · simp [leakS, leakO]
  · simp [codeS]

theorem goodS_ret {e : Expr} (he : Good E src start e) : GoodS E src start (.ret (some e)) := by
  intro D f ts hw
  simp only [WriteS] at hw
  obtain ⟨t, hw, rfl, hf⟩ := hw
  have hc := he.text hw (Nat.le_refl _)
  refine ⟨⟨by simp, show KW_RETURN ≠ EOF ∧ KW_RETURN ≠ CLOSE_CURLY by decide, ?_⟩, ?_⟩
  · rw [lastKind_cons, lastKind_ne hc.1.ne (q := 0)]; exact hc.1.last
  rintro d p hd _ f rest pre post rfl
  refine Tr.call ?_
  show Tr _ (fun n => parseStatement src (parse E src n)) _
  unfold parseStatement
  refine Tr.get fun s hs => ?_
  rw [show s.tok = KW_RETURN from hs.tok]
  refine Tr.call ?_
  show Tr _ (fun n => parseReturn src (parse E src n)) _
  unfold parseReturn
  refine Tr.bind (Tr.expect_ne rfl (by simp)) fun _ => Tr.get fun saved hsv =>
    Tr.bind (Tr.attempt (hc.expr hd (by decide) f rest pre post (ends14 hf))) fun b => Tr.fst ?_
  rintro rfl
  refine (Tr.bind (Tr.when_false rfl) fun _ => Tr.bind (Tr.emit _) fun _ => Tr.emit _).conv (lastKind_cons p (.sym KW_RETURN) t).symm ?_ ?_
  · simp [leakS, leakO]
  · simp [codeS]

/-! ## Branches and bodies -/

theorem block_of_stmt {P : PS → Prop} {Q : Unit → PS → Prop} (hP : ∀ s, P s → s.tok = OPEN_CURLY)
    (h : Tr P (fun n => parse E src n .statement) Q) : Tr P (fun n => parse E src n (.block true)) Q := by
  intro s hs
  obtain ⟨a, s', ⟨d0, e⟩, q⟩ := h s hs
  refine ⟨a, s', ⟨d0, fun d hd => ?_⟩, q⟩
  have h1 := e (d + 1) (by omega)
  have h2 : parse E src (d + 1) .statement s = parse E src d (.block true) s := by
    show parseStatement src (parse E src d) s = _
    unfold parseStatement
    refine (bind_ok (m := Parser.get) (a := s) (s' := s) rfl).trans ?_
    rw [hP s hs]
    rfl
  exact h2.symm.trans h1

theorem goes_branch {s : Stmt} {f d : Nat} (hw : WriteS D f s ts) (hb : Branch f ts) (hd : d ≤ D) (hp : Before p) (hs : GoodS E src start s) :
    Goes E src start (.blockOrStmt true) p d (d + leakS s) ts (codeS s) (· = f) := by
  obtain ⟨hsh, hr⟩ := hs D f ts hw
  rintro f rest pre post rfl
  have h1 := hr d p hd hp f rest pre post rfl
  refine Tr.call ?_
  show Tr _ (fun n => parseBlockOrStmt src (parse E src n) true) _
  unfold parseBlockOrStmt
  have key : ∀ a u r, ts ++ f :: rest = a :: u :: r → (u.kind = OPEN_CURLY → a.kind = OPEN_CURLY) →
      Tr (At E src start p d (ts ++ f :: rest) pre post) (fun n => ptest src >>= fun t =>
        if t = OPEN_CURLY then parse E src n (.block true) else parse E src n .statement)
        (fun _ => At E src start (lastKind p ts) (d + leakS s) (f :: rest) (pre ++ codeS s) post) := by
    intro a u r e hu
    rw [e] at h1 ⊢
    refine Tr.ptest ?_
    by_cases hk : u.kind = OPEN_CURLY
    · simp only [hk, if_true]
      exact block_of_stmt (fun s hs => hs.tok.trans (hu hk)) h1
    · simp only [hk, if_false]
      exact h1
  match ts, hsh.ne with
  | [a], _ =>
    refine key a f rest rfl fun hk => ?_
    rcases hb with hb | hb
    · exact hb
    · exact absurd hk hb
  | a :: b :: t, _ =>
    refine key a b (t ++ f :: rest) rfl fun hk => ?_
    rcases hb with hb | hb
    · exact hb
    · exact absurd hk hb

/-- First and last token of the body of a loop. -/
theorem body_shape {body : List Stmt} {f : Nat} (hw : Body (WriteSs D CLOSE_CURLY body) (WriteOne D f body) ts)
    (h2 : ∀ s ∈ body, GoodS E src start s) : ts ≠ [] ∧ lastKind 0 ts ≠ DOT := by
  rcases hw with ⟨t, _, rfl⟩ | ⟨hw, _⟩
  · refine ⟨by simp, ?_⟩
    rw [lastKind_append]; exact show CLOSE_CURLY ≠ DOT by decide
  · match body with
    | [s] =>
      have := (h2 s List.mem_cons_self D f ts (by simpa only [WriteOne] using hw)).1
      exact ⟨this.ne, this.last⟩
    | [] => simp only [WriteOne] at hw
    | _ :: _ :: _ => simp only [WriteOne] at hw

theorem tr_body {body : List Stmt} {f : Token} {rest : List Token} {d : Nat}
    (hw : Body (WriteSs D CLOSE_CURLY body) (WriteOne D f.kind body) ts) (h1 : GoodSs E src start body)
    (h2 : ∀ s ∈ body, GoodS E src start s) (hd : d ≤ D) (hp : Before p) :
    Tr (At E src start p d (ts ++ f :: rest) pre post) (fun n => parseBody src (parse E src n))
      (fun _ => At E src start (lastKind p ts) (d + leakSs body) (f :: rest) (pre ++ codeSs body) post) := by
  unfold parseBody
  rcases hw with ⟨t, hw, rfl⟩ | ⟨hw, hne⟩
  · refine Tr.get fun s hs => ?_
    rw [show s.tok = OPEN_CURLY from hs.tok]
    simp only [if_true]
    have := h1 D CLOSE_CURLY t (.inl rfl) hw d p (.sym OPEN_CURLY) (.sym CLOSE_CURLY) (f :: rest) pre post hd (by decide) rfl
    rw [lastKind_append]
    simp only [List.append_assoc, List.cons_append, List.nil_append] at this ⊢
    exact Tr.bind this fun _ => Tr.next
  · match body with
    | [s] =>
      have := h2 s List.mem_cons_self D f.kind ts (by simpa only [WriteOne] using hw)
      refine Tr.get fun s hs => ?_
      have hk : s.tok ≠ OPEN_CURLY := by
        match ts, this.1.ne with
        | a :: t, _ => rw [hs.tok]; exact hne
      simp only [hk, if_false]
      exact (this.2 d p hd hp f rest pre post rfl).conv rfl (by simp [leakSs]) (by simp [codeSs, codeRest])
    | [] => simp only [WriteOne] at hw
    | _ :: _ :: _ => simp only [WriteOne] at hw

/-! ## `if` -/

theorem goodS_ite {c : Expr} {s : Stmt} (hc : Good E src start c) (hs : GoodS E src start s) : GoodS E src start (.ite c s) := by
  intro D f ts hw
  simp only [WriteS] at hw
  obtain ⟨tc, t, h1, h2, hb, hf, rfl⟩ := hw
  have hcc := hc.text h1 (Nat.le_refl _)
  have hsh := (hs _ _ _ h2).1
  refine ⟨⟨by simp, show KW_IF ≠ EOF ∧ KW_IF ≠ CLOSE_CURLY by decide, ?_⟩, ?_⟩
  · rw [lastKind_append, lastKind_cons, lastKind_ne hsh.ne (q := 0)]; exact hsh.last
  rintro d p hd _ f rest pre post rfl
  refine Tr.call ?_
  show Tr _ (fun n => parseStatement src (parse E src n)) _
  unfold parseStatement
  refine Tr.get fun s0 hs0 => ?_
  rw [show s0.tok = KW_IF from hs0.tok]
  refine Tr.call ?_
  show Tr _ (fun n => parseIf src (parse E src n)) _
  unfold parseIf
  rw [lastKind_append, lastKind_cons]
  simp only [List.append_assoc, List.cons_append]
  refine Tr.bind (Tr.expect rfl) fun _ => Tr.bind (Tr.expect_ne rfl (by simp)) fun _ =>
    Tr.bind (hcc.expr hd (by decide) _ _ _ _ (by decide)) fun _ => Tr.bind (Tr.emit _) fun _ => Tr.curIdx (Tr.bind (Tr.emit _) fun _ =>
      Tr.bind (Tr.expect_ne rfl (by simp)) fun _ => Tr.bind (goes_branch h2 hb (by omega) (by decide) hs f rest _ post rfl) fun _ =>
        Tr.get fun s1 hs1 => ?_)
  have : s1.tok ≠ KW_ELSE := by rw [hs1.tok]; exact hf
  simp only [this, if_false]
  refine Tr.curIdx (tr_patch (codeS s).length (a := pre ++ code c ++ [JMP_FALSE]) (b := 0) (mid := codeS s) ?_ (by simp) rfl ?_)
  · exact (Tr.pure () fun _ h => h).conv rfl (by simp [leakS, Nat.add_assoc]) (by simp [codeS])
  · simp only [List.length_append, List.length_cons, List.length_nil, initOffsetSize]; omega

theorem goodS_itee {c : Expr} {s t : Stmt} (hc : Good E src start c) (hs : GoodS E src start s) (ht : GoodS E src start t) :
    GoodS E src start (.itee c s t) := by
  intro D f ts hw
  simp only [WriteS] at hw
  obtain ⟨tc, t1, t2, h1, h2, hb, h3, hb3, rfl⟩ := hw
  have hcc := hc.text h1 (Nat.le_refl _)
  have hsh := (hs _ _ _ h2).1
  have hsh2 := (ht _ _ _ h3).1
  refine ⟨⟨by simp, show KW_IF ≠ EOF ∧ KW_IF ≠ CLOSE_CURLY by decide, ?_⟩, ?_⟩
  · rw [lastKind_append, lastKind_cons, lastKind_ne hsh2.ne (q := 0)]; exact hsh2.last
  rintro d p hd _ f rest pre post rfl
  refine Tr.call ?_
  show Tr _ (fun n => parseStatement src (parse E src n)) _
  unfold parseStatement
  refine Tr.get fun s0 hs0 => ?_
  rw [show s0.tok = KW_IF from hs0.tok]
  refine Tr.call ?_
  show Tr _ (fun n => parseIf src (parse E src n)) _
  unfold parseIf
  rw [lastKind_append, lastKind_cons]
  simp only [List.append_assoc, List.cons_append]
  refine Tr.bind (Tr.expect rfl) fun _ => Tr.bind (Tr.expect_ne rfl (by simp)) fun _ =>
    Tr.bind (hcc.expr hd (by decide) _ _ _ _ (by decide)) fun _ => Tr.bind (Tr.emit _) fun _ => Tr.curIdx (Tr.bind (Tr.emit _) fun _ =>
      Tr.bind (Tr.expect_ne rfl (by simp)) fun _ => Tr.bind (goes_branch h2 hb (by omega) (by decide) hs (.sym KW_ELSE) _ _ post rfl) fun _ =>
        Tr.get fun s1 hs1 => ?_)
  have : s1.tok = KW_ELSE := hs1.tok
  simp only [this, if_true]
  refine Tr.bind (R := fun r s' => r = (pre ++ code c ++ [JMP_FALSE] ++ [0] ++ codeS s ++ JMP :: vint (DROP :: codeS t).length).length ∧
    At E src start (lastKind KW_ELSE t2) (d + leakE c + leakS s + leakS t) (f :: rest)
      (pre ++ code c ++ [JMP_FALSE] ++ [0] ++ codeS s ++ JMP :: vint (DROP :: codeS t).length ++ DROP :: codeS t) post s') ?_
    fun r => Tr.fst ?_
  · refine Tr.bind (Tr.next_ne (by simp)) fun _ => Tr.bind (Tr.emit _) fun _ => Tr.curIdx (Tr.bind (Tr.emit _) fun _ => Tr.curIdx
      (Tr.bind (Tr.emit _) fun _ => Tr.bind (goes_branch h3 hb3 (by omega) (by decide) ht f rest _ post rfl) fun _ => Tr.curIdx ?_))
    refine tr_patch (DROP :: codeS t).length (a := pre ++ code c ++ [JMP_FALSE] ++ [0] ++ codeS s ++ [JMP]) (b := 0) (mid := DROP :: codeS t)
      ?_ (by simp) rfl ?_
    · refine Tr.pure _ fun _ h => ⟨?_, ?_⟩
      · have := vint_pos (DROP :: codeS t).length
        simp only [List.length_append, List.length_cons, List.length_nil] at this ⊢
        omega
      · have h' : At E src start (lastKind KW_ELSE t2) (d + leakE c + leakS s + leakS t) (f :: rest) _ post _ := h
        simpa using h'
    · simp only [List.length_append, List.length_cons, List.length_nil, initOffsetSize]; omega
  · rintro rfl
    refine tr_patch (codeS s ++ JMP :: vint (DROP :: codeS t).length).length (a := pre ++ code c ++ [JMP_FALSE]) (b := 0)
      (mid := codeS s ++ JMP :: vint (DROP :: codeS t).length ++ DROP :: codeS t) ?_ (by simp) rfl ?_
    · exact (Tr.pure () fun _ h => h).conv rfl (by simp [leakS, Nat.add_assoc]) (by simp [codeS])
    · simp only [List.length_append, List.length_cons, List.length_nil, initOffsetSize]; omega

/-! ## Loops -/

theorem goodS_while {c : Expr} {body : List Stmt} (hc : Good E src start c) (hb : GoodSs E src start body)
    (hb' : ∀ s ∈ body, GoodS E src start s) : GoodS E src start (.while c body) := by
  intro D f ts hw
  simp only [WriteS] at hw
  obtain ⟨tc, tb, h1, h2, rfl⟩ := hw
  have hcc := hc.text h1 (Nat.le_refl _)
  obtain ⟨hne, hlast⟩ := body_shape h2 hb'
  refine ⟨⟨by simp, show KW_WHILE ≠ EOF ∧ KW_WHILE ≠ CLOSE_CURLY by decide, ?_⟩, ?_⟩
  · rw [lastKind_append, lastKind_cons, lastKind_ne hne (q := 0)]; exact hlast
  rintro d p hd _ f rest pre post rfl
  refine Tr.call ?_
  show Tr _ (fun n => parseStatement src (parse E src n)) _
  unfold parseStatement
  refine Tr.get fun s0 hs0 => ?_
  rw [show s0.tok = KW_WHILE from hs0.tok]
  refine Tr.call ?_
  show Tr _ (fun n => parseWhile src (parse E src n)) _
  unfold parseWhile
  rw [lastKind_append, lastKind_cons]
  simp only [List.append_assoc, List.cons_append]
  refine Tr.bind (Tr.expect rfl) fun _ => Tr.bind (Tr.expect_ne rfl (by simp)) fun _ => Tr.bind (Tr.emit _) fun _ =>
    Tr.bind (Tr.emit _) fun _ => Tr.curIdx (Tr.bind (Tr.emit _) fun _ => Tr.bind (Tr.emit _) fun _ =>
    Tr.bind (hcc.expr hd (by decide) _ _ _ _ (by decide)) fun _ => Tr.bind (Tr.expect_ne rfl (by simp)) fun _ =>
    Tr.bind (Tr.emit _) fun _ => Tr.curIdx (Tr.bind (Tr.emit _) fun _ =>
    Tr.bind (tr_body h2 hb hb' (by omega) (by decide)) fun _ => Tr.bind (Tr.emit _) fun _ => Tr.bind (Tr.emit _) fun _ => Tr.curIdx ?_))
  let rb := codeSs body ++ [DROP, CONTINUE]
  refine tr_patch rb.length (a := pre ++ [NEW_SCOPE, LOOP, 0, 0] ++ code c ++ [JMP_FALSE]) (b := 0) (mid := rb) ?_ (by simp [rb]) (by simp) ?_
  · refine Tr.bind (Tr.emit _) fun _ => Tr.curIdx ?_
    let r := 0 :: code c ++ JMP_FALSE :: vint rb.length ++ rb ++ [BREAK]
    refine tr_patch r.length (a := pre ++ [NEW_SCOPE, LOOP]) (b := 0) (mid := r) ?_ (by simp [r]) (by simp) ?_
    · exact (Tr.emit _).conv rfl (by simp [leakS, Nat.add_assoc]) (by simp [codeS, r, rb])
    · simp only [r, List.length_append, List.length_cons, List.length_nil, initOffsetSize]; omega
  · simp only [rb, List.length_append, List.length_cons, List.length_nil, initOffsetSize]; omega

/-- Moving the place where code is emitted. -/
theorem tr_cur {pre' post' : List UInt8} {n : Nat} (h : pre ++ post = pre' ++ post') (hn : n = pre'.length) :
    Tr (At E src start p D ts pre post) (fun _ => modify fun s => { s with gen := { s.gen with cur := n } })
      (fun _ => At E src start p D ts pre' post') :=
  fun _ hs => ⟨(), _, ⟨0, fun _ _ => rfl⟩, ⟨hs.prev, hs.depth, hs.reads, hs.buf.trans h, hn, hs.start, hs.len⟩⟩

theorem tr_checkForIn {β : Type} {f : Nat → Bool → M β} {Q : β → PS → Prop} {b : Bool}
    (hb : ∃ t u r, ts = t :: u :: r ∧ (t.kind ≠ KW_LET ∧ b = (t.kind == IDENT && u.kind == KW_IN) ∨
      t.kind = KW_LET ∧ ∃ v r', r = v :: r' ∧ b = (u.kind == IDENT && v.kind == KW_IN)))
    (h : Tr (At E src start p D ts pre post) (fun d => f d b) Q) :
    Tr (At E src start p D ts pre post) (fun d => checkForIn src >>= f d) Q := by
  intro s hs
  obtain ⟨c, s2, ⟨d2, e2⟩, hq⟩ := h s hs
  refine ⟨c, s2, ⟨d2, fun d hd => ?_⟩, hq⟩
  refine (bind_ok (a := b) (s' := s) ?_).trans (e2 d hd)
  obtain ⟨t, u, r, rfl, ⟨hk, hb⟩ | ⟨hk, v, r', rfl, hb⟩⟩ := hb
  · have ht : s.tok = t.kind := hs.tok
    obtain ⟨st, hn, ha⟩ := hs.next
    have hu : st.tok = u.kind := ha.tok
    have ht' : s.tk.tok = t.kind := ht
    simp only [checkForIn, ht, hk, if_false, ht']
    by_cases hi : t.kind = IDENT
    · simp only [hi, if_true, hn, hu, hb, beq_self_eq_true, Bool.true_and]
    · simp only [hi, if_false, hb, beq_eq_false_iff_ne.2 hi, Bool.false_and]
  · have ht : s.tok = t.kind := hs.tok
    obtain ⟨st, hn, ha⟩ := hs.next
    have hu : st.tok = u.kind := ha.tok
    obtain ⟨st2, hn2, ha2⟩ := ha.next
    have hv : st2.tok = v.kind := ha2.tok
    have hn2 : pnext src st = some st2 := hn2
    simp only [checkForIn, ht, hk, if_true, hn, hu]
    by_cases hi : u.kind = IDENT
    · simp only [hi, if_true, hn2, hv, hb, beq_self_eq_true, Bool.true_and]
    · simp only [hi, if_false, hb, beq_eq_false_iff_ne.2 hi, Bool.false_and]

theorem goodS_forIn {isLet : Bool} {x : Name} {e : Expr} {body : List Stmt} (hc : Good E src start e) (hb : GoodSs E src start body)
    (hb' : ∀ s ∈ body, GoodS E src start s) : GoodS E src start (.forIn isLet x e body) := by
  intro D f ts hw
  simp only [WriteS] at hw
  obtain ⟨tc, tb, h1, h2, rfl⟩ := hw
  have hcc := hc.text h1 (Nat.le_refl _)
  obtain ⟨hne, hlast⟩ := body_shape h2 hb'
  refine ⟨⟨by simp, show KW_FOR ≠ EOF ∧ KW_FOR ≠ CLOSE_CURLY by decide, ?_⟩, ?_⟩
  · rw [lastKind_append, lastKind_cons, lastKind_ne hne (q := 0)]; exact hlast
  rintro d p hd _ f rest pre post rfl
  refine Tr.call ?_
  show Tr _ (fun n => parseStatement src (parse E src n)) _
  unfold parseStatement
  refine Tr.get fun s0 hs0 => ?_
  rw [show s0.tok = KW_FOR from hs0.tok]
  refine Tr.call ?_
  show Tr _ (fun n => parseFor src (parse E src n)) _
  unfold parseFor
  rw [lastKind_append, lastKind_cons]
  simp only [List.append_assoc, List.cons_append]
  refine Tr.bind (Tr.expect rfl) fun _ => Tr.bind (Tr.expect_ne rfl (by cases isLet <;> simp)) fun _ => ?_
  refine tr_checkForIn (b := true) ?_ ?_
  · cases isLet with
    | false => exact ⟨_, _, _, rfl, .inl ⟨show IDENT ≠ KW_LET by decide, rfl⟩⟩
    | true => exact ⟨_, _, _, rfl, .inr ⟨rfl, _, _, rfl, rfl⟩⟩
  simp only [if_true]
  refine Tr.call ?_
  show Tr _ (fun n => parseForIn src (parse E src n)) _
  unfold parseForIn
  let c1 := if isLet then create x else []
  refine Tr.bind (Tr.emit _) fun _ => Tr.get fun s1 hs1 => Tr.bind (R := fun _ => At E src start (if isLet then KW_LET else OPEN_PAREN) d
    (.ident x :: .sym KW_IN :: (tc ++ .sym CLOSE_PAREN :: (tb ++ f :: rest))) (pre ++ [NEW_SCOPE] ++ c1) post) ?_ fun _ => ?_
  · cases isLet with
    | false =>
      rw [show s1.tok = IDENT from hs1.tok]
      exact (Tr.when_false (by decide)).to (by simp [c1])
    | true =>
      rw [show s1.tok = KW_LET from hs1.tok]
      refine Tr.when_true rfl (Tr.bind (Tr.expect rfl) fun _ => Tr.get fun s2 hs2 => ?_)
      have h0 : tokText src s2 = x := hs2.is.2
      rw [h0]
      exact (Tr.bind (Tr.emit _) fun _ => Tr.bind (Tr.emitS _) fun _ => Tr.bind (Tr.emit _) fun _ => Tr.emit _).to
        (by simp [c1, create, pushStr])
  refine Tr.get fun s2 hs2 => ?_
  have h0 : tokText src s2 = x := hs2.is.2
  rw [h0]
  refine Tr.bind (Tr.emit _) fun _ => Tr.bind (Tr.emitS _) fun _ => Tr.bind (Tr.expect rfl) fun _ =>
    Tr.bind (Tr.expect_ne rfl (by simp)) fun _ => Tr.bind (Tr.attempt (hcc.expr hd (by decide) _ _ _ _ (by decide))) fun b => Tr.fst ?_
  rintro rfl
  refine Tr.bind (Tr.expect_ne rfl (by simp)) fun _ => Tr.bind (Tr.emit _) fun _ => Tr.bind (Tr.emit _) fun _ =>
    Tr.curIdx (Tr.bind (Tr.emit _) fun _ => Tr.bind (Tr.emit _) fun _ => Tr.bind (Tr.emit _) fun _ => Tr.bind (Tr.emit _) fun _ =>
    Tr.bind (Tr.emit _) fun _ => Tr.curIdx (Tr.bind (Tr.emit _) fun _ =>
    Tr.bind (tr_body h2 hb hb' (by omega) (by decide)) fun _ => Tr.bind (Tr.emit _) fun _ => Tr.bind (Tr.emit _) fun _ => Tr.curIdx ?_))
  let rb := codeSs body ++ [DROP, CONTINUE]
  let c2 := NEW_SCOPE :: c1 ++ pushStr x ++ code e ++ [PUSH_UNDEF, LOOP]
  refine tr_patch rb.length (a := pre ++ c2 ++ [0, 0, FOR_IN_NEXT, DUP, JMP_FALSE]) (b := 0) (mid := rb) ?_
    (by simp [rb, c2, pushStr]) (by simp [c2, pushStr, Nat.add_assoc]) ?_
  · refine Tr.bind (Tr.emit _) fun _ => Tr.curIdx ?_
    let r := 0 :: FOR_IN_NEXT :: DUP :: JMP_FALSE :: vint rb.length ++ rb ++ [BREAK]
    refine tr_patch r.length (a := pre ++ c2) (b := 0) (mid := r) ?_ (by simp [r]) (by simp [c2, pushStr, Nat.add_assoc]) ?_
    · exact (Tr.bind (Tr.emit _) fun _ => Tr.bind (Tr.emit _) fun _ => Tr.bind (Tr.emit _) fun _ => Tr.emit _).conv rfl
        (by simp [leakS, Nat.add_assoc]) (by simp [codeS, r, rb, c2, c1])
    · simp only [r, c2, pushStr, List.length_append, List.length_cons, List.length_nil, initOffsetSize]; omega
  · simp only [rb, List.length_append, List.length_cons, List.length_nil, initOffsetSize]; omega

theorem let_of_stmt {P : PS → Prop} {Q : Unit → PS → Prop} (hP : ∀ s, P s → s.tok = KW_LET)
    (h : Tr P (fun n => parse E src n .statement) Q) : Tr P (fun n => parse E src n .let_) Q := by
  intro s hs
  obtain ⟨a, s', ⟨d0, e⟩, q⟩ := h s hs
  refine ⟨a, s', ⟨d0, fun d hd => ?_⟩, q⟩
  have h1 := e (d + 1) (by omega)
  have h2 : parse E src (d + 1) .statement s = parse E src d .let_ s := by
    show parseStatement src (parse E src d) s = _
    unfold parseStatement
    refine (bind_ok (m := Parser.get) (a := s) (s' := s) rfl).trans ?_
    rw [hP s hs]
    rfl
  exact h2.symm.trans h1

/-- What the first part of a `for` statement does. -/
theorem tr_forInit {init : Stmt} {ti rest : List Token} {d : Nat} (hg : GoodS E src start init)
    (hge : ∀ e, init = .exprs e [] → Good E src start e) (hw : WriteS D SEMICOLON init ti)
    (hk : (∃ x i ds, init = .lets x i ds) ∨ (∃ e, init = .exprs e [])) (hin : (ti.drop 1).head? ≠ some (.sym KW_IN))
    (hd : d ≤ D) (hp : Before p) :
    (∀ {β : Type} {f : Nat → Bool → M β} {Q : β → PS → Prop} {q d : Nat} {pre post : List UInt8},
      Tr (At E src start q d (ti ++ .sym SEMICOLON :: rest) pre post) (fun d => f d false) Q →
      Tr (At E src start q d (ti ++ .sym SEMICOLON :: rest) pre post) (fun d => checkForIn src >>= f d) Q) ∧
    Tr (At E src start p d (ti ++ .sym SEMICOLON :: rest) pre post) (fun n => do
        let s ← get
        parse E src n (if s.tok = KW_LET then .let_ else .expr))
      (fun _ => At E src start (lastKind p ti) (d + leakS init) (.sym SEMICOLON :: rest) (pre ++ codeS init) post) := by
  obtain ⟨hsh, hr⟩ := hg _ _ _ hw
  rcases hk with ⟨x, i, ds, rfl⟩ | ⟨e, rfl⟩
  · simp only [WriteS] at hw
    obtain ⟨t1, t2, h1, h2, rfl, _⟩ := hw
    refine ⟨fun h => ?_, ?_⟩
    · refine tr_checkForIn ⟨.sym KW_LET, .ident x, t1 ++ t2 ++ .sym SEMICOLON :: rest, by simp, .inr ⟨rfl, ?_⟩⟩ h
      have : ∀ k : Nat, k ≠ KW_IN → false = (Token.kind (.ident x) == IDENT && k == KW_IN) := by
        intro k hk; rw [beq_eq_false_iff_ne.2 hk, Bool.and_false]
      cases i with
      | some e =>
        simp only [WriteInit] at h1
        obtain ⟨t, _, rfl⟩ := h1
        exact ⟨_, _, rfl, this _ (show ASSIGN ≠ KW_IN by decide)⟩
      | none =>
        simp only [WriteInit] at h1
        subst h1
        match ds with
        | [] =>
          simp only [WriteLets] at h2
          subst h2
          exact ⟨_, _, rfl, this _ (show SEMICOLON ≠ KW_IN by decide)⟩
        | (y, j) :: ds =>
          simp only [WriteLets] at h2
          obtain ⟨u1, u2, _, _, rfl⟩ := h2
          exact ⟨_, _, rfl, this _ (show COMMA ≠ KW_IN by decide)⟩
    · refine Tr.get fun s hs => ?_
      rw [show s.tok = KW_LET from hs.tok, if_pos rfl]
      exact let_of_stmt (fun s hs => hs.tok) (hr d p hd hp (.sym SEMICOLON) rest pre post rfl)
  · simp only [WriteS, WriteMore] at hw
    obtain ⟨t1, t2, h1, rfl, rfl, hne, _⟩ := hw
    rw [List.append_nil] at *
    have hc := (hge e rfl).text h1 (Nat.le_refl _)
    obtain ⟨a, t1', rfl, ha⟩ := hc.1.cons
    have ha' : a.kind ≠ KW_LET := (stmt_starters _ ha hne).2.1
    refine ⟨fun h => ?_, ?_⟩
    · cases t1' with
      | nil =>
        refine tr_checkForIn ⟨a, .sym SEMICOLON, rest, rfl, .inl ⟨ha', ?_⟩⟩ h
        rw [beq_eq_false_iff_ne.2 (show Token.kind (.sym SEMICOLON) ≠ KW_IN by decide), Bool.and_false]
      | cons b t =>
        refine tr_checkForIn ⟨a, b, t ++ .sym SEMICOLON :: rest, rfl, .inl ⟨ha', ?_⟩⟩ h
        have : b.kind ≠ KW_IN := by
          have hb : b ≠ .sym KW_IN := fun e => hin (by rw [e]; rfl)
          cases b with
          | sym k => exact fun e => hb (by rw [show k = KW_IN from e])
          | ident _ => exact show IDENT ≠ KW_IN by decide
          | str _ _ => exact show STR ≠ KW_IN by decide
          | int _ => exact show NUM ≠ KW_IN by decide
          | dbl _ => exact show NUM ≠ KW_IN by decide
        rw [beq_eq_false_iff_ne.2 this, Bool.and_false]
    · refine Tr.get fun s hs => ?_
      rw [show s.tok = a.kind from hs.tok, if_neg ha']
      exact (hc.expr hd hp (.sym SEMICOLON) rest pre post (by decide)).conv rfl (by simp [leakS, leakEs]) (by simp [codeS, codeMore])

theorem goodS_for {init : Stmt} {c inc : Expr} {body : List Stmt} (hi : GoodS E src start init)
    (hie : ∀ e, init = .exprs e [] → Good E src start e) (hc : Good E src start c) (hn : Good E src start inc)
    (hb : GoodSs E src start body) (hb' : ∀ s ∈ body, GoodS E src start s) : GoodS E src start (.for init c inc body) := by
  intro D f ts hw
  simp only [WriteS] at hw
  obtain ⟨ti, tc, tn, tb, h1, hk, hin, h2, h3, h4, rfl⟩ := hw
  have hcc := hc.text h2 (Nat.le_refl _)
  have hnn := hn.text h3 (Nat.le_refl _)
  obtain ⟨hne, hlast⟩ := body_shape h4 hb'
  refine ⟨⟨by simp, show KW_FOR ≠ EOF ∧ KW_FOR ≠ CLOSE_CURLY by decide, ?_⟩, ?_⟩
  · rw [lastKind_append, lastKind_cons, lastKind_ne hne (q := 0)]; exact hlast
  rintro d p hd _ f rest pre post rfl
  refine Tr.call ?_
  show Tr _ (fun n => parseStatement src (parse E src n)) _
  unfold parseStatement
  refine Tr.get fun s0 hs0 => ?_
  rw [show s0.tok = KW_FOR from hs0.tok]
  refine Tr.call ?_
  show Tr _ (fun n => parseFor src (parse E src n)) _
  unfold parseFor
  rw [lastKind_append, lastKind_cons]
  simp only [List.append_assoc, List.cons_append]
  have hinit := tr_forInit (p := OPEN_PAREN) (pre := pre ++ [NEW_SCOPE] ++ [LOOP] ++ [0] ++ [0]) (post := post)
    (rest := tc ++ .sym SEMICOLON :: (tn ++ .sym CLOSE_PAREN :: (tb ++ f :: rest))) hi hie h1 hk hin hd (by decide)
  refine Tr.bind (Tr.expect rfl) fun _ => Tr.bind (Tr.expect_ne rfl (by simp)) fun _ => hinit.1 ?_
  simp only [Bool.false_eq_true, if_false]
  refine Tr.bind (Tr.emit _) fun _ => Tr.bind (Tr.emit _) fun _ => Tr.curIdx (Tr.bind (Tr.emit _) fun _ => Tr.curIdx (Tr.bind (Tr.emit _) fun _ => ?_))
  let A := NEW_SCOPE :: LOOP :: 0 :: 0 :: codeS init ++ [DROP, JMP, 0]
  refine Tr.bind (m := fun n => do
        let s ← get
        parse E src n (if s.tok = KW_LET then .let_ else .expr)) hinit.2 fun _ => ?_
  refine Tr.bind (Tr.expect_ne rfl (by simp)) fun _ => Tr.bind (Tr.emit _) fun _ => Tr.bind (Tr.emit _) fun _ =>
    Tr.curIdx (Tr.bind (Tr.emit _) fun _ => Tr.curIdx ?_)
  have eA : pre ++ [NEW_SCOPE] ++ [LOOP] ++ [0] ++ [0] ++ codeS init ++ [DROP] ++ [JMP] ++ [0] = pre ++ A := by simp [A]
  rw [eA]
  refine Tr.bind (hcc.expr (d := d + leakS init) (by omega) (by decide) _ _ _ _ (by decide)) fun _ =>
    Tr.bind (Tr.expect_ne rfl (by simp)) fun _ => Tr.curIdx (Tr.bind (tr_cur (pre' := pre ++ A) (post' := code c ++ post) (by simp) rfl) fun _ =>
    Tr.bind (hnn.expr (d := d + leakS init + leakE c) (by omega) (by decide) _ _ _ _ (by decide)) fun _ =>
    Tr.bind (Tr.expect_ne rfl (by simp)) fun _ => Tr.bind (Tr.emit _) fun _ => Tr.curIdx ?_)
  let ri := code inc ++ [DROP]
  have eri : (pre ++ A ++ code inc ++ [DROP]).length - (pre ++ A).length = ri.length := by
    simp only [ri, List.length_append, List.length_cons, List.length_nil]; omega
  simp only [eri]
  refine Tr.bind (tr_cur (pre' := pre ++ A ++ ri ++ code c) (post' := post) (by simp [ri])
    (by simp only [List.length_append]; omega)) fun _ => Tr.bind (Tr.emit _) fun _ => Tr.curIdx (Tr.bind (Tr.emit _) fun _ =>
    Tr.bind (tr_body h4 hb hb' (by omega) (by decide)) fun _ => Tr.bind (Tr.emit _) fun _ => Tr.bind (Tr.emit _) fun _ => Tr.curIdx ?_)
  let rb := codeSs body ++ [DROP, CONTINUE]
  refine tr_patch rb.length (a := pre ++ A ++ ri ++ code c ++ [JMP_FALSE]) (b := 0) (mid := rb) ?_ (by simp [rb]) rfl
    (by simp only [rb, List.length_append, List.length_cons, List.length_nil, initOffsetSize]; omega)
  let k := ri ++ code c ++ JMP_FALSE :: vint rb.length ++ rb
  refine tr_patch ri.length (a := pre ++ NEW_SCOPE :: LOOP :: 0 :: 0 :: codeS init ++ [DROP, JMP]) (b := 0) (mid := k) ?_ (by simp [A, k])
    (by simp) (by simp only [A, List.length_append, List.length_cons, List.length_nil, initOffsetSize]; omega)
  let rj := codeS init ++ DROP :: JMP :: vint ri.length
  refine tr_patch rj.length (a := pre ++ [NEW_SCOPE, LOOP, 0]) (b := 0) (mid := rj ++ k) ?_ (by simp [rj]) (by simp) (by
    have := vint_pos ri.length
    simp only [rj, A, List.length_append, List.length_cons, List.length_nil, initOffsetSize] at this ⊢; omega)
  refine Tr.bind (Tr.emit _) fun _ => Tr.curIdx ?_
  let r := vint rj.length ++ rj ++ k ++ [BREAK]
  refine tr_patch r.length (a := pre ++ [NEW_SCOPE, LOOP]) (b := 0) (mid := r) ?_ (by simp [r]) (by simp)
    (by simp only [r, List.length_append, List.length_cons, List.length_nil, initOffsetSize]; omega)
  exact (Tr.emit _).conv rfl (by simp [leakS, Nat.add_assoc]) (by simp [codeS, r, rj, ri, rb, k])

/-! ## Lists of statements -/

theorem tr_semis {k n : Nat} {u : Token} {r : List Token} (hu : u.kind ≠ SEMICOLON)
    (hn : k + 1 ≤ n) : Tr (At E src start p D (List.replicate k (.sym SEMICOLON) ++ u :: r) pre post)
      (fun _ => loop (fun s => s.tok == SEMICOLON) (next src) n)
      (fun _ => At E src start (lastKind p (List.replicate k (.sym SEMICOLON))) D (u :: r) pre post) := by
  induction k generalizing p n with
  | zero =>
    obtain ⟨m, rfl⟩ : ∃ m, n = m + 1 := ⟨n - 1, by omega⟩
    refine Tr.loop_stop (m := fun _ => next src) m fun s hs => ?_
    rw [show s.tok = u.kind from hs.tok]
    exact beq_eq_false_iff_ne.2 hu
  | succ k ih =>
    obtain ⟨m, rfl⟩ : ∃ m, n = m + 1 := ⟨n - 1, by omega⟩
    rw [List.replicate_succ, lastKind_cons]
    refine Tr.loop_go (m := fun _ => next src) (fun s hs => ?_) (Tr.next_ne (by simp)) (ih (by omega))
    rw [show s.tok = SEMICOLON from hs.tok]; rfl

theorem stmts_loop {ss : List Stmt} (hs : ∀ s ∈ ss, GoodS E src start s) {et : Nat} (het : et = CLOSE_CURLY ∨ et = EOF) {D d p n : Nat}
    {drop : Bool} {f : Token} {rest : List Token} {pre post : List UInt8}
    (hw : WriteSs D et ss ts) (hd : d ≤ D) (hp : ss ≠ [] → Before p) (hf : f.kind = et) (hn : (ts ++ f :: rest).length ≤ n) :
    Tr (At E src start p d (ts ++ f :: rest) pre post) (fun k => stmts src (parse E src k) et n drop)
      fun _ => At E src start (lastKind p ts) (d + leakSs ss) (f :: rest) (pre ++ if drop then codeRest ss else codeSs ss) post := by
  induction ss generalizing ts D d p n drop pre with
  | nil =>
    simp only [WriteSs] at hw
    subst hw
    obtain ⟨m, rfl⟩ : ∃ m, n = m + 1 := ⟨n - 1, by simp only [List.length_append, List.length_cons] at hn; omega⟩
    unfold stmts
    refine Tr.get fun s hs => ?_
    rw [show s.tok = f.kind from hs.tok, hf]
    simp only [or_true, if_true]
    cases drop with
    | true => exact (Tr.when_false rfl).to (by simp [codeRest])
    | false => exact (Tr.when_true rfl (Tr.emit _)).to (by simp [codeSs])
  | cons s ss ih =>
    simp only [WriteSs] at hw
    obtain ⟨t1, k, t2, h1, h2, h3, h4, rfl⟩ := hw
    obtain ⟨hsh, hr⟩ := hs s List.mem_cons_self _ _ _ h1
    obtain ⟨a, t1', e1⟩ : ∃ a t1', t1 = a :: t1' := by
      cases t1 with
      | nil => exact absurd rfl hsh.ne
      | cons a t => exact ⟨a, t, rfl⟩
    simp only [List.length_append, List.length_cons, List.length_replicate] at hn
    obtain ⟨m, rfl⟩ : ∃ m, n = m + 1 := ⟨n - 1, by omega⟩
    have hlen1 : 1 ≤ t1.length := by rw [e1]; simp
    obtain ⟨u, r, hu, huk⟩ : ∃ u r, t2 ++ f :: rest = u :: r ∧ u.kind = firstKind t2 et := by
      cases t2 with
      | nil => exact ⟨f, rest, rfl, hf⟩
      | cons u t => exact ⟨u, t ++ f :: rest, rfl, rfl⟩
    obtain ⟨v, q, hv, hvk⟩ : ∃ v q, List.replicate k (.sym SEMICOLON) ++ u :: r = v :: q ∧
        v.kind = (if 0 < k then SEMICOLON else firstKind t2 et) := by
      cases k with
      | zero => exact ⟨u, r, rfl, by rw [if_neg (by omega)]; exact huk⟩
      | succ k => exact ⟨.sym SEMICOLON, _, by rw [List.replicate_succ]; rfl, by rw [if_pos (by omega)]; rfl⟩
    have hrest := ih (fun s h => hs s (List.mem_cons_of_mem _ h)) (drop := true) (p := lastKind (lastKind p t1) (List.replicate k (.sym SEMICOLON)))
      (d := d + leakS s) (n := m) (pre := pre ++ (if drop then [DROP] else []) ++ codeS s) h2 (by omega)
      (fun hss => by
        cases k with
        | zero =>
          have := h4 rfl hss
          show Before (lastKind p t1)
          rw [lastKind_ne hsh.ne (q := 0)]
          exact ⟨hsh.last, by simp only [postfixOps, List.mem_cons, List.not_mem_nil, or_false, not_or]; exact this⟩
        | succ k =>
          have : lastKind (lastKind p t1) (List.replicate (k + 1) (.sym SEMICOLON)) = SEMICOLON := by
            rw [List.replicate_succ', lastKind_append]; rfl
          rw [this]; decide)
      (by simp only [List.length_append, List.length_cons]; omega)
    have hall : t1 ++ List.replicate k (.sym SEMICOLON) ++ t2 ++ f :: rest = t1 ++ v :: q := by
      rw [← hv, ← hu]; simp
    rw [hall]
    refine Tr.len fun hlen => ?_
    unfold stmts
    refine Tr.get fun s0 hs0 => ?_
    have hs0k : ¬ (s0.tok = EOF ∨ s0.tok = et) := by
      have h5 := hsh.first
      rw [e1] at hs0 h5
      rw [hs0.tok]
      rintro (h | h)
      · exact h5.1 h
      · rcases het with rfl | rfl
        · exact h5.2 h
        · exact h5.1 h
    simp only [hs0k, if_false]
    refine Tr.bind (R := fun _ => At E src start p d (t1 ++ v :: q) (pre ++ if drop then [DROP] else []) post) ?_ fun _ =>
      Tr.bind (Tr.attempt (hr d p hd (hp (by simp)) v q _ post hvk)) fun b => Tr.fst ?_
    · cases drop with
      | true => exact Tr.when_true rfl (Tr.emit _)
      | false => exact (Tr.when_false rfl).to (by simp)
    rintro rfl
    rw [← hv]
    have hq : (List.replicate k (Token.sym SEMICOLON) ++ u :: r).length = (v :: q).length := by rw [hv]
    simp only [List.length_append, List.length_cons, List.length_replicate] at hq hlen
    refine Tr.bind (tr_semis (by rw [huk]; exact h3) (by omega)) fun _ => ?_
    simp only [if_true]
    rw [← hu]
    refine hrest.conv ?_ ?_ ?_
    · rw [lastKind_append, lastKind_append]
    · simp [leakSs, Nat.add_assoc]
    · cases drop <;> simp [codeSs, codeRest]

theorem goodSs {ss : List Stmt} (hs : ∀ s ∈ ss, GoodS E src start s) : GoodSs E src start ss := by
  intro D et ts het hw d p t0 f rest pre post hd ht hf
  refine Tr.call (Tr.len fun hlen => ?_)
  show Tr _ (fun n => parseStmtList src (parse E src n) et) _
  unfold parseStmtList
  exact Tr.bind (Tr.next_ne (by simp)) fun _ => stmts_loop (drop := false) hs het hw hd (fun _ => ht) hf
    (by simp only [List.length_append, List.length_cons] at hlen ⊢; omega)

/-! ## Everything -/

theorem good_atom {e : Expr} {b : UInt8} {k : Nat} (he : ∀ D ts, WriteE D e ts → ts = [.sym k]) (hl : level e = 0) (hc : code e = [b])
    (hle : leakE e = 0) (hs : spine e = 0) (h : ∀ D, Claim E src start 0 [.sym k] [b] 0 D 0) : Good E src start e := by
  intro D ts hw _
  rw [he D ts hw, hl, hc, hle, hs]
  exact h D

mutual
theorem goodE : (e : Expr) → Good E src start e
  | .int n => fun D ts hw _ => by simp only [WriteE] at hw; subst hw; exact claim_int n D 0
  | .dbl x => fun D ts hw _ => by simp only [WriteE] at hw; subst hw; exact claim_dbl x D 0
  | .str bs => fun D ts hw _ => by simp only [WriteE] at hw; obtain ⟨raw, rfl⟩ := hw; exact claim_str raw bs D 0
  | .tru => good_atom (fun _ _ h => h) rfl rfl rfl rfl fun D => claim_word (by decide) rfl D 0
  | .fls => good_atom (fun _ _ h => h) rfl rfl rfl rfl fun D => claim_word (by decide) rfl D 0
  | .null => good_atom (fun _ _ h => h) rfl rfl rfl rfl fun D => claim_word (by decide) rfl D 0
  | .undef => good_atom (fun _ _ h => h) rfl rfl rfl rfl fun D => claim_word (by decide) rfl D 0
  | .this => good_atom (fun _ _ h => h) rfl rfl rfl rfl fun D => claim_word (by decide) rfl D 0
  | .get l => good_get (goodL l)
  | .obj ps => good_obj (goodProps ps)
  | .arr es => good_arr (goodEs es)
  | .func _ _ _ body => good_func (goodSs (goodStmts body))
  | .call f args => good_call (goodE f) (goodEs args)
  | .un _ e => good_un (goodE e)
  | .incr _ _ l => good_incr (goodL l)
  | .bin _ a b => good_bin (goodE a) (goodE b)
  | .and a b => good_and (goodE a) (goodE b)
  | .or a b => good_or (goodE a) (goodE b)
  | .cond c a b => good_cond (goodE c) (goodE a) (goodE b)
  | .assign _ l e => good_assign (goodL l) (goodE e)
theorem goodL : (l : Lval) → GoodL E src start l
  | .var x => goodL_var x
  | .dot e x => goodL_dot x (goodE e)
  | .index e k => goodL_index (goodE e) (goodE k)
theorem goodEs : (es : List Expr) → ∀ e ∈ es, Good E src start e
  | [] => fun _ h => nomatch h
  | e :: es => fun e' h => (List.mem_cons.1 h).elim (fun h => h ▸ goodE e) fun h => goodEs es e' h
theorem goodProps : (ps : List (Name × Expr)) → ∀ q ∈ ps, Good E src start q.2
  | [] => fun _ h => nomatch h
  | (_, e) :: ps => fun q h => (List.mem_cons.1 h).elim (fun h => h ▸ goodE e) fun h => goodProps ps q h
theorem goodO : (i : Option Expr) → GoodO E src start i
  | none => fun _ h => nomatch h
  | some e => fun _ h => (Option.some.inj h) ▸ goodE e
theorem goodLets : (ds : List (Name × Option Expr)) → ∀ q ∈ ds, GoodO E src start q.2
  | [] => fun _ h => nomatch h
  | (_, i) :: ds => fun q h => (List.mem_cons.1 h).elim (fun h => h ▸ goodO i) fun h => goodLets ds q h
theorem goodS : (s : Stmt) → GoodS E src start s
  | .empty => goodS_empty
  | .exprs e es => goodS_exprs (goodE e) (goodEs es)
  | .lets _ i ds => goodS_lets (goodO i) (goodLets ds)
  | .block ss => goodS_block (goodSs (goodStmts ss))
  | .ite c s => goodS_ite (goodE c) (goodS s)
  | .itee c s t => goodS_itee (goodE c) (goodS s) (goodS t)
  | .while c body => goodS_while (goodE c) (goodSs (goodStmts body)) (goodStmts body)
  | .for init c inc body => goodS_for (goodS init) (goodInit init) (goodE c) (goodE inc) (goodSs (goodStmts body)) (goodStmts body)
  | .forIn _ _ e body => goodS_forIn (goodE e) (goodSs (goodStmts body)) (goodStmts body)
  | .break => goodS_break
  | .continue => goodS_continue
  | .ret none => goodS_ret_none
  | .ret (some e) => goodS_ret (goodE e)
theorem goodInit : (s : Stmt) → ∀ e, s = .exprs e [] → Good E src start e
  | .exprs e _ => fun e' h => by
    have : e = e' := by injection h
    exact this ▸ goodE e
  | .empty => fun _ h => nomatch h
  | .lets _ _ _ => fun _ h => nomatch h
  | .block _ => fun _ h => nomatch h
  | .ite _ _ => fun _ h => nomatch h
  | .itee _ _ _ => fun _ h => nomatch h
  | .while _ _ => fun _ h => nomatch h
  | .for _ _ _ _ => fun _ h => nomatch h
  | .forIn _ _ _ _ => fun _ h => nomatch h
  | .break => fun _ h => nomatch h
  | .continue => fun _ h => nomatch h
  | .ret _ => fun _ h => nomatch h
theorem goodStmts : (ss : List Stmt) → ∀ s ∈ ss, GoodS E src start s
  | [] => fun _ h => nomatch h
  | s :: ss => fun s' h => (List.mem_cons.1 h).elim (fun h => h ▸ goodS s) fun h => goodStmts ss s' h
end

end Mjs.Parse
