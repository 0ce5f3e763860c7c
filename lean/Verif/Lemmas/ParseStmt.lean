import Verif.Lemmas.ParseFunc

/-!
Statements.
-/

namespace Mjs.Parse
open Mjs Mjs.Tok Mjs.Exec Mjs.Code Mjs.Bcode Mjs.Parser Mjs.Grammar

variable {E : Env} {src : List UInt8} {start p D : Nat} {ts : List Token} {pre post : List UInt8}

/-- First and last token of a statement. -/
structure ShapeS (ts : List Token) : Prop where
  ne : ts ≠ []
  first : firstKind ts 0 ≠ EOF ∧ firstKind ts 0 ≠ CLOSE_CURLY
  last : lastKind 0 ts ≠ DOT

/-- What `nt` does with a statement followed by a token of number `f`. -/
def RunsS (E : Env) (src : List UInt8) (start : Nat) (nt : NT) (f : Nat) (ts : List Token) (c : List UInt8) (leak D : Nat) : Prop :=
  ∀ d p, d ≤ D → Before p → Goes E src start nt p d (d + leak) ts c (· = f)

def GoodS (E : Env) (src : List UInt8) (start : Nat) (s : Stmt) : Prop :=
  ∀ D f ts, WriteS D f s ts → ShapeS ts ∧ RunsS E src start .statement f ts (codeS s) (leakS s) D

theorem Shape.stmt {l : Nat} (h : Shape l ts) (ts' : List Token) (hl : lastKind 0 (ts ++ ts') ≠ DOT) : ShapeS (ts ++ ts') where
  ne := by simp [h.ne]
  first := by
    rw [firstKind_append h.ne]
    have : ∀ k ∈ starters, k ≠ EOF ∧ k ≠ CLOSE_CURLY := by decide
    exact this _ h.first
  last := hl

theorem stmt_starters : ∀ k ∈ starters, k ≠ OPEN_CURLY →
    k ≠ SEMICOLON ∧ k ≠ KW_LET ∧ k ≠ KW_RETURN ∧ k ≠ KW_FOR ∧ k ≠ KW_WHILE ∧ k ≠ KW_BREAK ∧ k ≠ KW_CONTINUE ∧ k ≠ KW_IF ∧
      k ∉ notImplemented := by decide

theorem goodS_empty : GoodS E src start .empty := by
  intro D f ts hw
  simp only [WriteS] at hw
  subst hw
  refine ⟨⟨by simp, show SEMICOLON ≠ EOF ∧ SEMICOLON ≠ CLOSE_CURLY by decide, show SEMICOLON ≠ DOT by decide⟩, ?_⟩
  intro d p _ _ f rest pre post _
  refine Tr.call ?_
  show Tr _ (fun n => parseStatement src (parse E src n)) _
  unfold parseStatement
  refine Tr.get fun s hs => ?_
  rw [show s.tok = SEMICOLON from hs.tok]
  exact Tr.bind (Tr.emit _) fun _ => Tr.next

theorem goodS_break : GoodS E src start .break := by
  intro D f ts hw
  simp only [WriteS] at hw
  subst hw
  refine ⟨⟨by simp, show KW_BREAK ≠ EOF ∧ KW_BREAK ≠ CLOSE_CURLY by decide, show KW_BREAK ≠ DOT by decide⟩, ?_⟩
  intro d p _ _ f rest pre post _
  refine Tr.call ?_
  show Tr _ (fun n => parseStatement src (parse E src n)) _
  unfold parseStatement
  refine Tr.get fun s hs => ?_
  rw [show s.tok = KW_BREAK from hs.tok]
  exact (Tr.bind (Tr.emit _) fun _ => Tr.bind (Tr.emit _) fun _ => Tr.next).to (by simp [codeS])

theorem goodS_continue : GoodS E src start .continue := by
  intro D f ts hw
  simp only [WriteS] at hw
  subst hw
  refine ⟨⟨by simp, show KW_CONTINUE ≠ EOF ∧ KW_CONTINUE ≠ CLOSE_CURLY by decide, show KW_CONTINUE ≠ DOT by decide⟩, ?_⟩
  intro d p _ _ f rest pre post _
  refine Tr.call ?_
  show Tr _ (fun n => parseStatement src (parse E src n)) _
  unfold parseStatement
  refine Tr.get fun s hs => ?_
  rw [show s.tok = KW_CONTINUE from hs.tok]
  exact (Tr.bind (Tr.emit _) fun _ => Tr.next).to (by simp [codeS])

theorem goodS_block {ss : List Stmt} (h : GoodSs E src start ss) : GoodS E src start (.block ss) := by
  intro D f ts hw
  simp only [WriteS] at hw
  obtain ⟨t, hw, hD, rfl⟩ := hw
  refine ⟨⟨by simp, show OPEN_CURLY ≠ EOF ∧ OPEN_CURLY ≠ CLOSE_CURLY by decide, ?_⟩, ?_⟩
  · rw [lastKind_append]; exact show CLOSE_CURLY ≠ DOT by decide
  intro d p hd _ f rest pre post _
  refine Tr.call ?_
  show Tr _ (fun n => parseStatement src (parse E src n)) _
  unfold parseStatement
  refine Tr.get fun s hs => ?_
  rw [show s.tok = OPEN_CURLY from hs.tok]
  have := goes_block (p := p) true (h _ _ _ (.inl rfl) hw) hD hd f rest pre post trivial
  exact this.conv rfl (by simp [leakS]) (by simp [codeS])

/-! ## Expressions as statements -/

theorem more_loop {es : List Expr} (hg : ∀ e ∈ es, Good E src start e) {e : Expr} (he : Good E src start e) {D d p : Nat}
    {t1 t2 : List Token} {f : Token} {rest : List Token} {pre post : List UInt8} {n : Nat}
    (hw : Text (fun D => WriteE D e) (level e) D 14 t1) (hm : WriteMore (D + leakE e) es t2) (hd : d ≤ D) (hp : Before p)
    (hf : Ends 14 f.kind) (hf' : f.kind ≠ COMMA) (hn : (t1 ++ t2 ++ f :: rest).length ≤ n) :
    lastKind 0 (t1 ++ t2) ≠ DOT ∧
    Tr (At E src start p d (t1 ++ t2 ++ f :: rest) pre post) (fun k => exprs src (parse E src k) n)
      fun _ => At E src start (lastKind p (t1 ++ t2)) (d + leakE e + leakEs es) (f :: rest) (pre ++ code e ++ codeMore es) post := by
  induction es generalizing e D d p t1 t2 pre n with
  | nil =>
    simp only [WriteMore] at hm
    subst hm
    have hc := he.text hw (Nat.le_refl _)
    obtain ⟨a, t1, rfl, _⟩ := hc.1.cons
    obtain ⟨m, rfl⟩ : ∃ m, n = m + 1 := ⟨n - 1, by simp only [List.length_append, List.length_cons] at hn; omega⟩
    refine ⟨by rw [List.append_nil]; exact hc.1.last, ?_⟩
    unfold exprs
    refine (Tr.bind (tr_item hc hd hp (.inl ⟨rfl, hf⟩)) fun _ => Tr.get fun s hs => ?_).conv rfl ?_ ?_ (D' := d + leakE e)
      (pre' := pre ++ code e) (p' := lastKind p (a :: t1 ++ []))
    · rw [show s.tok = f.kind from hs.tok]
      simp only [if_pos hf', List.append_nil]
      exact Tr.pure () fun _ h => h
    · simp [leakEs]
    · simp [codeMore]
  | cons e' es ih =>
    simp only [WriteMore] at hm
    obtain ⟨u1, u2, h1, h2, rfl⟩ := hm
    have hc := he.text hw (Nat.le_refl _)
    have hc' := (hg e' List.mem_cons_self).text h1 (Nat.le_refl _)
    obtain ⟨a, t1, rfl, _⟩ := hc.1.cons
    simp only [List.length_append, List.length_cons] at hn
    obtain ⟨m, rfl⟩ : ∃ m, n = m + 1 := ⟨n - 1, by omega⟩
    have := ih (fun x hx => hg x (List.mem_cons_of_mem _ hx)) (hg e' List.mem_cons_self) (d := d + leakE e) (p := COMMA)
      (pre := pre ++ code e ++ [DROP]) (n := m) h1 h2 (by omega) (by decide)
      (by simp only [List.length_append, List.length_cons]; omega)
    have hl : ∀ q, lastKind q (a :: t1 ++ (.sym COMMA :: u1 ++ u2)) = lastKind COMMA (u1 ++ u2) := fun q => by
      rw [lastKind_append, List.cons_append, lastKind_cons]; rfl
    refine ⟨by rw [hl, lastKind_ne (q := 0) (by simp [hc'.1.ne])]; exact this.1, ?_⟩
    unfold exprs
    refine (Tr.bind (tr_item hc hd hp (.inr ⟨_, rfl⟩)) fun _ => Tr.get fun s hs => ?_)
    rw [show s.tok = COMMA from hs.tok, hl]
    simp only [show ¬ COMMA ≠ COMMA by decide, if_false]
    simp only [List.append_assoc, List.cons_append] at this ⊢
    refine (Tr.bind (Tr.emit _) fun _ => Tr.bind (Tr.next_ne (by simp)) fun _ => ?_)
    refine (Tr.to (E := E) ?_ rfl)
    have h3 := this.2
    simp only [List.append_assoc, List.nil_append] at h3 ⊢
    exact h3.conv rfl (by simp [leakEs, Nat.add_assoc]) (by simp [codeMore])

theorem goodS_exprs {e : Expr} {es : List Expr} (he : Good E src start e) (hg : ∀ e ∈ es, Good E src start e) :
    GoodS E src start (.exprs e es) := by
  intro D f ts hw
  simp only [WriteS] at hw
  obtain ⟨t1, t2, h1, h2, rfl, hne, hf, hf'⟩ := hw
  have hc := he.text h1 (Nat.le_refl _)
  obtain ⟨a, t1', rfl, ha⟩ := hc.1.cons
  have hlast := (more_loop (E := E) (src := src) (start := start) (pre := []) (post := []) hg he h1 h2 (Nat.le_refl _)
    (p := COMMA) (by decide) (f := .sym SEMICOLON) (rest := []) (by decide) (by decide) (Nat.le_refl _)).1
  refine ⟨hc.1.stmt t2 hlast, ?_⟩
  rintro d p hd hp f rest pre post rfl
  refine Tr.call (Tr.len fun hlen => ?_)
  show Tr _ (fun n => parseStatement src (parse E src n)) _
  unfold parseStatement
  refine Tr.get fun s hs => ?_
  rw [show s.tok = a.kind from hs.tok]
  obtain ⟨k1, k2, k3, k4, k5, k6, k7, k8, k9⟩ := stmt_starters _ ha hne
  have k0 : a.kind ≠ OPEN_CURLY := hne
  simp only [k0, k1, k2, k3, k4, k5, k6, k7, k8, k9, if_false]
  exact (more_loop hg he h1 h2 hd hp (ends14 hf) hf' hlen).2.conv rfl (by simp [leakS, Nat.add_assoc]) (by simp [codeS])

/-! ## Declarations -/

def GoodO (E : Env) (src : List UInt8) (start : Nat) (i : Option Expr) : Prop := ∀ e, i = some e → Good E src start e

/-- One declaration, up to what follows it. -/
theorem tr_let {x : Name} {i : Option Expr} (hi : GoodO E src start i) {t1 t2 : List Token} {f : Token} {rest : List Token} {d : Nat}
    (hw : WriteInit D i t1) (hd : d ≤ D) (hf : Ends 14 f.kind) (hf' : f.kind ≠ ASSIGN) (h2 : t2 = [] ∨ ∃ t, t2 = .sym COMMA :: t)
    {β : Type} {g : Nat → M β} {Q : β → PS → Prop}
    (hg : Tr (At E src start (lastKind IDENT t1) (d + leakO i) (t2 ++ f :: rest) (pre ++ codeLet x i) post) g Q) :
    Tr (At E src start p d (.ident x :: t1 ++ t2 ++ f :: rest) pre post) (fun k => do
      let s ← get
      expect src IDENT
      emit PUSH_STR
      emitS (tokText src s)
      emit PUSH_SCOPE
      emit CREATE
      let s1 ← get
      if s1.tok = ASSIGN then do
        next src
        emit PUSH_STR
        emitS (tokText src s)
        emit FIND_SCOPE
        parse E src k .expr
        emitOp ASSIGN
      else emit PUSH_UNDEF
      g k) Q := by
  refine Tr.get fun s hs => ?_
  have h0 : tokText src s = x := hs.is.2
  rw [h0]
  simp only [List.cons_append]
  refine Tr.bind (Tr.expect_ne rfl (by simp)) fun _ => Tr.bind (Tr.emit _) fun _ => Tr.bind (Tr.emitS _) fun _ =>
    Tr.bind (Tr.emit _) fun _ => Tr.bind (Tr.emit _) fun _ => Tr.get fun s1 hs1 => ?_
  cases i with
  | none =>
    simp only [WriteInit] at hw
    subst hw
    have : s1.tok ≠ ASSIGN := by
      rcases h2 with rfl | ⟨t, rfl⟩
      · rw [hs1.tok]; exact hf'
      · rw [hs1.tok]; decide
    simp only [this, if_false]
    refine Tr.bind (Tr.emit _) fun _ => ?_
    simpa [codeLet, create, pushStr, leakO] using hg
  | some e =>
    simp only [WriteInit] at hw
    obtain ⟨t, hw, rfl⟩ := hw
    have hc := (hi e rfl).text hw (Nat.le_refl _)
    have : s1.tok = ASSIGN := hs1.tok
    simp only [this, if_true]
    refine Tr.bind (Tr.next_ne (by simp)) fun _ => Tr.bind (Tr.emit _) fun _ => Tr.bind (Tr.emitS _) fun _ =>
      Tr.bind (Tr.emit _) fun _ => Tr.bind (tr_item hc hd (by decide) ?_) fun _ => Tr.bind (Tr.emitOp _ (by decide)) fun _ => ?_
    · rcases h2 with rfl | h2
      · exact .inl ⟨rfl, hf⟩
      · exact .inr h2
    · rw [lastKind_cons] at hg
      simpa [codeLet, create, pushStr, leakO, ASSIGN, Token.kind] using hg

theorem lets_loop {ds : List (Name × Option Expr)} (hds : ∀ q ∈ ds, GoodO E src start q.2) {x : Name} {i : Option Expr}
    (hi : GoodO E src start i) {D d p : Nat} {t1 t2 : List Token} {f : Token} {rest : List Token} {pre post : List UInt8} {n : Nat}
    (hw : WriteInit D i t1) (hw2 : WriteLets (D + leakO i) ds t2) (hd : d ≤ D) (hf : f.kind = SEMICOLON ∨ f.kind = EOF)
    (hn : (.ident x :: t1 ++ t2 ++ f :: rest).length ≤ n) :
    lastKind 0 (.ident x :: t1 ++ t2) ≠ DOT ∧
    Tr (At E src start p d (.ident x :: t1 ++ t2 ++ f :: rest) pre post) (fun k => lets src (parse E src k) n)
      fun _ => At E src start (lastKind p (.ident x :: t1 ++ t2)) (d + leakO i + leakLets ds) (f :: rest)
        (pre ++ codeLet x i ++ codeLets ds) post := by
  have hf1 : Ends 14 f.kind ∧ f.kind ≠ ASSIGN ∧ f.kind ≠ COMMA := by rcases hf with h | h <;> rw [h] <;> decide
  induction ds generalizing x i D d p t1 t2 pre n with
  | nil =>
    simp only [WriteLets] at hw2
    subst hw2
    obtain ⟨m, rfl⟩ : ∃ m, n = m + 1 := ⟨n - 1, by simp only [List.length_append, List.length_cons] at hn; omega⟩
    refine ⟨?_, ?_⟩
    · rw [List.append_nil, lastKind_cons]
      cases i with
      | none => simp only [WriteInit] at hw; subst hw; exact show IDENT ≠ DOT by decide
      | some e =>
        simp only [WriteInit] at hw
        obtain ⟨t, hw, rfl⟩ := hw
        have hc := (hi e rfl).text hw (Nat.le_refl _)
        rw [lastKind_cons, lastKind_ne hc.1.ne (q := 0)]; exact hc.1.last
    unfold lets
    refine tr_let hi hw hd hf1.1 hf1.2.1 (.inl rfl) ?_
    refine Tr.get fun s hs => ?_
    rw [show s.tok = f.kind from hs.tok]
    refine Tr.bind (Tr.when_false (by simpa using hf1.2.2)) fun _ => Tr.get fun s hs => ?_
    rw [show s.tok = f.kind from hs.tok]
    simp only [if_pos hf]
    refine (Tr.pure () fun _ h => h).conv ?_ ?_ ?_
    · rw [List.append_nil, lastKind_cons]; rfl
    · simp [leakLets]
    · simp [codeLets]
  | cons q ds ih =>
    obtain ⟨y, j⟩ := q
    simp only [WriteLets] at hw2
    obtain ⟨u1, u2, h1, h2, rfl⟩ := hw2
    simp only [List.length_append, List.length_cons] at hn
    obtain ⟨m, rfl⟩ : ∃ m, n = m + 1 := ⟨n - 1, by omega⟩
    have := ih (fun z hz => hds z (List.mem_cons_of_mem _ hz)) (hds (y, j) List.mem_cons_self) (x := y) (d := d + leakO i) (p := COMMA)
      (pre := pre ++ codeLet x i ++ [DROP]) (n := m) h1 h2 (by omega)
      (by simp only [List.length_append, List.length_cons]; omega)
    have hl : ∀ q, lastKind q (.ident x :: t1 ++ (.sym COMMA :: .ident y :: u1 ++ u2)) = lastKind COMMA (.ident y :: u1 ++ u2) := fun q => by
      rw [lastKind_append, List.cons_append, List.cons_append, lastKind_cons]; rfl
    refine ⟨by rw [hl, lastKind_ne (q := 0) (by simp)]; exact this.1, ?_⟩
    unfold lets
    refine tr_let hi hw hd hf1.1 hf1.2.1 (.inr ⟨_, rfl⟩) ?_
    refine Tr.get fun s hs => ?_
    rw [show s.tok = COMMA from hs.tok, hl]
    refine Tr.bind (Tr.when_true rfl (Tr.bind (Tr.emit _) fun _ => Tr.next)) fun _ => Tr.get fun s hs => ?_
    rw [show s.tok = IDENT from hs.tok]
    simp only [show ¬ (IDENT = SEMICOLON ∨ IDENT = EOF) by decide, if_false]
    exact this.2.conv rfl (by simp [leakLets, Nat.add_assoc]) (by simp [codeLets])

theorem goodS_lets {x : Name} {i : Option Expr} {ds : List (Name × Option Expr)} (hi : GoodO E src start i)
    (hds : ∀ q ∈ ds, GoodO E src start q.2) : GoodS E src start (.lets x i ds) := by
  intro D f ts hw
  simp only [WriteS] at hw
  obtain ⟨t1, t2, h1, h2, rfl, hf⟩ := hw
  have hl : ∀ q, lastKind q (.sym KW_LET :: .ident x :: t1 ++ t2) = lastKind KW_LET (.ident x :: t1 ++ t2) := fun q => by
    rw [List.cons_append, lastKind_cons]; rfl
  have hlast := (lets_loop (E := E) (src := src) (start := start) (pre := []) (post := []) hds hi (x := x) h1 h2 (Nat.le_refl _)
    (p := 0) (f := .sym SEMICOLON) (rest := []) (.inl rfl) (Nat.le_refl _)).1
  refine ⟨⟨by simp, show KW_LET ≠ EOF ∧ KW_LET ≠ CLOSE_CURLY by decide, by rw [hl, lastKind_ne (q := 0) (by simp)]; exact hlast⟩, ?_⟩
  rintro d p hd _ f rest pre post rfl
  refine Tr.call (Tr.len fun hlen => ?_)
  show Tr _ (fun n => parseStatement src (parse E src n)) _
  unfold parseStatement
  refine Tr.get fun s hs => ?_
  rw [show s.tok = KW_LET from hs.tok, hl]
  refine Tr.call ?_
  show Tr _ (fun n => parseLet src (parse E src n)) _
  unfold parseLet
  have := (lets_loop hds hi (x := x) (p := KW_LET) (pre := pre) (post := post) (n := rounds src) h1 h2 hd hf (rest := rest)
    (by simp only [List.length_append, List.length_cons] at hlen ⊢; omega)).2
  exact (Tr.bind (Tr.expect rfl) fun _ => this).conv rfl (by simp [leakS, Nat.add_assoc]) (by simp [codeS])

end Mjs.Parse
