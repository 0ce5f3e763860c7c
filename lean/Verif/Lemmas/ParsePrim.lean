import Verif.Lemmas.ParseLevel

/-!
Literals, parentheses, variables, members and calls.
-/

namespace Mjs.Parse
open Mjs Mjs.Tok Mjs.Exec Mjs.Code Mjs.Bcode Mjs.Parser Mjs.Grammar

variable {E : Env} {src : List UInt8} {start p D : Nat} {ts : List Token} {pre post : List UInt8}

instance (l k : Nat) : Decidable (Ends l k) :=
  decidable_of_iff (k ∉ suffixes ∧ k ∉ postfixOps ∧ k ∉ assignOps ∧ ∀ j, j ≤ l → k ∉ checks j)
    ⟨fun ⟨a, b, c, d⟩ => ⟨a, b, c, d⟩, fun ⟨a, b, c, d⟩ => ⟨a, b, c, d⟩⟩

instance (p : Nat) : Decidable (Before p) := inferInstanceAs (Decidable (_ ∧ _))

theorem checks_sub : ∀ j, j ≤ 14 → ∀ x ∈ checks j, x ∈ continues := by decide

theorem ends14 {k : Nat} (h : k ∉ continues) : Ends 14 k :=
  ⟨fun hk => h (checks_sub 0 (by decide) k hk), fun hk => h (checks_sub 1 (by decide) k hk),
    fun hk => h (checks_sub 14 (by decide) k hk), fun j hj hk => h (checks_sub j hj k hk)⟩

/-- The same end state, written differently. -/
theorem Tr.to {α : Type} {P : PS → Prop} {m : Nat → M α} {p' D' : Nat} {ts' : List Token} {pre' pre'' post' : List UInt8}
    (h : Tr P m fun _ => At E src start p' D' ts' pre' post') (e : pre' = pre'') :
    Tr P m fun _ => At E src start p' D' ts' pre'' post' := e ▸ h

theorem Tr.conv {α : Type} {P : PS → Prop} {m : Nat → M α} {p' p'' D' D'' : Nat} {ts' : List Token} {pre' pre'' post' : List UInt8}
    (h : Tr P m fun _ => At E src start p' D' ts' pre' post') (e1 : p' = p'') (e2 : D' = D'') (e3 : pre' = pre'') :
    Tr P m fun _ => At E src start p'' D'' ts' pre'' post' := e1 ▸ e2 ▸ e3 ▸ h

/-- `parse_expr` -/
theorem Goes.expr {p d d' : Nat} {c : List UInt8} {ok : Nat → Prop} (h : Goes E src start .assignment p d d' ts c ok) :
    Goes E src start .expr p d d' ts c ok := fun f rest pre post hf => Tr.call (h f rest pre post hf)

theorem Claim.expr {c : List UInt8} {leak N d : Nat} (h : Claim E src start 14 ts c leak D N) (hd : d ≤ D)
    (hp : Before p) : Goes E src start .expr p d (d + leak) ts c (Ends 14) := (h.goes hd hp).expr

/-- A text without suffixes. -/
theorem Claim0.of_lit {c : Nat → List UInt8} {leak : Nat} {ok : Nat → Prop}
    (h : ∀ d p k, d ≤ D → Before p → ok k → Goes E src start .literal p (d + 10) (d + 10 + leak) ts (c k) (· = k)) :
    Claim0 E src start ts c leak D ok := by
  intro d p f rest pre post Q hd hp hf hQ hl
  refine Tr.call ?_
  refine Tr.len fun hlen => ?_
  show Tr _ (fun n => parseCallDotMem src (parse E src n)) _
  simp only [parseCallDotMem_eq]
  refine Tr.bind (h d p _ hd hp hf f rest pre post rfl) fun _ => hl _ ?_
  simp only [List.length_append, List.length_cons] at hlen
  omega

theorem Claim.of_lit {c : List UInt8} {leak N : Nat} (hs : Shape 0 ts)
    (h : ∀ d p, d ≤ D → Before p → Goes E src start .literal p (d + 10) (d + 10 + leak) ts c (fun _ => True)) :
    Claim E src start 0 ts c leak D N :=
  ⟨hs, by rw [if_pos rfl]; exact Claim0.of_lit fun d p _ hd hp _ f rest pre post _ => h d p hd hp f rest pre post trivial⟩

theorem Shape.one {t : Token} (h : t.kind ∈ starters) (h1 : t.kind ∉ unaryOps) : Shape 0 [t] where
  first := h
  prim := fun _ => h1
  last := fun (e : t.kind = DOT) => by rw [e] at h; exact absurd h (by decide)
  lastPost := fun _ (e : t.kind ∈ postfixOps) => by
    rcases List.mem_cons.1 e with e | e
    · rw [e] at h1; exact absurd h1 (by decide)
    · rw [List.mem_singleton.1 e] at h1; exact absurd h1 (by decide)

/-- One token. -/
theorem Claim.token {t : Token} {c : List UInt8} {N : Nat} (h : t.kind ∈ starters) (h1 : t.kind ∉ unaryOps)
    (hl : ∀ p d f rest pre post, Tr (At E src start p d (t :: f :: rest) pre post) (fun n => parseLiteral E src (parse E src n))
      fun _ => At E src start t.kind d (f :: rest) (pre ++ c) post) : Claim E src start 0 [t] c 0 D N :=
  Claim.of_lit (Shape.one h h1) fun _ _ _ _ _ _ _ _ _ => Tr.call (hl _ _ _ _ _ _)

theorem claim_int (n D N : Nat) : Claim E src start 0 [.int n] (code (.int n)) 0 D N := by
  refine Claim.token (show NUM ∈ starters by decide) (show NUM ∉ unaryOps by decide) fun p d f rest pre post => ?_
  unfold parseLiteral
  refine Tr.get fun s hs => ?_
  rw [show s.tok = NUM from hs.tok]
  refine Tr.bind (m := fun _ => parseNum E src) (R := fun _ => At E src start p d (.int n :: f :: rest) (pre ++ code (.int n)) post) ?_
    fun _ => Tr.next
  unfold parseNum
  refine Tr.get fun s hs => ?_
  obtain ⟨_, v, h1, h2, h3⟩ := hs.is
  simp only [h1, h2, if_true, h3]
  exact (Tr.bind (Tr.emit _) fun _ => Tr.emitN _).to (by simp [code])

theorem claim_dbl (x : List UInt8) (D N : Nat) : Claim E src start 0 [.dbl x] (code (.dbl x)) 0 D N := by
  refine Claim.token (show NUM ∈ starters by decide) (show NUM ∉ unaryOps by decide) fun p d f rest pre post => ?_
  unfold parseLiteral
  refine Tr.get fun s hs => ?_
  rw [show s.tok = NUM from hs.tok]
  refine Tr.bind (m := fun _ => parseNum E src) (R := fun _ => At E src start p d (.dbl x :: f :: rest) (pre ++ code (.dbl x)) post) ?_
    fun _ => Tr.next
  unfold parseNum
  refine Tr.get fun s hs => ?_
  obtain ⟨_, h0, _, v, h1, h2⟩ := hs.is
  have h0 : tokText src s = x := h0
  simp only [h1, h2, Bool.false_eq_true, if_false, h0]
  exact (Tr.bind (Tr.emit _) fun _ => Tr.emitS _).to (by simp [code])

theorem claim_str (raw bs : List UInt8) (D N : Nat) : Claim E src start 0 [.str raw bs] (code (.str bs)) 0 D N := by
  refine Claim.token (show STR ∈ starters by decide) (show STR ∉ unaryOps by decide) fun p d f rest pre post => ?_
  unfold parseLiteral
  refine Tr.get fun s hs => ?_
  rw [show s.tok = STR from hs.tok]
  refine Tr.bind (m := fun _ => parseStr src) (R := fun _ => At E src start p d (.str raw bs :: f :: rest) (pre ++ code (.str bs)) post) ?_
    fun _ => Tr.next
  unfold parseStr
  refine Tr.bind (Tr.emit _) fun _ => Tr.get fun s hs => ?_
  obtain ⟨_, _, h1⟩ := hs.is
  simp only [h1]
  intro s hs
  refine ⟨(), _, ⟨0, fun _ _ => rfl⟩, ?_⟩
  have := hs.put (vint bs.length ++ bs) (g := s.gen) rfl rfl rfl
  simpa [code, pushStr, strB] using this

theorem claim_word {k : Nat} {b : UInt8} (h : k ∈ [KW_TRUE, KW_FALSE, KW_NULL, KW_UNDEFINED, KW_THIS])
    (hb : b = if k = KW_TRUE then PUSH_TRUE else if k = KW_FALSE then PUSH_FALSE else if k = KW_NULL then PUSH_NULL
      else if k = KW_UNDEFINED then PUSH_UNDEF else PUSH_THIS) (D N : Nat) : Claim E src start 0 [.sym k] [b] 0 D N := by
  have h1 : k ∈ starters ∧ k ∉ unaryOps := by
    have : ∀ k ∈ [KW_TRUE, KW_FALSE, KW_NULL, KW_UNDEFINED, KW_THIS], k ∈ starters ∧ k ∉ unaryOps := by decide
    exact this k h
  refine Claim.token h1.1 h1.2 fun p d f rest pre post => ?_
  unfold parseLiteral
  refine Tr.get fun s hs => ?_
  rw [show s.tok = k from hs.tok]
  simp only [List.mem_cons, List.not_mem_nil, or_false] at h
  rcases h with rfl | rfl | rfl | rfl | rfl <;> subst hb <;> exact Tr.bind (Tr.emit _) fun _ => Tr.next

/-! ## Parentheses -/

theorem Shape.paren : Shape 0 (.sym OPEN_PAREN :: ts ++ [.sym CLOSE_PAREN]) where
  first := show OPEN_PAREN ∈ starters by decide
  prim := fun _ => show OPEN_PAREN ∉ unaryOps by decide
  last := by rw [lastKind_append]; exact show CLOSE_PAREN ≠ DOT by decide
  lastPost := fun _ => by rw [lastKind_append]; exact show CLOSE_PAREN ∉ postfixOps by decide

theorem Claim.paren {c : List UInt8} {leak N N' : Nat} (h : Claim E src start 14 ts c leak (D + 10) N) :
    Claim E src start 0 (.sym OPEN_PAREN :: ts ++ [.sym CLOSE_PAREN]) c leak D N' := by
  refine Claim.of_lit Shape.paren fun d p hd hp f rest pre post _ => Tr.call ?_
  show Tr _ (fun n => parseLiteral E src (parse E src n)) _
  unfold parseLiteral
  refine Tr.get fun s hs => ?_
  rw [show s.tok = OPEN_PAREN from hs.tok]
  obtain ⟨t, ts, rfl⟩ : ∃ t ts', ts = t :: ts' := by
    cases ts with | nil => exact absurd rfl h.1.ne | cons a b => exact ⟨a, b, rfl⟩
  rw [lastKind_append]
  simp only [List.cons_append, List.append_assoc, List.nil_append]
  refine Tr.bind Tr.next fun _ => ?_
  have hg := h.expr (d := d + 10) (p := OPEN_PAREN) (by omega) (by decide) (.sym CLOSE_PAREN) (f :: rest) pre post (by decide)
  refine Tr.bind (Tr.attempt hg) fun b => Tr.fst ?_
  rintro rfl
  refine Tr.get fun s hs => ?_
  rw [show s.tok = CLOSE_PAREN from hs.tok]
  simp only [ne_eq, not_true, if_false, if_true]
  exact Tr.bind Tr.next fun _ => Tr.pure () fun _ h => h

theorem Claim.parens {c : List UInt8} {leak N : Nat} (k : Nat) (hk : D + 10 * (k + 1) ≤ 502)
    (h : Claim E src start 14 ts c leak (D + 10 * (k + 1)) N) :
    Claim E src start 0 (List.replicate (k + 1) (.sym OPEN_PAREN) ++ ts ++ List.replicate (k + 1) (.sym CLOSE_PAREN)) c leak D N := by
  induction k generalizing D with
  | zero => simpa using h.paren
  | succ k ih =>
    have h1 := ih (D := D + 10) (by omega) (by rw [show D + 10 + 10 * (k + 1) = D + 10 * (k + 1 + 1) by omega]; exact h)
    have h2 := (h1.lift (l' := 14) (by omega) (by decide) (Nat.le_refl _)).paren (N' := N)
    rw [List.replicate_succ, List.replicate_succ' (n := k + 1)]
    simpa using h2

/-- Where a text is expected, from where it is without parentheses. -/
theorem claim_text {write : Nat → List Token → Prop} {lv l : Nat} {c : List UInt8} {leak N : Nat}
    (h : ∀ D ts, write D ts → D ≤ 502 → Claim E src start lv ts c leak D N) (ht : Text write lv D l ts) (hl : l ≤ 14)
    (hlv : lv ≤ 14) : Claim E src start l ts c leak D N := by
  obtain ⟨k, ts', hw, hk, hD, rfl⟩ := ht
  have hc := h _ _ hw hD
  cases k with
  | zero => simpa using hc.lift (l' := l) hD (by omega) hl
  | succ k => exact (Claim.parens k hD (hc.lift hD hlv (Nat.le_refl _))).lift (by omega) (Nat.zero_le _) hl

/-! ## Variables, members, calls -/

/-- `OP_GET`, unless an assignment follows. -/
def getB (k : Nat) : List UInt8 := if k ∈ assignOps ∨ k ∈ postfixOps then [] else [GET]

theorem findtok_zero {l : List Nat} {t : Nat} (hl : 0 ∉ l) : findtok l t = 0 ↔ t ∉ l := by
  refine ⟨fun h hm => ?_, findtok_ne⟩
  rw [findtok_mem hm] at h
  exact hl (h ▸ hm)

/-- What is known of the text of something that can be assigned to. -/
def ClaimL (E : Env) (src : List UInt8) (start : Nat) (ts : List Token) (l : Lval) (D : Nat) : Prop :=
  Shape 0 ts ∧ Claim0 E src start ts (fun k => codeL l ++ getB k) (leakL l) D (fun _ => True)

theorem tr_get {k q : Nat} (hq : q ∉ postfixOps) :
    Tr (At E src start p D ts pre post)
      (fun _ => when (findtok assignOps k = 0 ∧ findtok postfixOps k = 0 ∧ findtok postfixOps q = 0) (emit GET))
      fun _ => At E src start p D ts (pre ++ getB k) post := by
  have h0 : findtok postfixOps q = 0 := findtok_ne hq
  unfold getB
  split
  · next h =>
    have : (decide (findtok assignOps k = 0 ∧ findtok postfixOps k = 0 ∧ findtok postfixOps q = 0)) = false := by
      simp only [findtok_zero (show 0 ∉ assignOps by decide), findtok_zero (show 0 ∉ postfixOps by decide)]
      rcases h with h | h <;> simp [h]
    simpa using Tr.when_false (P := At E src start p D ts pre post) this
  · next h =>
    refine Tr.when_true ?_ (Tr.emit _)
    simp only [not_or] at h
    simp only [findtok_ne h.1, findtok_ne h.2, h0]
    decide

/-- An identifier after a token `p`. -/
theorem goes_ident (x : Name) {k : Nat} {p d : Nat} (hp : p ∉ postfixOps) :
    Goes E src start .literal p d d [.ident x] (pushStr x ++ [if p = DOT then SWAP else FIND_SCOPE] ++ getB k) (· = k) := by
  rintro f rest pre post rfl
  refine Tr.call ?_
  show Tr _ (fun n => parseLiteral E src (parse E src n)) _
  unfold parseLiteral
  refine Tr.get fun s hs => ?_
  rw [show s.tok = IDENT from hs.tok]
  refine Tr.bind (m := fun _ => parseIdent src) (R := fun _ => At E src start p d (.ident x :: f :: rest)
    (pre ++ (pushStr x ++ [if p = DOT then SWAP else FIND_SCOPE] ++ getB f.kind)) post) ?_ fun _ => Tr.next
  unfold parseIdent
  refine Tr.get fun s hs => Tr.ptest ?_
  have h0 : tokText src s = x := hs.is.2
  rw [h0, hs.prev]
  refine (Tr.bind (Tr.emit _) fun _ => Tr.bind (Tr.emitS _) fun _ => Tr.bind (Tr.emit _) fun _ => tr_get hp).to ?_
  simp [pushStr]

theorem claimL_var (x : Name) : ClaimL E src start [.ident x] (.var x) D := by
  refine ⟨Shape.one (show IDENT ∈ starters by decide) (show IDENT ∉ unaryOps by decide), Claim0.of_lit fun d p k hd hp _ => ?_⟩
  have := goes_ident (E := E) (src := src) (start := start) x (k := k) (p := p) (d := d + 10) hp.2
  rw [if_neg hp.1] at this
  exact this

theorem Shape.concat {a b : List Token} {l : Nat} (h : Shape 0 a) (hb : b ≠ []) (h1 : lastKind 0 b ≠ DOT)
    (h2 : l = 0 → lastKind 0 b ∉ postfixOps) : Shape l (a ++ b) where
  first := by rw [firstKind_append h.ne]; exact h.first
  prim := fun _ => by rw [firstKind_append h.ne]; exact h.prim (by decide)
  last := by rw [lastKind_append, lastKind_ne hb (q := 0)]; exact h1
  lastPost := fun hl => by rw [lastKind_append, lastKind_ne hb (q := 0)]; exact h2 hl

theorem claimL_dot {e : Expr} {N : Nat} (x : Name) (h : Claim E src start 0 ts (code e) (leakE e) D N) :
    ClaimL E src start (ts ++ [.sym DOT, .ident x]) (.dot e x) D := by
  refine ⟨h.1.concat (by simp) (show IDENT ≠ DOT by decide) (fun _ => show IDENT ∉ postfixOps by decide), ?_⟩
  intro d p f rest pre post Q hd hp _ hQ hl
  have h0 := h.2
  rw [if_pos rfl] at h0
  simp only [List.append_assoc, List.cons_append, List.nil_append]
  refine h0 d p (.sym DOT) (.ident x :: f :: rest) pre post Q hd hp (by decide) hQ fun n hn => ?_
  obtain ⟨m, rfl⟩ : ∃ m, n = m + 2 := ⟨n - 2, by simp only [List.length_cons] at hn; omega⟩
  refine Tr.loop_go (R := Q) (fun s hs => isSfx_true (by rw [hs.tok]; decide)) ?_ (Tr.loop_stop m fun s hs => isSfx_false (hQ s hs))
  unfold sfx
  refine Tr.get fun s hs => ?_
  rw [show s.tok = DOT from hs.tok]
  refine Tr.bind (Tr.expect rfl) fun _ => Tr.call ?_
  show Tr _ (fun n => parseCallDotMem src (parse E src n)) _
  refine Tr.len fun hlen => ?_
  simp only [parseCallDotMem_eq]
  refine Tr.bind (goes_ident x (k := f.kind) (by decide) f rest _ post rfl) fun _ => ?_
  have := hl (rounds src) (by simp only [List.length_cons] at hlen; omega)
  rw [lastKind_append] at this
  rw [lastKind_cons] at this
  simpa [codeL, leakL, Token.kind] using this

theorem claimL_index {e k : Expr} {tk : List Token} {N N' : Nat} (h : Claim E src start 0 ts (code e) (leakE e) D N)
    (h' : Claim E src start 14 tk (code k) (leakE k) (D + 10 + leakE e) N') :
    ClaimL E src start (ts ++ .sym OPEN_BRACKET :: tk ++ [.sym CLOSE_BRACKET]) (.index e k) D := by
  refine ⟨?_, ?_⟩
  · rw [List.append_assoc]
    refine h.1.concat (by simp) ?_ fun _ => ?_
    · rw [lastKind_append]; exact show CLOSE_BRACKET ≠ DOT by decide
    · rw [lastKind_append]; exact show CLOSE_BRACKET ∉ postfixOps by decide
  intro d p f rest pre post Q hd hp _ hQ hl
  have h0 := h.2
  rw [if_pos rfl] at h0
  simp only [List.append_assoc, List.cons_append, List.nil_append]
  refine h0 d p (.sym OPEN_BRACKET) (tk ++ .sym CLOSE_BRACKET :: f :: rest) pre post Q hd hp (by decide) hQ fun n hn => ?_
  simp only [List.length_cons, List.length_append] at hn
  obtain ⟨m, rfl⟩ : ∃ m, n = m + 1 := ⟨n - 1, by omega⟩
  refine Tr.loop_go (fun s hs => isSfx_true (by rw [hs.tok]; decide)) ?_ (hl m (by omega))
  unfold sfx
  refine Tr.get fun s hs => ?_
  rw [show s.tok = OPEN_BRACKET from hs.tok, hs.prev]
  obtain ⟨t, tk, rfl⟩ : ∃ t ts', tk = t :: ts' := by
    cases tk with | nil => exact absurd rfl h'.1.ne | cons a b => exact ⟨a, b, rfl⟩
  refine Tr.bind (Tr.expect rfl) fun _ => ?_
  have hg := h'.expr (d := d + 10 + leakE e) (p := OPEN_BRACKET) (by omega) (by decide) (.sym CLOSE_BRACKET) (f :: rest) (pre ++ code e)
    post (by decide)
  refine Tr.bind hg fun _ => Tr.bind (Tr.emit _) fun _ => Tr.bind (Tr.expect rfl) fun _ => Tr.get fun s' hs' => ?_
  rw [hs'.tok]
  have hq : lastKind p ts ∉ postfixOps := by rw [lastKind_ne h.1.ne (q := 0)]; exact h.1.lastPost rfl
  rw [show lastKind p (ts ++ Token.sym OPEN_BRACKET :: t :: tk ++ [Token.sym CLOSE_BRACKET]) = CLOSE_BRACKET by
    rw [lastKind_append]; rfl]
  have := tr_get (E := E) (src := src) (start := start) (p := CLOSE_BRACKET) (D := d + 10 + leakE e + leakE k) (ts := f :: rest)
    (pre := pre ++ code e ++ code k ++ [SWAP]) (post := post) (k := f.kind) hq
  simpa [codeL, leakL, Nat.add_assoc] using this

end Mjs.Parse
