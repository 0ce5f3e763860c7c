import Verif.Lemmas.ParsePrim

/-!
Calls, arrays, objects and functions.
-/

namespace Mjs.Parse
open Mjs Mjs.Tok Mjs.Exec Mjs.Code Mjs.Bcode Mjs.Parser Mjs.Grammar

/-- The parser handles this expression. -/
def Good (E : Env) (src : List UInt8) (start : Nat) (e : Expr) : Prop :=
  ∀ D ts, WriteE D e ts → D ≤ 502 → Claim E src start (level e) ts (code e) (leakE e) D (spine e)

theorem opLevel_le (op : BinOp) : 3 ≤ opLevel op ∧ opLevel op ≤ 10 := by cases op <;> decide

theorem level_le (e : Expr) : level e ≤ 14 := by
  cases e <;> simp only [level] <;> first | omega | skip
  · split <;> omega
  · have := opLevel_le ‹_›; omega

variable {E : Env} {src : List UInt8} {start p D : Nat} {ts : List Token} {pre post : List UInt8}

theorem Good.text {e : Expr} (h : Good E src start e) {l : Nat} (ht : Text (fun D => WriteE D e) (level e) D l ts) (hl : l ≤ 14) :
    Claim E src start l ts (code e) (leakE e) D (spine e) :=
  claim_text h ht hl (level_le e)

/-- What can begin an expression. -/
theorem Shape.cons {l : Nat} (h : Shape l ts) : ∃ t ts', ts = t :: ts' ∧ t.kind ∈ starters := by
  cases ts with
  | nil => exact absurd rfl h.ne
  | cons a b => exact ⟨a, b, rfl, h.first⟩

/-- After an item of a list: the end, or a comma and the others. -/
theorem then_split {last : Prop} {rest : List Token → Prop} (h : Then last rest ts) (h0 : last → rest []) :
    (last ∧ ts = []) ∨ ∃ t, ts = .sym COMMA :: t ∧ rest t := by
  rcases h with ⟨h, rfl | rfl⟩ | ⟨h, t, ht, rfl⟩
  · exact .inl ⟨h, rfl⟩
  · exact .inr ⟨[], rfl, h0 h⟩
  · exact .inr ⟨t, rfl, ht⟩

/-- The comma after an item of a list. -/
theorem tr_comma {f : Token} {rest t2 : List Token} (h : t2 = [] ∧ f.kind ≠ COMMA ∨ ∃ t, t2 = .sym COMMA :: t) :
    Tr (At E src start p D (t2 ++ f :: rest) pre post) (fun _ => do let s ← get; when (s.tok = COMMA) (next src))
      fun _ => At E src start (if t2 = [] then p else COMMA) D (t2.drop 1 ++ f :: rest) pre post := by
  refine Tr.get fun s hs => ?_
  rcases h with ⟨rfl, hf⟩ | ⟨t, rfl⟩
  · refine Tr.when_false ?_
    rw [hs.tok]; simpa using hf
  · refine Tr.when_true ?_ ?_
    · rw [hs.tok]; rfl
    · cases t with
      | nil => exact Tr.next
      | cons a t => exact Tr.next

/-- An item of a list. -/
theorem tr_item {t1 t2 : List Token} {c : List UInt8} {leak N d : Nat} {f : Token} {rest : List Token}
    (hc : Claim E src start 14 t1 c leak D N) (hd : d ≤ D) (hp : Before p)
    (hx : t2 = [] ∧ Ends 14 f.kind ∨ ∃ t, t2 = .sym COMMA :: t) :
    Tr (At E src start p d (t1 ++ t2 ++ f :: rest) pre post) (fun k => parse E src k .expr)
      fun _ => At E src start (lastKind p t1) (d + leak) (t2 ++ f :: rest) (pre ++ c) post := by
  rw [List.append_assoc]
  rcases hx with ⟨rfl, hf⟩ | ⟨t, rfl⟩
  · exact hc.expr hd hp f rest pre post hf
  · exact hc.expr hd hp (.sym COMMA) (t ++ f :: rest) pre post (show Ends 14 COMMA by decide)

theorem last_item {t1 t2 : List Token} (hx : t2 = [] ∨ ∃ t, t2 = .sym COMMA :: t) :
    lastKind (if t2 = [] then lastKind p t1 else COMMA) (t2.drop 1) = lastKind p (t1 ++ t2) := by
  rw [lastKind_append p]
  rcases hx with rfl | ⟨t, rfl⟩
  · rfl
  · rw [if_neg (by simp), lastKind_cons (lastKind p t1)]; rfl

/-- The loop over arguments. -/
theorem args_loop {es : List Expr} (hg : ∀ e ∈ es, Good E src start e) {D d p : Nat} {ts : List Token} {f : Token} {rest : List Token}
    {pre post : List UInt8} {n : Nat} (hw : WriteEs D es ts) (hd : d ≤ D) (hp : es ≠ [] → Before p) (hf : f.kind = CLOSE_PAREN)
    (hn : (ts ++ f :: rest).length ≤ n) :
    Tr (At E src start p d (ts ++ f :: rest) pre post)
      (fun k => loop (fun s => s.tok != CLOSE_PAREN) (do
        parse E src k .expr
        let s ← get
        when (s.tok = COMMA) (next src)) n)
      fun _ => At E src start (lastKind p ts) (d + leakEs es) (f :: rest) (pre ++ codes es) post := by
  induction es generalizing D d p ts pre n with
  | nil =>
    simp only [WriteEs] at hw
    subst hw
    obtain ⟨m, rfl⟩ : ∃ m, n = m + 1 := ⟨n - 1, by simp only [List.length_append, List.length_cons] at hn; omega⟩
    refine (Tr.loop_stop m fun s hs => ?_).to (by simp [codes])
    rw [hs.tok, show f.kind = CLOSE_PAREN from hf]; rfl
  | cons e es ih =>
    simp only [WriteEs] at hw
    obtain ⟨t1, t2, h1, h2, rfl⟩ := hw
    have hc := (hg e (List.mem_cons_self)).text h1 (Nat.le_refl _)
    obtain ⟨a, t1, rfl, ha⟩ := hc.1.cons
    simp only [List.length_append, List.length_cons] at hn
    obtain ⟨m, rfl⟩ : ∃ m, n = m + 1 := ⟨n - 1, by omega⟩
    have hne : ∀ s, At E src start p d (a :: t1 ++ t2 ++ f :: rest) pre post s → (s.tok != CLOSE_PAREN) = true := fun s hs => by
      rw [hs.tok]
      have : a.kind ≠ CLOSE_PAREN := by rintro e; rw [e] at ha; exact absurd ha (by decide)
      simpa using this
    have hx := then_split h2 (by rintro rfl; simp [WriteEs])
    refine Tr.loop_go hne (Tr.bind (tr_item hc hd (hp (by simp)) ?_) fun _ => tr_comma ?_) ?_
    · rcases hx with ⟨_, rfl⟩ | ⟨t, rfl, _⟩
      · exact .inl ⟨rfl, by rw [hf]; decide⟩
      · exact .inr ⟨t, rfl⟩
    · rcases hx with ⟨_, rfl⟩ | ⟨t, rfl, _⟩
      · exact .inl ⟨rfl, by rw [hf]; decide⟩
      · exact .inr ⟨t, rfl⟩
    · have := ih (fun e' he' => hg e' (List.mem_cons_of_mem _ he')) (D := D + leakE e) (d := d + leakE e)
        (p := if t2 = [] then lastKind p (a :: t1) else COMMA) (ts := t2.drop 1) (pre := pre ++ code e) (n := m)
        (by rcases hx with ⟨rfl, rfl⟩ | ⟨t, rfl, h⟩
            · simp [WriteEs]
            · exact h)
        (by omega)
        (by rcases hx with ⟨rfl, rfl⟩ | ⟨t, rfl, h⟩
            · simp
            · intro _; rw [if_neg (by simp)]; decide)
        (by simp only [List.length_append, List.length_cons, List.length_drop]; omega)
      rw [last_item (by rcases hx with ⟨_, rfl⟩ | ⟨t, rfl, _⟩ <;> simp)] at this
      simpa [leakEs, codes, Nat.add_assoc] using this

/-- The loop over the items of an array. -/
theorem items_loop {es : List Expr} (hg : ∀ e ∈ es, Good E src start e) {D d p : Nat} {ts : List Token} {f : Token} {rest : List Token}
    {pre post : List UInt8} {n : Nat} (hw : WriteEs D es ts) (hd : d ≤ D) (hp : es ≠ [] → Before p) (hf : f.kind = CLOSE_BRACKET)
    (hn : (ts ++ f :: rest).length ≤ n) :
    Tr (At E src start p d (ts ++ f :: rest) pre post)
      (fun k => loop (fun s => s.tok != CLOSE_BRACKET) (do
        emit DUP
        parse E src k .expr
        emit APPEND
        let s ← get
        when (s.tok = COMMA) (next src)) n)
      fun _ => At E src start (lastKind p ts) (d + leakEs es) (f :: rest) (pre ++ codeItems es) post := by
  induction es generalizing D d p ts pre n with
  | nil =>
    simp only [WriteEs] at hw
    subst hw
    obtain ⟨m, rfl⟩ : ∃ m, n = m + 1 := ⟨n - 1, by simp only [List.length_append, List.length_cons] at hn; omega⟩
    refine (Tr.loop_stop m fun s hs => ?_).to (by simp [codeItems])
    rw [hs.tok, show f.kind = CLOSE_BRACKET from hf]; rfl
  | cons e es ih =>
    simp only [WriteEs] at hw
    obtain ⟨t1, t2, h1, h2, rfl⟩ := hw
    have hc := (hg e (List.mem_cons_self)).text h1 (Nat.le_refl _)
    obtain ⟨a, t1, rfl, ha⟩ := hc.1.cons
    simp only [List.length_append, List.length_cons] at hn
    obtain ⟨m, rfl⟩ : ∃ m, n = m + 1 := ⟨n - 1, by omega⟩
    have hne : ∀ s, At E src start p d (a :: t1 ++ t2 ++ f :: rest) pre post s → (s.tok != CLOSE_BRACKET) = true := fun s hs => by
      rw [hs.tok]
      have : a.kind ≠ CLOSE_BRACKET := by rintro e; rw [e] at ha; exact absurd ha (by decide)
      simpa using this
    have hx := then_split h2 (by rintro rfl; simp [WriteEs])
    refine Tr.loop_go hne (Tr.bind (Tr.emit _) fun _ => Tr.bind (tr_item hc hd (hp (by simp)) ?_) fun _ =>
      Tr.bind (Tr.emit _) fun _ => tr_comma ?_) ?_
    · rcases hx with ⟨_, rfl⟩ | ⟨t, rfl, _⟩
      · exact .inl ⟨rfl, by rw [hf]; decide⟩
      · exact .inr ⟨t, rfl⟩
    · rcases hx with ⟨_, rfl⟩ | ⟨t, rfl, _⟩
      · exact .inl ⟨rfl, by rw [hf]; decide⟩
      · exact .inr ⟨t, rfl⟩
    · have := ih (fun e' he' => hg e' (List.mem_cons_of_mem _ he')) (D := D + leakE e) (d := d + leakE e)
        (p := if t2 = [] then lastKind p (a :: t1) else COMMA) (ts := t2.drop 1) (pre := pre ++ [DUP] ++ code e ++ [APPEND]) (n := m)
        (by rcases hx with ⟨rfl, rfl⟩ | ⟨t, rfl, h⟩
            · simp [WriteEs]
            · exact h)
        (by omega)
        (by rcases hx with ⟨rfl, rfl⟩ | ⟨t, rfl, h⟩
            · simp
            · intro _; rw [if_neg (by simp)]; decide)
        (by simp only [List.length_append, List.length_cons, List.length_drop]; omega)
      rw [last_item (by rcases hx with ⟨_, rfl⟩ | ⟨t, rfl, _⟩ <;> simp)] at this
      simpa [leakEs, codeItems, Nat.add_assoc] using this

theorem good_arr {es : List Expr} (hg : ∀ e ∈ es, Good E src start e) : Good E src start (.arr es) := by
  rintro D ts hw hD
  simp only [WriteE] at hw
  obtain ⟨t, hw, rfl⟩ := hw
  refine Claim.of_lit ⟨show OPEN_BRACKET ∈ starters by decide, fun _ => show OPEN_BRACKET ∉ unaryOps by decide, ?_, fun _ => ?_⟩
    fun d p hd hp f rest pre post _ => Tr.call ?_
  · rw [lastKind_append]; exact show CLOSE_BRACKET ≠ DOT by decide
  · rw [lastKind_append]; exact show CLOSE_BRACKET ∉ postfixOps by decide
  show Tr _ (fun n => parseLiteral E src (parse E src n)) _
  unfold parseLiteral
  refine Tr.get fun s hs => ?_
  rw [show s.tok = OPEN_BRACKET from hs.tok, lastKind_append]
  have hitems : Tr (At E src start p (d + 10) (.sym OPEN_BRACKET :: t ++ [.sym CLOSE_BRACKET] ++ f :: rest) pre post)
      (fun k => parse E src k .array)
      fun _ => At E src start (lastKind OPEN_BRACKET t) (d + 10 + leakEs es) (.sym CLOSE_BRACKET :: f :: rest)
        (pre ++ code (.arr es)) post := by
    refine Tr.call (Tr.len fun hlen => ?_)
    show Tr _ (fun n => parseArray src (parse E src n)) _
    unfold parseArray
    have h1 := items_loop hg (d := d + 10) (p := OPEN_BRACKET) (f := .sym CLOSE_BRACKET) (rest := f :: rest)
      (pre := pre ++ [PUSH_ARRAY]) (post := post) (n := rounds src) hw (by omega) (fun _ => by decide) rfl
      (by simp only [List.length_append, List.length_cons, List.length_nil] at hlen ⊢; omega)
    rw [List.append_assoc]
    exact (Tr.bind (Tr.expect_ne rfl (by simp)) fun _ => Tr.bind (Tr.emit _) fun _ => h1).to (by simp [code])
  refine Tr.bind (Tr.attempt hitems) fun b => Tr.fst ?_
  rintro rfl
  exact Tr.bind Tr.next fun _ => Tr.pure () fun _ h => h

/-- The loop over the members of an object. -/
theorem props_loop {ps : List (Name × Expr)} (hg : ∀ q ∈ ps, Good E src start q.2) {D d p : Nat} {ts : List Token} {f : Token}
    {rest : List Token} {pre post : List UInt8} {n : Nat} (hw : WriteProps D ps ts) (hd : d ≤ D) (hf : f.kind = CLOSE_CURLY)
    (hn : (ts ++ f :: rest).length ≤ n) :
    Tr (At E src start p d (ts ++ f :: rest) pre post)
      (fun k => loop (fun s => s.tok != CLOSE_CURLY) (do
        let s ← get
        if s.tok ≠ IDENT ∧ s.tok ≠ STR then fail
        else do
          emit DUP
          emit PUSH_STR
          emitS (tokText src s)
          emit SWAP
          next src
          expect src COLON
          parse E src k .expr
          emitOp ASSIGN
          emit DROP
          let s ← get
          if s.tok = COMMA then next src
          else if s.tok ≠ CLOSE_CURLY then fail
          else M.pure ()) n)
      fun _ => At E src start (lastKind p ts) (d + leakProps ps) (f :: rest) (pre ++ codeProps ps) post := by
  induction ps generalizing D d p ts pre n with
  | nil =>
    simp only [WriteProps] at hw
    subst hw
    obtain ⟨m, rfl⟩ : ∃ m, n = m + 1 := ⟨n - 1, by simp only [List.length_append, List.length_cons] at hn; omega⟩
    refine (Tr.loop_stop m fun s hs => ?_).to (by simp [codeProps])
    rw [hs.tok, show f.kind = CLOSE_CURLY from hf]; rfl
  | cons q ps ih =>
    obtain ⟨x, e⟩ := q
    simp only [WriteProps] at hw
    obtain ⟨key, t1, t2, hkey, h1, h2, rfl⟩ := hw
    have hc := (hg (x, e) (List.mem_cons_self)).text h1 (Nat.le_refl _)
    obtain ⟨a, t1, rfl, ha⟩ := hc.1.cons
    simp only [List.length_append, List.length_cons] at hn
    obtain ⟨m, rfl⟩ : ∃ m, n = m + 1 := ⟨n - 1, by omega⟩
    have hkk : key.kind = IDENT ∨ key.kind = STR := by
      rcases hkey with rfl | ⟨_, rfl⟩
      · exact .inl rfl
      · exact .inr rfl
    have hx := then_split h2 (by rintro rfl; simp [WriteProps])
    have hx1 : t2 = [] ∧ Ends 14 f.kind ∨ ∃ t, t2 = .sym COMMA :: t := by
      rcases hx with ⟨_, rfl⟩ | ⟨t, rfl, _⟩
      · exact .inl ⟨rfl, by rw [hf]; decide⟩
      · exact .inr ⟨t, rfl⟩
    simp only [List.cons_append]
    refine Tr.loop_go (fun s hs => ?_)
      (R := At E src start (if t2 = [] then lastKind COLON (a :: t1) else COMMA) (d + leakE e) (t2.drop 1 ++ f :: rest)
        (pre ++ (DUP :: pushStr x ++ [SWAP] ++ code e ++ [EXPR, 5, DROP])) post)
      (Tr.get fun s hs => ?_) ?_
    · rw [hs.tok]
      rcases hkk with h | h <;> rw [h] <;> rfl
    · have hb : ¬ (s.tok ≠ IDENT ∧ s.tok ≠ STR) := by
        rw [hs.tok]
        rcases hkk with h | h <;> rw [h] <;> decide
      have hx0 : tokText src s = x := by
        rcases hkey with rfl | ⟨_, rfl⟩
        · exact hs.is.2
        · exact hs.is.2.1
      simp only [hb, if_false, hx0]
      refine Tr.bind (Tr.emit _) fun _ => Tr.bind (Tr.emit _) fun _ => Tr.bind (Tr.emitS _) fun _ => Tr.bind (Tr.emit _) fun _ =>
        Tr.bind Tr.next fun _ => Tr.bind (Tr.expect rfl) fun _ => Tr.bind (tr_item hc hd (by decide) hx1) fun _ =>
        Tr.bind (Tr.emitOp _ (by decide)) fun _ => Tr.bind (Tr.emit _) fun _ => Tr.get fun s hs => ?_
      rcases hx with ⟨_, rfl⟩ | ⟨t, rfl, _⟩
      · have e1 : s.tok = f.kind := hs.tok
        rw [e1, hf]
        refine (Tr.pure () fun _ h => h).to ?_
        simp [pushStr, ASSIGN]
      · have e1 : s.tok = COMMA := hs.tok
        rw [e1]
        refine Tr.to (pre' := pre ++ [DUP] ++ [PUSH_STR] ++ strB x ++ [SWAP] ++ code e ++ [EXPR, UInt8.ofNat ASSIGN] ++ [DROP]) ?_ ?_
        · cases t with
          | nil => exact Tr.next
          | cons a t => exact Tr.next
        · simp [pushStr, ASSIGN]
    · have := ih (fun q' hq' => hg q' (List.mem_cons_of_mem _ hq')) (D := D + leakE e) (d := d + leakE e)
        (p := if t2 = [] then lastKind COLON (a :: t1) else COMMA) (ts := t2.drop 1)
        (pre := pre ++ (DUP :: pushStr x ++ [SWAP] ++ code e ++ [EXPR, 5, DROP])) (n := m)
        (by rcases hx with ⟨rfl, rfl⟩ | ⟨t, rfl, h⟩
            · simp [WriteProps]
            · exact h)
        (by omega)
        (by simp only [List.length_append, List.length_cons, List.length_drop]; omega)
      rw [last_item (by rcases hx with ⟨_, rfl⟩ | ⟨t, rfl, _⟩ <;> simp)] at this
      refine this.conv ?_ (by simp [leakProps, Nat.add_assoc]) (by simp [codeProps])
      rw [lastKind_cons p, lastKind_cons key.kind]
      rfl

theorem good_obj {ps : List (Name × Expr)} (hg : ∀ q ∈ ps, Good E src start q.2) : Good E src start (.obj ps) := by
  rintro D ts hw hD
  simp only [WriteE] at hw
  obtain ⟨t, hw, rfl⟩ := hw
  refine Claim.of_lit ⟨show OPEN_CURLY ∈ starters by decide, fun _ => show OPEN_CURLY ∉ unaryOps by decide, ?_, fun _ => ?_⟩
    fun d p hd hp f rest pre post _ => Tr.call ?_
  · rw [lastKind_append]; exact show CLOSE_CURLY ≠ DOT by decide
  · rw [lastKind_append]; exact show CLOSE_CURLY ∉ postfixOps by decide
  show Tr _ (fun n => parseLiteral E src (parse E src n)) _
  unfold parseLiteral
  refine Tr.get fun s hs => ?_
  rw [show s.tok = OPEN_CURLY from hs.tok, lastKind_append]
  have hitems : Tr (At E src start p (d + 10) (.sym OPEN_CURLY :: t ++ [.sym CLOSE_CURLY] ++ f :: rest) pre post)
      (fun k => parse E src k .object)
      fun _ => At E src start (lastKind OPEN_CURLY t) (d + 10 + leakProps ps) (.sym CLOSE_CURLY :: f :: rest)
        (pre ++ code (.obj ps)) post := by
    refine Tr.call (Tr.len fun hlen => ?_)
    show Tr _ (fun n => parseObject src (parse E src n)) _
    unfold parseObject
    have h1 := props_loop hg (d := d + 10) (p := OPEN_CURLY) (f := .sym CLOSE_CURLY) (rest := f :: rest)
      (pre := pre ++ [PUSH_OBJ]) (post := post) (n := rounds src) hw (by omega) rfl
      (by simp only [List.length_append, List.length_cons, List.length_nil] at hlen ⊢; omega)
    rw [List.append_assoc]
    exact (Tr.bind (Tr.expect_ne rfl (by simp)) fun _ => Tr.bind (Tr.emit _) fun _ => h1).to (by simp [code])
  refine Tr.bind (Tr.attempt hitems) fun b => Tr.fst ?_
  rintro rfl
  exact Tr.bind Tr.next fun _ => Tr.pure () fun _ h => h

theorem good_call {g : Expr} {es : List Expr} (h0 : Good E src start g) (hg : ∀ e ∈ es, Good E src start e) :
    Good E src start (.call g es) := by
  rintro D ts hw hD
  simp only [WriteE] at hw
  obtain ⟨tf, ta, hf, hw, rfl⟩ := hw
  have h := h0.text hf (by decide)
  refine ⟨?_, ?_⟩
  · rw [List.append_assoc]
    refine h.1.concat (by simp) ?_ fun _ => ?_
    · rw [lastKind_append]; exact show CLOSE_PAREN ≠ DOT by decide
    · rw [lastKind_append]; exact show CLOSE_PAREN ∉ postfixOps by decide
  rw [if_pos (by rfl)]
  intro d p f rest pre post Q hd hp _ hQ hl
  have h0 := h.2
  rw [if_pos rfl] at h0
  simp only [List.append_assoc, List.cons_append, List.nil_append]
  refine h0 d p (.sym OPEN_PAREN) (ta ++ .sym CLOSE_PAREN :: f :: rest) pre post Q hd hp (by decide) hQ fun n hn => ?_
  simp only [List.length_cons, List.length_append] at hn
  obtain ⟨m, rfl⟩ : ∃ m, n = m + 1 := ⟨n - 1, by omega⟩
  refine Tr.loop_go (fun s hs => isSfx_true (by rw [hs.tok]; decide)) ?_ (hl m (by omega))
  unfold sfx
  refine Tr.get fun s hs => ?_
  rw [show s.tok = OPEN_PAREN from hs.tok]
  refine Tr.len fun hlen => ?_
  have h1 := args_loop hg (d := d + 10 + leakE g) (p := OPEN_PAREN) (f := .sym CLOSE_PAREN) (rest := f :: rest)
    (pre := pre ++ code g ++ [ARGS]) (post := post) (n := rounds src) hw (by omega) (fun _ => by decide) rfl
    (by simp only [List.length_append, List.length_cons] at hlen ⊢; omega)
  rw [show lastKind p (tf ++ Token.sym OPEN_PAREN :: ta ++ [Token.sym CLOSE_PAREN]) = CLOSE_PAREN by
    rw [lastKind_append]; rfl]
  exact (Tr.bind (Tr.expect_ne rfl (by simp)) fun _ => Tr.bind (Tr.emit _) fun _ => Tr.bind h1 fun _ => Tr.bind (Tr.emit _) fun _ =>
    Tr.expect rfl).conv rfl (by simp [leakE, Nat.add_assoc]) (by simp [code])

end Mjs.Parse
