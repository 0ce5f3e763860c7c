import Verif.Lemmas.ParseExpr

/-!
Blocks and functions.
-/

namespace Mjs.Parse
open Mjs Mjs.Tok Mjs.Exec Mjs.Code Mjs.Bcode Mjs.Parser Mjs.Grammar

variable {E : Env} {src : List UInt8} {start p D : Nat} {ts : List Token} {pre post : List UInt8}

/-- What `parse_statement_list` does; `t0` is the token before the list. -/
def ClaimSs (E : Env) (src : List UInt8) (start : Nat) (et : Nat) (ts : List Token) (c : List UInt8) (leak D : Nat) : Prop :=
  ∀ d p t0 f rest pre post, d ≤ D → Before (Token.kind t0) → Token.kind f = et →
    Tr (At E src start p d (t0 :: ts ++ f :: rest) pre post) (fun n => parse E src n (.stmtList et))
      fun _ => At E src start (lastKind t0.kind ts) (d + leak) (f :: rest) (pre ++ c) post

/-- A block. -/
theorem goes_block {c : List UInt8} {leak d : Nat} (mk : Bool) (h : ClaimSs E src start CLOSE_CURLY ts c leak (D + 1)) (hD : D + 1 ≤ 512)
    (hd : d ≤ D) : Goes E src start (.block mk) p d (d + (1 + leak)) (.sym OPEN_CURLY :: ts ++ [.sym CLOSE_CURLY])
      (if mk then NEW_SCOPE :: c ++ [DEL_SCOPE] else c) (fun _ => True) := by
  intro f rest pre post _
  refine Tr.call ?_
  show Tr _ (fun n => parseBlock src (parse E src n) mk) _
  unfold parseBlock
  refine Tr.bind (Tr.modDepth (· + 1)) fun _ => Tr.get fun s hs => ?_
  have hdeep : tooDeep s = false := by simp only [tooDeep, hs.depth, decide_eq_false_iff_not]; omega
  rw [hdeep, lastKind_append]
  simp only [List.append_assoc, List.cons_append, List.nil_append, Bool.false_eq_true, if_false]
  cases mk with
  | false =>
    have h1 := h (d + 1) p (.sym OPEN_CURLY) (.sym CLOSE_CURLY) (f :: rest) pre post (by omega) (by decide) rfl
    refine Tr.bind (Tr.when_false rfl) fun _ => Tr.bind (Tr.attempt h1) fun b => Tr.fst ?_
    rintro rfl
    refine (Tr.bind (Tr.expect rfl) fun _ => Tr.bind (Tr.when_false rfl) fun _ => Tr.pure () fun _ h => h).conv rfl ?_ ?_
    · omega
    · simp
  | true =>
    have h1 := h (d + 1) p (.sym OPEN_CURLY) (.sym CLOSE_CURLY) (f :: rest) (pre ++ [NEW_SCOPE]) post (by omega) (by decide) rfl
    refine Tr.bind (Tr.when_true rfl (Tr.emit _)) fun _ => Tr.bind (Tr.attempt h1) fun b => Tr.fst ?_
    rintro rfl
    refine (Tr.bind (Tr.expect rfl) fun _ => Tr.bind (Tr.when_true rfl (Tr.emit _)) fun _ => Tr.pure () fun _ h => h).conv rfl ?_ ?_
    · omega
    · simp

/-- The names of the arguments. -/
theorem params_loop {ps : List Name} {i n : Nat} {f : Token} {rest : List Token} (hw : WriteParams ps ts) (hf : f.kind = CLOSE_PAREN)
    (hn : (ts ++ f :: rest).length ≤ n) :
    Tr (At E src start p D (ts ++ f :: rest) pre post) (fun _ => params src n i)
      fun _ => At E src start (lastKind p ts) D (f :: rest) (pre ++ codeParams i ps) post := by
  induction ps generalizing p ts pre n i with
  | nil =>
    simp only [WriteParams] at hw
    subst hw
    obtain ⟨m, rfl⟩ : ∃ m, n = m + 1 := ⟨n - 1, by simp only [List.length_append, List.length_cons] at hn; omega⟩
    unfold params
    refine Tr.get fun s hs => ?_
    rw [show s.tok = f.kind from hs.tok, hf]
    exact (Tr.pure () fun _ h => h).to (by simp [codeParams])
  | cons x ps ih =>
    have step : ∀ (t : List Token) (hcomma : t = [] ∨ ∃ t1, t = .sym COMMA :: t1), ∀ m, t.length + (f :: rest).length ≤ m →
        (∀ q, Tr (At E src start q D (t.drop 1 ++ f :: rest) (pre ++ SET_ARG :: (vint i ++ strB x)) post) (fun _ => params src m (i + 1))
          fun _ => At E src start (lastKind q (t.drop 1)) D (f :: rest) (pre ++ codeParams i (x :: ps)) post) →
        Tr (At E src start p D (.ident x :: (t ++ f :: rest)) pre post) (fun _ => params src (m + 1) i)
          fun _ => At E src start (lastKind p (.ident x :: t)) D (f :: rest) (pre ++ codeParams i (x :: ps)) post := by
      intro t hcomma m _ hnext
      unfold params
      refine Tr.get fun s hs => ?_
      have h0 : tokText src s = x := hs.is.2
      rw [show s.tok = IDENT from hs.tok, if_pos (by decide), if_neg (by decide), h0]
      refine Tr.bind (Tr.emit _) fun _ => Tr.bind (Tr.emitN _) fun _ => Tr.bind (Tr.emitS _) fun _ => ?_
      have epre : pre ++ [SET_ARG] ++ vint i ++ strB x = pre ++ SET_ARG :: (vint i ++ strB x) := by simp
      rw [epre]
      rcases hcomma with rfl | ⟨t1, rfl⟩
      · refine Tr.ptest ?_
        rw [hf]
        refine Tr.bind (Tr.when_false (by decide)) fun _ => Tr.bind Tr.next fun _ => ?_
        exact hnext IDENT
      · refine Tr.ptest ?_
        refine Tr.bind (Tr.when_true rfl Tr.next) fun _ => Tr.bind (Tr.next_ne (by simp)) fun _ => ?_
        rw [lastKind_cons, lastKind_cons]
        exact hnext COMMA
    cases ps with
    | nil =>
      simp only [WriteParams] at hw
      subst hw
      simp only [List.length_append, List.length_cons, List.length_nil] at hn
      obtain ⟨m, rfl⟩ : ∃ m, n = m + 1 := ⟨n - 1, by omega⟩
      refine step [] (.inl rfl) m (by simp only [List.length_cons, List.length_nil]; omega) fun q => ?_
      have := ih (p := q) (ts := []) (pre := pre ++ SET_ARG :: (vint i ++ strB x)) (n := m) (i := i + 1) rfl
        (by simp only [List.length_append, List.length_cons, List.length_nil]; omega)
      simpa [codeParams] using this
    | cons y ps =>
      simp only [WriteParams] at hw
      obtain ⟨t1, hw, rfl⟩ := hw
      simp only [List.length_append, List.length_cons] at hn
      obtain ⟨m, rfl⟩ : ∃ m, n = m + 1 := ⟨n - 1, by omega⟩
      refine step (.sym COMMA :: t1) (.inr ⟨t1, rfl⟩) m (by simp only [List.length_cons]; omega) fun q => ?_
      have := ih (p := q) (ts := t1) (pre := pre ++ SET_ARG :: (vint i ++ strB x)) (n := m) (i := i + 1) hw
        (by simp only [List.length_append, List.length_cons]; omega)
      simpa [codeParams] using this

/-- The parser handles these statements. -/
def GoodSs (E : Env) (src : List UInt8) (start : Nat) (ss : List Stmt) : Prop :=
  ∀ D et ts, et = CLOSE_CURLY ∨ et = EOF → WriteSs D et ss ts → ClaimSs E src start et ts (codeSs ss) (leakSs ss) D

/-- The part of `parse_function` from the parameters on. -/
theorem tr_funBody {ps : List Name} {body : List Stmt} {tp tb : List Token} {f : Token} {rest : List Token} {d : Nat}
    (hb : GoodSs E src start body) (hp : WriteParams ps tp) (hw : WriteSs (D + 11) CLOSE_CURLY body tb) (hD : D + 11 ≤ 512) (hd : d ≤ D)
    {β : Type} {g : Nat → Unit → M β} {Q : β → PS → Prop}
    (hg : Tr (At E src start CLOSE_CURLY (d + 10 + (1 + leakSs body)) (f :: rest)
      (pre ++ (JMP :: vint (codeFun ps body).length ++ codeFun ps body ++ PUSH_FUNC :: vint (codeFun ps body).length)) post)
      (fun n => g n ()) Q) :
    Tr (At E src start p (d + 10) (.sym OPEN_PAREN :: tp ++ .sym CLOSE_PAREN :: .sym OPEN_CURLY :: tb ++ [.sym CLOSE_CURLY] ++ f :: rest)
        pre post)
      (fun n => do
        emit JMP
        let off ← curIdx
        emitInit
        let prologue ← curIdx
        expect src OPEN_PAREN
        emit NEW_SCOPE
        params src (rounds src) 0
        expect src CLOSE_PAREN
        parse E src n (.block false)
        emit RETURN
        let cur ← curIdx
        let diff ← patch off (cur - off - initOffsetSize)
        emit PUSH_FUNC
        let cur ← curIdx
        let r ← emitN (cur - 1 - (prologue + diff))
        g n r) Q := by
  refine Tr.len fun hlen => ?_
  simp only [List.append_assoc, List.cons_append, List.nil_append]
  simp only [List.length_append, List.length_cons, List.length_nil] at hlen
  have h1 := params_loop (E := E) (src := src) (start := start) (p := OPEN_PAREN) (D := d + 10) (pre := pre ++ [JMP] ++ [0] ++ [NEW_SCOPE])
    (post := post) (i := 0) (n := rounds src) (f := .sym CLOSE_PAREN) (rest := .sym OPEN_CURLY :: (tb ++ .sym CLOSE_CURLY :: f :: rest)) hp rfl
    (by simp only [List.length_append, List.length_cons]; omega)
  have h2 := goes_block (p := CLOSE_PAREN) (d := d + 10) false (hb _ _ _ (.inl rfl) hw) hD (by omega) f rest
    (pre ++ [JMP] ++ [0] ++ [NEW_SCOPE] ++ codeParams 0 ps) post trivial
  simp only [List.append_assoc, List.cons_append, List.nil_append, Bool.false_eq_true, if_false] at h1 h2
  rw [show lastKind CLOSE_PAREN (Token.sym OPEN_CURLY :: (tb ++ [Token.sym CLOSE_CURLY])) = CLOSE_CURLY by
    rw [lastKind_cons, lastKind_append]; rfl] at h2
  refine Tr.bind (Tr.emit _) fun _ => Tr.curIdx (Tr.bind (Tr.emit _) fun _ => Tr.curIdx (Tr.bind (Tr.expect_ne rfl (by simp)) fun _ =>
    Tr.bind (Tr.emit _) fun _ => ?_))
  simp only [List.append_assoc, List.cons_append, List.nil_append]
  refine Tr.bind h1 fun _ => Tr.bind (Tr.expect rfl) fun _ => Tr.bind h2 fun _ => Tr.bind (Tr.emit _) fun _ => Tr.curIdx ?_
  refine tr_patch (codeFun ps body).length (a := pre ++ [JMP]) (b := 0) (mid := codeFun ps body) ?_ (by simp [codeFun]) rfl ?_
  · refine Tr.bind (Tr.emit _) fun _ => Tr.curIdx ?_
    have e : (pre ++ [JMP] ++ vint (codeFun ps body).length ++ codeFun ps body ++ [PUSH_FUNC]).length - 1 -
        ((pre ++ JMP :: [0]).length + ((vint (codeFun ps body).length).length - 1)) = (codeFun ps body).length := by
      have := vint_pos (codeFun ps body).length
      simp only [List.length_append, List.length_cons, List.length_nil]
      omega
    rw [e]
    refine Tr.bind (Tr.emitN _) fun _ => ?_
    simpa using hg
  · simp only [codeFun, List.length_append, List.length_cons, List.length_nil, initOffsetSize]; omega

theorem good_func {l : Nat} {name : Option Name} {ps : List Name} {body : List Stmt} (hb : GoodSs E src start body) :
    Good E src start (.func l name ps body) := by
  intro D ts hw hD
  simp only [WriteE] at hw
  obtain ⟨tp, tb, hp, hw, hD2, rfl⟩ := hw
  show Claim E src start 0 _ _ _ D _
  refine Claim.of_lit ⟨show KW_FUNCTION ∈ starters by decide, fun _ => show KW_FUNCTION ∉ unaryOps by decide, ?_, fun _ => ?_⟩
    fun d p hd _ f rest pre post _ => Tr.call ?_
  · rw [lastKind_append]; exact show CLOSE_CURLY ≠ DOT by decide
  · rw [lastKind_append]; exact show CLOSE_CURLY ∉ postfixOps by decide
  show Tr _ (fun n => parseLiteral E src (parse E src n)) _
  unfold parseLiteral
  refine Tr.get fun s hs => ?_
  rw [show s.tok = KW_FUNCTION from hs.tok, lastKind_append]
  refine Tr.call (Tr.conv (p' := CLOSE_CURLY) (pre' := pre ++ code (.func l name ps body)) ?_ rfl rfl rfl)
  show Tr _ (fun n => parseFunction src (parse E src n)) _
  unfold parseFunction
  simp only [leakE]
  cases name with
  | none =>
    simp only [List.append_assoc, List.cons_append, List.nil_append]
    refine Tr.bind (Tr.expect rfl) fun _ => Tr.get fun s hs => ?_
    rw [show s.tok = OPEN_PAREN from hs.tok]
    refine Tr.bind (Tr.when_false (by decide)) fun _ => ?_
    have := tr_funBody (p := KW_FUNCTION) (f := f) (rest := rest) (pre := pre) (post := post) hb hp hw hD2 hd
      (g := fun _ _ => when (OPEN_PAREN = IDENT) (emitOp ASSIGN)) (Tr.when_false (by decide))
    simpa [code, codeFun] using this
  | some x =>
    simp only [List.append_assoc, List.cons_append, List.nil_append]
    refine Tr.bind (Tr.expect rfl) fun _ => Tr.get fun s hs => ?_
    have h0 : tokText src s = x := hs.is.2
    rw [show s.tok = IDENT from hs.tok, h0]
    refine Tr.bind (Tr.when_true rfl (Tr.bind (Tr.emit _) fun _ => Tr.bind (Tr.emitS _) fun _ => Tr.bind (Tr.emit _) fun _ =>
      Tr.bind (Tr.emit _) fun _ => Tr.bind (Tr.emit _) fun _ => Tr.bind (Tr.emitS _) fun _ => Tr.bind (Tr.emit _) fun _ => Tr.next)) fun _ => ?_
    have := tr_funBody (p := IDENT) (f := f) (rest := rest)
      (pre := pre ++ [PUSH_STR] ++ strB x ++ [PUSH_SCOPE] ++ [CREATE] ++ [PUSH_STR] ++ strB x ++ [FIND_SCOPE]) (post := post) hb hp hw hD2 hd
      (g := fun _ _ => when (IDENT = IDENT) (emitOp ASSIGN)) (Tr.when_true rfl (Tr.emitOp _ (by decide)))
    simpa [code, codeFun, create, pushStr, ASSIGN, Token.kind] using this

end Mjs.Parse
