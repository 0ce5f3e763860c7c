import Verif.Lemmas.ParseAt

/-!
The levels of the expression parser: what it does with a text at each of them, and how one follows from the one below.
-/

namespace Mjs.Parse
open Mjs Mjs.Tok Mjs.Exec Mjs.Code Mjs.Bcode Mjs.Parser Mjs.Grammar

def suffixes : List Nat := [DOT, OPEN_PAREN, OPEN_BRACKET]

/-- The function that parses texts of a level. -/
def ntOf : Nat → NT
  | 0 => .callDotMem
  | 1 => .postfix
  | 2 => .unary
  | 13 => .ternary EOF
  | 14 => .assignment
  | l => .binop (l - 3) EOF

/-- By how much more the count is there. -/
def off (l : Nat) : Nat := 12 - max 2 l

/-- The tokens the function of a level looks for behind an operand. -/
def checks : Nat → List Nat
  | 0 => suffixes
  | 1 => postfixOps
  | 2 => []
  | 13 => [QUESTION]
  | 14 => assignOps
  | l => levelOps (l - 3)

/-- A token that ends an expression of a level. -/
structure Ends (l k : Nat) : Prop where
  suffix : k ∉ suffixes
  post : k ∉ postfixOps
  assign : k ∉ assignOps
  ops : ∀ j, j ≤ l → k ∉ checks j

theorem Ends.mono {l l' k : Nat} (h : Ends l k) (hl : l' ≤ l) : Ends l' k :=
  ⟨h.suffix, h.post, h.assign, fun j hj => h.ops j (Nat.le_trans hj hl)⟩

/-- The token before an expression. -/
def Before (p : Nat) : Prop := p ≠ DOT ∧ p ∉ postfixOps

/-- Tokens an expression can begin with. -/
def starters : List Nat :=
  [NUM, STR, IDENT, KW_TRUE, KW_FALSE, KW_NULL, KW_UNDEFINED, KW_THIS, KW_FUNCTION, OPEN_CURLY, OPEN_BRACKET, OPEN_PAREN] ++ unaryOps

/-- First and last token of a text of a level. -/
structure Shape (l : Nat) (ts : List Token) : Prop where
  first : firstKind ts 0 ∈ starters
  prim : l ≤ 1 → firstKind ts 0 ∉ unaryOps
  last : lastKind 0 ts ≠ DOT
  lastPost : l = 0 → lastKind 0 ts ∉ postfixOps

theorem Shape.ne {l : Nat} {ts : List Token} (h : Shape l ts) : ts ≠ [] := by
  rintro rfl
  exact absurd h.first (by decide)

theorem Shape.mono {l l' : Nat} {ts : List Token} (h : Shape l ts) (hl : l ≤ l') : Shape l' ts :=
  ⟨h.first, fun hp => h.prim (by omega), h.last, fun hp => h.lastPost (by omega)⟩

theorem lastKind_append (p : Nat) (a b : List Token) : lastKind p (a ++ b) = lastKind (lastKind p a) b := by
  unfold lastKind
  rw [List.getLast?_append]
  cases b.getLast? <;> simp

theorem lastKind_cons (p : Nat) (a : Token) (b : List Token) : lastKind p (a :: b) = lastKind a.kind b :=
  lastKind_append p [a] b

@[simp] theorem lastKind_nil (p : Nat) : lastKind p [] = p := rfl

theorem lastKind_ne {p q : Nat} {ts : List Token} (h : ts ≠ []) : lastKind p ts = lastKind q ts := by
  cases ts with
  | nil => exact absurd rfl h
  | cons a b => rw [lastKind_cons, lastKind_cons]

theorem firstKind_append {a b : List Token} (h : a ≠ []) (f : Nat) : firstKind (a ++ b) f = firstKind a 0 := by
  cases a with
  | nil => exact absurd rfl h
  | cons x y => rfl

theorem firstKind_cons (a : Token) (b : List Token) (f : Nat) : firstKind (a :: b) f = a.kind := rfl

section
variable (E : Env) (src : List UInt8) (start : Nat)

/-- The function `nt` reads the text `ts`, after a token `p`, with the count going from `d` to `d'`, and emits `c`, if the token
that follows is `ok`. -/
def Goes (nt : NT) (p d d' : Nat) (ts : List Token) (c : List UInt8) (ok : Nat → Prop) : Prop :=
  ∀ f rest pre post, ok f.kind → Tr (At E src start p d (ts ++ f :: rest) pre post) (fun n => parse E src n nt)
    (fun _ => At E src start (lastKind p ts) d' (f :: rest) (pre ++ c) post)

/-- The test of the loop of `parse_call_dot_mem`. -/
def isSfx (s : PS) : Bool := findtok [DOT, OPEN_PAREN, OPEN_BRACKET] s.tok != EOF

/-- A round of that loop. -/
def sfx (rec : NT → M Unit) : M Unit := do
  let s ← get
  if s.tok = OPEN_BRACKET then do
    expect src OPEN_BRACKET
    rec .expr
    emit SWAP
    expect src CLOSE_BRACKET
    let s' ← get
    when (findtok assignOps s'.tok = 0 ∧ findtok postfixOps s'.tok = 0 ∧ findtok postfixOps s.tk.prevTok = 0) (emit GET)
  else if s.tok = OPEN_PAREN then do
    expect src OPEN_PAREN
    emit ARGS
    loop (fun s => s.tok != CLOSE_PAREN) (do
      rec .expr
      let s ← get
      when (s.tok = COMMA) (next src)) (rounds src)
    emit CALL
    expect src CLOSE_PAREN
  else do
    expect src DOT
    rec .callDotMem

theorem parseCallDotMem_eq (rec : NT → M Unit) :
    parseCallDotMem src rec = (do rec .literal; loop isSfx (sfx src rec) (rounds src)) := rfl

/-- What `parse_call_dot_mem` does with a text that may be followed by members and calls. -/
def Claim0 (ts : List Token) (c : Nat → List UInt8) (leak D : Nat) (ok : Nat → Prop) : Prop :=
  ∀ d p f rest pre post (Q : PS → Prop), d ≤ D → Before p → ok f.kind → (∀ s, Q s → s.tok ∉ suffixes) →
    (∀ n, rest.length + 1 ≤ n → Tr (At E src start (lastKind p ts) (d + 10 + leak) (f :: rest) (pre ++ c f.kind) post)
      (fun k => loop isSfx (sfx src (parse E src k)) n) (fun _ => Q)) →
    Tr (At E src start p (d + 10) (ts ++ f :: rest) pre post) (fun k => parse E src k .callDotMem) (fun _ => Q)

/-- The last part of `PARSE_LTR_BINOP`. -/
def check (ops : List Nat) (f2 : Nat → M Unit) : M Unit := do
  let s ← get
  when (findtok ops s.tok ≠ EOF) (do
    if ops.head? = some LOGICAL_AND ∨ ops.head? = some LOGICAL_OR then
      emit (if ops.head? = some LOGICAL_AND then JMP_NEUTRAL_FALSE else JMP_NEUTRAL_TRUE)
      let offIf ← curIdx
      emitInit
      emit DROP
      next src
      f2 EOF
      let cur ← curIdx
      let _ ← patch offIf (cur - offIf - initOffsetSize)
    else
      next src
      f2 s.tok)

/-- What the function of a binary operator's level does with a text that may be followed by operators of the level. -/
def ClaimB (l : Nat) (ts : List Token) (c : List UInt8) (leak D N : Nat) : Prop :=
  ∀ d p f rest pre post, d ≤ D → Before p → Ends (l - 1) f.kind → ∃ n, n ≤ N ∧ ∀ X rest' p' pre',
    Tr (At E src start (lastKind p ts) (d + off l + 1 + n + leak) (f :: rest) (pre ++ c) post)
      (fun k => check src (levelOps (l - 3)) fun op => parse E src k (.binop (l - 3) op))
      (fun _ => At E src start p' X rest' pre' post) →
    Tr (At E src start p (d + off l) (ts ++ f :: rest) pre post) (fun k => parse E src k (.binop (l - 3) EOF))
      (fun _ => At E src start p' (X - (n + 1)) rest' pre' post)

/-- What the function of level `l` does with a text. -/
def Claim (l : Nat) (ts : List Token) (c : List UInt8) (leak D N : Nat) : Prop :=
  Shape l ts ∧
  if l = 0 then Claim0 E src start ts (fun _ => c) leak D (fun k => k ∉ assignOps ∧ k ∉ postfixOps)
  else if 3 ≤ l ∧ l ≤ 10 then ClaimB E src start l ts c leak D N
  else ∀ d p, d ≤ D → Before p → Goes E src start (ntOf l) p (d + off l) (d + off l + leak) ts c (Ends l)
end

section
variable {E : Env} {src : List UInt8} {start p D : Nat} {ts : List Token} {pre post : List UInt8}

theorem At.fits {s : PS} (h : At E src start p D ts pre post s) : ts.length ≤ rounds src := h.len

theorem Tr.len {α : Type} {m : Nat → M α} {Q : α → PS → Prop}
    (h : ts.length ≤ rounds src → Tr (At E src start p D ts pre post) m Q) : Tr (At E src start p D ts pre post) m Q :=
  fun s hs => h hs.fits s hs

theorem Tr.fst {α : Type} {P : PS → Prop} {m : Nat → M α} {Q : α → PS → Prop} {c : Prop} (h : c → Tr P m Q) :
    Tr (fun s => c ∧ P s) m Q := fun s hs => h hs.1 s hs.2

theorem isSfx_false {s : PS} (h : s.tok ∉ suffixes) : isSfx s = false := by
  show (findtok suffixes s.tok != EOF) = false
  rw [findtok_ne h]; rfl

theorem isSfx_true {s : PS} (h : s.tok ∈ suffixes) : isSfx s = true := by
  show (findtok suffixes s.tok != EOF) = true
  rw [findtok_mem h]
  have : s.tok ≠ EOF := by
    intro e; rw [e] at h; exact absurd h (by decide)
  simpa using this

/-- Level 0 without suffixes. -/
theorem Claim0.goes {ts : List Token} {c : Nat → List UInt8} {leak D : Nat} {ok : Nat → Prop} (h : Claim0 E src start ts c leak D ok)
    {d p : Nat} (hd : d ≤ D) (hp : Before p) {k : Nat} (hk : ok k) (hs : k ∉ suffixes) :
    Goes E src start .callDotMem p (d + 10) (d + 10 + leak) ts (c k) (· = k) := by
  rintro f rest pre post rfl
  refine h d p f rest pre post _ hd hp hk (fun s hq => ?_) fun n hn => ?_
  · rw [hq.tok]; exact hs
  · obtain ⟨m, rfl⟩ : ∃ m, n = m + 1 := ⟨n - 1, by omega⟩
    exact Tr.loop_stop m fun s hq => isSfx_false (by rw [hq.tok]; exact hs)

theorem Goes.of_all {nt : NT} {p d d' : Nat} {ts : List Token} {c : List UInt8} {ok : Nat → Prop}
    (h : ∀ k, ok k → Goes E src start nt p d d' ts c (· = k)) : Goes E src start nt p d d' ts c ok :=
  fun f rest pre post hf => h f.kind hf f rest pre post rfl

/-- `parse_postfix` without an operator. -/
theorem Goes.postfix {p d d' : Nat} {ts : List Token} {c : List UInt8} {ok : Nat → Prop}
    (h : Goes E src start .callDotMem p d d' ts c ok) (hk : ∀ k, ok k → k ∉ postfixOps) :
    Goes E src start .postfix p d d' ts c ok := by
  intro f rest pre post hf
  refine Tr.call ?_
  show Tr _ (fun n => parsePostfix src (parse E src n)) _
  refine Tr.bind (h f rest pre post hf) fun _ => Tr.get fun s hs => Tr.when_false ?_
  have := hk _ hf
  rw [hs.tok]
  simpa [postfixOps] using this

/-- `parse_unary` without an operator. -/
theorem Goes.unary {p d d' : Nat} {ts : List Token} {c : List UInt8} {ok : Nat → Prop}
    (h : Goes E src start .postfix p d d' ts c ok) (h0 : ts ≠ []) (h1 : firstKind ts 0 ∉ unaryOps) :
    Goes E src start .unary p d d' ts c ok := by
  intro f rest pre post hf
  refine Tr.call ?_
  show Tr _ (fun n => parseUnary src (parse E src n)) _
  obtain ⟨t, ts, rfl⟩ : ∃ t ts', ts = t :: ts' := by cases ts with | nil => exact absurd rfl h0 | cons a b => exact ⟨a, b, rfl⟩
  have key : ∀ s, At E src start p d (t :: ts ++ f :: rest) pre post s → findtok unaryOps s.tok = EOF := fun s hs => by
    rw [hs.tok]; exact findtok_ne h1
  refine Tr.get fun s hs => ?_
  refine Tr.bind (Tr.when_false (by rw [key s hs]; rfl)) fun _ => ?_
  refine Tr.get fun s' hs' => ?_
  rw [key s' hs']
  refine Tr.bind (h f rest pre post hf) fun _ => ?_
  exact Tr.when_false (by rw [key s hs]; rfl)

theorem ltrBinop_eq (f1 : M Unit) (f2 : Nat → M Unit) (ops : List Nat) (prev : Nat) :
    ltrBinop src f1 f2 ops prev = (do
      modify fun s => { s with depth := s.depth + 1 }
      let s ← get
      let ok ← attempt (if tooDeep s then fail else do
        f1
        when (prev ≠ EOF) (emitOp prev)
        check src ops f2)
      modify fun s => { s with depth := s.depth - 1 }
      if ok then M.pure () else fail) := rfl

/-- `PARSE_LTR_BINOP` in its three parts. -/
theorem Tr.ltrBinop {f1 : Nat → M Unit} {f2 : Nat → Nat → M Unit} {ops : List Nat} {prev X : Nat} {p' : Nat} {rest' : List Token}
    {pre' post' : List UInt8} {R S : PS → Prop} (hD : D < 512)
    (h1 : Tr (At E src start p (D + 1) ts pre post) f1 fun _ => R)
    (hop : Tr R (fun _ => when (prev ≠ EOF) (Parser.emitOp prev)) fun _ => S)
    (h2 : Tr S (fun k => check src ops (f2 k)) fun _ => At E src start p' X rest' pre' post') :
    Tr (At E src start p D ts pre post) (fun k => Parser.ltrBinop src (f1 k) (f2 k) ops prev)
      (fun _ => At E src start p' (X - 1) rest' pre' post') := by
  simp only [ltrBinop_eq]
  refine Tr.bind (Tr.modDepth (· + 1)) fun _ => Tr.get fun s hs => ?_
  have hdeep : tooDeep s = false := by simp only [tooDeep, hs.depth, decide_eq_false_iff_not]; omega
  rw [hdeep]
  refine Tr.bind (R := fun b s => b = true ∧ At E src start p' X rest' pre' post' s) ?_ fun b => Tr.fst ?_
  · exact Tr.attempt (Tr.bind h1 fun _ => Tr.bind hop fun _ => h2)
  · rintro rfl
    exact Tr.bind (Tr.modDepth (· - 1)) fun _ => Tr.pure () fun _ h => h

theorem Tr.check_stop {f2 : Nat → Nat → M Unit} {ops : List Nat} {t : Token} (h : t.kind ∉ ops) :
    Tr (At E src start p D (t :: ts) pre post) (fun k => check src ops (f2 k)) fun _ => At E src start p D (t :: ts) pre post :=
  Tr.get fun s hs => Tr.when_false (by rw [hs.tok, findtok_ne h]; rfl)

/-- A binary operator's level without an operator. -/
theorem Goes.binop {j p d d' : Nat} {ts : List Token} {c : List UInt8} {ok : Nat → Prop}
    (h : Goes E src start (if j = 0 then .unary else .binop (j - 1) EOF) p (d + 1) (d' + 1) ts c ok) (hd : d < 512)
    (hk : ∀ k, ok k → k ∉ levelOps j) : Goes E src start (.binop j EOF) p d d' ts c ok := by
  intro f rest pre post hf
  refine Tr.call ?_
  have := Tr.ltrBinop (f1 := fun n => parse E src n (if j = 0 then .unary else .binop (j - 1) EOF))
    (f2 := fun n op => parse E src n (.binop j op)) (prev := EOF) (X := d' + 1) hd (h f rest pre post hf)
    (Tr.when_false (by decide)) (Tr.check_stop (ops := levelOps j) (hk _ hf))
  exact this

theorem Goes.ternary {p d d' : Nat} {ts : List Token} {c : List UInt8} {ok : Nat → Prop}
    (h : Goes E src start (.binop 9 EOF) p d d' ts c ok) (hk : ∀ k, ok k → k ≠ QUESTION) :
    Goes E src start (.ternary EOF) p d d' ts c ok := by
  intro f rest pre post hf
  refine Tr.call ?_
  show Tr _ (fun n => parseTernary src (parse E src n) EOF) _
  refine Tr.bind (h f rest pre post hf) fun _ => Tr.bind (Tr.when_false (by decide)) fun _ => Tr.get fun s hs => Tr.when_false ?_
  rw [hs.tok]
  simpa using hk _ hf

theorem Goes.assignment {p d d' : Nat} {ts : List Token} {c : List UInt8} {ok : Nat → Prop}
    (h : Goes E src start (.ternary EOF) p d d' ts c ok) (hk : ∀ k, ok k → k ∉ assignOps) :
    Goes E src start .assignment p d d' ts c ok := by
  intro f rest pre post hf
  refine Tr.call ?_
  show Tr _ (fun n => parseAssignment src (parse E src n)) _
  refine Tr.bind (h f rest pre post hf) fun _ => Tr.get fun s hs => Tr.when_false ?_
  rw [hs.tok, findtok_ne (hk _ hf)]; rfl

theorem Goes.up_bin {j p d leak : Nat} {ts : List Token} {c : List UInt8} {ok : Nat → Prop} (hd : d ≤ 502) (hj : j ≤ 9)
    (h : Goes E src start (if j = 0 then .unary else .binop (j - 1) EOF) p (d + (10 - j)) (d + (10 - j) + leak) ts c ok)
    (hk : ∀ k, ok k → k ∉ levelOps j) :
    Goes E src start (.binop j EOF) p (d + (9 - j)) (d + (9 - j) + leak) ts c ok := by
  refine Goes.binop ?_ (by omega) hk
  have e1 : d + (9 - j) + 1 = d + (10 - j) := by omega
  have e2 : d + (9 - j) + leak + 1 = d + (10 - j) + leak := by omega
  rw [e1, e2]; exact h

/-- From one level to the next, for texts followed by a token that the next level does not look for. -/
theorem Goes.up {l p d leak : Nat} {ts : List Token} {c : List UInt8} {ok : Nat → Prop} (hd : d ≤ 502) (hs : Shape l ts)
    (h : Goes E src start (ntOf l) p (d + off l) (d + off l + leak) ts c ok) (hl : l < 14)
    (hk : ∀ k, ok k → k ∉ checks (l + 1)) :
    Goes E src start (ntOf (l + 1)) p (d + off (l + 1)) (d + off (l + 1) + leak) ts c ok := by
  match l, hl with
  | 0, _ => exact h.postfix hk
  | 1, _ => exact h.unary hs.ne (hs.prim (Nat.le_refl _))
  | 2, _ => exact Goes.up_bin (j := 0) hd (by decide) h hk
  | 3, _ => exact Goes.up_bin (j := 1) hd (by decide) h hk
  | 4, _ => exact Goes.up_bin (j := 2) hd (by decide) h hk
  | 5, _ => exact Goes.up_bin (j := 3) hd (by decide) h hk
  | 6, _ => exact Goes.up_bin (j := 4) hd (by decide) h hk
  | 7, _ => exact Goes.up_bin (j := 5) hd (by decide) h hk
  | 8, _ => exact Goes.up_bin (j := 6) hd (by decide) h hk
  | 9, _ => exact Goes.up_bin (j := 7) hd (by decide) h hk
  | 10, _ => exact Goes.up_bin (j := 8) hd (by decide) h hk
  | 11, _ => exact Goes.up_bin (j := 9) hd (by decide) h hk
  | 12, _ => exact h.ternary fun k hk' => by simpa [checks] using hk k hk'
  | 13, _ => exact h.assignment hk

theorem ntOf_bin {l : Nat} (h : 3 ≤ l ∧ l ≤ 12) : ntOf l = .binop (l - 3) EOF := by
  obtain ⟨h1, h2⟩ := h
  match l, h1, h2 with
  | 3, _, _ => rfl
  | 4, _, _ => rfl
  | 5, _, _ => rfl
  | 6, _, _ => rfl
  | 7, _, _ => rfl
  | 8, _, _ => rfl
  | 9, _, _ => rfl
  | 10, _, _ => rfl
  | 11, _, _ => rfl
  | 12, _, _ => rfl

theorem checks_bin {l : Nat} (h : 3 ≤ l ∧ l ≤ 12) : checks l = levelOps (l - 3) := by
  obtain ⟨h1, h2⟩ := h
  match l, h1, h2 with
  | 3, _, _ => rfl
  | 4, _, _ => rfl
  | 5, _, _ => rfl
  | 6, _, _ => rfl
  | 7, _, _ => rfl
  | 8, _, _ => rfl
  | 9, _, _ => rfl
  | 10, _, _ => rfl
  | 11, _, _ => rfl
  | 12, _, _ => rfl

theorem off_bin {l : Nat} (h : 3 ≤ l ∧ l ≤ 12) : off l + 1 = off (l - 1) := by
  simp only [off]; omega

theorem Claim.goes {l : Nat} {ts : List Token} {c : List UInt8} {leak D N : Nat} (h : Claim E src start l ts c leak D N)
    {d p : Nat} (hd : d ≤ D) (hp : Before p) : Goes E src start (ntOf l) p (d + off l) (d + off l + leak) ts c (Ends l) := by
  obtain ⟨_, h⟩ := h
  split at h
  · next hl =>
    subst hl
    exact Goes.of_all fun k hk => Claim0.goes h hd hp ⟨hk.assign, hk.post⟩ hk.suffix
  · split at h
    · next hl =>
      intro f rest pre post hf
      obtain ⟨n, _, hn⟩ := h d p f rest pre post hd hp (hf.mono (by omega))
      have := hn _ _ _ _ (Tr.check_stop (by rw [← checks_bin ⟨hl.1, by omega⟩]; exact hf.ops l (Nat.le_refl _)))
      rw [ntOf_bin ⟨hl.1, by omega⟩]
      have e : d + off l + 1 + n + leak - (n + 1) = d + off l + leak := by omega
      rw [e] at this
      exact this
    · exact h d p hd hp

theorem Claim.up {l : Nat} {ts : List Token} {c : List UInt8} {leak D N N' : Nat} (h : Claim E src start l ts c leak D N)
    (hD : D ≤ 502) (hl : l < 14) : Claim E src start (l + 1) ts c leak D N' := by
  refine ⟨h.1.mono (by omega), ?_⟩
  rw [if_neg (by omega)]
  split
  · next hb =>
    intro d p f rest pre post hd hp hf
    refine ⟨0, Nat.zero_le _, fun X rest' p' pre' hck => ?_⟩
    have hg := h.goes hd hp f rest pre post hf
    refine Tr.call ?_
    have hnt : ntOf l = (if l + 1 - 3 = 0 then .unary else .binop (l + 1 - 3 - 1) EOF) := by
      split
      · next e => obtain rfl : l = 2 := by omega
                  rfl
      · exact ntOf_bin (by omega)
    have e := off_bin (l := l + 1) (by omega)
    rw [hnt] at hg
    refine Tr.ltrBinop (f1 := fun n => parse E src n (if l + 1 - 3 = 0 then .unary else .binop (l + 1 - 3 - 1) EOF))
      (f2 := fun n op => parse E src n (.binop (l + 1 - 3) op)) (prev := EOF) (X := X) ?_ ?_
      (Tr.when_false (by decide)) hck
    · simp only [off]; omega
    · have e1 : d + off (l + 1) + 1 = d + off l := by rw [Nat.add_assoc, e]; rfl
      rw [e1]
      exact hg
  · intro d p hd hp
    have hg := h.goes hd hp
    refine Goes.of_all fun k hk => ?_
    refine Goes.up (by omega) h.1 (ok := (· = k)) ?_ hl ?_
    · rintro f rest pre post rfl
      exact hg f rest pre post (hk.mono (by omega))
    · rintro _ rfl
      exact hk.ops _ (Nat.le_refl _)

theorem Claim.lift {l l' : Nat} {ts : List Token} {c : List UInt8} {leak D N : Nat} (h : Claim E src start l ts c leak D N)
    (hD : D ≤ 502) (hl : l ≤ l') (hl' : l' ≤ 14) : Claim E src start l' ts c leak D N := by
  induction l' with
  | zero => obtain rfl : l = 0 := by omega
            exact h
  | succ l' ih =>
    rcases Nat.lt_or_ge l (l' + 1) with hlt | hge
    · exact (ih (by omega) (by omega)).up hD (by omega)
    · obtain rfl : l = l' + 1 := by omega
      exact h

end
end Mjs.Parse
