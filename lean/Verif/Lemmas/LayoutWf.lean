import Verif.Lemmas.Layout

/-! The code of a script with its layout is in place. -/

namespace Mjs.Code
open Mjs Mjs.Core Mjs.Exec Mjs.Sem
open Mjs.Tok (Low)

/-! ## Code with its addresses is in place -/

/-- The code of the function at an address is there. -/
def Entry (F : Nat → Option Fn) (bp : Part) (p : Nat × Fn) : Prop :=
  ∃ pc, p.1 = bp.startIdx + pc ∧ 1 ≤ pc ∧ Placed bp pc (codeFun p.2.params p.2.body) ∧
    WfSs F bp (pc + 1 + (codeParams 0 p.2.params).length) p.2.body

theorem drop_at {α : Type} {l u v w : List α} {pc pc' : Nat} (h : l.drop pc = w) (hw : w = u ++ v) (hp : pc' = pc + u.length) :
    l.drop pc' = v := by
  rw [hp, ← List.drop_drop, h, hw, List.drop_left]

theorem both {α : Type} {P : α → Prop} {W W' : Prop} {l l' : List α} (h : W ∧ ∀ p ∈ l, P p) (h' : W' ∧ ∀ p ∈ l', P p) :
    (W ∧ W') ∧ ∀ p ∈ l ++ l', P p :=
  ⟨⟨h.1, h'.1⟩, fun p hp => (List.mem_append.1 hp).elim (h.2 p) (h'.2 p)⟩

theorem fl {α : Type} {P : α → Prop} {l l' : List α} (h : ∀ p ∈ l ++ l', P p) : ∀ p ∈ l, P p :=
  fun p hp => h p (List.mem_append.2 (.inl hp))

theorem fr {α : Type} {P : α → Prop} {l l' : List α} (h : ∀ p ∈ l ++ l', P p) : ∀ p ∈ l', P p :=
  fun p hp => h p (List.mem_append.2 (.inr hp))

/-- Part of the code, after `u`. -/
macro "at_sub" h:term:max u:term:max : term => `(drop_at $h (u := $u) (by simp only [code, codeL, codes, codeItems,
  codeProps, codeMore, codeLet, codeLets, codeS, codeSs, codeRest, codeFun, List.append_assoc, List.cons_append, List.nil_append]) (by lenarith))

macro "nofuns" : term => `(⟨trivial, fun _ h => absurd h List.not_mem_nil⟩)

section
variable {F : Nat → Option Fn} {bp : Part}

mutual
theorem lay_E : ∀ (e : Expr) {a pc : Nat} {r : List UInt8}, a = bp.startIdx + pc → bp.data.drop pc = code e ++ r → Low r → NumE e →
    (∀ p ∈ funsE (layoutE a e), F p.1 = some p.2) → WfE F bp pc (layoutE a e) ∧ ∀ p ∈ funsE (layoutE a e), Entry F bp p
  | .get l, a, pc, r, ha, hd, hr, hn, hF => by
    simp only [layoutE, funsE, WfE] at hF ⊢
    exact lay_L l (r := GET :: r) ha (at_sub hd []) (low_cons (by decide)) hn hF
  | .obj ps, a, pc, r, ha, hd, hr, hn, hF => by
    simp only [layoutE, funsE, WfE] at hF ⊢
    exact lay_Props ps (r := r) (by omega) (at_sub hd [PUSH_OBJ]) hr hn hF
  | .arr es, a, pc, r, ha, hd, hr, hn, hF => by
    simp only [layoutE, funsE, WfE] at hF ⊢
    exact lay_Items es (r := r) (by omega) (at_sub hd [PUSH_ARRAY]) hr hn hF
  | .func _ none ps body, a, pc, r, ha, hd, hr, hn, hF => by
    simp only [layoutE, funsE, WfE, litPos, List.forall_mem_cons, code_layoutSs, codeFun] at hF ⊢
    have h := lay_Ss body (a := a + 1 + (vint (codeFun ps body).length).length + 1 + (codeParams 0 ps).length)
      (pc := pc + 1 + (vint (codeFun ps body).length).length + 1 + (codeParams 0 ps).length)
      (r := RETURN :: PUSH_FUNC :: vint (codeFun ps body).length ++ r) (by omega)
      (at_sub hd (JMP :: vint (codeFun ps body).length ++ NEW_SCOPE :: codeParams 0 ps)) (low_cons (by decide)) hn hF.2
    refine ⟨⟨by omega, hF.1⟩, ⟨_, ?_, ?_, ⟨PUSH_FUNC :: vint (codeFun ps body).length ++ r, ?_⟩, h.1⟩, h.2⟩
    · simp only [codeFun]; omega
    · omega
    · simp only [codeFun, code_layoutSs]
      exact drop_at hd (u := JMP :: vint (codeFun ps body).length) (by simp [code, codeFun]) (by lenarith)
  | .func _ (some x) ps body, a, pc, r, ha, hd, hr, hn, hF => by
    simp only [layoutE, funsE, WfE, litPos, List.forall_mem_cons, code_layoutSs, codeFun] at hF ⊢
    have h := lay_Ss body (a := a + (create x).length + (pushStr x).length + 1 + 1 + (vint (codeFun ps body).length).length + 1 + (codeParams 0 ps).length)
      (pc := pc + (create x).length + (pushStr x).length + 1 + 1 + (vint (codeFun ps body).length).length + 1 + (codeParams 0 ps).length)
      (r := RETURN :: PUSH_FUNC :: vint (codeFun ps body).length ++ [EXPR, 5] ++ r) (by omega)
      (at_sub hd (create x ++ pushStr x ++ FIND_SCOPE :: JMP :: vint (codeFun ps body).length ++ NEW_SCOPE :: codeParams 0 ps))
      (low_cons (by decide)) hn hF.2
    refine ⟨⟨by omega, hF.1⟩, ⟨_, ?_, ?_, ⟨PUSH_FUNC :: vint (codeFun ps body).length ++ [EXPR, 5] ++ r, ?_⟩, h.1⟩, h.2⟩
    · simp only [codeFun]; omega
    · omega
    · simp only [codeFun, code_layoutSs]
      exact drop_at hd (u := create x ++ pushStr x ++ FIND_SCOPE :: JMP :: vint (codeFun ps body).length) (by simp [code, codeFun]) (by lenarith)
  | .call f args, a, pc, r, ha, hd, hr, hn, hF => by
    simp only [layoutE, funsE, WfE, code_layoutE] at hF ⊢
    exact both (lay_E f (r := ARGS :: codes args ++ CALL :: r) ha (at_sub hd []) (low_cons (by decide)) hn.1 (fl hF))
      (lay_Args args (r := CALL :: r) (by omega) (at_sub hd (code f ++ [ARGS])) (low_cons (by decide)) hn.2 (fr hF))
  | .un op e, a, pc, r, ha, hd, hr, hn, hF => by
    simp only [layoutE, funsE, WfE] at hF ⊢
    exact lay_E e (r := EXPR :: op.tok :: r) ha (at_sub hd []) (low_cons (by decide)) hn hF
  | .incr post plus l, a, pc, r, ha, hd, hr, hn, hF => by
    simp only [layoutE, funsE, WfE] at hF ⊢
    exact lay_L l (r := EXPR :: incrTok post plus :: r) ha (at_sub hd []) (low_cons (by decide)) hn hF
  | .bin op x y, a, pc, r, ha, hd, hr, hn, hF => by
    simp only [layoutE, funsE, WfE, code_layoutE] at hF ⊢
    exact both (lay_E x (r := code y ++ EXPR :: op.tok :: r) ha (at_sub hd []) (low_E _ _) hn.1 (fl hF))
      (lay_E y (r := EXPR :: op.tok :: r) (by omega) (at_sub hd (code x)) (low_cons (by decide)) hn.2 (fr hF))
  | .and x y, a, pc, r, ha, hd, hr, hn, hF => by
    simp only [layoutE, funsE, WfE, code_layoutE] at hF ⊢
    exact both (lay_E x (r := JMP_NEUTRAL_FALSE :: vint (DROP :: code y).length ++ DROP :: code y ++ r) ha (at_sub hd [])
        (low_cons (by decide)) hn.1 (fl hF))
      (lay_E y (r := r) (by omega) (at_sub hd (code x ++ JMP_NEUTRAL_FALSE :: vint (DROP :: code y).length ++ [DROP])) hr hn.2 (fr hF))
  | .or x y, a, pc, r, ha, hd, hr, hn, hF => by
    simp only [layoutE, funsE, WfE, code_layoutE] at hF ⊢
    exact both (lay_E x (r := JMP_NEUTRAL_TRUE :: vint (DROP :: code y).length ++ DROP :: code y ++ r) ha (at_sub hd [])
        (low_cons (by decide)) hn.1 (fl hF))
      (lay_E y (r := r) (by omega) (at_sub hd (code x ++ JMP_NEUTRAL_TRUE :: vint (DROP :: code y).length ++ [DROP])) hr hn.2 (fr hF))
  | .cond c x y, a, pc, r, ha, hd, hr, hn, hF => by
    simp only [layoutE, funsE, WfE, code_layoutE, List.append_assoc] at hF ⊢
    exact both (lay_E c (r := JMP_FALSE :: vint (code x ++ JMP :: vint (DROP :: code y).length).length ++ code x ++
          JMP :: vint (DROP :: code y).length ++ DROP :: code y ++ r) ha (at_sub hd []) (low_cons (by decide)) hn.1 (fl hF))
      (both (lay_E x (r := JMP :: vint (DROP :: code y).length ++ DROP :: code y ++ r) (by omega)
          (at_sub hd (code c ++ JMP_FALSE :: vint (code x ++ JMP :: vint (DROP :: code y).length).length)) (low_cons (by decide)) hn.2.1 (fl (fr hF)))
        (lay_E y (r := r) (by omega)
          (at_sub hd (code c ++ JMP_FALSE :: vint (code x ++ JMP :: vint (DROP :: code y).length).length ++ code x ++
            JMP :: vint (DROP :: code y).length ++ [DROP])) hr hn.2.2 (fr (fr hF))))
  | .assign op l e, a, pc, r, ha, hd, hr, hn, hF => by
    simp only [layoutE, funsE, WfE, code_layoutL] at hF ⊢
    exact both (lay_L l (r := code e ++ EXPR :: assignTok op :: r) ha (at_sub hd []) (low_E _ _) hn.1 (fl hF))
      (lay_E e (r := EXPR :: assignTok op :: r) (by omega) (at_sub hd (codeL l)) (low_cons (by decide)) hn.2 (fr hF))
  | .int n, a, pc, r, ha, hd, hr, hn, hF => ⟨hn, fun _ h => absurd h List.not_mem_nil⟩
  | .dbl t, a, pc, r, ha, hd, hr, hn, hF => by
    refine ⟨?_, fun _ h => absurd h List.not_mem_nil⟩
    have : bp.data.drop (pc + 1 + (vint t.length).length) = t ++ r :=
      drop_at hd (u := PUSH_DBL :: vint t.length) (by simp [code, strB]) (by lenarith)
    show Tok.strtodLen _ = _
    rw [this, Tok.strtodLen_low t hr]
    exact hn
  | .str s, a, pc, r, ha, hd, hr, hn, hF => nofuns
  | .tru, a, pc, r, ha, hd, hr, hn, hF => nofuns
  | .fls, a, pc, r, ha, hd, hr, hn, hF => nofuns
  | .null, a, pc, r, ha, hd, hr, hn, hF => nofuns
  | .undef, a, pc, r, ha, hd, hr, hn, hF => nofuns
  | .this, a, pc, r, ha, hd, hr, hn, hF => nofuns
theorem lay_L : ∀ (l : Lval) {a pc : Nat} {r : List UInt8}, a = bp.startIdx + pc → bp.data.drop pc = codeL l ++ r → Low r → NumL l →
    (∀ p ∈ funsL (layoutL a l), F p.1 = some p.2) → WfL F bp pc (layoutL a l) ∧ ∀ p ∈ funsL (layoutL a l), Entry F bp p
  | .var x, a, pc, r, ha, hd, hr, hn, hF => nofuns
  | .dot e x, a, pc, r, ha, hd, hr, hn, hF => by
    simp only [layoutL, funsL, WfL] at hF ⊢
    exact lay_E e (r := pushStr x ++ SWAP :: r) ha (at_sub hd []) (low_pushStr _ _) hn hF
  | .index e k, a, pc, r, ha, hd, hr, hn, hF => by
    simp only [layoutL, funsL, WfL, code_layoutE] at hF ⊢
    exact both (lay_E e (r := code k ++ SWAP :: r) ha (at_sub hd []) (low_E _ _) hn.1 (fl hF))
      (lay_E k (r := SWAP :: r) (by omega) (at_sub hd (code e)) (low_cons (by decide)) hn.2 (fr hF))
theorem lay_Args : ∀ (es : List Expr) {a pc : Nat} {r : List UInt8}, a = bp.startIdx + pc → bp.data.drop pc = codes es ++ r → Low r → NumEs es →
    (∀ p ∈ funsEs (layoutArgs a es), F p.1 = some p.2) → WfArgs F bp pc (layoutArgs a es) ∧ ∀ p ∈ funsEs (layoutArgs a es), Entry F bp p
  | [], a, pc, r, ha, hd, hr, hn, hF => nofuns
  | e :: es, a, pc, r, ha, hd, hr, hn, hF => by
    simp only [layoutArgs, funsEs, WfArgs, code_layoutE] at hF ⊢
    exact both (lay_E e (r := codes es ++ r) ha (at_sub hd []) (low_Args _ hr) hn.1 (fl hF))
      (lay_Args es (r := r) (by omega) (at_sub hd (code e)) hr hn.2 (fr hF))
theorem lay_Items : ∀ (es : List Expr) {a pc : Nat} {r : List UInt8}, a = bp.startIdx + pc → bp.data.drop pc = codeItems es ++ r → Low r → NumEs es →
    (∀ p ∈ funsEs (layoutItems a es), F p.1 = some p.2) → WfItems F bp pc (layoutItems a es) ∧ ∀ p ∈ funsEs (layoutItems a es), Entry F bp p
  | [], a, pc, r, ha, hd, hr, hn, hF => nofuns
  | e :: es, a, pc, r, ha, hd, hr, hn, hF => by
    simp only [layoutItems, funsEs, WfItems, code_layoutE] at hF ⊢
    exact both (lay_E e (r := APPEND :: codeItems es ++ r) (by omega) (at_sub hd [DUP]) (low_cons (by decide)) hn.1 (fl hF))
      (lay_Items es (r := r) (by omega) (at_sub hd (DUP :: code e ++ [APPEND])) hr hn.2 (fr hF))
theorem lay_Props : ∀ (es : List (Name × Expr)) {a pc : Nat} {r : List UInt8}, a = bp.startIdx + pc → bp.data.drop pc = codeProps es ++ r → Low r → NumProps es →
    (∀ p ∈ funsProps (layoutProps a es), F p.1 = some p.2) → WfProps F bp pc (layoutProps a es) ∧ ∀ p ∈ funsProps (layoutProps a es), Entry F bp p
  | [], a, pc, r, ha, hd, hr, hn, hF => nofuns
  | (k, e) :: ps, a, pc, r, ha, hd, hr, hn, hF => by
    simp only [layoutProps, funsProps, WfProps, code_layoutE] at hF ⊢
    exact both (lay_E e (r := EXPR :: 5 :: DROP :: codeProps ps ++ r) (by omega) (at_sub hd (DUP :: pushStr k ++ [SWAP])) (low_cons (by decide)) hn.1 (fl hF))
      (lay_Props ps (r := r) (by omega) (at_sub hd (DUP :: pushStr k ++ [SWAP] ++ code e ++ [EXPR, 5, DROP])) hr hn.2 (fr hF))
theorem lay_More : ∀ (es : List Expr) {a pc : Nat} {r : List UInt8}, a = bp.startIdx + pc → bp.data.drop pc = codeMore es ++ r → Low r → NumEs es →
    (∀ p ∈ funsEs (layoutMore a es), F p.1 = some p.2) → WfMore F bp pc (layoutMore a es) ∧ ∀ p ∈ funsEs (layoutMore a es), Entry F bp p
  | [], a, pc, r, ha, hd, hr, hn, hF => nofuns
  | e :: es, a, pc, r, ha, hd, hr, hn, hF => by
    simp only [layoutMore, funsEs, WfMore, code_layoutE] at hF ⊢
    exact both (lay_E e (r := codeMore es ++ r) (by omega) (at_sub hd [DROP]) (low_More _ hr) hn.1 (fl hF))
      (lay_More es (r := r) (by omega) (at_sub hd (DROP :: code e)) hr hn.2 (fr hF))
theorem lay_Let (x : Name) : ∀ (i : Option Expr) {a pc : Nat} {r : List UInt8}, a = bp.startIdx + pc → bp.data.drop pc = codeLet x i ++ r → Low r → NumO i →
    (∀ p ∈ funsO (layoutLet a x i), F p.1 = some p.2) → WfLet F bp pc x (layoutLet a x i) ∧ ∀ p ∈ funsO (layoutLet a x i), Entry F bp p
  | none, a, pc, r, ha, hd, hr, hn, hF => nofuns
  | some e, a, pc, r, ha, hd, hr, hn, hF => by
    simp only [layoutLet, funsO, WfLet] at hF ⊢
    exact lay_E e (r := EXPR :: 5 :: r) (by omega) (at_sub hd (create x ++ pushStr x ++ [FIND_SCOPE])) (low_cons (by decide)) hn hF
theorem lay_Lets : ∀ (ds : List (Name × Option Expr)) {a pc : Nat} {r : List UInt8}, a = bp.startIdx + pc → bp.data.drop pc = codeLets ds ++ r → Low r → NumLets ds →
    (∀ p ∈ funsLets (layoutLets a ds), F p.1 = some p.2) → WfLets F bp pc (layoutLets a ds) ∧ ∀ p ∈ funsLets (layoutLets a ds), Entry F bp p
  | [], a, pc, r, ha, hd, hr, hn, hF => nofuns
  | (x, i) :: ds, a, pc, r, ha, hd, hr, hn, hF => by
    simp only [layoutLets, funsLets, WfLets, code_layoutLet] at hF ⊢
    exact both (lay_Let x i (r := codeLets ds ++ r) (by omega) (at_sub hd [DROP]) (low_Lets _ hr) hn.1 (fl hF))
      (lay_Lets ds (r := r) (by omega) (at_sub hd (DROP :: codeLet x i)) hr hn.2 (fr hF))
theorem lay_S : ∀ (s : Stmt) {a pc : Nat} {r : List UInt8}, a = bp.startIdx + pc → bp.data.drop pc = codeS s ++ r → Low r → NumS s →
    (∀ p ∈ funsS (layoutS a s), F p.1 = some p.2) → WfS F bp pc (layoutS a s) ∧ ∀ p ∈ funsS (layoutS a s), Entry F bp p
  | .empty, a, pc, r, ha, hd, hr, hn, hF => nofuns
  | .exprs e es, a, pc, r, ha, hd, hr, hn, hF => by
    simp only [layoutS, funsS, WfS, code_layoutE] at hF ⊢
    exact both (lay_E e (r := codeMore es ++ r) ha (at_sub hd []) (low_More _ hr) hn.1 (fl hF))
      (lay_More es (r := r) (by omega) (at_sub hd (code e)) hr hn.2 (fr hF))
  | .lets x i ds, a, pc, r, ha, hd, hr, hn, hF => by
    simp only [layoutS, funsS, WfS, code_layoutLet] at hF ⊢
    exact both (lay_Let x i (r := codeLets ds ++ r) ha (at_sub hd []) (low_Lets _ hr) hn.1 (fl hF))
      (lay_Lets ds (r := r) (by omega) (at_sub hd (codeLet x i)) hr hn.2 (fr hF))
  | .block ss, a, pc, r, ha, hd, hr, hn, hF => by
    simp only [layoutS, funsS, WfS] at hF ⊢
    exact lay_Ss ss (r := DEL_SCOPE :: r) (by omega) (at_sub hd [NEW_SCOPE]) (low_cons (by decide)) hn hF
  | .ite c s, a, pc, r, ha, hd, hr, hn, hF => by
    simp only [layoutS, funsS, WfS, code_layoutE, code_layoutS] at hF ⊢
    exact both (lay_E c (r := JMP_FALSE :: vint (codeS s).length ++ codeS s ++ r) ha (at_sub hd []) (low_cons (by decide)) hn.1 (fl hF))
      (lay_S s (r := r) (by omega) (at_sub hd (code c ++ JMP_FALSE :: vint (codeS s).length)) hr hn.2 (fr hF))
  | .itee c s t, a, pc, r, ha, hd, hr, hn, hF => by
    simp only [layoutS, funsS, WfS, code_layoutE, code_layoutS, List.append_assoc] at hF ⊢
    exact both (lay_E c (r := JMP_FALSE :: vint (codeS s ++ JMP :: vint (DROP :: codeS t).length).length ++ codeS s ++
          JMP :: vint (DROP :: codeS t).length ++ DROP :: codeS t ++ r) ha (at_sub hd []) (low_cons (by decide)) hn.1 (fl hF))
      (both (lay_S s (r := JMP :: vint (DROP :: codeS t).length ++ DROP :: codeS t ++ r) (by omega)
          (at_sub hd (code c ++ JMP_FALSE :: vint (codeS s ++ JMP :: vint (DROP :: codeS t).length).length)) (low_cons (by decide)) hn.2.1 (fl (fr hF)))
        (lay_S t (r := r) (by omega)
          (at_sub hd (code c ++ JMP_FALSE :: vint (codeS s ++ JMP :: vint (DROP :: codeS t).length).length ++ codeS s ++
            JMP :: vint (DROP :: codeS t).length ++ [DROP])) hr hn.2.2 (fr (fr hF))))
  | .while c body, a, pc, r, ha, hd, hr, hn, hF => by
    simp only [layoutS, funsS, WfS, code_layoutE, code_layoutSs] at hF ⊢
    have hd' : bp.data.drop pc = NEW_SCOPE :: LOOP :: (vint ((0 : UInt8) :: code c ++ JMP_FALSE ::
        vint (codeSs body ++ [DROP, CONTINUE]).length ++ (codeSs body ++ [DROP, CONTINUE]) ++ [BREAK]).length ++
        0 :: (code c ++ JMP_FALSE :: (vint (codeSs body ++ [DROP, CONTINUE]).length ++
          (codeSs body ++ DROP :: CONTINUE :: BREAK :: DEL_SCOPE :: r)))) := by
      rw [hd]; simp only [codeS, List.append_assoc, List.cons_append, List.nil_append]
    generalize vint ((0 : UInt8) :: code c ++ JMP_FALSE ::
        vint (codeSs body ++ [DROP, CONTINUE]).length ++ (codeSs body ++ [DROP, CONTINUE]) ++ [BREAK]).length = x at *
    generalize vint (codeSs body ++ [DROP, CONTINUE]).length = y at *
    exact both (lay_E c (r := JMP_FALSE :: y ++ codeSs body ++ DROP :: CONTINUE :: BREAK :: DEL_SCOPE :: r) (by omega)
        (at_sub hd' (NEW_SCOPE :: LOOP :: x ++ [0])) (low_cons (by decide)) hn.1 (fl hF))
      (lay_Ss body (r := DROP :: CONTINUE :: BREAK :: DEL_SCOPE :: r) (by omega)
        (at_sub hd' (NEW_SCOPE :: LOOP :: x ++ [0] ++ code c ++ JMP_FALSE :: y)) (low_cons (by decide)) hn.2 (fr hF))
  | .for init c inc body, a, pc, r, ha, hd, hr, hn, hF => by
    simp only [layoutS, funsS, WfS, code_layoutE, code_layoutS, code_layoutSs, List.append_assoc, List.length_append,
      List.length_cons, List.length_nil] at hF ⊢
    simp only [codeS, List.append_assoc, List.length_append, List.length_cons, List.length_nil] at hd
    generalize vint ((codeSs body).length + (0 + 1 + 1)) = y at *
    generalize vint ((code inc).length + (0 + 1)) = z at *
    generalize vint ((codeS init).length + (z.length + 1 + 1)) = w at *
    generalize vint (w.length + ((codeS init).length + (z.length + 1 + 1 + ((code inc).length +
      (0 + 1 + ((code c).length + (y.length + 1 + ((codeSs body).length + (0 + 1 + 1 + (0 + 1)))))))))) = x at *
    simp only [List.cons_append, List.nil_append] at hd
    exact both (lay_S init (r := DROP :: JMP :: z ++ code inc ++ DROP :: code c ++ JMP_FALSE :: y ++ codeSs body ++
          DROP :: CONTINUE :: BREAK :: DEL_SCOPE :: r) (by omega) (at_sub hd (NEW_SCOPE :: LOOP :: x ++ w)) (low_cons (by decide)) hn.1 (fl hF))
      (both (lay_E inc (r := DROP :: code c ++ JMP_FALSE :: y ++ codeSs body ++ DROP :: CONTINUE :: BREAK :: DEL_SCOPE :: r) (by omega)
          (at_sub hd (NEW_SCOPE :: LOOP :: x ++ w ++ codeS init ++ DROP :: JMP :: z)) (low_cons (by decide)) hn.2.2.1 (fl (fr hF)))
        (both (lay_E c (r := JMP_FALSE :: y ++ codeSs body ++ DROP :: CONTINUE :: BREAK :: DEL_SCOPE :: r) (by omega)
            (at_sub hd (NEW_SCOPE :: LOOP :: x ++ w ++ codeS init ++ DROP :: JMP :: z ++ code inc ++ [DROP])) (low_cons (by decide)) hn.2.1
            (fl (fr (fr hF))))
          (lay_Ss body (r := DROP :: CONTINUE :: BREAK :: DEL_SCOPE :: r) (by omega)
            (at_sub hd (NEW_SCOPE :: LOOP :: x ++ w ++ codeS init ++ DROP :: JMP :: z ++ code inc ++ DROP :: code c ++ JMP_FALSE :: y))
            (low_cons (by decide)) hn.2.2.2 (fr (fr (fr hF))))))
  | .forIn isLet x e body, a, pc, r, ha, hd, hr, hn, hF => by
    simp only [layoutS, funsS, WfS, code_layoutE, code_layoutSs] at hF ⊢
    generalize hq : (if isLet = true then create x else []) = q at *
    have hd' : bp.data.drop pc = NEW_SCOPE :: (q ++ (pushStr x ++ (code e ++ PUSH_UNDEF :: LOOP :: (vint ((0 : UInt8) :: FOR_IN_NEXT :: DUP :: JMP_FALSE ::
        vint (codeSs body ++ [DROP, CONTINUE]).length ++ (codeSs body ++ [DROP, CONTINUE]) ++ [BREAK]).length ++
        0 :: FOR_IN_NEXT :: DUP :: JMP_FALSE :: (vint (codeSs body ++ [DROP, CONTINUE]).length ++
          (codeSs body ++ DROP :: CONTINUE :: BREAK :: DROP :: DROP :: DROP :: DEL_SCOPE :: r)))))) := by
      rw [hd]; simp only [codeS, hq, List.append_assoc, List.cons_append, List.nil_append]
    generalize vint ((0 : UInt8) :: FOR_IN_NEXT :: DUP :: JMP_FALSE ::
        vint (codeSs body ++ [DROP, CONTINUE]).length ++ (codeSs body ++ [DROP, CONTINUE]) ++ [BREAK]).length = z at *
    generalize vint (codeSs body ++ [DROP, CONTINUE]).length = y at *
    exact both (lay_E e (r := PUSH_UNDEF :: LOOP :: z ++ 0 :: FOR_IN_NEXT :: DUP :: JMP_FALSE :: y ++
          codeSs body ++ DROP :: CONTINUE :: BREAK :: DROP :: DROP :: DROP :: DEL_SCOPE :: r) (by omega)
        (at_sub hd' (NEW_SCOPE :: q ++ pushStr x)) (low_cons (by decide)) hn.1 (fl hF))
      (lay_Ss body (r := DROP :: CONTINUE :: BREAK :: DROP :: DROP :: DROP :: DEL_SCOPE :: r) (by omega)
        (at_sub hd' (NEW_SCOPE :: q ++ pushStr x ++ code e ++ PUSH_UNDEF :: LOOP :: z ++ 0 :: FOR_IN_NEXT :: DUP :: JMP_FALSE :: y))
        (low_cons (by decide)) hn.2 (fr hF))
  | .break, a, pc, r, ha, hd, hr, hn, hF => nofuns
  | .continue, a, pc, r, ha, hd, hr, hn, hF => nofuns
  | .ret none, a, pc, r, ha, hd, hr, hn, hF => nofuns
  | .ret (some e), a, pc, r, ha, hd, hr, hn, hF => by
    simp only [layoutS, funsS, funsO, WfS] at hF ⊢
    exact lay_E e (r := SETRETVAL :: RETURN :: r) ha (at_sub hd []) (low_cons (by decide)) hn hF
theorem lay_Ss : ∀ (ss : List Stmt) {a pc : Nat} {r : List UInt8}, a = bp.startIdx + pc → bp.data.drop pc = codeSs ss ++ r → Low r → NumSs ss →
    (∀ p ∈ funsSs (layoutSs a ss), F p.1 = some p.2) → WfSs F bp pc (layoutSs a ss) ∧ ∀ p ∈ funsSs (layoutSs a ss), Entry F bp p
  | [], a, pc, r, ha, hd, hr, hn, hF => nofuns
  | s :: ss, a, pc, r, ha, hd, hr, hn, hF => by
    simp only [layoutSs, funsSs, WfSs, code_layoutS] at hF ⊢
    exact both (lay_S s (r := codeRest ss ++ r) ha (at_sub hd []) (low_Rest _ hr) hn.1 (fl hF))
      (lay_Rest ss (r := r) (by omega) (at_sub hd (codeS s)) hr hn.2 (fr hF))
theorem lay_Rest : ∀ (ss : List Stmt) {a pc : Nat} {r : List UInt8}, a = bp.startIdx + pc → bp.data.drop pc = codeRest ss ++ r → Low r → NumSs ss →
    (∀ p ∈ funsSs (layoutRest a ss), F p.1 = some p.2) → WfRest F bp pc (layoutRest a ss) ∧ ∀ p ∈ funsSs (layoutRest a ss), Entry F bp p
  | [], a, pc, r, ha, hd, hr, hn, hF => nofuns
  | s :: ss, a, pc, r, ha, hd, hr, hn, hF => by
    simp only [layoutRest, funsSs, WfRest, code_layoutS] at hF ⊢
    exact both (lay_S s (r := codeRest ss ++ r) (by omega) (at_sub hd [DROP]) (low_Rest _ hr) hn.1 (fl hF))
      (lay_Rest ss (r := r) (by omega) (at_sub hd (DROP :: codeS s)) hr hn.2 (fr hF))
end
end

end Mjs.Code
