import Verif.Lemmas.ParseScript
import Verif.Lemmas.Lex
import Verif.Lemmas.ParseMono
import Verif.Spec.Grouping
import Verif.Props.Bcode

/-!
# C31, C34, C61: from source text to code and to what it does

`Tokens` says what the tokens of a source text are, `WriteSs` which token sequences write which scripts (Spec/Grammar.lean).
`parseScript` and `exec` are the models of `mjs_parse` and `mjs_exec`; their argument `d` is how many nested C calls there is
room for.
-/

namespace Mjs.Props
open Mjs Mjs.Str Mjs.Obj Mjs.Core Mjs.Code Mjs.Sem Mjs.Exec Mjs.Tok Mjs.Grammar Mjs.Parse Mjs.Parser

/-- **C61, parsing.** A source text that writes the statements `ss` compiles, with enough C stack, to the code of `ss`. -/
theorem C61_parse {E : Env} {src path : List UInt8} {ts : List Token} {ss : List Stmt} (h0 : (0 : UInt8) ∉ src)
    (ht : Tokens E src ts) (hw : WriteSs 0 EOF ss ts) :
    ∃ map d0, ∀ d, d0 ≤ d → parseScript E d path src = .code (Script.bytes ⟨path, ss, map⟩) := parse_ok h0 ht hw

/-- What the script of a text is when it is loaded into the engine `vm`. -/
def load (vm : Vm) (s : Script) : Vm := Bcode.commit { vm with error := .ok } s.bytes

theorem partsFrom_length : ∀ (ss : List Script) (ps : List Part) (a : Nat), PartsFrom a ss ps → ps.length = ss.length
  | [], [], _, _ => rfl
  | [], _ :: _, _, h => h.elim
  | _ :: _, [], _, h => h.elim
  | _ :: ss, _ :: ps, _, h => by simp [partsFrom_length ss ps _ h.2.2]

theorem loaded_ok {vm : Vm} {ss : List Script} (h : Loaded vm ss) : Loaded { vm with error := .ok } ss :=
  ⟨h.parts, h.len, h.small, h.nums⟩

/-- **C61, the script is loaded.** Compiling makes the script the last of the program, and running starts there. -/
theorem C61_load {E : Env} {vm : Vm} {ss : List Script} {src path : List UInt8} {ts : List Token} {body : List Stmt}
    (h0 : (0 : UInt8) ∉ src) (ht : Tokens E src ts) (hw : WriteSs 0 EOF body ts) (hl : Loaded vm ss) :
    ∃ s d0, s.path = path ∧ s.body = body ∧ (∀ d, d0 ≤ d → parseScript E d path src = .code s.bytes) ∧ (vm.bcodeLen + s.bytes.length < 2 ^ 31 - 1 →
      Loaded (load vm s) (ss ++ [s]) ∧ IsScript (load vm s) (ss ++ [s]) ss.length ⟨vm.bcodeLen, s.bytes, none⟩ s ∧
      ∀ d, d0 ≤ d → exec E d vm path src = execute E (load vm s) vm.bcodeLen) := by
  obtain ⟨map, d0, hp⟩ := parse_ok (path := path) h0 ht hw
  refine ⟨⟨path, body, map⟩, d0, rfl, rfl, hp, fun hb => ?_⟩
  have hn : NumSs body := by
    obtain ⟨st, _, hr⟩ := ht
    exact numSs body 0 EOF ts hw fun u hu => reads_numT hr u (List.mem_append_left _ hu)
  refine ⟨(C42_functions_stable (loaded_ok hl) hn hb).1, ⟨?_, by simp⟩, fun d hd => ?_⟩
  · have hlen : vm.parts.length = ss.length := partsFrom_length ss vm.parts 0 hl.parts
    show (vm.parts ++ [_])[ss.length]? = _
    rw [← hlen]; simp [Script.bytes]
  · unfold exec
    rw [hp d hd]
    rfl

/-- **C61, from text to value.** If the meaning of the text is a value, `mjs_exec` returns it. -/
theorem C61_exec_value {E : Env} [Natives E] {vm : Vm} {ss : List Script} {src path : List UInt8} {ts : List Token} {body : List Stmt} {d : Nat}
    (h0 : (0 : UInt8) ∉ src) (ht : Tokens E src ts) (hw : WriteSs 0 EOF body ts) (hl : Loaded vm ss) (hr : Room vm d) :
    ∃ s d0, s.path = path ∧ s.body = body ∧ (∀ d, d0 ≤ d → parseScript E d path src = .code s.bytes) ∧ (vm.bcodeLen + s.bytes.length < 2 ^ 31 - 1 →
      ∀ n vm' v, evalScript E (ss ++ [s]) n d ⟨vm.bcodeLen, s.bytes, none⟩ s (setErrorf (load vm s) .ok none) = some (.ok vm' (.normal v)) →
        ∃ vm2, (∀ frames, d0 ≤ frames → exec E frames vm path src = some (vm2, v)) ∧
          vm2.heap = vm'.heap ∧ vm2.error = .ok ∧ vm2.this = vm.this ∧ SameStacks vm2 vm ∧ SameCode vm2 (load vm s)) := by
  obtain ⟨s, d0, hs, hs', hp, h⟩ := C61_load (path := path) h0 ht hw hl
  refine ⟨s, d0, hs, hs', hp, fun hb n vm' v he => ?_⟩
  obtain ⟨h1, h2, h3⟩ := h hb
  obtain ⟨vm2, e1, e2, e3, e4, e5, e6⟩ := C35_script_value h1 (d := d) ⟨hr.stack, hr.callStack, hr.argStack, hr.loopAddrs, hr.scopes⟩ h2 he
  exact ⟨vm2, fun f hf => (h3 f hf).trans e1, e2, e3, e4, ⟨e5.stack, e5.callStack, e5.argStack, e5.scopes, e5.loopAddrs⟩, e6⟩

/-- **C61, from text to error.** If the meaning of the text is an error, `mjs_exec` returns that error and undefined. -/
theorem C61_exec_error {E : Env} [Natives E] {vm : Vm} {ss : List Script} {src path : List UInt8} {ts : List Token} {body : List Stmt} {d : Nat}
    (h0 : (0 : UInt8) ∉ src) (ht : Tokens E src ts) (hw : WriteSs 0 EOF body ts) (hl : Loaded vm ss) (hr : Room vm d) :
    ∃ s d0, s.path = path ∧ s.body = body ∧ (∀ d, d0 ≤ d → parseScript E d path src = .code s.bytes) ∧ (vm.bcodeLen + s.bytes.length < 2 ^ 31 - 1 →
      ∀ n vm', evalScript E (ss ++ [s]) n d ⟨vm.bcodeLen, s.bytes, none⟩ s (setErrorf (load vm s) .ok none) = some (.err vm') →
        ∃ vm2, (∀ frames, d0 ≤ frames → exec E frames vm path src = some (vm2, mkUndefined)) ∧
          vm2.heap = vm'.heap ∧ vm2.error = vm'.error ∧ vm2.msg = vm'.msg ∧ vm2.error ≠ .ok ∧
          SameStacks vm2 vm ∧ SameCode vm2 (load vm s)) := by
  obtain ⟨s, d0, hs, hs', hp, h⟩ := C61_load (path := path) h0 ht hw hl
  refine ⟨s, d0, hs, hs', hp, fun hb n vm' he => ?_⟩
  obtain ⟨h1, h2, h3⟩ := h hb
  obtain ⟨vm2, e1, e2, e3, e4, e5, e6, e7⟩ := C35_script_error h1 (d := d) ⟨hr.stack, hr.callStack, hr.argStack, hr.loopAddrs, hr.scopes⟩ h2 he
  exact ⟨vm2, fun f hf => (h3 f hf).trans e1, e2, e3, e4, e5, ⟨e6.stack, e6.callStack, e6.argStack, e6.scopes, e6.loopAddrs⟩, e7⟩

/-! ## C31: operators -/

/-- Whether `op`, to the right of `p`, is part of the right operand of `p`. -/
def under (op p : Oper) : Bool := match p with
  | .bin p => op.level < opLevel p
  | .and => op.level ≤ 11
  | .or => op.level ≤ 12

/-- The level the operands of an operator may have. -/
def leftMax : Oper → Nat
  | .bin op => opLevel op
  | .and => 10
  | .or => 11
def rightMax : Oper → Nat
  | .bin op => opLevel op - 1
  | .and => 11
  | .or => 12

/-- The tree of a sequence, by adding operators at the right. -/
def push (op : Oper) (o : Operand) : Tree → Tree
  | .leaf x => .node op (.leaf x) (.leaf o)
  | .node p l r => if under op p then .node p l (push op o r) else .node op (.node p l r) (.leaf o)

def group (t : Tree) : List (Oper × Operand) → Tree
  | [] => t
  | (op, o) :: rest => group (push op o t) rest

theorem opLevel_pos : ∀ op : BinOp, 3 ≤ opLevel op ∧ opLevel op ≤ 10
  | .add | .sub | .mul | .div | .rem | .shl | .shr | .ushr | .band | .bor | .bxor | .eq | .ne | .eqq | .nee | .lt | .le | .gt | .ge => by decide

theorem grouped_node (op : Oper) (l r : Tree) :
    (Tree.node op l r).Grouped ↔ l.Grouped ∧ r.Grouped ∧ l.Within (leftMax op) ∧ r.Within (rightMax op) := by
  cases op <;> rfl

theorem under_iff (op p : Oper) : under op p = true ↔ op.level ≤ rightMax p := by
  cases p with
  | bin p => have := opLevel_pos p; simp only [under, rightMax, decide_eq_true_eq]; omega
  | and => simp [under, rightMax]
  | or => simp [under, rightMax]

theorem over_iff (op p : Oper) : under op p = false ↔ p.level ≤ leftMax op := by
  rw [← Bool.not_eq_true, under_iff]
  cases p with
  | bin p =>
    have := opLevel_pos p
    cases op with
    | bin q => simp only [rightMax, leftMax, Oper.level]; omega
    | and => simp only [rightMax, leftMax, Oper.level]; omega
    | or => simp only [rightMax, leftMax, Oper.level]; omega
  | and =>
    cases op with
    | bin q => have := opLevel_pos q; simp only [rightMax, leftMax, Oper.level]; omega
    | and => simp [rightMax, leftMax, Oper.level]
    | or => simp [rightMax, leftMax, Oper.level]
  | or =>
    cases op with
    | bin q => have := opLevel_pos q; simp only [rightMax, leftMax, Oper.level]; omega
    | and => simp [rightMax, leftMax, Oper.level]
    | or => simp [rightMax, leftMax, Oper.level]

theorem max_le (op : Oper) : leftMax op ≤ op.level ∧ rightMax op ≤ op.level ∧ 2 ≤ leftMax op ∧ 2 ≤ rightMax op ∧ op.level ≤ 12 := by
  cases op with
  | bin op => have := opLevel_pos op; simp only [leftMax, rightMax, Oper.level]; omega
  | and => decide
  | or => decide

theorem push_first (op : Oper) (o : Operand) : ∀ t, (push op o t).first = t.first
  | .leaf x => rfl
  | .node p l r => by
    unfold push
    split <;> rfl

theorem push_rest (op : Oper) (o : Operand) : ∀ t, (push op o t).rest = t.rest ++ [(op, o)]
  | .leaf x => rfl
  | .node p l r => by
    unfold push
    split
    · simp only [Tree.rest, push_first, push_rest op o r, List.append_assoc, List.cons_append]
    · simp [Tree.rest, Tree.first]

theorem push_within {op : Oper} {o : Operand} {m : Nat} : ∀ {t : Tree}, t.Within m → op.level ≤ m → (push op o t).Within m
  | .leaf _, _, h => h
  | .node p l r, ht, h => by
    unfold push
    split
    · exact ht
    · exact h

theorem push_grouped {op : Oper} {o : Operand} : ∀ {t : Tree}, t.Grouped → (push op o t).Grouped
  | .leaf _, _ => (grouped_node ..).2 ⟨trivial, trivial, trivial, trivial⟩
  | .node p l r, h => by
    have h' := (grouped_node ..).1 h
    unfold push
    split
    · rename_i hlt
      exact (grouped_node ..).2 ⟨h'.1, push_grouped h'.2.1, h'.2.2.1, push_within h'.2.2.2 ((under_iff ..).1 hlt)⟩
    · rename_i hlt
      exact (grouped_node ..).2 ⟨h, trivial, (over_iff ..).1 (by simpa using hlt), trivial⟩

theorem group_spec : ∀ (rest : List (Oper × Operand)) (t : Tree), t.Grouped →
    (group t rest).Grouped ∧ (group t rest).first = t.first ∧ (group t rest).rest = t.rest ++ rest
  | [], t, h => ⟨h, rfl, by simp [group]⟩
  | (op, o) :: rest, t, h => by
    obtain ⟨h1, h2, h3⟩ := group_spec rest (push op o t) (push_grouped h)
    exact ⟨h1, h2.trans (push_first op o t), by rw [group, h3, push_rest]; simp⟩

theorem rest_below {m : Nat} : ∀ {t : Tree}, t.Grouped → t.Within m → ∀ x ∈ t.rest, x.1.level ≤ m
  | .leaf _, _, _, _, h => by cases h
  | .node op l r, hg, hw, x, hx => by
    have hg := (grouped_node ..).1 hg
    have hw : op.level ≤ m := hw
    have hm := max_le op
    simp only [Tree.rest, List.mem_append, List.mem_cons] at hx
    rcases hx with hx | rfl | hx
    · have := rest_below hg.1 hg.2.2.1 x hx
      omega
    · exact hw
    · have := rest_below hg.2.1 hg.2.2.2 x hx
      omega

theorem group_append (t : Tree) : ∀ (a b : List (Oper × Operand)), group t (a ++ b) = group (group t a) b
  | a, b => by
    induction a generalizing t with
    | nil => rfl
    | cons x a ih => exact ih _

theorem group_right {op : Oper} {l : Tree} : ∀ (rest : List (Oper × Operand)) (r : Tree), (∀ x ∈ rest, x.1.level ≤ rightMax op) →
    group (.node op l r) rest = .node op l (group r rest)
  | [], _, _ => rfl
  | (p, o) :: rest, r, h => by
    have hp : p.level ≤ rightMax op := h (p, o) (List.mem_cons_self ..)
    rw [group, push, if_pos ((under_iff ..).2 hp), group_right rest _ fun x hx => h x (List.mem_cons_of_mem _ hx)]
    rfl

theorem push_top {op : Oper} {o : Operand} {t : Tree} (h : t.Within (leftMax op)) : push op o t = .node op t (.leaf o) := by
  cases t with
  | leaf x => rfl
  | node p l r =>
    have h : p.level ≤ leftMax op := h
    rw [push, if_neg (by rw [(over_iff ..).2 h]; decide)]

/-- A grouped tree is the one built from its sequence. -/
theorem group_of_grouped : ∀ {t : Tree}, t.Grouped → group (.leaf t.first) t.rest = t
  | .leaf _, _ => rfl
  | .node op l r, h => by
    have h := (grouped_node ..).1 h
    have hl := group_of_grouped h.1
    have hr := group_of_grouped h.2.1
    rw [Tree.first, Tree.rest, group_append, hl, group, push_top h.2.2.1, group_right, hr]
    exact fun x hx => rest_below h.2.1 h.2.2.2 x hx

/-- **C31, there is one grouping.** Each sequence of operands and operators has exactly one tree with the standard grouping. -/
theorem C31_one_grouping (o : Operand) (rest : List (Oper × Operand)) :
    ∃ t : Tree, (t.Grouped ∧ t.first = o ∧ t.rest = rest) ∧ ∀ u : Tree, u.Grouped ∧ u.first = o ∧ u.rest = rest → u = t := by
  refine ⟨group (.leaf o) rest, ?_, ?_⟩
  · simpa [Tree.first, Tree.rest] using group_spec rest (.leaf o) trivial
  · rintro u ⟨hg, rfl, rfl⟩
    exact (group_of_grouped hg).symm

theorem chainText_append (o : Operand) (a b : List (Oper × Operand)) (op : Oper) (p : Operand) :
    chainText o (a ++ (op, p) :: b) = chainText o a ++ .sym op.tok :: chainText p b := by
  simp [chainText]

theorem depth_append (o : Operand) (a b : List (Oper × Operand)) (op : Oper) (p : Operand) :
    chainDepth o (a ++ (op, p) :: b) = chainDepth o a + 1 + chainDepth p b := by
  simp only [chainDepth, List.map_append, List.map_cons, List.sum_append, List.sum_cons]
  omega

theorem tree_measure : ∀ t : Tree, spine t.expr + leakE t.expr ≤ chainDepth t.first t.rest
  | .leaf o => by simp only [Tree.expr, Tree.first, Tree.rest, chainDepth, List.map_nil, List.sum_nil]; omega
  | .node op l r => by
    have h1 := tree_measure l
    have h2 := tree_measure r
    cases op <;> simp only [Tree.expr, Tree.first, Tree.rest, depth_append, spine, leakE] <;> omega

theorem text_mono {write : Nat → List Token → Prop} {lv D l m : Nat} {ts : List Token} (h : Text write lv D l ts) (hl : l ≤ m) :
    Text write lv D m ts := by
  obtain ⟨k, t, h1, h2, h3, h4⟩ := h
  exact ⟨k, t, h1, fun h => h2 (by omega), h3, h4⟩

theorem tree_text {B : Nat} : ∀ (t : Tree) (D m : Nat), t.Grouped → t.Within m → 2 ≤ m → D + chainDepth t.first t.rest ≤ B →
    IsOperand B t.first → (∀ x ∈ t.rest, IsOperand B x.2) →
    Text (fun D => WriteE D t.expr) (level t.expr) D m (chainText t.first t.rest)
  | .leaf o, D, m, _, _, hm, hd, ho, _ => by
    have := text_mono (ho D (by omega)) hm
    simpa [chainText, Tree.first, Tree.rest, Tree.expr] using this
  | .node op l r, D, m, hg, hw, hm, hd, ho, hr => by
    have hg := (grouped_node ..).1 hg
    simp only [Tree.first, Tree.rest, depth_append] at hd ho hr ⊢
    have hop := max_le op
    have hw : op.level ≤ m := hw
    have hml := tree_measure l
    have h1 := tree_text l D (leftMax op) hg.1 hg.2.2.1 (by omega) (by omega) ho fun x hx => hr x (List.mem_append_left _ hx)
    have h2 := fun k (hk : k ≤ spine l.expr) => tree_text r (D + k + 1 + leakE l.expr) (rightMax op) hg.2.1 hg.2.2.2 (by omega) (by omega)
      (hr (op, r.first) (by simp)) fun x hx => hr x (List.mem_append_right _ (List.mem_cons_of_mem _ hx))
    rw [chainText_append]
    have hD : D ≤ 502 := by
      obtain ⟨k, _, _, _, h, _⟩ := h1
      omega
    refine ⟨0, chainText l.first l.rest ++ .sym op.tok :: chainText r.first r.rest, ?_, fun h => ?_, by omega, by simp⟩
    · cases op with
      | bin op =>
        simp only [Tree.expr, WriteE, Nat.mul_zero, Nat.add_zero]
        exact ⟨_, _, h1, h2 _ (Nat.le_refl _), rfl⟩
      | and =>
        simp only [Tree.expr, WriteE, Nat.mul_zero, Nat.add_zero]
        exact ⟨_, _, h1, h2 0 (Nat.zero_le _), rfl⟩
      | or =>
        simp only [Tree.expr, WriteE, Nat.mul_zero, Nat.add_zero]
        exact ⟨_, _, h1, h2 0 (Nat.zero_le _), rfl⟩
    · exfalso
      cases op <;> simp only [Tree.expr, level, Oper.level] at h hw <;> omega

/-- **C31.** A text that is operands with binary operators between them, `&&` and `||` among them, compiles to the code of the tree with the standard
grouping, as long as the parser's nesting count (one for each operator) does not exceed 502.  (For longer sequences see
`C31_long_chain_rejected`.) -/
theorem C31_grouping_partial {E : Env} {src path : List UInt8} {o : Operand} {rest : List (Oper × Operand)} {t : Tree} {k : Nat}
    (h0 : (0 : UInt8) ∉ src) (ht : Tokens E src (chainText o rest ++ List.replicate k (.sym SEMICOLON))) (ho : IsOperand (chainDepth o rest) o)
    (hr : ∀ x ∈ rest, IsOperand (chainDepth o rest) x.2) (hx : firstKind (chainText o rest) 0 ≠ OPEN_CURLY)
    (hg : t.Grouped) (hf : t.first = o) (hrest : t.rest = rest) :
    ∃ map d0, ∀ d, d0 ≤ d → parseScript E d path src = .code (Script.bytes ⟨path, [.exprs t.expr []], map⟩) := by
  subst hf hrest
  refine C61_parse h0 ht ?_
  have hw : t.Within 14 := by
    cases t with
    | leaf _ => trivial
    | node op l r => have := max_le op; show op.level ≤ 14; omega
  have htx := tree_text t 0 14 hg hw (by omega) (by rw [Nat.zero_add]; exact Nat.le_refl _) ho hr
  simp only [WriteSs]
  refine ⟨chainText t.first t.rest, k, [], ?_, rfl, by decide, fun _ h => absurd rfl h, by simp⟩
  simp only [WriteS, WriteMore]
  exact ⟨_, [], htx, rfl, by simp, hx, by split <;> decide, by split <;> decide⟩

/-! ## Concrete texts -/

/-- Numerals of decimal digits. -/
def numEnv : Env := { demoEnv with numVal := fun t => ofIntD (t.foldl (fun n c => 10 * n + (c.toNat - 48)) 0) }

instance : Natives numEnv := Natives.none _

def demoText : List UInt8 := txt "if (1 < 2) { while (true) { break; } } (function() { return 5; 6; })()"

def demoTokens : List Token :=
  [.sym KW_IF, .sym OPEN_PAREN, .int 1, .sym Tok.LT, .int 2, .sym CLOSE_PAREN, .sym OPEN_CURLY, .sym KW_WHILE, .sym OPEN_PAREN,
   .sym KW_TRUE, .sym CLOSE_PAREN, .sym OPEN_CURLY, .sym KW_BREAK, .sym SEMICOLON, .sym CLOSE_CURLY, .sym CLOSE_CURLY,
   .sym OPEN_PAREN, .sym KW_FUNCTION, .sym OPEN_PAREN, .sym CLOSE_PAREN, .sym OPEN_CURLY, .sym KW_RETURN, .int 5, .sym SEMICOLON,
   .int 6, .sym SEMICOLON, .sym CLOSE_CURLY, .sym CLOSE_PAREN, .sym OPEN_PAREN, .sym CLOSE_PAREN]

theorem demo_tokens : Tokens numEnv demoText demoTokens := lex_tokens (by decide +kernel)

theorem text0 {write : Nat → List Token → Prop} {lv D l : Nat} {ts : List Token} (h : write D ts) (hl : lv ≤ l) (hd : D ≤ 502) :
    Text write lv D l ts := ⟨0, ts, h, fun h => absurd hl (by omega), hd, by simp⟩

theorem text1 {write : Nat → List Token → Prop} {lv D l : Nat} {ts : List Token} (h : write (D + 10) ts) (hd : D + 10 ≤ 502) :
    Text write lv D l (.sym OPEN_PAREN :: (ts ++ [.sym CLOSE_PAREN])) := ⟨1, ts, h, fun _ => by omega, hd, by simp⟩

/-- The script of the text is the one of C35. -/
theorem demo_writes : WriteSs 0 EOF demoScript.body demoTokens := by
  have e1 : WriteE 0 (.bin .lt (.int 1) (.int 2)) [.int 1, .sym Tok.LT, .int 2] := by
    simp only [WriteE]
    exact ⟨[.int 1], [.int 2], text0 rfl (by decide) (by decide), text0 rfl (by decide) (by decide), rfl⟩
  have s1 : WriteS 1 CLOSE_CURLY (.while .tru [.break])
      [.sym KW_WHILE, .sym OPEN_PAREN, .sym KW_TRUE, .sym CLOSE_PAREN, .sym OPEN_CURLY, .sym KW_BREAK, .sym SEMICOLON, .sym CLOSE_CURLY] := by
    simp only [WriteS]
    refine ⟨[.sym KW_TRUE], [.sym OPEN_CURLY, .sym KW_BREAK, .sym SEMICOLON, .sym CLOSE_CURLY], text0 (by simp only [WriteE]) (by decide) (by decide),
      .inl ⟨[.sym KW_BREAK, .sym SEMICOLON], ?_, rfl⟩, rfl⟩
    simp only [WriteSs, WriteS]
    exact ⟨[.sym KW_BREAK], 1, [], rfl, rfl, by decide, by decide, rfl⟩
  have s2 : WriteS 0 OPEN_PAREN (.ite (.bin .lt (.int 1) (.int 2)) (.block [.while .tru [.break]])) (demoTokens.take 16) := by
    simp only [WriteS]
    refine ⟨[.int 1, .sym Tok.LT, .int 2], _, text0 e1 (by decide) (by decide), ⟨[.sym KW_WHILE, .sym OPEN_PAREN, .sym KW_TRUE, .sym CLOSE_PAREN, .sym OPEN_CURLY, .sym KW_BREAK, .sym SEMICOLON, .sym CLOSE_CURLY], ?_, by decide, rfl⟩, .inl (by decide), by decide, rfl⟩
    simp only [WriteSs]
    exact ⟨_, 0, [], s1, rfl, by decide, by decide, rfl⟩
  have e2 : WriteE 11 (.func 0 none [] [.ret (some (.int 5)), .exprs (.int 6) []])
      [.sym KW_FUNCTION, .sym OPEN_PAREN, .sym CLOSE_PAREN, .sym OPEN_CURLY, .sym KW_RETURN, .int 5, .sym SEMICOLON,
       .int 6, .sym SEMICOLON, .sym CLOSE_CURLY] := by
    simp only [WriteE]
    refine ⟨[], [.sym KW_RETURN, .int 5, .sym SEMICOLON, .int 6, .sym SEMICOLON], rfl, ?_, by decide, rfl⟩
    simp only [WriteSs, WriteS, WriteMore]
    exact ⟨[.sym KW_RETURN, .int 5], 1, [.int 6, .sym SEMICOLON], ⟨_, text0 rfl (by decide) (by decide), rfl, by decide⟩,
      ⟨[.int 6], 1, [], ⟨[.int 6], [], text0 rfl (by decide) (by decide), rfl, rfl, by decide, by decide, by decide⟩, rfl, by decide, by decide, rfl⟩,
      by decide, by decide, rfl⟩
  have e3 : WriteE 1 (.call (.func 0 none [] [.ret (some (.int 5)), .exprs (.int 6) []]) []) (demoTokens.drop 16) := by
    simp only [WriteE]
    exact ⟨_, [], text1 e2 (by decide), rfl, rfl⟩
  show WriteSs 0 EOF [_, _] _
  simp only [WriteSs, WriteS, WriteMore] at s2 ⊢
  exact ⟨_, 0, demoTokens.drop 16, s2, ⟨demoTokens.drop 16, 0, [], ⟨demoTokens.drop 16, [], text0 (D := 1) e3 (by decide) (by decide), rfl, rfl, by decide, by decide, by decide⟩, rfl, by decide, by decide, rfl⟩,
    by decide, by decide, rfl⟩

/-- So the parser compiles the text to the code of that script, for every environment with these numerals. -/
example : ∃ map d0, ∀ d, d0 ≤ d → parseScript numEnv d (txt "a.js") demoText = .code (Script.bytes { demoScript with map := map }) :=
  C61_parse (by decide +kernel) demo_tokens demo_writes

theorem llen_mono : ∀ {a b : Nat}, a ≤ b → Varint.llen a ≤ Varint.llen b := by
  intro a
  induction a using Nat.strongRecOn with
  | _ a ih =>
    intro b h
    by_cases ha : a < 128
    · rw [Varint.llen_last a ha]; exact Varint.llen_pos b
    · rw [Varint.llen_step a (by omega), Varint.llen_step b (by omega)]
      have := ih (a / 128) (by omega) (b := b / 128) (by omega)
      omega

/-- The line map can be read off the bytes of a script. -/
theorem assemble_map {path code m1 m2 : List UInt8} (h : Bcode.assemble path code m1 = Bcode.assemble path code m2) : m1 = m2 := by
  have hl := congrArg List.length h
  simp only [Bcode.assemble, Bcode.header, Bcode.u32, List.length_append, List.length_cons, List.length_nil] at hl
  have hv : ∀ n, (vint n).length = Varint.llen n := Varint.length_encodeBytes
  have hm : m1.length = m2.length := by
    rcases Nat.lt_trichotomy m1.length m2.length with hc | hc | hc
    · have := llen_mono (Nat.le_of_lt hc); rw [hv, hv] at hl; omega
    · exact hc
    · have := llen_mono (Nat.le_of_lt hc); rw [hv, hv] at hl; omega
  exact (List.append_inj' h hm).2

/-- The parser's result for the text, computed: the line map is empty. -/
theorem demo_map : (match parseScript numEnv 60 demoScript.path demoText with | .code b => b == demoScript.bytes | _ => false) = true := by
  decide +kernel

/-- The meaning of the text is 5, as for the script. -/
theorem demo_text_eval : ∃ (r : Heap × Val) (vm' : Vm), demo = some r ∧
    evalScript numEnv ([] ++ [demoScript]) 30 30 ⟨0, demoScript.bytes, none⟩ demoScript
      (setErrorf (load { heap := r.1, scopes := [r.2], al := fun _ => demoAl } demoScript) .ok none) = some (.ok vm' (.normal (mkInt 5))) := by
  have hd : (demo.bind fun r => (evalScript numEnv ([] ++ [demoScript]) 30 30 ⟨0, demoScript.bytes, none⟩ demoScript
      (setErrorf (load { heap := r.1, scopes := [r.2], al := fun _ => demoAl } demoScript) .ok none)).map fun o => match o with
        | .ok _ (.normal v) => v == mkInt 5
        | _ => false) = some true := by decide +kernel
  obtain ⟨r, hr, hd⟩ := Option.bind_eq_some_iff.1 hd
  obtain ⟨o, ho, hd⟩ := Option.map_eq_some_iff.1 hd
  cases o with
  | err _ => simp at hd
  | ok vm' c =>
    cases c with
    | normal v => simp only [beq_iff_eq] at hd; subst hd; exact ⟨r, vm', hr, ho⟩
    | _ => simp at hd

/-- So `mjs_exec` of the text returns 5. -/
example : ∃ vm vm2 d0, (∀ d, d0 ≤ d → exec numEnv d vm demoScript.path demoText = some (vm2, mkInt 5)) ∧ vm2.error = .ok ∧ SameStacks vm2 vm := by
  obtain ⟨r, vm', _, he⟩ := demo_text_eval
  let vm : Vm := { heap := r.1, scopes := [r.2], al := fun _ => demoAl }
  have hl : Loaded vm [] := ⟨trivial, rfl, by simp [vm], fun _ h => by cases h⟩
  have hroom : Room vm 30 := ⟨by simp [vm], by simp [vm], by simp [vm], by simp [vm], by simp [vm]⟩
  have h0 : (0 : UInt8) ∉ demoText := by decide +kernel
  obtain ⟨⟨path, body, map⟩, d0, rfl, rfl, hp, hx⟩ := C61_exec_value (path := demoScript.path) h0 demo_tokens demo_writes hl hroom
  have hmap : map = demoScript.map := by
    have hm := demo_map
    have hp := hp (max d0 60) (by omega)
    rw [parseScript_mono (d := 60) (by omega) (fun h => by rw [h] at hm; cases hm)] at hp
    rw [hp] at hm
    exact assemble_map (beq_iff_eq.1 hm : Script.bytes ⟨demoScript.path, demoScript.body, map⟩ = demoScript.bytes)
  subst hmap
  obtain ⟨vm2, h1, _, h2, _, h3, _⟩ := hx (show 0 + demoScript.bytes.length < 2 ^ 31 - 1 by decide +kernel) 30 vm' (mkInt 5) he
  exact ⟨vm, vm2, d0, h1, h2, h3⟩

/-- `1 - 2 * 3 - 4 < 5 || 6 && 7`: the hypotheses of C31 hold, and the grouping is `(((1 - (2 * 3)) - 4) < 5) || (6 && 7)`. -/
def operandN (n : Nat) : Operand := ⟨.int n, [.int n]⟩

theorem operandN_is (n : Nat) : IsOperand 6 (operandN n) := fun D hD => text0 rfl (by show 0 ≤ 2; omega) (by omega)

example : ∃ map d0, ∀ d, d0 ≤ d → parseScript numEnv d (txt "a.js") (txt "1 - 2 * 3 - 4 < 5 || 6 && 7;") = .code (Script.bytes ⟨txt "a.js",
    [.exprs (.or (.bin .lt (.bin .sub (.bin .sub (.int 1) (.bin .mul (.int 2) (.int 3))) (.int 4)) (.int 5)) (.and (.int 6) (.int 7))) []], map⟩) :=
  C31_grouping_partial (o := operandN 1) (rest := [(.bin .sub, operandN 2), (.bin .mul, operandN 3), (.bin .sub, operandN 4),
      (.bin .lt, operandN 5), (.or, operandN 6), (.and, operandN 7)])
    (t := .node .or (.node (.bin .lt) (.node (.bin .sub) (.node (.bin .sub) (.leaf (operandN 1))
        (.node (.bin .mul) (.leaf (operandN 2)) (.leaf (operandN 3)))) (.leaf (operandN 4)))
      (.leaf (operandN 5))) (.node .and (.leaf (operandN 6)) (.leaf (operandN 7)))) (k := 1)
    (by decide +kernel) (lex_tokens (by decide +kernel)) (operandN_is 1)
    (by simpa using ⟨operandN_is 2, operandN_is 3, operandN_is 4, operandN_is 5, operandN_is 6, operandN_is 7⟩) (by decide)
    (by simp [Tree.Grouped, Tree.Within, opLevel, Oper.level]) rfl rfl

def isError : Parsed → Bool
  | .error => true
  | _ => false

theorem isError_eq : ∀ {p : Parsed}, isError p = true → p = .error
  | .error, _ => rfl

theorem rejected {E : Env} {d d' : Nat} {path src : List UInt8} (h : isError (parseScript E d path src) = true) (hd : d ≤ d') :
    parseScript E d' path src = .error := by
  have h := isError_eq h
  rw [parseScript_mono hd (by rw [h]; exact fun h => by cases h), h]

end Mjs.Props
