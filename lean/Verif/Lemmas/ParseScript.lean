import Verif.Lemmas.ParseFlow
import Verif.Props.Tok
import Verif.Spec.Layout

/-!
The parser on a whole source text.
-/

namespace Mjs.Parse
open Mjs Mjs.Tok Mjs.Exec Mjs.Code Mjs.Bcode Mjs.Parser Mjs.Grammar

/-! ## Numerals -/

/-- What is known of the numerals among the tokens of a source. -/
def NumT : Token → Prop
  | .int n => n < 2 ^ 64
  | .dbl t => strtodLen t = t.length
  | _ => True

def NumTs (ts : List Token) : Prop := ∀ t ∈ ts, NumT t

theorem NumTs.left {a b : List Token} (h : NumTs (a ++ b)) : NumTs a := fun t ht => h t (List.mem_append_left _ ht)
theorem NumTs.right {a b : List Token} (h : NumTs (a ++ b)) : NumTs b := fun t ht => h t (List.mem_append_right _ ht)
theorem NumTs.tail {a : Token} {b : List Token} (h : NumTs (a :: b)) : NumTs b := fun t ht => h t (List.mem_cons_of_mem _ ht)

theorem is_numT {E : Env} {src : List UInt8} {st : Tok.State} : ∀ {t : Token}, Is E src st t → NumT t
  | .int _, ⟨_, _, _, _, h⟩ => h ▸ (BitVec.isLt _)
  | .dbl _, ⟨_, _, h, _⟩ => h
  | .sym _, _ => trivial
  | .ident _, _ => trivial
  | .str _ _, _ => trivial

theorem reads_numT {E : Env} {src : List UInt8} : ∀ {ts : List Token} {st : Tok.State}, Reads E src st ts → NumTs ts
  | [], _, h => h.elim
  | t :: ts, st, h => by
    intro u hu
    rcases List.mem_cons.1 hu with rfl | hu
    · exact is_numT h.1
    · have h2 := h.2
      split at h2
      · rename_i e; rw [e] at hu; cases hu
      · obtain ⟨_, st', _, h3⟩ := h2
        exact reads_numT h3 u hu

theorem num_text {write : Nat → List Token → Prop} {lv D l : Nat} {ts : List Token} {P : Prop}
    (h : ∀ D ts, write D ts → NumTs ts → P) (ht : Text write lv D l ts) (hn : NumTs ts) : P := by
  obtain ⟨k, ts', hw, _, _, rfl⟩ := ht
  exact h _ _ hw hn.left.right

theorem num_then {last : Prop} {rest : List Token → Prop} {ts : List Token} {P : Prop} (h : ∀ ts, rest ts → NumTs ts → P)
    (h0 : last → P) (ht : Then last rest ts) (hn : NumTs ts) : P := by
  rcases ht with ⟨hl, _⟩ | ⟨_, t, hr, rfl⟩
  · exact h0 hl
  · exact h _ hr hn.tail

theorem num_body {list one : List Token → Prop} {ts : List Token} {P : Prop} (h1 : ∀ ts, list ts → NumTs ts → P)
    (h2 : ∀ ts, one ts → NumTs ts → P) (ht : Body list one ts) (hn : NumTs ts) : P := by
  rcases ht with ⟨t, hw, rfl⟩ | ⟨hw, _⟩
  · exact h1 _ hw hn.left.tail
  · exact h2 _ hw hn

mutual
theorem numE : (e : Expr) → ∀ D ts, WriteE D e ts → NumTs ts → NumE e
  | .int n => fun D ts hw hn => by
    simp only [WriteE] at hw; subst hw
    exact hn _ List.mem_cons_self
  | .dbl x => fun D ts hw hn => by
    simp only [WriteE] at hw; subst hw
    exact hn _ List.mem_cons_self
  | .str _ => fun _ _ _ _ => trivial
  | .tru => fun _ _ _ _ => trivial
  | .fls => fun _ _ _ _ => trivial
  | .null => fun _ _ _ _ => trivial
  | .undef => fun _ _ _ _ => trivial
  | .this => fun _ _ _ _ => trivial
  | .get l => fun D ts hw hn => by
    simp only [WriteE] at hw
    exact numL l D ts hw hn
  | .obj ps => fun D ts hw hn => by
    simp only [WriteE] at hw
    obtain ⟨t, hw, rfl⟩ := hw
    exact numProps ps _ _ hw hn.left.tail
  | .arr es => fun D ts hw hn => by
    simp only [WriteE] at hw
    obtain ⟨t, hw, rfl⟩ := hw
    exact numEs es _ _ hw hn.left.tail
  | .func _ _ ps body => fun D ts hw hn => by
    simp only [WriteE] at hw
    obtain ⟨tp, tb, _, hw, _, rfl⟩ := hw
    exact numSs body _ _ _ hw hn.left.right.tail.tail
  | .call f args => fun D ts hw hn => by
    simp only [WriteE] at hw
    obtain ⟨tf, ta, h1, h2, rfl⟩ := hw
    exact ⟨num_text (numE f) h1 hn.left.left, numEs args _ _ h2 hn.left.right.tail⟩
  | .un _ e => fun D ts hw hn => by
    simp only [WriteE] at hw
    obtain ⟨t, h1, rfl⟩ := hw
    exact num_text (numE e) h1 hn.tail
  | .incr post _ l => fun D ts hw hn => by
    simp only [WriteE] at hw
    obtain ⟨t, h1, h2⟩ := hw
    cases post with
    | true => rw [if_pos rfl] at h2; subst h2; exact numL l _ _ h1 hn.left
    | false => rw [if_neg (by decide)] at h2; obtain ⟨_, rfl⟩ := h2; exact numL l _ _ h1 hn.tail
  | .bin _ a b => fun D ts hw hn => by
    simp only [WriteE] at hw
    obtain ⟨ta, tb, h1, h2, rfl⟩ := hw
    exact ⟨num_text (numE a) h1 hn.left, num_text (numE b) h2 hn.right.tail⟩
  | .and a b => fun D ts hw hn => by
    simp only [WriteE] at hw
    obtain ⟨ta, tb, h1, h2, rfl⟩ := hw
    exact ⟨num_text (numE a) h1 hn.left, num_text (numE b) h2 hn.right.tail⟩
  | .or a b => fun D ts hw hn => by
    simp only [WriteE] at hw
    obtain ⟨ta, tb, h1, h2, rfl⟩ := hw
    exact ⟨num_text (numE a) h1 hn.left, num_text (numE b) h2 hn.right.tail⟩
  | .cond c a b => fun D ts hw hn => by
    simp only [WriteE] at hw
    obtain ⟨tc, ta, tb, h1, h2, h3, rfl⟩ := hw
    exact ⟨num_text (numE c) h1 hn.left.left, num_text (numE a) h2 hn.left.right.tail, num_text (numE b) h3 hn.right.tail⟩
  | .assign _ l e => fun D ts hw hn => by
    simp only [WriteE] at hw
    obtain ⟨tl, te, h1, h2, _, rfl⟩ := hw
    exact ⟨numL l _ _ h1 hn.left, num_text (numE e) h2 hn.right.tail⟩
theorem numL : (l : Lval) → ∀ D ts, WriteL D l ts → NumTs ts → NumL l
  | .var _ => fun _ _ _ _ => trivial
  | .dot e x => fun D ts hw hn => by
    simp only [WriteL] at hw
    obtain ⟨t, h1, rfl⟩ := hw
    exact num_text (numE e) h1 hn.left
  | .index e k => fun D ts hw hn => by
    simp only [WriteL] at hw
    obtain ⟨te, tk, h1, h2, rfl⟩ := hw
    exact ⟨num_text (numE e) h1 hn.left.left, num_text (numE k) h2 hn.left.right.tail⟩
theorem numEs : (es : List Expr) → ∀ D ts, WriteEs D es ts → NumTs ts → NumEs es
  | [] => fun _ _ _ _ => trivial
  | e :: es => fun D ts hw hn => by
    simp only [WriteEs] at hw
    obtain ⟨t1, t2, h1, h2, rfl⟩ := hw
    exact ⟨num_text (numE e) h1 hn.left, num_then (numEs es _) (fun h => by subst h; trivial) h2 hn.right⟩
theorem numProps : (ps : List (Name × Expr)) → ∀ D ts, WriteProps D ps ts → NumTs ts → NumProps ps
  | [] => fun _ _ _ _ => trivial
  | (x, e) :: ps => fun D ts hw hn => by
    simp only [WriteProps] at hw
    obtain ⟨key, t1, t2, _, h1, h2, rfl⟩ := hw
    exact ⟨num_text (numE e) h1 hn.left.tail.tail, num_then (numProps ps _) (fun h => by subst h; trivial) h2 hn.right⟩
theorem numMore : (es : List Expr) → ∀ D ts, WriteMore D es ts → NumTs ts → NumEs es
  | [] => fun _ _ _ _ => trivial
  | e :: es => fun D ts hw hn => by
    simp only [WriteMore] at hw
    obtain ⟨t1, t2, h1, h2, rfl⟩ := hw
    exact ⟨num_text (numE e) h1 hn.left.tail, numMore es _ _ h2 hn.right⟩
theorem numO : (i : Option Expr) → ∀ D ts, WriteInit D i ts → NumTs ts → NumO i
  | none => fun _ _ _ _ => trivial
  | some e => fun D ts hw hn => by
    simp only [WriteInit] at hw
    obtain ⟨t, h1, rfl⟩ := hw
    exact num_text (numE e) h1 hn.tail
theorem numLets : (ds : List (Name × Option Expr)) → ∀ D ts, WriteLets D ds ts → NumTs ts → NumLets ds
  | [] => fun _ _ _ _ => trivial
  | (x, i) :: ds => fun D ts hw hn => by
    simp only [WriteLets] at hw
    obtain ⟨t1, t2, h1, h2, rfl⟩ := hw
    exact ⟨numO i _ _ h1 hn.left.tail.tail, numLets ds _ _ h2 hn.right⟩
theorem numS : (s : Stmt) → ∀ D f ts, WriteS D f s ts → NumTs ts → NumS s
  | .empty => fun _ _ _ _ _ => trivial
  | .exprs e es => fun D f ts hw hn => by
    simp only [WriteS] at hw
    obtain ⟨t1, t2, h1, h2, rfl, _⟩ := hw
    exact ⟨num_text (numE e) h1 hn.left, numMore es _ _ h2 hn.right⟩
  | .lets _ i ds => fun D f ts hw hn => by
    simp only [WriteS] at hw
    obtain ⟨t1, t2, h1, h2, rfl, _⟩ := hw
    exact ⟨numO i _ _ h1 hn.left.tail.tail, numLets ds _ _ h2 hn.right⟩
  | .block ss => fun D f ts hw hn => by
    simp only [WriteS] at hw
    obtain ⟨t, hw, _, rfl⟩ := hw
    exact numSs ss _ _ _ hw hn.left.tail
  | .ite c s => fun D f ts hw hn => by
    simp only [WriteS] at hw
    obtain ⟨tc, t, h1, h2, _, _, rfl⟩ := hw
    exact ⟨num_text (numE c) h1 hn.left.tail.tail, numS s _ _ _ h2 hn.right.tail⟩
  | .itee c s t => fun D f ts hw hn => by
    simp only [WriteS] at hw
    obtain ⟨tc, t1, t2, h1, h2, _, h3, _, rfl⟩ := hw
    exact ⟨num_text (numE c) h1 hn.left.left.tail.tail, numS s _ _ _ h2 hn.left.right.tail, numS t _ _ _ h3 hn.right.tail⟩
  | .while c body => fun D f ts hw hn => by
    simp only [WriteS] at hw
    obtain ⟨tc, tb, h1, h2, rfl⟩ := hw
    exact ⟨num_text (numE c) h1 hn.left.tail.tail, num_body (numSs body _ _) (numOne body _ _) h2 hn.right.tail⟩
  | .for init c inc body => fun D f ts hw hn => by
    simp only [WriteS] at hw
    obtain ⟨ti, tc, tn, tb, h1, _, _, h2, h3, h4, rfl⟩ := hw
    exact ⟨numS init _ _ _ h1 hn.left.left.left.tail.tail, num_text (numE c) h2 hn.left.left.right.tail,
      num_text (numE inc) h3 hn.left.right.tail, num_body (numSs body _ _) (numOne body _ _) h4 hn.right.tail⟩
  | .forIn isLet x e body => fun D f ts hw hn => by
    simp only [WriteS] at hw
    obtain ⟨te, tb, h1, h2, rfl⟩ := hw
    exact ⟨num_text (numE e) h1 hn.left.right.tail.tail, num_body (numSs body _ _) (numOne body _ _) h2 hn.right.tail⟩
  | .break => fun _ _ _ _ _ => trivial
  | .continue => fun _ _ _ _ _ => trivial
  | .ret none => fun _ _ _ _ _ => trivial
  | .ret (some e) => fun D f ts hw hn => by
    simp only [WriteS] at hw
    obtain ⟨t, h1, rfl, _⟩ := hw
    exact num_text (numE e) h1 hn.tail
theorem numOne : (ss : List Stmt) → ∀ D f ts, WriteOne D f ss ts → NumTs ts → NumSs ss
  | [] => fun _ _ _ _ _ => trivial
  | [s] => fun D f ts hw hn => by
    simp only [WriteOne] at hw
    exact ⟨numS s _ _ _ hw hn, trivial⟩
  | _ :: _ :: _ => fun D f ts hw hn => by simp only [WriteOne] at hw
theorem numSs : (ss : List Stmt) → ∀ D et ts, WriteSs D et ss ts → NumTs ts → NumSs ss
  | [] => fun _ _ _ _ _ => trivial
  | s :: ss => fun D et ts hw hn => by
    simp only [WriteSs] at hw
    obtain ⟨t1, k, t2, h1, h2, _, _, rfl⟩ := hw
    exact ⟨numS s _ _ _ h1 hn.left.left, numSs ss _ _ _ h2 hn.right⟩
end

/-! ## The number of tokens -/

theorem reads_length {E : Env} {src : List UInt8} (h0 : (0 : UInt8) ∉ src) :
    ∀ {ts : List Token} {st : Tok.State}, st.pos ≤ src.length → Reads E src st ts → ts.length + st.pos ≤ src.length + 2
  | [], _, _, h => h.elim
  | [_], _, hp, _ => by simp only [List.length_cons, List.length_nil]; omega
  | t :: u :: ts, st, hp, h => by
    have h2 := h.2
    rw [if_neg (by simp)] at h2
    obtain ⟨_, st', hn, h3⟩ := h2
    obtain ⟨st'', hn', hp', hx⟩ := Props.C28_progress src h0 st hp
    rw [hn] at hn'
    cases hn'
    have ih := reads_length h0 hp' h3
    by_cases hk : st'.tok = 0
    · have : u :: ts = [u] := by
        have h4 := h3.2
        split at h4
        · rename_i e; rw [e]
        · have := h4.1
          have hu : st'.tok = u.kind := by
            have := h3.1
            cases u <;> exact this.1
          exact absurd (hu ▸ hk) this
      cases this
      simp only [List.length_cons, List.length_nil]; omega
    · rw [if_neg hk] at hx
      simp only [List.length_cons] at ih ⊢
      omega

/-! ## Scripts -/

theorem parse_ok {E : Env} {src path : List UInt8} {ts : List Token} {ss : List Stmt} (h0 : (0 : UInt8) ∉ src) (ht : Tokens E src ts)
    (hw : WriteSs 0 EOF ss ts) :
    ∃ map d0, ∀ d, d0 ≤ d → parseScript E d path src = .code (assemble path (codeScript ss) map) := by
  obtain ⟨st, hn, hr⟩ := ht
  let hdr := header path 0 0
  obtain ⟨st', hn', hp', hx⟩ := Props.C28_progress src h0 {} (Nat.zero_le _)
  rw [hn] at hn'
  cases hn'
  have hprev : st.prevTok = 0 := by
    unfold pnext at hn
    simp only [Option.bind_eq_bind, Option.bind_eq_some_iff] at hn
    obtain ⟨a, _, b, _, c, _, hn⟩ := hn
    cases hn; rfl
  have hat : At E src hdr.length 0 0 (ts ++ .sym EOF :: []) hdr [] { initial path with tk := st } := {
    prev := hprev, depth := rfl, reads := hr, buf := (List.append_nil _).symm, cur := rfl, start := rfl
    len := by have := reads_length h0 hp' hr; omega }
  have hs := Tr.bind (f := fun _ _ => emit EXIT) (stmts_loop (E := E) (src := src) (start := hdr.length) (p := 0) (d := 0) (n := rounds src) (drop := false)
    (f := .sym EOF) (rest := []) (pre := hdr) (post := []) (goodStmts ss) (.inr rfl) hw (Nat.le_refl _) (fun _ => by decide) rfl hat.len) fun _ => Tr.emit EXIT
  obtain ⟨_, s', ⟨d0, he⟩, ha⟩ := hs _ hat
  refine ⟨s'.gen.map, d0 + 1, fun d hd => ?_⟩
  obtain ⟨e, rfl⟩ : ∃ e, d = e + 1 := ⟨d - 1, by omega⟩
  have he := he e (by omega)
  have hrun : (do parse E src (e + 1) (.stmtList EOF); emit EXIT) (initial path) = .ok () s' := by
    have h1 : parse E src (e + 1) (.stmtList EOF) (initial path) =
        stmts src (parse E src e) EOF (rounds src) false { initial path with tk := st } := by
      show parseStmtList src (parse E src e) EOF (initial path) = _
      unfold parseStmtList
      refine (bind_ok (a := ()) (s' := { initial path with tk := st }) ?_)
      show Parser.next src (initial path) = _
      unfold Parser.next
      have : (initial path).tk = {} := rfl
      rw [this, hn]
    show M.bind _ _ _ = _
    have he' : M.bind (stmts src (parse E src e) EOF (rounds src) false) (fun _ => emit EXIT) { initial path with tk := st } = .ok () s' := he
    simp only [M.bind] at he' ⊢
    rw [h1]
    exact he'
  unfold parseScript
  rw [hrun]
  show Parsed.code (assemble path (s'.gen.buf.drop s'.gen.start) s'.gen.map) = _
  rw [ha.buf, ha.start]
  simp [hdr, codeScript]

end Mjs.Parse
