import Verif.Model.Disasm
import Verif.Props.Bcode

/-!
# C96: listing code visits the instructions
-/

namespace Mjs.Props
open Mjs Mjs.Str Mjs.Exec Mjs.Code Mjs.Bcode Mjs.Disasm

/-- The bytes of an instruction: the opcode and its operands. -/
inductive Instr : List UInt8 → Prop
  | plain {op : UInt8} : op ∈ ([0, 1, 2, 3, 9, 10, 12, 13, 16, 17, 18, 19, 21, 22, 23, 25, 27, 28, 29, 30, 32, 33, 34, 35, 37, 38] : List UInt8) → Instr [op]
  | num {op : UInt8} {n : Nat} : op ∈ ([4, 5, 6, 7, 8, 14, 20] : List UInt8) → n < 2 ^ 64 → Instr (op :: vint n)
  | str {op : UInt8} {s : List UInt8} : op ∈ ([11, 15] : List UInt8) → s.length < 2 ^ 64 → Instr (op :: (vint s.length ++ s))
  | arg {i : Nat} {s : List UInt8} : i < 2 ^ 64 → s.length < 2 ^ 64 → Instr (26 :: (vint i ++ (vint s.length ++ s)))
  | loop {b c : Nat} : b < 2 ^ 64 → c < 2 ^ 64 → Instr (31 :: (vint b ++ vint c))
  | expr {t : UInt8} : Instr [24, t]

/-- Where instructions begin that lie one behind the other from `p` on. -/
def places (p : Nat) : List (List UInt8) → List Nat
  | [] => []
  | x :: l => p :: places (p + x.length) l

theorem operand_app (pre : List UInt8) {n : Nat} (hn : n < 2 ^ 64) (c : List UInt8) {k : Nat} (hk : k = pre.length) : operand (pre ++ (vint n ++ c)) k = some (n, (vint n).length) := by
  subst hk
  unfold operand Varint.decodeUnsafe
  have hl := vint_le n hn
  rw [vint, Varint.length_encodeBytes] at hl
  rw [List.drop_left, vint, Varint.decode_encode n hn c (2 ^ 64 - 1) (by omega), Varint.length_encodeBytes]

/-- The disassembler knows the length of each instruction, and no instruction is a header. -/
theorem single_instr {x : List UInt8} (h : Instr x) (pre post : List UInt8) :
    single (pre ++ (x ++ post)) pre.length = some (x.length - 1) ∧ (pre ++ (x ++ post))[pre.length]? ≠ some BCODE_HEADER ∧ 0 < x.length := by
  have head : ∀ (op : UInt8) (t : List UInt8), (pre ++ (op :: t ++ post))[pre.length]? = some op := fun op t => by simp
  have next : ∀ (op : UInt8) (n : Nat) (c : List UInt8), n < 2 ^ 64 → operand (pre ++ (op :: (vint n ++ c))) (pre.length + 1) = some (n, (vint n).length) := fun op n c hn => by
    have := operand_app (pre ++ [op]) hn c (k := pre.length + 1) (by simp)
    simpa using this
  have next2 : ∀ (op : UInt8) (m n : Nat) (c : List UInt8), n < 2 ^ 64 →
      operand (pre ++ (op :: (vint m ++ (vint n ++ c)))) (pre.length + (vint m).length + 1) = some (n, (vint n).length) := fun op m n c hn => by
    have := operand_app (pre ++ op :: vint m) hn c (k := pre.length + (vint m).length + 1) (by simp; omega)
    simpa using this
  cases h with
  | @plain op h =>
    have e := head op []
    unfold single
    rw [e]
    simp only [List.mem_cons, List.not_mem_nil, or_false] at h
    rcases h with rfl | rfl | rfl | rfl | rfl | rfl | rfl | rfl | rfl | rfl | rfl | rfl | rfl | rfl | rfl | rfl | rfl | rfl | rfl | rfl | rfl | rfl | rfl | rfl | rfl | rfl <;>
      exact ⟨rfl, by decide, by decide⟩
  | @num op n h hn =>
    have e := head op (vint n)
    have e' := next op n post hn
    simp only [List.cons_append] at e ⊢
    unfold single
    rw [e, e']
    simp only [List.mem_cons, List.not_mem_nil, or_false] at h
    rcases h with rfl | rfl | rfl | rfl | rfl | rfl | rfl <;> exact ⟨rfl, by decide, by simp⟩
  | @str op s h hs =>
    have e := head op (vint s.length ++ s)
    have e' := next op s.length (s ++ post) hs
    simp only [List.cons_append, List.append_assoc] at e ⊢
    unfold single
    rw [e, e']
    simp only [List.mem_cons, List.not_mem_nil, or_false] at h
    rcases h with rfl | rfl <;> refine ⟨?_, by decide, by simp⟩ <;> show some ((vint s.length).length + s.length) = _ <;> simp
  | @arg i s hi hs =>
    have e := head 26 (vint i ++ (vint s.length ++ s))
    have e' := next 26 i (vint s.length ++ (s ++ post)) hi
    have e'' := next2 26 i s.length (s ++ post) hs
    simp only [List.cons_append, List.append_assoc] at e ⊢
    unfold single
    rw [e, e']
    refine ⟨?_, by decide, by simp⟩
    show (operand _ (pre.length + (vint i).length + 1)).map (fun n : Nat × Nat => (vint i).length + n.2 + n.1) = _
    rw [e'']
    simp
    omega
  | @loop b c hb hc =>
    have e := head 31 (vint b ++ vint c)
    have e' := next 31 b (vint c ++ post) hb
    have e'' := next2 31 b c post hc
    simp only [List.cons_append, List.append_assoc] at e ⊢
    unfold single
    rw [e, e']
    refine ⟨?_, by decide, by simp⟩
    show (operand _ (pre.length + (vint b).length + 1)).map (fun n : Nat × Nat => (vint b).length + n.2) = _
    rw [e'']
    simp
  | @expr t =>
    have e := head 24 [t]
    have e' : (pre ++ (24 :: t :: post))[pre.length + 1]? = some t := by simp
    simp only [List.cons_append, List.nil_append] at e ⊢
    unfold single
    rw [e, e']
    exact ⟨rfl, by decide, by simp⟩

/-- The loop over the instructions. -/
theorem loop_instrs {mapOff total fuel : Nat} {post : List UInt8} (hm : 0 < mapOff) : ∀ (l : List (List UInt8)) (pre : List UInt8), (∀ x ∈ l, Instr x) → l ≠ [] →
    pre.length + l.flatten.length = mapOff + 1 →
    loop (pre ++ (l.flatten ++ post)) (l.length + fuel) pre.length 0 total mapOff =
      (loop (pre ++ (l.flatten ++ post)) fuel (0 + total - 1 + 1) 0 total mapOff).map (places pre.length l ++ ·)
  | [], _, _, h, _ => absurd rfl h
  | x :: l, pre, hx, _, hl => by
    obtain ⟨h1, h2, h3⟩ := single_instr (hx x List.mem_cons_self) pre (l.flatten ++ post)
    have ed : pre ++ ((x :: l).flatten ++ post) = pre ++ (x ++ (l.flatten ++ post)) := by simp
    have hlen : (x :: l).length + fuel = (l.length + fuel) + 1 := by simp; omega
    rw [ed, hlen, Disasm.loop]
    rw [if_pos (by simp; omega), h1, Option.bind_some, if_neg h2, Option.bind_some]
    dsimp only
    simp only [List.flatten_cons, List.length_append] at hl
    cases l with
    | nil =>
      simp only [List.flatten_nil, List.length_nil, Nat.add_zero] at hl ⊢
      rw [if_pos ⟨hm, by omega⟩]
      rw [Nat.zero_add fuel]
      rfl
    | cons y l =>
      have hy := (single_instr (hx y (by simp)) [] []).2.2
      simp only [List.flatten_cons, List.length_append] at hl
      rw [if_neg (by omega)]
      have ih := loop_instrs (fuel := fuel) (post := post) (total := total) hm (y :: l) (pre ++ x) (fun z hz => hx z (List.mem_cons_of_mem _ hz)) (by simp)
        (by simp only [List.flatten_cons, List.length_append]; omega)
      rw [List.length_append] at ih
      have ej : pre.length + (x.length - 1) + 1 = pre.length + x.length := by omega
      rw [ej]
      simp only [List.append_assoc] at ih
      rw [ih, Option.map_map]
      rfl

theorem script_split (path code map : List UInt8) : ∃ t m, assemble path code map = header path t m ++ (code ++ (vint map.length ++ map)) ∧ m = 13 + path.length + code.length ∧
    t = 13 + path.length + code.length + (vint map.length).length + map.length ∧ (header path t m).length = 14 + path.length := by
  refine ⟨12 + path.length + 1 + code.length + (vint map.length).length + map.length, 12 + path.length + 1 + code.length, by simp only [assemble, List.append_assoc], by omega, by omega, ?_⟩
  simp only [header, u32, List.length_append, List.length_cons, List.length_nil]; omega

/-- Everything up to the last byte of a script. -/
theorem disasm_script {path map : List UInt8} {l : List (List UInt8)} (hl : ∀ x ∈ l, Instr x) (h0 : l ≠ []) (hp : (0 : UInt8) ∉ path) (hs : (assemble path l.flatten map).length < 2 ^ 32)
    (fuel : Nat) : ∃ total mapOff, 0 < mapOff ∧ mapOff < total ∧ total + 1 = (assemble path l.flatten map).length ∧
      disasm (l.length + fuel + 1) (assemble path l.flatten map) =
        (loop (assemble path l.flatten map) fuel ((assemble path l.flatten map).length - 1) 0 total mapOff).map (0 :: places (14 + path.length) l ++ ·) := by
  obtain ⟨t, m, e, hm, ht, hh⟩ := script_split path l.flatten map
  have hv := vint_pos map.length
  have hlen : (assemble path l.flatten map).length = t + 1 := by
    rw [e]; simp only [List.length_append, hh]; omega
  have hne : 0 < l.flatten.length := by
    cases l with
    | nil => exact absurd rfl h0
    | cons x l =>
      have := (single_instr (hl x List.mem_cons_self) [] []).2.2
      simp only [List.flatten_cons, List.length_append]; omega
  have hb : bytesAt (assemble path l.flatten map) 1 4 = some (u32 t) := by
    rw [e]; unfold bytesAt header u32; simp
  have hb' : bytesAt (assemble path l.flatten map) 9 4 = some (u32 m) := by
    rw [e]; unfold bytesAt header u32; simp
  have hb12 : ∃ v, bytesAt (assemble path l.flatten map) 1 12 = some v := by
    unfold bytesAt; rw [if_pos (by rw [hlen]; omega)]; exact ⟨_, rfl⟩
  have hd : (assemble path l.flatten map).drop 13 = path ++ 0 :: (l.flatten ++ (vint map.length ++ map)) := by
    rw [e]; unfold header u32; simp
  have h00 : (assemble path l.flatten map)[0]? = some BCODE_HEADER := by rw [e]; rfl
  obtain ⟨v, hb12⟩ := hb12
  have hsing : single (assemble path l.flatten map) 0 = some (13 + path.length) := by
    unfold single
    rw [h00]
    have e1 : bytesAt (assemble path l.flatten map) (0 + 1) 12 = some v := hb12
    have e2 : Bcode.cstr ((assemble path l.flatten map).drop (0 + 12 + 1)) = some path := by
      show Bcode.cstr ((assemble path l.flatten map).drop 13) = _
      rw [hd, cstr_path _ _ hp]
    show (bytesAt (assemble path l.flatten map) (0 + 1) 12).bind (fun _ => (Bcode.cstr ((assemble path l.flatten map).drop (0 + 12 + 1))).map fun s => 12 + (s.length + 1)) = _
    rw [e1, Option.bind_some, e2, Option.map_some]
    congr 1
    omega
  refine ⟨t, m, by omega, by omega, by omega, ?_⟩
  unfold disasm
  rw [Disasm.loop, if_pos (by omega), hsing, Option.bind_some, if_pos h00]
  have i1 : item (assemble path l.flatten map) (0 + 1) = some t := by
    show (bytesAt (assemble path l.flatten map) 1 4).map packLE = _
    rw [hb, Option.map_some, packLE_u32 _ (by omega)]
  have i2 : item (assemble path l.flatten map) (0 + 1 + 2 * 4) = some m := by
    show (bytesAt (assemble path l.flatten map) 9 4).map packLE = _
    rw [hb', Option.map_some, packLE_u32 _ (by omega)]
  rw [i1, i2]
  simp only [Option.bind_some, Option.map_some]
  rw [if_neg (by omega)]
  have hmain := loop_instrs (mapOff := m) (total := t) (fuel := fuel) (post := vint map.length ++ map) (by omega) l (header path t m) hl h0 (by rw [hh]; omega)
  rw [← e, hh] at hmain
  rw [show 0 + (13 + path.length) + 1 = 14 + path.length from by omega, hmain, Option.map_map]
  rw [show 0 + t - 1 + 1 = (assemble path l.flatten map).length - 1 from by omega]
  rfl

/-- **C96**, partial: of every script whose code is a sequence of instructions, the header and each instruction are visited, in order and once each — and then the last byte
of the line map, as if it were an instruction. -/
theorem C96_visits_partial {path map : List UInt8} {l : List (List UInt8)} (hl : ∀ x ∈ l, Instr x) (h0 : l ≠ []) (hp : (0 : UInt8) ∉ path)
    (hs : (assemble path l.flatten map).length < 2 ^ 32) {c : UInt8} (hc : (assemble path l.flatten map).getLast? = some c) (hi : Instr [c]) {fuel : Nat} (hf : l.length + 2 < fuel) :
    disasm fuel (assemble path l.flatten map) = some (0 :: places (14 + path.length) l ++ [(assemble path l.flatten map).length - 1]) := by
  obtain ⟨t, m, hm, hmt, ht, e⟩ := disasm_script (map := map) hl h0 hp hs (fuel - l.length - 3 + 2)
  rw [show l.length + (fuel - l.length - 3 + 2) + 1 = fuel from by omega] at e
  rw [e]
  obtain ⟨pre, hpre⟩ : ∃ pre, assemble path l.flatten map = pre ++ [c] := by
    obtain ⟨pre, h⟩ := List.getLast?_eq_some_iff.1 hc
    exact ⟨pre, h⟩
  obtain ⟨h1, h2, _⟩ := single_instr hi pre []
  simp only [List.append_nil] at h1 h2
  have hpl : (assemble path l.flatten map).length = pre.length + 1 := by rw [hpre]; simp
  rw [hpl] at ht ⊢
  rw [hpre, Nat.add_sub_cancel]
  rw [show fuel - l.length - 3 + 2 = (fuel - l.length - 3 + 1) + 1 from rfl, Disasm.loop, if_pos (by simp), h1, Option.bind_some, if_neg h2]
  simp only [Option.bind_some]
  rw [if_neg (by simp; omega), Disasm.loop, if_neg (by simp)]
  rfl

/-- **C96 is violated**: if the last byte of the line map is the number of an opcode with operands, bytes behind the script are read. -/
theorem C96_violation_map {path map : List UInt8} {l : List (List UInt8)} (hl : ∀ x ∈ l, Instr x) (h0 : l ≠ []) (hp : (0 : UInt8) ∉ path)
    (hs : (assemble path l.flatten map).length < 2 ^ 32) {c : UInt8} (hc : (assemble path l.flatten map).getLast? = some c)
    (hi : c ∈ ([4, 5, 6, 7, 8, 11, 14, 15, 20, 24, 26, 31, 36] : List UInt8)) (fuel : Nat) : disasm (l.length + fuel + 1) (assemble path l.flatten map) = none := by
  obtain ⟨t, m, hm, hmt, ht, e⟩ := disasm_script (map := map) hl h0 hp hs fuel
  rw [e]
  obtain ⟨pre, hpre⟩ := List.getLast?_eq_some_iff.1 hc
  have hpl : (assemble path l.flatten map).length = pre.length + 1 := by rw [hpre]; simp
  rw [hpl, hpre, Nat.add_sub_cancel]
  cases fuel with
  | zero => rfl
  | succ fuel =>
    have hop : operand (pre ++ [c]) (pre.length + 1) = none := by
      unfold operand Varint.decodeUnsafe
      rw [List.drop_eq_nil_of_le (by simp)]
      unfold Varint.decode Varint.decodeLoop
      simp
    have hsing : single (pre ++ [c]) pre.length = none := by
      unfold single
      rw [show (pre ++ [c])[pre.length]? = some c from by simp, hop]
      have hb : bytesAt (pre ++ [c]) (pre.length + 1) 12 = none := by unfold bytesAt; rw [if_neg (by simp)]
      have hg : (pre ++ [c])[pre.length + 1]? = none := by simp
      simp only [hb, hg]
      simp only [List.mem_cons, List.not_mem_nil, or_false] at hi
      rcases hi with rfl | rfl | rfl | rfl | rfl | rfl | rfl | rfl | rfl | rfl | rfl | rfl | rfl <;> rfl
    rw [Disasm.loop, if_pos (by simp), hsing]
    rfl

/-- Non-vacuity: the script `1;` in a file called `a`, whose code is `PUSH_INT 1, EXIT` and whose line map is empty. -/
example : (∀ x ∈ ([[14, 1], [35]] : List (List UInt8)), Instr x) ∧ disasm 100 (assemble [97] [14, 1, 35] []) = some [0, 15, 17, 18] := by
  refine ⟨fun x hx => ?_, by decide +kernel⟩
  simp only [List.mem_cons, List.not_mem_nil, or_false] at hx
  rcases hx with rfl | rfl
  · have : vint 1 = [1] := by decide +kernel
    exact this ▸ Instr.num (op := 14) (n := 1) (by decide) (by decide)
  · exact .plain (by decide)

/-- The script of ten empty lines and `1;`: the line map says that line 11 begins at 0, and 11 is the number of `PUSH_STR`. -/
example : (assemble [97] [14, 1, 35] [0, 11]).getLast? = some 11 ∧ disasm 100 (assemble [97] [14, 1, 35] [0, 11]) = none := by decide +kernel

/-! ### The code of scripts -/

/-- A sequence of instructions. -/
def Seq (c : List UInt8) : Prop := ∃ l : List (List UInt8), (∀ x ∈ l, Instr x) ∧ l.flatten = c

theorem Seq.nil : Seq [] := ⟨[], by simp, rfl⟩

theorem Seq.first {x c : List UInt8} (hx : Instr x) (h : Seq c) : Seq (x ++ c) := by
  obtain ⟨l, h1, h2⟩ := h
  refine ⟨x :: l, fun y hy => ?_, by rw [List.flatten_cons, h2]⟩
  rcases List.mem_cons.1 hy with rfl | hy
  · exact hx
  · exact h1 y hy

theorem Seq.op {op : UInt8} {c : List UInt8} (h : op ∈ ([0, 1, 2, 3, 9, 10, 12, 13, 16, 17, 18, 19, 21, 22, 23, 25, 27, 28, 29, 30, 32, 33, 34, 35, 37, 38] : List UInt8)) (hc : Seq c) :
    Seq (op :: c) := Seq.first (.plain h) hc

theorem Seq.num {op : UInt8} {n : Nat} {c : List UInt8} (h : op ∈ ([4, 5, 6, 7, 8, 14, 20] : List UInt8)) (hn : n < 2 ^ 64) (hc : Seq c) : Seq (op :: (vint n ++ c)) :=
  Seq.first (.num h hn) hc

theorem Seq.str {op : UInt8} {s c : List UInt8} (h : op ∈ ([11, 15] : List UInt8)) (hs : s.length < 2 ^ 64) (hc : Seq c) : Seq (op :: (vint s.length ++ (s ++ c))) := by
  have := Seq.first (.str h hs) hc
  simpa using this

theorem Seq.loop {b k : Nat} {c : List UInt8} (hb : b < 2 ^ 64) (hk : k < 2 ^ 64) (hc : Seq c) : Seq (31 :: (vint b ++ (vint k ++ c))) := by
  have := Seq.first (.loop hb hk) hc
  simpa using this

theorem vint_0 : vint 0 = [0] := by decide +kernel

theorem Seq.loop0 {b : Nat} {c : List UInt8} (hb : b < 2 ^ 64) (hc : Seq c) : Seq (31 :: (vint b ++ (0 :: c))) := by
  have := Seq.loop (k := 0) hb (by decide) hc
  rw [vint_0] at this
  simpa using this

theorem Seq.expr {t : UInt8} {c : List UInt8} (hc : Seq c) : Seq (24 :: t :: c) := Seq.first (.expr (t := t)) hc

theorem seq_params : ∀ (ps : List Name) (i : Nat) {r : List UInt8}, i + (codeParams i ps).length < 2 ^ 64 → Seq r → Seq (codeParams i ps ++ r)
  | [], _, _, _, hr => hr
  | p :: ps, i, r, hl, hr => by
    simp only [codeParams, strB, List.append_assoc, List.cons_append, List.length_append, List.length_cons] at hl
    have := Seq.first (.arg (i := i) (s := p) (by omega) (by omega)) (seq_params ps (i + 1) (by omega) hr)
    simpa [codeParams, strB] using this

set_option linter.unusedVariables false in
set_option linter.unusedSimpArgs false in
mutual
theorem seq_E : ∀ (e : Expr) (r : List UInt8), NumE e → (code e).length < 2 ^ 64 → Seq r → Seq (code e ++ r)
  | .int n, r, hn, hl, hr => by
    simp only [NumE] at hn
    simp only [code, pushStr, strB, create, List.append_assoc, List.cons_append, List.nil_append, List.length_append, List.length_cons, List.length_nil] at hl
    simp only [code, pushStr, strB, create, List.append_assoc, List.cons_append, List.nil_append]
    exact .num (by decide) hn hr
  | .dbl t, r, hn, hl, hr => by
    simp only [code, pushStr, strB, create, List.append_assoc, List.cons_append, List.nil_append, List.length_append, List.length_cons, List.length_nil] at hl
    simp only [code, pushStr, strB, create, List.append_assoc, List.cons_append, List.nil_append]
    exact .str (by decide) (by (try simp only [List.length_append, List.length_cons, List.length_nil]); omega) hr
  | .str t, r, hn, hl, hr => by
    simp only [code, pushStr, strB, create, List.append_assoc, List.cons_append, List.nil_append, List.length_append, List.length_cons, List.length_nil] at hl
    simp only [code, pushStr, strB, create, List.append_assoc, List.cons_append, List.nil_append]
    exact .str (by decide) (by (try simp only [List.length_append, List.length_cons, List.length_nil]); omega) hr
  | .tru, r, _, _, hr => .op (by decide) hr
  | .fls, r, _, _, hr => .op (by decide) hr
  | .null, r, _, _, hr => .op (by decide) hr
  | .undef, r, _, _, hr => .op (by decide) hr
  | .this, r, _, _, hr => .op (by decide) hr
  | .get l, r, hn, hl, hr => by
    simp only [NumE] at hn
    simp only [code, pushStr, strB, create, List.append_assoc, List.cons_append, List.nil_append, List.length_append, List.length_cons, List.length_nil] at hl
    simp only [code, pushStr, strB, create, List.append_assoc, List.cons_append, List.nil_append]
    exact seq_L l _ hn (by (try simp only [List.length_append, List.length_cons, List.length_nil]); omega) (.op (by decide) hr)
  | .obj ps, r, hn, hl, hr => by
    simp only [NumE] at hn
    simp only [code, pushStr, strB, create, List.append_assoc, List.cons_append, List.nil_append, List.length_append, List.length_cons, List.length_nil] at hl
    simp only [code, pushStr, strB, create, List.append_assoc, List.cons_append, List.nil_append]
    exact .op (by decide) (seq_Props ps _ hn (by (try simp only [List.length_append, List.length_cons, List.length_nil]); omega) hr)
  | .arr es, r, hn, hl, hr => by
    simp only [NumE] at hn
    simp only [code, pushStr, strB, create, List.append_assoc, List.cons_append, List.nil_append, List.length_append, List.length_cons, List.length_nil] at hl
    simp only [code, pushStr, strB, create, List.append_assoc, List.cons_append, List.nil_append]
    exact .op (by decide) (seq_Items es _ hn (by (try simp only [List.length_append, List.length_cons, List.length_nil]); omega) hr)
  | .func _ none ps body, r, hn, hl, hr => by
    simp only [NumE] at hn
    simp only [code, pushStr, strB, create, List.append_assoc, List.cons_append, List.nil_append, List.length_append, List.length_cons, List.length_nil] at hl
    simp only [code, pushStr, strB, create, List.append_assoc, List.cons_append, List.nil_append]
    exact (.num (by decide) (by (try simp only [List.length_append, List.length_cons, List.length_nil]); omega) (.op (by decide) (seq_params ps 0 (by (try simp only [List.length_append, List.length_cons, List.length_nil]); omega) (seq_Ss body _ hn (by (try simp only [List.length_append, List.length_cons, List.length_nil]); omega) (.op (by decide) (.num (by decide) (by (try simp only [List.length_append, List.length_cons, List.length_nil]); omega) hr))))))
  | .func _ (some x) ps body, r, hn, hl, hr => by
    simp only [NumE] at hn
    simp only [code, pushStr, strB, create, List.append_assoc, List.cons_append, List.nil_append, List.length_append, List.length_cons, List.length_nil] at hl
    simp only [code, pushStr, strB, create, List.append_assoc, List.cons_append, List.nil_append]
    exact (.str (by decide) (by (try simp only [List.length_append, List.length_cons, List.length_nil]); omega) (.op (by decide) (.op (by decide) (.str (by decide) (by (try simp only [List.length_append, List.length_cons, List.length_nil]); omega) (.op (by decide) (.num (by decide) (by (try simp only [List.length_append, List.length_cons, List.length_nil]); omega) (.op (by decide) (seq_params ps 0 (by (try simp only [List.length_append, List.length_cons, List.length_nil]); omega) (seq_Ss body _ hn (by (try simp only [List.length_append, List.length_cons, List.length_nil]); omega) (.op (by decide) (.num (by decide) (by (try simp only [List.length_append, List.length_cons, List.length_nil]); omega) (.expr hr))))))))))))
  | .call f args, r, hn, hl, hr => by
    simp only [NumE] at hn
    simp only [code, pushStr, strB, create, List.append_assoc, List.cons_append, List.nil_append, List.length_append, List.length_cons, List.length_nil] at hl
    simp only [code, pushStr, strB, create, List.append_assoc, List.cons_append, List.nil_append]
    exact seq_E f _ hn.1 (by (try simp only [List.length_append, List.length_cons, List.length_nil]); omega) (.op (by decide) (seq_Args args _ hn.2 (by (try simp only [List.length_append, List.length_cons, List.length_nil]); omega) (.op (by decide) hr)))
  | .un op e, r, hn, hl, hr => by
    simp only [NumE] at hn
    simp only [code, pushStr, strB, create, List.append_assoc, List.cons_append, List.nil_append, List.length_append, List.length_cons, List.length_nil] at hl
    simp only [code, pushStr, strB, create, List.append_assoc, List.cons_append, List.nil_append]
    exact seq_E e _ hn (by (try simp only [List.length_append, List.length_cons, List.length_nil]); omega) (.expr hr)
  | .incr post plus l, r, hn, hl, hr => by
    simp only [NumE] at hn
    simp only [code, pushStr, strB, create, List.append_assoc, List.cons_append, List.nil_append, List.length_append, List.length_cons, List.length_nil] at hl
    simp only [code, pushStr, strB, create, List.append_assoc, List.cons_append, List.nil_append]
    exact seq_L l _ hn (by (try simp only [List.length_append, List.length_cons, List.length_nil]); omega) (.expr hr)
  | .bin op x y, r, hn, hl, hr => by
    simp only [NumE] at hn
    simp only [code, pushStr, strB, create, List.append_assoc, List.cons_append, List.nil_append, List.length_append, List.length_cons, List.length_nil] at hl
    simp only [code, pushStr, strB, create, List.append_assoc, List.cons_append, List.nil_append]
    exact seq_E x _ hn.1 (by (try simp only [List.length_append, List.length_cons, List.length_nil]); omega) (seq_E y _ hn.2 (by (try simp only [List.length_append, List.length_cons, List.length_nil]); omega) (.expr hr))
  | .and x y, r, hn, hl, hr => by
    simp only [NumE] at hn
    simp only [code, pushStr, strB, create, List.append_assoc, List.cons_append, List.nil_append, List.length_append, List.length_cons, List.length_nil] at hl
    simp only [code, pushStr, strB, create, List.append_assoc, List.cons_append, List.nil_append]
    exact seq_E x _ hn.1 (by (try simp only [List.length_append, List.length_cons, List.length_nil]); omega) (.num (by decide) (by (try simp only [List.length_append, List.length_cons, List.length_nil]); omega) (.op (by decide) (seq_E y _ hn.2 (by (try simp only [List.length_append, List.length_cons, List.length_nil]); omega) hr)))
  | .or x y, r, hn, hl, hr => by
    simp only [NumE] at hn
    simp only [code, pushStr, strB, create, List.append_assoc, List.cons_append, List.nil_append, List.length_append, List.length_cons, List.length_nil] at hl
    simp only [code, pushStr, strB, create, List.append_assoc, List.cons_append, List.nil_append]
    exact seq_E x _ hn.1 (by (try simp only [List.length_append, List.length_cons, List.length_nil]); omega) (.num (by decide) (by (try simp only [List.length_append, List.length_cons, List.length_nil]); omega) (.op (by decide) (seq_E y _ hn.2 (by (try simp only [List.length_append, List.length_cons, List.length_nil]); omega) hr)))
  | .cond c x y, r, hn, hl, hr => by
    simp only [NumE] at hn
    simp only [code, pushStr, strB, create, List.append_assoc, List.cons_append, List.nil_append, List.length_append, List.length_cons, List.length_nil] at hl
    simp only [code, pushStr, strB, create, List.append_assoc, List.cons_append, List.nil_append]
    exact seq_E c _ hn.1 (by (try simp only [List.length_append, List.length_cons, List.length_nil]); omega) (.num (by decide) (by (try simp only [List.length_append, List.length_cons, List.length_nil]); omega) (seq_E x _ hn.2.1 (by (try simp only [List.length_append, List.length_cons, List.length_nil]); omega) (.num (by decide) (by (try simp only [List.length_append, List.length_cons, List.length_nil]); omega) (.op (by decide) (seq_E y _ hn.2.2 (by (try simp only [List.length_append, List.length_cons, List.length_nil]); omega) hr)))))
  | .assign op l e, r, hn, hl, hr => by
    simp only [NumE] at hn
    simp only [code, pushStr, strB, create, List.append_assoc, List.cons_append, List.nil_append, List.length_append, List.length_cons, List.length_nil] at hl
    simp only [code, pushStr, strB, create, List.append_assoc, List.cons_append, List.nil_append]
    exact seq_L l _ hn.1 (by (try simp only [List.length_append, List.length_cons, List.length_nil]); omega) (seq_E e _ hn.2 (by (try simp only [List.length_append, List.length_cons, List.length_nil]); omega) (.expr hr))
theorem seq_L : ∀ (l : Lval) (r : List UInt8), NumL l → (codeL l).length < 2 ^ 64 → Seq r → Seq (codeL l ++ r)
  | .var x, r, hn, hl, hr => by
    simp only [codeL, pushStr, strB, create, List.append_assoc, List.cons_append, List.nil_append, List.length_append, List.length_cons, List.length_nil] at hl
    simp only [codeL, pushStr, strB, create, List.append_assoc, List.cons_append, List.nil_append]
    exact (.str (by decide) (by (try simp only [List.length_append, List.length_cons, List.length_nil]); omega) (.op (by decide) hr))
  | .dot e x, r, hn, hl, hr => by
    simp only [NumL] at hn
    simp only [codeL, pushStr, strB, create, List.append_assoc, List.cons_append, List.nil_append, List.length_append, List.length_cons, List.length_nil] at hl
    simp only [codeL, pushStr, strB, create, List.append_assoc, List.cons_append, List.nil_append]
    exact seq_E e _ hn (by (try simp only [List.length_append, List.length_cons, List.length_nil]); omega) (.str (by decide) (by (try simp only [List.length_append, List.length_cons, List.length_nil]); omega) (.op (by decide) hr))
  | .index e k, r, hn, hl, hr => by
    simp only [NumL] at hn
    simp only [codeL, pushStr, strB, create, List.append_assoc, List.cons_append, List.nil_append, List.length_append, List.length_cons, List.length_nil] at hl
    simp only [codeL, pushStr, strB, create, List.append_assoc, List.cons_append, List.nil_append]
    exact seq_E e _ hn.1 (by (try simp only [List.length_append, List.length_cons, List.length_nil]); omega) (seq_E k _ hn.2 (by (try simp only [List.length_append, List.length_cons, List.length_nil]); omega) (.op (by decide) hr))
theorem seq_Args : ∀ (es : List Expr) (r : List UInt8), NumEs es → (Code.codes es).length < 2 ^ 64 → Seq r → Seq (Code.codes es ++ r)
  | [], _, _, _, hr => hr
  | e :: es, r, hn, hl, hr => by
    simp only [NumEs] at hn
    simp only [Code.codes, pushStr, strB, create, List.append_assoc, List.cons_append, List.nil_append, List.length_append, List.length_cons, List.length_nil] at hl
    simp only [Code.codes, pushStr, strB, create, List.append_assoc, List.cons_append, List.nil_append]
    exact seq_E e _ hn.1 (by (try simp only [List.length_append, List.length_cons, List.length_nil]); omega) (seq_Args es _ hn.2 (by (try simp only [List.length_append, List.length_cons, List.length_nil]); omega) hr)
theorem seq_Items : ∀ (es : List Expr) (r : List UInt8), NumEs es → (codeItems es).length < 2 ^ 64 → Seq r → Seq (codeItems es ++ r)
  | [], _, _, _, hr => hr
  | e :: es, r, hn, hl, hr => by
    simp only [NumEs] at hn
    simp only [codeItems, pushStr, strB, create, List.append_assoc, List.cons_append, List.nil_append, List.length_append, List.length_cons, List.length_nil] at hl
    simp only [codeItems, pushStr, strB, create, List.append_assoc, List.cons_append, List.nil_append]
    exact (.op (by decide) (seq_E e _ hn.1 (by (try simp only [List.length_append, List.length_cons, List.length_nil]); omega) (.op (by decide) (seq_Items es _ hn.2 (by (try simp only [List.length_append, List.length_cons, List.length_nil]); omega) hr))))
theorem seq_Props : ∀ (es : List (Name × Expr)) (r : List UInt8), NumProps es → (codeProps es).length < 2 ^ 64 → Seq r → Seq (codeProps es ++ r)
  | [], _, _, _, hr => hr
  | (k, e) :: es, r, hn, hl, hr => by
    simp only [NumProps] at hn
    simp only [codeProps, pushStr, strB, create, List.append_assoc, List.cons_append, List.nil_append, List.length_append, List.length_cons, List.length_nil] at hl
    simp only [codeProps, pushStr, strB, create, List.append_assoc, List.cons_append, List.nil_append]
    exact (.op (by decide) (.str (by decide) (by (try simp only [List.length_append, List.length_cons, List.length_nil]); omega) (.op (by decide) (seq_E e _ hn.1 (by (try simp only [List.length_append, List.length_cons, List.length_nil]); omega) (.expr (.op (by decide) (seq_Props es _ hn.2 (by (try simp only [List.length_append, List.length_cons, List.length_nil]); omega) hr)))))))
theorem seq_More : ∀ (es : List Expr) (r : List UInt8), NumEs es → (codeMore es).length < 2 ^ 64 → Seq r → Seq (codeMore es ++ r)
  | [], _, _, _, hr => hr
  | e :: es, r, hn, hl, hr => by
    simp only [NumEs] at hn
    simp only [codeMore, pushStr, strB, create, List.append_assoc, List.cons_append, List.nil_append, List.length_append, List.length_cons, List.length_nil] at hl
    simp only [codeMore, pushStr, strB, create, List.append_assoc, List.cons_append, List.nil_append]
    exact (.op (by decide) (seq_E e _ hn.1 (by (try simp only [List.length_append, List.length_cons, List.length_nil]); omega) (seq_More es _ hn.2 (by (try simp only [List.length_append, List.length_cons, List.length_nil]); omega) hr)))
theorem seq_Let (x : Name) : ∀ (i : Option Expr) (r : List UInt8), NumO i → (codeLet x i).length < 2 ^ 64 → Seq r → Seq (codeLet x i ++ r)
  | none, r, hn, hl, hr => by
    simp only [codeLet, pushStr, strB, create, List.append_assoc, List.cons_append, List.nil_append, List.length_append, List.length_cons, List.length_nil] at hl
    simp only [codeLet, pushStr, strB, create, List.append_assoc, List.cons_append, List.nil_append]
    exact (.str (by decide) (by (try simp only [List.length_append, List.length_cons, List.length_nil]); omega) (.op (by decide) (.op (by decide) (.op (by decide) hr))))
  | some e, r, hn, hl, hr => by
    simp only [NumO] at hn
    simp only [codeLet, pushStr, strB, create, List.append_assoc, List.cons_append, List.nil_append, List.length_append, List.length_cons, List.length_nil] at hl
    simp only [codeLet, pushStr, strB, create, List.append_assoc, List.cons_append, List.nil_append]
    exact (.str (by decide) (by (try simp only [List.length_append, List.length_cons, List.length_nil]); omega) (.op (by decide) (.op (by decide) (.str (by decide) (by (try simp only [List.length_append, List.length_cons, List.length_nil]); omega) (.op (by decide) (seq_E e _ hn (by (try simp only [List.length_append, List.length_cons, List.length_nil]); omega) (.expr hr)))))))
theorem seq_Lets : ∀ (es : List (Name × Option Expr)) (r : List UInt8), NumLets es → (codeLets es).length < 2 ^ 64 → Seq r → Seq (codeLets es ++ r)
  | [], _, _, _, hr => hr
  | (x, i) :: es, r, hn, hl, hr => by
    simp only [NumLets] at hn
    simp only [codeLets, pushStr, strB, create, List.append_assoc, List.cons_append, List.nil_append, List.length_append, List.length_cons, List.length_nil] at hl
    simp only [codeLets, pushStr, strB, create, List.append_assoc, List.cons_append, List.nil_append]
    exact (.op (by decide) (seq_Let x i _ hn.1 (by (try simp only [List.length_append, List.length_cons, List.length_nil]); omega) (seq_Lets es _ hn.2 (by (try simp only [List.length_append, List.length_cons, List.length_nil]); omega) hr)))
theorem seq_S : ∀ (s : Stmt) (r : List UInt8), NumS s → (codeS s).length < 2 ^ 64 → Seq r → Seq (codeS s ++ r)
  | .empty, r, _, _, hr => .op (by decide) hr
  | .exprs e es, r, hn, hl, hr => by
    simp only [NumS] at hn
    simp only [codeS, pushStr, strB, create, List.append_assoc, List.cons_append, List.nil_append, List.length_append, List.length_cons, List.length_nil] at hl
    simp only [codeS, pushStr, strB, create, List.append_assoc, List.cons_append, List.nil_append]
    exact seq_E e _ hn.1 (by (try simp only [List.length_append, List.length_cons, List.length_nil]); omega) (seq_More es _ hn.2 (by (try simp only [List.length_append, List.length_cons, List.length_nil]); omega) hr)
  | .lets x i ds, r, hn, hl, hr => by
    simp only [NumS] at hn
    simp only [codeS, pushStr, strB, create, List.append_assoc, List.cons_append, List.nil_append, List.length_append, List.length_cons, List.length_nil] at hl
    simp only [codeS, pushStr, strB, create, List.append_assoc, List.cons_append, List.nil_append]
    exact seq_Let x i _ hn.1 (by (try simp only [List.length_append, List.length_cons, List.length_nil]); omega) (seq_Lets ds _ hn.2 (by (try simp only [List.length_append, List.length_cons, List.length_nil]); omega) hr)
  | .block ss, r, hn, hl, hr => by
    simp only [NumS] at hn
    simp only [codeS, pushStr, strB, create, List.append_assoc, List.cons_append, List.nil_append, List.length_append, List.length_cons, List.length_nil] at hl
    simp only [codeS, pushStr, strB, create, List.append_assoc, List.cons_append, List.nil_append]
    exact (.op (by decide) (seq_Ss ss _ hn (by (try simp only [List.length_append, List.length_cons, List.length_nil]); omega) (.op (by decide) hr)))
  | .ite c t, r, hn, hl, hr => by
    simp only [NumS] at hn
    simp only [codeS, pushStr, strB, create, List.append_assoc, List.cons_append, List.nil_append, List.length_append, List.length_cons, List.length_nil] at hl
    simp only [codeS, pushStr, strB, create, List.append_assoc, List.cons_append, List.nil_append]
    exact seq_E c _ hn.1 (by (try simp only [List.length_append, List.length_cons, List.length_nil]); omega) (.num (by decide) (by (try simp only [List.length_append, List.length_cons, List.length_nil]); omega) (seq_S t _ hn.2 (by (try simp only [List.length_append, List.length_cons, List.length_nil]); omega) hr))
  | .itee c t u, r, hn, hl, hr => by
    simp only [NumS] at hn
    simp only [codeS, pushStr, strB, create, List.append_assoc, List.cons_append, List.nil_append, List.length_append, List.length_cons, List.length_nil] at hl
    simp only [codeS, pushStr, strB, create, List.append_assoc, List.cons_append, List.nil_append]
    exact seq_E c _ hn.1 (by (try simp only [List.length_append, List.length_cons, List.length_nil]); omega) (.num (by decide) (by (try simp only [List.length_append, List.length_cons, List.length_nil]); omega) (seq_S t _ hn.2.1 (by (try simp only [List.length_append, List.length_cons, List.length_nil]); omega) (.num (by decide) (by (try simp only [List.length_append, List.length_cons, List.length_nil]); omega) (.op (by decide) (seq_S u _ hn.2.2 (by (try simp only [List.length_append, List.length_cons, List.length_nil]); omega) hr)))))
  | .while c body, r, hn, hl, hr => by
    simp only [NumS] at hn
    simp only [codeS, pushStr, strB, create, List.append_assoc, List.cons_append, List.nil_append, List.length_append, List.length_cons, List.length_nil] at hl
    simp only [codeS, pushStr, strB, create, List.append_assoc, List.cons_append, List.nil_append]
    exact (.op (by decide) (.loop0 (by (try simp only [List.length_append, List.length_cons, List.length_nil]); omega) (seq_E c _ hn.1 (by (try simp only [List.length_append, List.length_cons, List.length_nil]); omega) (.num (by decide) (by (try simp only [List.length_append, List.length_cons, List.length_nil]); omega) (seq_Ss body _ hn.2 (by (try simp only [List.length_append, List.length_cons, List.length_nil]); omega) (.op (by decide) (.op (by decide) (.op (by decide) (.op (by decide) hr)))))))))
  | .for init c inc body, r, hn, hl, hr => by
    simp only [NumS] at hn
    simp only [codeS, pushStr, strB, create, List.append_assoc, List.cons_append, List.nil_append, List.length_append, List.length_cons, List.length_nil] at hl
    simp only [codeS, pushStr, strB, create, List.append_assoc, List.cons_append, List.nil_append]
    exact (.op (by decide) (.loop (by (try simp only [List.length_append, List.length_cons, List.length_nil]); omega) (by (try simp only [List.length_append, List.length_cons, List.length_nil]); omega) (seq_S init _ hn.1 (by (try simp only [List.length_append, List.length_cons, List.length_nil]); omega) (.op (by decide) (.num (by decide) (by (try simp only [List.length_append, List.length_cons, List.length_nil]); omega) (seq_E inc _ hn.2.2.1 (by (try simp only [List.length_append, List.length_cons, List.length_nil]); omega) (.op (by decide) (seq_E c _ hn.2.1 (by (try simp only [List.length_append, List.length_cons, List.length_nil]); omega) (.num (by decide) (by (try simp only [List.length_append, List.length_cons, List.length_nil]); omega) (seq_Ss body _ hn.2.2.2 (by (try simp only [List.length_append, List.length_cons, List.length_nil]); omega) (.op (by decide) (.op (by decide) (.op (by decide) (.op (by decide) hr))))))))))))))
  | .forIn true x e body, r, hn, hl, hr => by
    simp only [NumS] at hn
    simp only [codeS, if_true, ↓reduceIte, pushStr, strB, create, List.append_assoc, List.cons_append, List.nil_append, List.length_append, List.length_cons, List.length_nil] at hl
    simp only [codeS, if_true, ↓reduceIte, pushStr, strB, create, List.append_assoc, List.cons_append, List.nil_append]
    exact (.op (by decide) (.str (by decide) (by (try simp only [List.length_append, List.length_cons, List.length_nil]); omega) (.op (by decide) (.op (by decide) (.str (by decide) (by (try simp only [List.length_append, List.length_cons, List.length_nil]); omega) (seq_E e _ hn.1 (by (try simp only [List.length_append, List.length_cons, List.length_nil]); omega) (.op (by decide) (.loop0 (by (try simp only [List.length_append, List.length_cons, List.length_nil]); omega) (.op (by decide) (.op (by decide) (.num (by decide) (by (try simp only [List.length_append, List.length_cons, List.length_nil]); omega) (seq_Ss body _ hn.2 (by (try simp only [List.length_append, List.length_cons, List.length_nil]); omega) (.op (by decide) (.op (by decide) (.op (by decide) (.op (by decide) (.op (by decide) (.op (by decide) (.op (by decide) hr)))))))))))))))))))
  | .forIn false x e body, r, hn, hl, hr => by
    simp only [NumS] at hn
    simp only [codeS, if_false, Bool.false_eq_true, ↓reduceIte, pushStr, strB, create, List.append_assoc, List.cons_append, List.nil_append, List.length_append, List.length_cons, List.length_nil] at hl
    simp only [codeS, if_false, Bool.false_eq_true, ↓reduceIte, pushStr, strB, create, List.append_assoc, List.cons_append, List.nil_append]
    exact (.op (by decide) (.str (by decide) (by (try simp only [List.length_append, List.length_cons, List.length_nil]); omega) (seq_E e _ hn.1 (by (try simp only [List.length_append, List.length_cons, List.length_nil]); omega) (.op (by decide) (.loop0 (by (try simp only [List.length_append, List.length_cons, List.length_nil]); omega) (.op (by decide) (.op (by decide) (.num (by decide) (by (try simp only [List.length_append, List.length_cons, List.length_nil]); omega) (seq_Ss body _ hn.2 (by (try simp only [List.length_append, List.length_cons, List.length_nil]); omega) (.op (by decide) (.op (by decide) (.op (by decide) (.op (by decide) (.op (by decide) (.op (by decide) (.op (by decide) hr))))))))))))))))
  | .break, r, _, _, hr => .op (by decide) (.op (by decide) hr)
  | .continue, r, _, _, hr => .op (by decide) hr
  | .ret none, r, _, _, hr => .op (by decide) (.op (by decide) (.op (by decide) hr))
  | .ret (some e), r, hn, hl, hr => by
    simp only [NumS, NumO] at hn
    simp only [codeS, pushStr, strB, create, List.append_assoc, List.cons_append, List.nil_append, List.length_append, List.length_cons, List.length_nil] at hl
    simp only [codeS, pushStr, strB, create, List.append_assoc, List.cons_append, List.nil_append]
    exact seq_E e _ hn (by (try simp only [List.length_append, List.length_cons, List.length_nil]); omega) (.op (by decide) (.op (by decide) hr))
theorem seq_Ss : ∀ (ss : List Stmt) (r : List UInt8), NumSs ss → (codeSs ss).length < 2 ^ 64 → Seq r → Seq (codeSs ss ++ r)
  | [], r, _, _, hr => .op (by decide) hr
  | t :: ss, r, hn, hl, hr => by
    simp only [NumSs] at hn
    simp only [codeSs, pushStr, strB, create, List.append_assoc, List.cons_append, List.nil_append, List.length_append, List.length_cons, List.length_nil] at hl
    simp only [codeSs, pushStr, strB, create, List.append_assoc, List.cons_append, List.nil_append]
    exact seq_S t _ hn.1 (by (try simp only [List.length_append, List.length_cons, List.length_nil]); omega) (seq_Rest ss _ hn.2 (by (try simp only [List.length_append, List.length_cons, List.length_nil]); omega) hr)
theorem seq_Rest : ∀ (ss : List Stmt) (r : List UInt8), NumSs ss → (codeRest ss).length < 2 ^ 64 → Seq r → Seq (codeRest ss ++ r)
  | [], _, _, _, hr => hr
  | t :: ss, r, hn, hl, hr => by
    simp only [NumSs] at hn
    simp only [codeRest, pushStr, strB, create, List.append_assoc, List.cons_append, List.nil_append, List.length_append, List.length_cons, List.length_nil] at hl
    simp only [codeRest, pushStr, strB, create, List.append_assoc, List.cons_append, List.nil_append]
    exact (.op (by decide) (seq_S t _ hn.1 (by (try simp only [List.length_append, List.length_cons, List.length_nil]); omega) (seq_Rest ss _ hn.2 (by (try simp only [List.length_append, List.length_cons, List.length_nil]); omega) hr)))
end

/-- **C96**: the code of every script is a sequence of instructions, so that the theorems above apply to every script. -/
theorem C96_scripts {body : List Stmt} (hn : NumSs body) (hl : (codeScript body).length < 2 ^ 32) : ∃ l, (∀ x ∈ l, Instr x) ∧ l ≠ [] ∧ l.flatten = codeScript body := by
  unfold codeScript at hl ⊢
  simp only [List.length_append] at hl
  obtain ⟨l, h1, h2⟩ := seq_Ss body [EXIT] hn (by omega) (.op (by decide) .nil)
  refine ⟨l, h1, ?_, h2⟩
  rintro rfl
  have := congrArg List.length h2
  simp at this

/-- **C96**, partial: in terms of scripts. -/
theorem C96_script_partial {s : Script} (hn : NumSs s.body) (hp : (0 : UInt8) ∉ s.path) (hs : s.bytes.length < 2 ^ 32) {c : UInt8} (hc : s.bytes.getLast? = some c) :
    ∃ l, (∀ x ∈ l, Instr x) ∧ l.flatten = codeScript s.body ∧
      (Instr [c] → ∀ fuel, l.length + 2 < fuel → disasm fuel s.bytes = some (0 :: places s.start l ++ [s.bytes.length - 1])) ∧
      (c ∈ ([4, 5, 6, 7, 8, 11, 14, 15, 20, 24, 26, 31, 36] : List UInt8) → ∀ fuel, l.length < fuel → disasm fuel s.bytes = none) := by
  have hlen : (codeScript s.body).length < 2 ^ 32 := by
    unfold Script.bytes assemble at hs
    simp only [List.length_append] at hs
    omega
  obtain ⟨l, h1, h0, h2⟩ := C96_scripts hn hlen
  unfold Script.bytes at hs hc ⊢
  rw [← h2] at hs hc
  refine ⟨l, h1, h2, fun hi fuel hf => ?_, fun hi fuel hf => ?_⟩
  · rw [← h2]; exact C96_visits_partial h1 h0 hp hs hc hi hf
  · rw [← h2]
    have := C96_violation_map h1 h0 hp hs hc hi (fuel - l.length - 1)
    rwa [show l.length + (fuel - l.length - 1) + 1 = fuel from by omega] at this

/-- Non-vacuity: the scripts `1;` and `for (let k in {}) 1;`. -/
example : NumSs [.exprs (.int 1) []] ∧ codeScript [.exprs (.int 1) []] = [14, 1, 35] ∧ NumSs [.forIn true [107] (.obj []) [.exprs (.int 1) []]] := by
  refine ⟨by simp [NumSs, NumS, NumE, NumEs], by decide +kernel, by simp [NumSs, NumS, NumE, NumEs, NumProps]⟩

end Mjs.Props
