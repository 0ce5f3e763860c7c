import Verif.Model.Printf
import Verif.Spec.Numeral

namespace Mjs.Printf

/-- The memory after the text `T` was written to a buffer of `W` bytes. -/
def overlay (mem : List UInt8) (W : Nat) (T : List UInt8) : List UInt8 := T.take W ++ mem.drop (min T.length W)

theorem overlay_length (mem : List UInt8) (W : Nat) (T : List UInt8) (h : W ≤ mem.length) :
    (overlay mem W T).length = mem.length := by
  simp [overlay]; omega

theorem overlay_nil (mem : List UInt8) (W : Nat) : overlay mem W [] = mem := by simp [overlay]

theorem putChar_overlay (mem : List UInt8) (W off k : Nat) (T : List UInt8) (ch : UInt8) (hW : W ≤ mem.length)
    (hT : T.length = off + k) :
    putChar off ((W : Int) - off) (overlay mem W T, k) ch = some (overlay mem W (T ++ [ch]), k + 1) := by
  unfold putChar
  simp only
  have hl := overlay_length mem W T hW
  by_cases hlt : off + k < W
  · rw [if_pos (by omega), if_pos (by omega)]
    congr 2
    unfold overlay
    rw [List.take_of_length_le (by omega), List.take_of_length_le (by simp; omega), List.length_append,
      Nat.min_eq_left (by omega), Nat.min_eq_left (by simp; omega), ← hT, List.set_append_right _ _ (Nat.le_refl _), Nat.sub_self,
      List.append_assoc]
    congr 1
    have hd : mem.drop T.length = mem[T.length]'(by omega) :: mem.drop (T.length + 1) := by
      rw [List.drop_eq_getElem_cons]
    rw [hd]; rfl
  · rw [if_neg (by omega)]
    congr 2
    unfold overlay
    rw [List.take_append_of_le_length (by omega), List.length_append, Nat.min_eq_right (by omega), Nat.min_eq_right (by omega)]

theorem putChars_overlay (mem : List UInt8) (W off : Nat) (t : List UInt8) (k : Nat) (T : List UInt8) (hW : W ≤ mem.length)
    (hT : T.length = off + k) :
    t.foldlM (putChar off ((W : Int) - off)) (overlay mem W T, k) = some (overlay mem W (T ++ t), k + t.length) := by
  induction t generalizing k T with
  | nil => simp
  | cons c t ih =>
    rw [List.foldlM_cons, putChar_overlay mem W off k T c hW hT]
    simp only [Option.bind_eq_bind, Option.bind_some]
    rw [ih (k + 1) (T ++ [c]) (by simp; omega)]
    simp; omega

theorem putChars_overlay0 (mem : List UInt8) (W : Nat) (t : List UInt8) (T : List UInt8) (hW : W ≤ mem.length) :
    t.foldlM (putChar 0 (W : Int)) (overlay mem W T, T.length) = some (overlay mem W (T ++ t), (T ++ t).length) := by
  have := putChars_overlay mem W 0 t T.length T hW (by omega)
  rw [show (W : Int) - ((0 : Nat) : Int) = W by omega] at this
  rw [this, List.length_append]

/-- The text of one conversion. -/
def convText (c : Conv) : Arg → Option (List UInt8)
  | .str s => if c.ch = 115 then strText c s else none
  | .int n =>
    if c.ch = 99 then some [UInt8.ofNat ((n % 256).toNat)]
    else if c.ch = 112 then (itoaTmp ((BitVec.ofInt 64 n).toInt) 16 (by decide) c.zero 0).map fun t => 48 :: 120 :: t.reverse
    else (fetched c n).bind fun r =>
      if hb : 2 ≤ r.2 then (itoaTmp r.1 r.2 hb c.zero c.width).map List.reverse else none

/-- The text of a whole format. -/
def text (fmt : List UInt8) (args : List Arg) : Option (List UInt8) :=
  match fmt with
  | [] => some []
  | ch :: fmt =>
    if ch ≠ 37 then (text fmt args).map (ch :: ·)
    else
      match _h : parseConv fmt args with
      | none => none
      | some (c, fmt', args') =>
        match args' with
        | [] => none
        | a :: args'' => (convText c a).bind fun t => (text fmt' args'').map (t ++ ·)
termination_by fmt.length
decreasing_by
  · simp
  · have := parseConv_length _h; simp only [List.length_cons]; omega

theorem text_lit {ch : UInt8} (h : ch ≠ 37) (fmt : List UInt8) (args : List Arg) :
    text (ch :: fmt) args = (text fmt args).map (ch :: ·) := by
  rw [text, if_pos h]

theorem text_conv (fmt : List UInt8) (args : List Arg) : text (37 :: fmt) args =
    (parseConv fmt args).bind fun r => match r.2.2 with
      | [] => none
      | a :: args'' => (convText r.1 a).bind fun t => (text r.2.1 args'').map (t ++ ·) := by
  rw [text, if_neg (by decide)]
  split
  · rename_i h; rw [h]; rfl
  · rename_i c fmt' args' h
    cases args' <;> simp [h]

theorem loop_conv (W : Nat) (fmt : List UInt8) (args : List Arg) (st : List UInt8 × Nat) : loop W (37 :: fmt) args st =
    (parseConv fmt args).bind fun r => match r.2.2 with
      | [] => none
      | a :: args'' => (convert W r.1 st a).bind fun st' => loop W r.2.1 args'' st' := by
  rw [loop, if_neg (by decide)]
  split
  · rename_i h; rw [h]; rfl
  · rename_i c fmt' args' h
    cases args' <;> simp [h]

theorem itoa_overlay (mem : List UInt8) (W : Nat) (T : List UInt8) (hW : W ≤ mem.length) (num : Int) (base : Nat) (hb : 2 ≤ base)
    (zero : Bool) (width : Int) :
    (itoa (overlay mem W T) T.length ((W : Int) - T.length) num base hb zero width).map (fun r => (r.1, T.length + r.2)) =
      (itoaTmp num base hb zero width).map fun t => (overlay mem W (T ++ t.reverse), (T ++ t.reverse).length) := by
  unfold itoa
  cases itoaTmp num base hb zero width with
  | none => rfl
  | some tmp =>
    simp only [Option.bind_some, Option.map_some]
    rw [putChars_overlay mem W T.length tmp.reverse 0 T hW rfl]
    simp

theorem convert_overlay (mem : List UInt8) (W : Nat) (T : List UInt8) (hW : W ≤ mem.length) (c : Conv) (a : Arg) :
    convert W c (overlay mem W T, T.length) a =
      (convText c a).map fun t => (overlay mem W (T ++ t), (T ++ t).length) := by
  cases a with
  | str s =>
    simp only [convert, convText]
    split
    · cases strText c s with
      | none => rfl
      | some t => exact putChars_overlay0 mem W t T hW
    · rfl
  | int n =>
    have put1 : ∀ ch (T : List UInt8), putChar 0 (W : Int) (overlay mem W T, T.length) ch =
        some (overlay mem W (T ++ [ch]), (T ++ [ch]).length) := by
      intro ch T
      have := putChars_overlay0 mem W [ch] T hW
      simpa using this
    simp only [convert, convText]
    split
    · rw [put1]; rfl
    · split
      · rw [put1]
        simp only [Option.bind_some]
        rw [put1]
        simp only [Option.bind_some]
        have := itoa_overlay mem W ((T ++ [48]) ++ [120]) hW ((BitVec.ofInt 64 n).toInt) 16 (by decide) c.zero 0
        rw [this, Option.map_map]
        congr 1
        funext t
        simp
      · cases fetched c n with
        | none => rfl
        | some r =>
          simp only [Option.bind_some]
          split
          · rename_i hb
            rw [itoa_overlay mem W T hW, Option.map_map]
            rfl
          · rfl

theorem loop_overlay (mem : List UInt8) (W : Nat) (hW : W ≤ mem.length) (fmt : List UInt8) (args : List Arg) (T : List UInt8) :
    loop W fmt args (overlay mem W T, T.length) =
      (text fmt args).map fun t => (overlay mem W (T ++ t), (T ++ t).length) := by
  induction hn : fmt.length using Nat.strongRecOn generalizing fmt args T with
  | ind n ih =>
    cases fmt with
    | nil => rw [loop, text]; simp
    | cons ch fmt =>
      by_cases hch : ch = 37
      · subst hch
        rw [loop_conv, text_conv]
        cases h : parseConv fmt args with
        | none => rfl
        | some r =>
          obtain ⟨c, fmt', args'⟩ := r
          have hl := parseConv_length h
          simp only [Option.bind_some]
          cases args' with
          | nil => rfl
          | cons a args'' =>
            simp only
            rw [convert_overlay mem W T hW]
            cases convText c a with
            | none => rfl
            | some t =>
              simp only [Option.map_some, Option.bind_some]
              rw [ih fmt'.length (by simp at hn; omega) fmt' args'' (T ++ t) rfl, Option.map_map]
              congr 1
              funext t'
              simp
      · rw [loop, text_lit hch, if_pos hch]
        have := putChars_overlay0 mem W [ch] T hW
        simp only [List.foldlM_cons, List.foldlM_nil, Option.bind_eq_bind, Option.pure_def, Option.bind_fun_some] at this
        rw [this, Option.bind_some, ih fmt.length (by simp at hn; omega) fmt args (T ++ [ch]) rfl, Option.map_map]
        congr 1
        funext t
        simp

theorem vsnprintf_text (mem : List UInt8) (W : Nat) (hW : W ≤ mem.length) (fmt : List UInt8) (args : List Arg) :
    vsnprintf mem W fmt args = (text fmt args).map fun t =>
      (if W = 0 then mem else t.take (W - 1) ++ 0 :: mem.drop (min (t.length + 1) W), t.length) := by
  have := loop_overlay mem W hW fmt args []
  rw [overlay_nil] at this
  simp only [List.length_nil, List.nil_append] at this
  unfold vsnprintf
  rw [this]
  cases text fmt args with
  | none => rfl
  | some t =>
    simp only [Option.map_some, Option.bind_some]
    have hl := overlay_length mem W t hW
    by_cases h0 : W = 0
    · subst h0; simp [overlay]
    · rw [if_pos (by omega), if_neg h0]
      split
      · rename_i hi
        rw [if_pos (by omega)]
        congr 2
        unfold overlay
        rw [List.take_of_length_le (by omega), List.take_of_length_le (by omega), Nat.min_eq_left (by omega),
          Nat.min_eq_left (by omega), List.set_append_right _ _ (Nat.le_refl _), Nat.sub_self]
        rw [List.drop_eq_getElem_cons (by omega : t.length < mem.length)]; rfl
      · rename_i hi
        rw [if_pos (by omega)]
        congr 2
        unfold overlay
        rw [Nat.min_eq_right (by omega), Nat.min_eq_right (by omega), List.set_append_left _ _ (by simp; omega)]
        have : t.take W = t.take (W - 1) ++ [t[W - 1]'(by omega)] := by
          conv => lhs; rw [show W = (W - 1) + 1 by omega]
          rw [List.take_add_one, List.getElem?_eq_getElem (by omega)]; rfl
        rw [this, List.set_append_right _ _ (by simp; omega), List.append_assoc]
        congr 1
        have : W - 1 - (t.take (W - 1)).length = 0 := by simp; omega
        rw [this]; rfl

/-! ### Numerals -/
open Spec.Numeral

theorem digit_char (base rem : Nat) (h : rem < base) (hb : base ≤ 36) :
    Spec.Numeral.digit (if rem < 10 then UInt8.ofNat (48 + rem) else UInt8.ofNat (97 + (rem - 10))) = some rem := by
  unfold Spec.Numeral.digit
  split
  · rw [UInt8.toNat_ofNat', Nat.mod_eq_of_lt (by omega), if_pos (by omega)]; congr 1; omega
  · rw [UInt8.toNat_ofNat', Nat.mod_eq_of_lt (by omega), if_neg (by omega), if_pos (by omega)]; congr 1; omega

theorem digitsRev_value (num base : Nat) (h : 2 ≤ base) (hb : base ≤ 36) : Value base (digitsRev num base h).reverse num := by
  induction num using Nat.strongRecOn with
  | ind num ih =>
    rw [digitsRev]
    have hm := Nat.mod_lt num (show 0 < base by omega)
    have hd := digit_char base (num % base) hm hb
    split
    · rename_i hn
      have := ih (num / base) (Nat.div_lt_self (Nat.pos_of_div_pos hn) h)
      rw [List.reverse_cons]
      have := Value.snoc this hd hm
      rwa [Nat.mul_comm, Nat.div_add_mod] at this
    · rename_i hn
      have h0 : num / base = 0 := Nat.eq_zero_of_not_pos hn
      have := Value.snoc (Value.nil (base := base)) hd hm
      have e : 0 * base + num % base = num := by
        have := Nat.div_add_mod num base; rw [h0] at this; omega
      rw [e] at this
      exact this

theorem digitsRev_ne_nil (num base : Nat) (h : 2 ≤ base) : digitsRev num base h ≠ [] := by
  rw [digitsRev]; split <;> simp

theorem digitsRev_last (num base : Nat) (h : 2 ≤ base) (hb : base ≤ 36) (h0 : num ≠ 0) :
    (digitsRev num base h).getLast? ≠ some 48 := by
  induction num using Nat.strongRecOn with
  | ind num ih =>
    rw [digitsRev]
    split
    · rename_i hn
      have := ih (num / base) (Nat.div_lt_self (Nat.pos_of_div_pos hn) h) (Nat.ne_of_gt hn)
      rw [List.getLast?_cons]
      have hne := digitsRev_ne_nil (num / base) base h
      cases hx : (digitsRev (num / base) base h).getLast? with
      | none => rw [List.getLast?_eq_none_iff] at hx; exact absurd hx hne
      | some y => rw [hx] at this; simpa using this
    · rename_i hn
      have h00 : num / base = 0 := Nat.eq_zero_of_not_pos hn
      have hm := Nat.mod_lt num (show 0 < base by omega)
      have e : num % base = num := by
        have := Nat.div_add_mod num base; rw [h00] at this; omega
      have hd := digit_char base (num % base) hm hb
      intro hc
      simp only [List.getLast?_singleton, Option.some.injEq] at hc
      rw [hc, e] at hd
      have : Spec.Numeral.digit 48 = some 0 := by decide
      rw [this] at hd
      cases hd
      exact h0 rfl

theorem digitsRev_zero (base : Nat) (h : 2 ≤ base) : digitsRev 0 base h = [48] := by
  rw [digitsRev]; simp

theorem digitsRev_numeral (num base : Nat) (h : 2 ≤ base) (hb : base ≤ 36) :
    Spec.Numeral.Nat base num (digitsRev num base h).reverse := by
  refine ⟨digitsRev_value num base h hb, by simpa using digitsRev_ne_nil num base h, ?_⟩
  intro hh
  by_cases h0 : num = 0
  · subst h0; rw [digitsRev_zero]; rfl
  · rw [List.head?_reverse] at hh
    exact absurd hh (digitsRev_last num base h hb h0)

theorem digitsRev_length (num base : Nat) (h : 2 ≤ base) (k : Nat) (hk : num < base ^ (k + 1)) :
    (digitsRev num base h).length ≤ k + 1 := by
  induction k generalizing num with
  | zero =>
    rw [digitsRev]
    rw [dif_neg]
    · simp
    · have : num / base = 0 := Nat.div_eq_of_lt (by simpa using hk)
      omega
  | succ k ih =>
    rw [digitsRev]
    split
    · have := ih (num / base) (by
        rw [Nat.div_lt_iff_lt_mul (by omega)]
        rwa [Nat.pow_succ] at hk)
      simp only [List.length_cons]; omega
    · simp

/-- A number without padding comes out as its numeral. -/
theorem itoaTmp_numeral (num : Int) (base : Nat) (hb : 2 ≤ base) (hb' : base ≤ 36) (width : Int) (h1 : -2 ^ 63 < num)
    (h2 : num < 2 ^ 63) (hbase : base = 10 ∨ base = 16) :
    ∃ tmp, itoaTmp num base hb false width = some tmp ∧ Spec.Numeral.Int base num tmp.reverse := by
  have hlen : (digitsRev num.natAbs base hb).length ≤ 19 := by
    refine digitsRev_length _ _ hb 18 ?_
    rcases hbase with rfl | rfl
    · have : (2:Nat)^63 < 10^(18+1) := by decide
      omega
    · have : (2:Nat)^63 < 16^(18+1) := by decide
      omega
  unfold itoaTmp
  rw [if_neg (by omega)]
  have hnum := digitsRev_numeral num.natAbs base hb hb'
  simp only [Bool.false_eq_true, if_false]
  unfold Spec.Numeral.Int
  by_cases hneg : num < 0
  · simp only [if_pos hneg]
    rw [if_pos (by simp; omega)]
    refine ⟨_, rfl, _, by rw [List.reverse_append]; rfl, hnum⟩
  · simp only [if_neg hneg]
    rw [if_pos (by omega)]
    exact ⟨_, rfl, hnum⟩

end Mjs.Printf
