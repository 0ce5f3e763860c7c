import Verif.Model.Json
import Verif.Lemmas.Array

/-!
# The JSON parser stays in the text and ends
-/

namespace Mjs.Json
open Mjs Mjs.Spec

/-! ### Index texts -/

theorem digitChar_dec {d : Nat} (h : d < 10) : UInt8.ofNat (Nat.digitChar d).toNat = UInt8.ofNat (48 + d) := by
  have : d = 0 ∨ d = 1 ∨ d = 2 ∨ d = 3 ∨ d = 4 ∨ d = 5 ∨ d = 6 ∨ d = 7 ∨ d = 8 ∨ d = 9 := by omega
  rcases this with h | h | h | h | h | h | h | h | h | h <;> subst h <;> rfl

/-- The digits of the index. -/
def dec (i : Nat) : List UInt8 := (Nat.toDigits 10 i).map fun c => UInt8.ofNat c.toNat

theorem indexText_eq (i : Nat) : indexText i = 91 :: (dec i ++ [93]) := rfl

theorem digit_ofNat {d : Nat} (h : d < 10) : Numeral.digit (UInt8.ofNat (48 + d)) = some d := by
  have : d = 0 ∨ d = 1 ∨ d = 2 ∨ d = 3 ∨ d = 4 ∨ d = 5 ∨ d = 6 ∨ d = 7 ∨ d = 8 ∨ d = 9 := by omega
  rcases this with h | h | h | h | h | h | h | h | h | h <;> subst h <;> rfl

theorem dec_value (i : Nat) : Numeral.Value 10 (dec i) i ∧ dec i ≠ [] ∧ (i ≠ 0 → (dec i).head? ≠ some 48) := by
  induction i using Nat.strongRecOn with
  | _ i ih =>
    by_cases h : i < 10
    · have e : dec i = [UInt8.ofNat (48 + i)] := by
        simp only [dec, Nat.toDigits_of_lt_base h, List.map_cons, List.map_nil, digitChar_dec h]
      rw [e]
      refine ⟨?_, by simp, fun h0 => ?_⟩
      · have := Numeral.Value.snoc (base := 10) .nil (digit_ofNat h) h
        simpa using this
      · intro hc
        have hc : UInt8.ofNat (48 + i) = 48 := by simpa using hc
        have := congrArg UInt8.toNat hc
        simp at this; omega
    · have e : dec i = dec (i / 10) ++ [UInt8.ofNat (48 + i % 10)] := by
        simp only [dec]
        rw [Nat.toDigits_of_base_le (by omega) (by omega), List.map_append, List.map_cons, List.map_nil,
          digitChar_dec (Nat.mod_lt _ (by omega))]
      obtain ⟨h1, h2, h3⟩ := ih (i / 10) (by omega)
      rw [e]
      refine ⟨?_, by simp, fun _ => ?_⟩
      · have := Numeral.Value.snoc h1 (digit_ofNat (Nat.mod_lt i (by omega : 10 > 0))) (Nat.mod_lt i (by omega))
        rwa [show i / 10 * 10 + i % 10 = i by omega] at this
      · have h3 := h3 (by omega)
        cases hd : dec (i / 10) with
        | nil => exact absurd hd h2
        | cons a b => rw [hd] at h3; simpa using h3

theorem dec_numeral (i : Nat) : Numeral.Nat 10 i (dec i) := by
  obtain ⟨h1, h2, h3⟩ := dec_value i
  refine ⟨h1, h2, fun h => ?_⟩
  by_cases h0 : i = 0
  · subst h0; rfl
  · exact absurd h (h3 h0)

theorem dec_length {i : Nat} (h : i < 10 ^ 10) : (dec i).length ≤ 10 := by
  rw [dec, List.length_map]
  exact (Nat.length_toDigits_le_iff (by omega) (by omega)).2 h

/-! ### Staying in the text -/

variable {σ : Type}

/-- What a parsing function may do from state `s`: on success it is at a later position of the text, at least `k` bytes
further, with the same path; `B` and `D` say when undefined behaviour and an exhausted stack are possible. -/
def Good (B D : Prop) (k : Nat) (s : S σ) : Res σ → Prop
  | .ok s' => s'.rest <:+ s.rest ∧ s'.rest.length + k ≤ s.rest.length ∧ s'.path = s.path
  | .err _ _ => True
  | .ub => B
  | .deep => D
  | .endless => False

theorem Good.mono {B D B' D' : Prop} {k k' : Nat} {s : S σ} {r : Res σ} (h : Good B D k s r) (hB : B → B') (hD : D → D')
    (hk : k' ≤ k) : Good B' D' k' s r := by
  cases r with
  | ok s' => exact ⟨h.1, by have := h.2.1; omega, h.2.2⟩
  | err => trivial
  | ub => exact hB h
  | deep => exact hD h
  | endless => exact h

/-- Composition. -/
theorem Good.bind {B D : Prop} {k k' : Nat} {s : S σ} {r : Res σ} {f : S σ → Res σ} (h : Good B D k s r)
    (hf : ∀ s', s'.rest <:+ s.rest → s'.rest.length + k ≤ s.rest.length → s'.path = s.path → Good B D k' s (f s')) :
    Good B D k' s (r.bind f) := by
  cases r with
  | ok s' => exact hf s' h.1 h.2.1 h.2.2
  | err => trivial
  | ub => exact h
  | deep => exact h
  | endless => exact h

/-- A later start. -/
theorem Good.from {B D : Prop} {k k' j : Nat} {s s' : S σ} {r : Res σ} (h : Good B D k s' r) (hs : s'.rest <:+ s.rest)
    (hl : s'.rest.length + j ≤ s.rest.length) (hp : s'.path = s.path) (hk : k' ≤ k + j) : Good B D k' s r := by
  cases r with
  | ok s'' => exact ⟨h.1.trans hs, by have := h.2.1; omega, h.2.2.trans hp⟩
  | err => trivial
  | ub => exact h
  | deep => exact h
  | endless => exact h

theorem skip_suffix (s : S σ) : (skip s).rest <:+ s.rest := List.dropWhile_suffix _
theorem skip_path (s : S σ) : (skip s).path = s.path := rfl
theorem skip_ctx (s : S σ) : (skip s).ctx = s.ctx := rfl
theorem skip_name (s : S σ) : (skip s).name = s.name := rfl
theorem skip_length (s : S σ) : (skip s).rest.length ≤ s.rest.length := (skip_suffix s).length_le

variable {cb : σ → Event → Option σ}

/-- The callback may fail. -/
def CbFails (cb : σ → Event → Option σ) : Prop := ∃ c e, cb c e = none

theorem callBack_bind {B D : Prop} {k : Nat} {f : S σ → Res σ} (hB : CbFails cb → B) (s : S σ) (t : TokT) (ptr : List UInt8)
    (len : Nat) (hf : ∀ s', s'.rest = s.rest → s'.path = s.path → Good B D k s (f s')) :
    Good B D k s ((callBack cb s t ptr len).bind f) := by
  unfold callBack
  split
  · exact hf s rfl rfl
  · split
    · rename_i h; exact hB ⟨_, _, h⟩
    · exact hf _ rfl rfl

theorem callBack_good {B D : Prop} (hB : CbFails cb → B) (s : S σ) (t : TokT) (ptr : List UInt8) (len : Nat) :
    Good B D 0 s (callBack cb s t ptr len) := by
  unfold callBack
  split
  · exact ⟨List.suffix_rfl, Nat.le_refl _, rfl⟩
  · split
    · rename_i h; exact hB ⟨_, _, h⟩
    · exact ⟨List.suffix_rfl, Nat.le_refl _, rfl⟩

theorem testAndSkip_good {B D : Prop} (s : S σ) (c : UInt8) : Good B D 1 s (testAndSkip s c) := by
  unfold testAndSkip
  dsimp only
  split
  · rename_i h
    refine ⟨(List.drop_suffix _ _).trans (skip_suffix s), ?_, rfl⟩
    cases hr : (skip s).rest with
    | nil => rw [hr] at h; simp at h
    | cons a b =>
      have := skip_length s
      simp only [advance, hr, List.length_drop, List.length_cons] at *
      omega
  · trivial

/-- Where the string loop may end. -/
def ScanOk (r : List UInt8) (k : Nat) : Scan → Prop
  | .close j => k ≤ j ∧ j - k < r.length
  | .fail _ => True
  | .ub => r.getLast? = some 92
  | .endless => False

theorem charLen_pos (c : UInt8) : 1 ≤ charLen c := by
  unfold charLen
  split
  · omega
  split
  · omega
  split <;> omega

theorem escapeLen_le {t : List UInt8} {len m : Nat} (h : escapeLen t len = some (.ok m)) : m + 1 ≤ len := by
  cases t with
  | nil => simp [escapeLen] at h
  | cons c u =>
    simp only [escapeLen, Option.some.injEq] at h
    revert h
    split
    · split
      · intro h; cases h
      split <;> intro h <;> cases h
      omega
    split
    · split <;> intro h <;> cases h
      omega
    · intro h; cases h

/-- The string loop ends inside the text; it reads outside only if the text ends in a backslash. -/
theorem scanStr_good : ∀ (n : Nat) (r : List UInt8) (k : Nat), r.length < n → ScanOk r k (scanStr n r k)
  | 0, r, k, h => by omega
  | n + 1, [], k, _ => by simp [scanStr, ScanOk]
  | n + 1, c :: t, k, h => by
    have hl := charLen_pos c
    have step : ∀ m, 1 ≤ m → m ≤ t.length + 1 → ScanOk (c :: t) k (scanStr n ((c :: t).drop m) (k + m)) := by
      intro m h1 h2
      have := scanStr_good n ((c :: t).drop m) (k + m) (by simp only [List.length_drop, List.length_cons] at *; omega)
      revert this
      cases scanStr n ((c :: t).drop m) (k + m) with
      | close j => simp only [ScanOk, List.length_drop, List.length_cons]; omega
      | fail => exact fun h => h
      | ub =>
        intro h
        simp only [ScanOk, List.getLast?_drop] at h
        split at h
        · cases h
        · exact h
      | endless => exact fun h => h
    simp only [scanStr]
    split
    · trivial
    split
    · trivial
    rename_i hle
    simp only [List.length_cons] at hle
    split
    · rename_i hc
      split
      · rename_i he
        cases t with
        | nil => simp [ScanOk, hc]
        | cons a u => simp [escapeLen] at he
      · trivial
      · rename_i m hm
        have := escapeLen_le hm
        have hcl : charLen c = 1 := by rw [hc]; rfl
        simp only [List.length_cons] at this
        exact step (charLen c + m) (by omega) (by omega)
    split
    · exact ⟨Nat.le_refl _, by simp⟩
    · exact step (charLen c) hl (by omega)

theorem advance_good {B D : Prop} {k : Nat} {s s' : S σ} (hr : s'.rest = s.rest) (hp : s'.path = s.path) (h : k ≤ s.rest.length) :
    Good B D k s (.ok (advance s' k)) :=
  ⟨by rw [← hr]; exact List.drop_suffix _ _, by simp only [advance, List.length_drop, hr]; omega, hp⟩

theorem last_suffix {r t : List UInt8} {c : UInt8} (h : r <:+ t) (hl : r.getLast? = some c) : t.getLast? = some c := by
  obtain ⟨p, rfl⟩ := h
  rw [List.getLast?_append, hl]; rfl

theorem parseString_good {B D : Prop} (hB : CbFails cb → B) (s : S σ) (hE : s.rest.getLast? = some 92 → B) :
    Good B D 1 s (parseString cb s) := by
  unfold parseString
  refine (testAndSkip_good (B := B) (D := D) s 34).bind fun s1 hs hl hp => ?_
  have := scanStr_good (s1.rest.length + 1) s1.rest 0 (by omega)
  revert this
  cases scanStr (s1.rest.length + 1) s1.rest 0 with
  | close k =>
    intro h
    refine Good.from (callBack_bind hB s1 .string s1.rest k (k := k + 1) fun s2 hr2 hp2 => ?_) hs hl hp (by omega)
    exact advance_good hr2 hp2 (by have := h.2; omega)
  | fail => exact fun _ => trivial
  | ub => exact fun h => hE (last_suffix hs h)
  | endless => exact fun h => h

theorem skip_good {B D : Prop} {k : Nat} {s : S σ} {r : Res σ} (h : Good B D k (skip s) r) : Good B D k s r :=
  h.from (j := 0) (skip_suffix s) (skip_length s) rfl (by omega)

theorem takeWhile_length_le (f : UInt8 → Bool) (r : List UInt8) : (r.takeWhile f).length ≤ r.length :=
  (List.takeWhile_prefix f).length_le

theorem parseIdentifier_good {B D : Prop} (hB : CbFails cb → B) (s : S σ) : Good B D 1 s (parseIdentifier cb s) := by
  unfold parseIdentifier
  refine skip_good ?_
  dsimp only
  split
  · rename_i c t hr
    split
    · rename_i ha
      refine callBack_bind hB _ _ _ _ fun s2 hr2 hp2 => Good.mono (advance_good hr2 hp2 (takeWhile_length_le _ _)) id id ?_
      rw [hr]
      simp [ha]
    · trivial
  · trivial

theorem run_le (f : UInt8 → Bool) (r : List UInt8) : run f r ≤ r.length := takeWhile_length_le f r

theorem digits1_le {f : UInt8 → Bool} {r : List UInt8} {n : Nat} (h : digits1 f r = .ok n) : n ≤ r.length ∧ 1 ≤ n := by
  unfold digits1 at h
  split at h
  · cases h
  · rename_i c t
    split at h
    · rename_i hf
      cases h
      exact ⟨run_le f _, by simp [run, hf]⟩
    · cases h

theorem map_ok {ε α β : Type} {x : Except ε α} {f : α → β} {b : β} (h : x.map f = .ok b) : ∃ a, x = .ok a ∧ f a = b := by
  cases x with
  | error => cases h
  | ok a => exact ⟨a, rfl, by simpa [Except.map] using h⟩

theorem fraction_le {r : List UInt8} {n : Nat} (h : fraction r = .ok n) : n ≤ r.length := by
  unfold fraction at h
  split at h
  · obtain ⟨a, ha, rfl⟩ := map_ok h
    have := (digits1_le ha).1
    simp only [List.length_cons]; omega
  · cases h; omega

theorem exponent_le {r : List UInt8} {n : Nat} (h : exponent r = .ok n) : n ≤ r.length := by
  unfold exponent at h
  split at h
  · split at h
    · split at h
      · cases h
      · split at h
        · obtain ⟨a, ha, rfl⟩ := map_ok h
          have := (digits1_le ha).1
          simp only [List.length_cons]; omega
        · obtain ⟨a, ha, rfl⟩ := map_ok h
          have := (digits1_le ha).1
          simp only [List.length_cons] at *; omega
    · cases h; omega
  · cases h; omega

theorem bind_ok {ε α β : Type} {x : Except ε α} {f : α → Except ε β} {b : β} (h : x.bind f = .ok b) :
    ∃ a, x = .ok a ∧ f a = .ok b := by
  cases x with
  | error => cases h
  | ok a => exact ⟨a, rfl, h⟩

theorem scanNumber_le {r : List UInt8} {n : Nat} (h : scanNumber r = .ok n) : n ≤ r.length ∧ 1 ≤ n := by
  have hm : ∀ m, (if r.head? = some 45 then 1 else 0) = m → m ≤ r.length := by
    intro m hm
    cases r with
    | nil => simp at hm; omega
    | cons a b => simp only [List.length_cons]; split at hm <;> omega
  revert h
  simp only [scanNumber]
  generalize he : (if r.head? = some 45 then 1 else 0) = m
  have hm := hm m he
  have hd := List.length_drop (i := m) (l := r)
  generalize r.drop m = q at *
  split
  · intro h; cases h
  split
  · intro h
    obtain ⟨a, ha, h⟩ := bind_ok h
    cases h
    have := digits1_le ha
    rw [List.length_drop] at this
    omega
  · intro h
    obtain ⟨a, ha, h⟩ := bind_ok h
    obtain ⟨f, hf, h⟩ := bind_ok h
    obtain ⟨e, he, h⟩ := bind_ok h
    cases h
    have h1 := digits1_le ha
    have h2 := fraction_le hf
    have h3 := exponent_le he
    rw [List.length_drop] at h2 h3
    omega

theorem parseNumber_good {B D : Prop} (hB : CbFails cb → B) (s : S σ) : Good B D 1 s (parseNumber cb s) := by
  unfold parseNumber
  refine skip_good ?_
  dsimp only
  split
  · trivial
  · rename_i k hk
    have := scanNumber_le hk
    exact callBack_bind hB _ _ _ _ fun s2 hr2 hp2 => Good.mono (advance_good hr2 hp2 this.1) id id this.2

theorem expect_good {B D : Prop} (hB : CbFails cb → B) (s : S σ) (w : List UInt8) (t : TokT) (hw : w ≠ []) :
    Good B D 1 s (expect cb s w t) := by
  unfold expect
  split
  · rename_i h
    have hl := congrArg List.length h
    rw [List.length_take] at hl
    have : 1 ≤ w.length := by cases w with
      | nil => exact absurd rfl hw
      | cons a b => simp
    exact callBack_bind hB _ _ _ _ fun s2 hr2 hp2 => Good.mono (advance_good hr2 hp2 (by omega)) id id this
  split <;> trivial

theorem skipComma_suffix (s : S σ) : (skipComma s).rest <:+ s.rest := by
  unfold skipComma
  dsimp only
  split
  · exact (List.drop_suffix _ _).trans (skip_suffix s)
  · exact skip_suffix s

theorem skipComma_path (s : S σ) : (skipComma s).path = s.path := by unfold skipComma; dsimp only; split <;> rfl

theorem parseKey_good {B D : Prop} (hB : CbFails cb → B) (s : S σ) (hE : s.rest.getLast? = some 92 → B) :
    Good B D 1 s (parseKey cb s) := by
  unfold parseKey
  refine skip_good ?_
  dsimp only
  split
  · split
    · exact parseIdentifier_good hB _
    split
    · exact parseString_good hB _ fun h => hE (last_suffix (skip_suffix s) h)
    · trivial
  · trivial

/-! ### Containers -/

/-- The states in which a value of `text` is parsed. -/
structure At (B : Prop) (text : List UInt8) (s : S σ) : Prop where
  rest : s.rest <:+ text
  path : s.path.length ≤ 255
  nul : (0 : UInt8) ∈ s.path → B

theorem At.later {B : Prop} {text : List UInt8} {s s' : S σ} (h : At B text s) (hr : s'.rest <:+ s.rest) (hp : s'.path = s.path) :
    At B text s' := ⟨hr.trans h.rest, by rw [hp]; exact h.path, by rw [hp]; exact h.nul⟩

theorem append_at {B : Prop} {text w : List UInt8} {s : S σ} (h : At B text s) (hw : (0 : UInt8) ∈ w → B) :
    At B text (append s w) := by
  refine ⟨h.rest, ?_, fun hm => ?_⟩
  · have := h.path
    simp only [append, List.length_append, List.length_take]; omega
  · simp only [append, List.mem_append] at hm
    rcases hm with hm | hm
    · exact h.nul hm
    · exact hw (List.mem_of_mem_take hm)

theorem dec_noNul (i : Nat) : (0 : UInt8) ∉ dec i := Arr.numeral_noNul (dec_numeral i)

theorem indexText_noNul (i : Nat) : (0 : UInt8) ∉ indexText i := by
  rw [indexText_eq]
  simp [dec_noNul i]

theorem takeWhile_noNul {l : List UInt8} (h : (0 : UInt8) ∉ l) : l.takeWhile (· ≠ 0) = l := by
  induction l with
  | nil => rfl
  | cons a b ih =>
    simp only [List.mem_cons, not_or] at h
    rw [List.takeWhile_cons_of_pos (by simpa using Ne.symm h.1), ih h.2]

theorem elemName_ub {B : Prop} {text : List UInt8} {s : S σ} {i : Nat} (h : At B text s) (hi : i < 10 ^ 10)
    (he : elemName (append s (indexText i)).path (indexText i) = none) : B := by
  by_cases h0 : (0 : UInt8) ∈ (append s (indexText i)).path
  · exact (append_at h fun h => absurd h (indexText_noNul i)).nul h0
  · exfalso
    simp only [elemName, takeWhile_noNul h0] at he
    split at he
    · rename_i hl
      have := dec_length hi
      have := h.path
      simp only [append, indexText_eq, List.length_append, List.length_take, List.length_cons, List.length_nil] at hl
      omega
    · cases he

/-- `pv` parses values in the text, with room for `d` nested calls. -/
def PvGood (B : Prop) (text : List UInt8) (d : Nat) (pv : S σ → Res σ) : Prop :=
  ∀ s, At B text s → Good B (d ≤ s.rest.length) 1 s (pv s)

/-- A part of a function that works with a longer path. -/
theorem Good.inner {B D : Prop} {k k' : Nat} {s s1 : S σ} {r : Res σ} (h : Good B D k s1 r)
    (hr : s1.rest = s.rest) {p : List UInt8} (hp : s1.path = s.path ++ p) {f : S σ → Res σ}
    (hf : ∀ s', s'.rest <:+ s.rest → s'.rest.length + k ≤ s.rest.length → s'.path = s.path → Good B D k' s (f s')) :
    Good B D k' s (r.bind fun s' => (truncate s' s.path.length).bind f) := by
  cases r with
  | ok s' =>
    obtain ⟨h1, h2, h3⟩ := h
    rw [hr] at h1 h2
    have hl : s.path.length ≤ s'.path.length := by rw [h3, hp, List.length_append]; omega
    simp only [Res.bind, truncate, hl, if_true]
    exact hf _ h1 h2 (by simp [h3, hp])
  | err => trivial
  | ub => exact h
  | deep => exact h
  | endless => exact h

theorem arrLoop_good {B : Prop} {text : List UInt8} {d : Nat} {pv : S σ → Res σ} (hpv : PvGood B text d pv) (ht : text.length < 2 ^ 31) :
    ∀ (n i L : Nat) (s : S σ), At B text s → s.rest.length < n → i + s.rest.length ≤ text.length → s.rest.length < L →
      Good B (d < L) 0 s (arrLoop pv n i s)
  | 0, _, _, s, _, h, _, _ => by omega
  | n + 1, i, L, s, hs, hn, hi, hL => by
    simp only [arrLoop]
    have hs' : At B text (skip s) := hs.later (skip_suffix s) rfl
    have hl := skip_length s
    split
    · exact ⟨skip_suffix s, hl, rfl⟩
    · split
      · rename_i he
        exact elemName_ub hs' (by omega) he
      · rename_i nm _
        refine skip_good ?_
        have hv := hpv { append (skip s) (indexText i) with name := some nm }
          ⟨hs'.rest, (append_at hs' fun h => absurd h (indexText_noNul i)).path,
            (append_at hs' fun h => absurd h (indexText_noNul i)).nul⟩
        refine Good.inner (s := skip s) (hv.mono id (fun h => Nat.lt_of_le_of_lt h (Nat.lt_of_le_of_lt hl hL)) (Nat.le_refl 1)) rfl rfl fun s3 h1 h2 h3 => ?_
        have hc := skipComma_suffix s3
        have hcl := hc.length_le
        have := arrLoop_good hpv ht n (i + 1) L (skipComma s3) (hs'.later (hc.trans h1) ((skipComma_path s3).trans h3)) (by omega)
          (by omega) (by omega)
        exact this.from (j := 0) (hc.trans h1) (by omega) ((skipComma_path s3).trans h3) (by omega)

theorem parseArray_good {B : Prop} {text : List UInt8} {d : Nat} {pv : S σ → Res σ} (hB : CbFails cb → B) (hpv : PvGood B text d pv)
    (ht : text.length < 2 ^ 31) (s : S σ) (hs : At B text s) : Good B (d < s.rest.length) 1 s (parseArray cb pv s) := by
  unfold parseArray
  refine callBack_bind hB _ _ _ _ fun s0 hr0 hp0 => ?_
  have h1 := (testAndSkip_good (B := B) (D := d < s.rest.length) s0 91)
  refine Good.from (s' := s0) (j := 0) (h1.bind (k' := 1) fun s1 hs1 hl1 hp1 => ?_) (by rw [hr0]; exact List.suffix_rfl) (by rw [hr0]; omega) hp0 (by omega)
  have hs1' : At B text s1 := hs.later (hr0 ▸ hs1) (hp1.trans hp0)
  have hle := hs.rest.length_le
  have := arrLoop_good hpv ht (s1.rest.length + 1) 0 s.rest.length s1 hs1' (by omega) (by rw [hr0] at hl1; omega) (by rw [hr0] at hl1; omega)
  refine Good.from (this.bind (k' := 0) fun s2 hs2 hl2 hp2 => ?_) hs1 hl1 hp1 (by omega)
  refine Good.from ((testAndSkip_good (B := B) (D := d < s.rest.length) s2 93).bind (k' := 0) fun s3 hs3 hl3 hp3 => ?_) hs2 hl2 hp2 (by omega)
  have hp : s3.path = s1.path := hp3.trans hp2
  simp only [truncate, hp, Nat.le_refl, if_true, Res.bind, List.take_length]
  exact Good.from (callBack_good hB _ _ _ _) hs3 (j := 1) hl3 (hp ▸ hp3) (by omega)

theorem parsePair_good {B : Prop} {text : List UInt8} {d : Nat} {pv : S σ → Res σ} (hB : CbFails cb → B) (hpv : PvGood B text d pv)
    (h0 : (0 : UInt8) ∈ text → B) (hE : text.getLast? = some 92 → B) (s : S σ) (hs : At B text s) :
    Good B (d ≤ s.rest.length) 1 s (parsePair cb pv s) := by
  unfold parsePair
  refine skip_good ?_
  have hs' : At B text (skip s) := hs.later (skip_suffix s) rfl
  have hl := skip_length s
  refine (parseKey_good (D := d ≤ s.rest.length) hB (skip s) fun h => hE (last_suffix hs'.rest h)).bind fun s1 hs1 hl1 hp1 => ?_
  dsimp only
  refine Good.from (s' := s1) (k := 0) (j := 1) ?_ hs1 hl1 hp1 (by omega)
  generalize hnm : keyName (skip s).rest ((skip s).rest.length - s1.rest.length) = nm
  have hn0 : (0 : UInt8) ∈ nm → B := by
    intro hm
    refine h0 (hs'.rest.subset ?_)
    rw [← hnm, keyName] at hm
    split at hm
    · exact List.mem_of_mem_drop (List.mem_of_mem_take hm)
    · exact List.mem_of_mem_take hm
  have ha : At B text (append { s1 with name := some nm } nm) :=
    append_at ⟨hs1.trans hs'.rest, by show s1.path.length ≤ 255; rw [hp1]; exact hs'.path, by show (0 : UInt8) ∈ s1.path → B; rw [hp1]; exact hs'.nul⟩ hn0
  have ht := testAndSkip_good (B := B) (D := d ≤ s.rest.length) (append { s1 with name := some nm } nm) 58
  have hall : Good B (d ≤ s.rest.length) 0 (append { s1 with name := some nm } nm)
      ((testAndSkip (append { s1 with name := some nm } nm) 58).bind pv) := by
    refine ht.bind fun s2 hs2 hl2 hp2 => ?_
    have := hpv s2 (ha.later hs2 hp2)
    refine (Good.from (this.mono id (fun h => ?_) (Nat.le_refl 1)) hs2 hl2 hp2 (by omega))
    have : (append { s1 with name := some nm } nm).rest = s1.rest := rfl
    rw [this] at hl2
    omega
  have hfin := Good.inner (s := s1) (f := fun s => .ok s) (k' := 0) hall rfl rfl fun s' h1 h2 h3 => ⟨h1, h2, h3⟩
  have assoc : ∀ (r : Res σ) (f g : S σ → Res σ), (r.bind f).bind g = r.bind fun s => (f s).bind g := by
    intro r f g; cases r <;> rfl
  have hid : ∀ r : Res σ, (r.bind fun s => .ok s) = r := by intro r; cases r <;> rfl
  simp only [hid] at hfin
  rw [assoc] at hfin
  exact hfin

theorem objLoop_good {B : Prop} {text : List UInt8} {d : Nat} {pv : S σ → Res σ} (hB : CbFails cb → B) (hpv : PvGood B text d pv)
    (h0 : (0 : UInt8) ∈ text → B) (hE : text.getLast? = some 92 → B) :
    ∀ (n L : Nat) (s : S σ), At B text s → s.rest.length < n → s.rest.length < L → Good B (d < L) 0 s (objLoop cb pv n s)
  | 0, _, s, _, h, _ => by omega
  | n + 1, L, s, hs, hn, hL => by
    simp only [objLoop]
    have hs' : At B text (skip s) := hs.later (skip_suffix s) rfl
    have hl := skip_length s
    split
    · exact ⟨skip_suffix s, hl, rfl⟩
    · refine skip_good ?_
      have := parsePair_good hB hpv h0 hE (skip s) hs'
      refine (this.mono (D' := d < L) id (fun h => by omega) (Nat.le_refl 1)).bind fun s3 h1 h2 h3 => ?_
      have hc := skipComma_suffix s3
      have hcl := hc.length_le
      have := objLoop_good hB hpv h0 hE n L (skipComma s3) (hs'.later (hc.trans h1) ((skipComma_path s3).trans h3)) (by omega) (by omega)
      exact this.from (j := 0) (hc.trans h1) (by omega) ((skipComma_path s3).trans h3) (by omega)

theorem parseObject_good {B : Prop} {text : List UInt8} {d : Nat} {pv : S σ → Res σ} (hB : CbFails cb → B) (hpv : PvGood B text d pv)
    (h0 : (0 : UInt8) ∈ text → B) (hE : text.getLast? = some 92 → B) (s : S σ) (hs : At B text s) :
    Good B (d < s.rest.length) 1 s (parseObject cb pv s) := by
  unfold parseObject
  refine callBack_bind hB _ _ _ _ fun s0 hr0 hp0 => ?_
  have h1 := (testAndSkip_good (B := B) (D := d < s.rest.length) s0 123)
  refine Good.from (s' := s0) (j := 0) (h1.bind (k' := 1) fun s1 hs1 hl1 hp1 => ?_) (by rw [hr0]; exact List.suffix_rfl) (by rw [hr0]; omega) hp0 (by omega)
  have hs1' : At B text s1 := hs.later (hr0 ▸ hs1) (hp1.trans hp0)
  have ha : At B text (append s1 [46]) := append_at hs1' (by simp)
  have hL := objLoop_good hB hpv h0 hE (s1.rest.length + 1) s.rest.length (append s1 [46]) ha (Nat.lt_succ_self _) (by
    show s1.rest.length < _; rw [hr0] at hl1; omega)
  have hT : Good B (d < s.rest.length) 0 (append s1 [46]) ((objLoop cb pv (s1.rest.length + 1) (append s1 [46])).bind fun s2 => testAndSkip s2 125) := by
    refine hL.bind fun s2 hs2 hl2 hp2 => ?_
    exact Good.from (testAndSkip_good s2 125) hs2 hl2 hp2 (by omega)
  have assoc : ∀ (r : Res σ) (f g : S σ → Res σ), (r.bind f).bind g = r.bind fun s => (f s).bind g := by
    intro r f g; cases r <;> rfl
  have hfin := Good.inner (s := s1) (k' := 0) (f := fun s4 => callBack cb s4 .objectEnd (123 :: s1.rest) (s1.rest.length + 1 - s4.rest.length))
    hT rfl rfl fun s' h1 h2 h3 => Good.from (callBack_good hB _ _ _ _) h1 (j := 0) h2 h3 (by omega)
  rw [assoc] at hfin
  exact Good.from hfin hs1 hl1 hp1 (by omega)

theorem parseValue_good {B : Prop} {text : List UInt8} (hB : CbFails cb → B) (ht : text.length < 2 ^ 31)
    (h0 : (0 : UInt8) ∈ text → B) (hE : text.getLast? = some 92 → B) : ∀ d, PvGood B text d (parseValue cb d)
  | 0 => fun s _ => Nat.zero_le _
  | d + 1 => by
    intro s hs
    have ih := parseValue_good hB ht h0 hE d
    have hs' : At B text (skip s) := hs.later (skip_suffix s) rfl
    have hl := skip_length s
    have he : (skip s).rest.getLast? = some 92 → B := fun h => hE (last_suffix hs'.rest h)
    simp only [parseValue]
    refine skip_good ?_
    split
    · trivial
    split
    · exact parseString_good hB _ he
    split
    · exact (parseObject_good hB ih h0 hE _ hs').mono id (fun h => by omega) (Nat.le_refl 1)
    split
    · exact (parseArray_good hB ih ht _ hs').mono id (fun h => by omega) (Nat.le_refl 1)
    split
    · exact expect_good hB _ _ _ (by simp)
    split
    · exact expect_good hB _ _ _ (by simp)
    split
    · exact expect_good hB _ _ _ (by simp)
    split
    · exact parseNumber_good hB _
    · trivial

end Mjs.Json
