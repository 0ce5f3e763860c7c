import Verif.Spec.FfiCall
import Verif.Lemmas.Num

/-!
# Lemmas about calls through FFI
-/

namespace Mjs.Ffi
open Mjs.FfiSpec Mjs.Spec.Double

/-- What is passed for an argument according to its class. -/
def passedOf (a : Arg) : Passed :=
  match a.ctype with
  | .double => .double a.v
  | .float => .float a.v
  | _ => .word a.v

theorem fp_small (is : Arg → Bool) (x : Cell → Passed) (k : FfiType) (hk : k ≠ .word) (his : ∀ a, is a = (a.ctype == k))
    (hx : ∀ a : Arg, a.ctype = k → x a.v = passedOf a) (n : Nat) (hn : n ≤ 3) (a : Nat → Arg)
    (hc : ∀ i < n, (a i).ctype = .word ∨ (a i).ctype = k) (h1 : ∃ i < n, (a i).ctype = k) :
    ∃ rest, fpCall is x n a = .ok (some ((List.range n).map (fun i => passedOf (a i)) ++ rest)) := by
  have hw : ∀ b : Arg, b.ctype = .word → Passed.word b.v = passedOf b := by intro b hb; unfold passedOf; rw [hb]
  have hwk : (FfiType.word == k) = false := by cases k <;> first | rfl | contradiction
  have hkw : (k == FfiType.word) = false := by cases k <;> first | rfl | contradiction
  match n, hn with
  | 0, _ => obtain ⟨i, hi, _⟩ := h1; omega
  | 1, _ =>
    have e0 : (a 0).ctype = k := by obtain ⟨i, hi, e⟩ := h1; have : i = 0 := by omega
                                    subst this; exact e
    simp only [fpCall, his, e0, beq_self_eq_true, Bool.true_and, if_true]
    rw [if_pos (by omega)]
    split
    · exact ⟨[x (a 1).v], by simp [hx _ e0, List.range_succ]⟩
    · exact ⟨[.word (a 1).v], by simp [hx _ e0, List.range_succ]⟩
  | 2, _ =>
    refine ⟨[], ?_⟩
    simp only [fpCall, his]
    rw [if_pos (by omega)]
    have h := h1
    rcases hc 0 (by omega) with e0 | e0 <;> rcases hc 1 (by omega) with e1 | e1
    · obtain ⟨i, hi, e⟩ := h
      have : i = 0 ∨ i = 1 := by omega
      rcases this with rfl | rfl
      · rw [e0] at e; exact absurd e.symm hk
      · rw [e1] at e; exact absurd e.symm hk
    all_goals simp [e0, e1, hwk, hx, hw, List.range_succ]
  | 3, _ =>
    refine ⟨[], ?_⟩
    simp only [fpCall, his, isW]
    rw [if_neg (by omega), if_pos (by trivial)]
    have h := h1
    rcases hc 0 (by omega) with e0 | e0 <;> rcases hc 1 (by omega) with e1 | e1 <;> rcases hc 2 (by omega) with e2 | e2
    · obtain ⟨i, hi, e⟩ := h
      have : i = 0 ∨ i = 1 ∨ i = 2 := by omega
      rcases this with rfl | rfl | rfl
      · rw [e0] at e; exact absurd e.symm hk
      · rw [e1] at e; exact absurd e.symm hk
      · rw [e2] at e; exact absurd e.symm hk
    all_goals simp [e0, e1, e2, hwk, hkw, hx, hw, List.range_succ]

theorem word_small (n : Nat) (hn : n ≤ 6) (a : Nat → Arg) (hc : ∀ i < n, (a i).ctype = .word) :
    ∃ rest, wordCall n a = .ok (some ((List.range n).map (fun i => passedOf (a i)) ++ rest)) := by
  have hw : ∀ i < n, Passed.word (a i).v = passedOf (a i) := by intro i hi; unfold passedOf; rw [hc i hi]
  match n, hn with
  | 0, _ => exact ⟨_, rfl⟩
  | 1, _ => exact ⟨[.word (a 1).v, .word (a 2).v, .word (a 3).v], by simp [wordCall, hw, List.range_succ]⟩
  | 2, _ => exact ⟨[.word (a 2).v, .word (a 3).v], by simp [wordCall, hw, List.range_succ]⟩
  | 3, _ => exact ⟨[.word (a 3).v], by simp [wordCall, hw, List.range_succ]⟩
  | 4, _ => exact ⟨[], by simp [wordCall, hw, List.range_succ]⟩
  | 5, _ => exact ⟨[], by simp [wordCall, hw, List.range_succ]⟩
  | 6, _ => exact ⟨[], by simp [wordCall, hw, List.range_succ]⟩

theorem filter_pos {p : Nat → Bool} {n : Nat} : 0 < ((List.range n).filter p).length ↔ ∃ i < n, p i = true := by
  rw [List.length_pos_iff_exists_mem]
  simp

/-- `ffi_call` passes every argument in its class, in order, if the floating point arguments are ones it can pass. -/
theorem ffiCall_ok (rt : FfiType) (n : Nat) (hn : n ≤ 6) (a : Nat → Arg) (hb : ∀ i < n, (a i).ctype ≠ .bool)
    (hmix : ¬ ((∃ i < n, (a i).ctype = .double) ∧ ∃ i < n, (a i).ctype = .float))
    (h3 : (∃ i < n, (a i).ctype = .double) ∨ (∃ i < n, (a i).ctype = .float) → n ≤ 3)
    (hd : rt = .double → ¬ ∃ i < n, (a i).ctype = .float) (hf : rt = .float → ¬ ∃ i < n, (a i).ctype = .double) :
    ∃ rest, ffiCall rt n a = .ok (some ((List.range n).map (fun i => passedOf (a i)) ++ rest)) := by
  have eD : 0 < ((List.range n).filter fun i => isD (a i)).length ↔ ∃ i < n, (a i).ctype = .double := by
    rw [filter_pos]; simp [isD]
  have eF : 0 < ((List.range n).filter fun i => isF (a i)).length ↔ ∃ i < n, (a i).ctype = .float := by
    rw [filter_pos]; simp [isF]
  unfold ffiCall
  rw [if_neg (by omega)]
  simp only
  rw [if_neg (by rw [gt_iff_lt, gt_iff_lt, eD, eF]; exact hmix)]
  by_cases kd : ∃ i < n, (a i).ctype = .double
  · have kf : ¬ ∃ i < n, (a i).ctype = .float := fun h => hmix ⟨kd, h⟩
    have := fp_small isD .double .double (by decide) (fun a => rfl) (fun a h => by unfold passedOf; rw [h]) n (h3 (.inl kd)) a
      (fun i hi => by
        cases h : (a i).ctype with
        | word => exact .inl rfl
        | double => exact .inr rfl
        | bool => exact absurd h (hb i hi)
        | float => exact absurd ⟨i, hi, h⟩ kf) kd
    have n0 : ¬ ((List.range n).filter fun i => isD (a i)).length = 0 := by have := eD.2 kd; omega
    cases rt with
    | word => simp only [n0, if_false]; exact this
    | bool => simp only [n0, if_false]; exact this
    | double => simp only [n0, if_false]; exact this
    | float => exact absurd kd (hf rfl)
  · have n0 : ((List.range n).filter fun i => isD (a i)).length = 0 := by
      rcases Nat.eq_zero_or_pos ((List.range n).filter fun i => isD (a i)).length with h | h
      · exact h
      · exact absurd (eD.1 h) kd
    by_cases kf : ∃ i < n, (a i).ctype = .float
    · have := fp_small isF .float .float (by decide) (fun a => rfl) (fun a h => by unfold passedOf; rw [h]) n (h3 (.inr kf)) a
        (fun i hi => by
          cases h : (a i).ctype with
          | word => exact .inl rfl
          | float => exact .inr rfl
          | bool => exact absurd h (hb i hi)
          | double => exact absurd ⟨i, hi, h⟩ kd) kf
      have m0 : ¬ ((List.range n).filter fun i => isF (a i)).length = 0 := by have := eF.2 kf; omega
      cases rt with
      | word => simp only [n0, m0, if_true, if_false]; exact this
      | bool => simp only [n0, m0, if_true, if_false]; exact this
      | double => exact absurd kf (hd rfl)
      | float => simp only [m0, if_false]; exact this
    · have m0 : ((List.range n).filter fun i => isF (a i)).length = 0 := by
        rcases Nat.eq_zero_or_pos ((List.range n).filter fun i => isF (a i)).length with h | h
        · exact h
        · exact absurd (eF.1 h) kf
      have := word_small n hn a (fun i hi => by
          cases h : (a i).ctype with
          | word => rfl
          | bool => exact absurd h (hb i hi)
          | float => exact absurd ⟨i, hi, h⟩ kf
          | double => exact absurd ⟨i, hi, h⟩ kd)
      cases rt <;> simp only [n0, m0, if_true] <;> exact this

/-! ## Conversion of arguments -/

/-- The class of a type. -/
def classOf : CType → FfiType
  | .double => .double
  | .float => .float
  | _ => .word

theorem getInt_trunc {v : Val} {n : Int} (h : TruncatesTo v n) (h1 : -2 ^ 31 ≤ n) (h2 : n < 2 ^ 31) : getInt v = n := by
  have e : truncD v = n := h.2
  rw [getInt, getDouble, cvtInt, e, if_pos ⟨h.1, by omega, by omega⟩, BitVec.toInt_ofInt]
  rw [Int.bmod_eq_of_le (by simpa using h1) (by simpa using h2)]

theorem isString_foreign {v : Val} (h : isForeign v = true) : isString v = false := by
  unfold isForeign at h
  have e : v &&& tagMask = tagForeign := by simpa using h
  unfold isString
  simp only [e]
  decide

/-- A value that converts is converted as specified. -/
theorem conv_ok {P : Fpu} {t : CType} {v : Val} {p : Passed} (h : Converts P t v p) :
    ∃ c, (∀ i s, convArg P t i v s = .ok (some (s.set i (classOf t) c))) ∧ passedOf ⟨classOf t, c⟩ = p := by
  cases h with
  | int h h1 h2 =>
    refine ⟨_, fun i s => ?_, rfl⟩
    simp only [convArg, isNumber_finite h.1, if_true, getInt_trunc h h1 h2]
    rfl
  | intBool b => refine ⟨_, fun i s => ?_, rfl⟩; cases b <;> rfl
  | @bool _ n h h1 h2 =>
    refine ⟨_, fun i s => ?_, rfl⟩
    simp only [convArg, isNumber_finite h.1, if_true, getInt_trunc h h1 h2]
    by_cases hn : n = 0 <;> simp [hn, Conv.setInt, classOf]
  | boolBool b => refine ⟨_, fun i s => ?_, rfl⟩; cases b <;> rfl
  | double h => exact ⟨_, fun i s => rfl, rfl⟩
  | float h => exact ⟨_, fun i s => rfl, rfl⟩
  | charPtr h => exact ⟨_, fun i s => by simp only [convArg, h, if_true]; rfl, rfl⟩
  | charNull => exact ⟨_, fun i s => rfl, rfl⟩
  | voidText h => exact ⟨_, fun i s => by simp only [convArg, h, if_true]; rfl, rfl⟩
  | voidPtr h =>
    exact ⟨_, fun i s => by simp only [convArg, h, isString_foreign h, Bool.false_eq_true, if_false, if_true]; rfl, rfl⟩
  | voidNull => exact ⟨_, fun i s => rfl, rfl⟩
  | mgStr h => exact ⟨_, fun i s => by simp only [convArg, h, if_true]; rfl, rfl⟩

/-- What the loop over the arguments leaves: `i` is the first argument, with types `ts` and values `vs`. -/
structure Conved (P : Fpu) (i : Nat) (ts : List CType) (vs : List Val) (s s' : Conv) : Prop where
  err : s'.err = s.err
  before : ∀ j < i, s'.args j = s.args j
  plain : ∀ k t v p, ts[k]? = some t → vs[k]? = some v → t ≠ .userdata → t ≠ .callback → Converts P t v p →
    passedOf (s'.args (i + k)) = p ∧ (s'.args (i + k)).ctype = classOf t
  ud : ∀ k v, ts[k]? = some .userdata → vs[k]? = some v → s'.ud = some (i + k, v)
  noUd : CType.userdata ∉ ts → s'.ud = s.ud
  fn : ∀ k v, ts[k]? = some .callback → vs[k]? = some v → s'.fn = some (i + k, v)
  noFn : CType.callback ∉ ts → s'.fn = s.fn

theorem convArgs_ok (P : Fpu) (vals : List CType) : ∀ (vs : List Val) (ts : List CType) (i : Nat) (s : Conv),
    vs.length = ts.length → (∀ k, ts[k]? = none ∨ vals[1 + (i + k)]? = ts[k]?) →
    (∀ (k : Nat) t v, ts[k]? = some t → vs[k]? = some v → Fits P t v) →
    ts.count .userdata + (if s.ud.isSome then 1 else 0) ≤ 1 → ts.count .callback ≤ 1 →
    ∃ s', convArgs P vals i vs s = .ok (some s') ∧ Conved P i ts vs s s' := by
  intro vs
  induction vs with
  | nil =>
    intro ts i s hl _ _ _ _
    have : ts = [] := List.length_eq_zero_iff.1 (by simpa using hl.symm)
    subst this
    exact ⟨s, rfl, rfl, fun _ _ => rfl, by simp, by simp, fun _ => rfl, by simp, fun _ => rfl⟩
  | cons v vs ih =>
    intro ts i s hl hv hfit hu hc
    cases ts with
    | nil => simp at hl
    | cons t ts =>
      have hl' : vs.length = ts.length := by simpa using hl
      have hv' : ∀ k, ts[k]? = none ∨ vals[1 + (i + 1 + k)]? = ts[k]? := by
        intro k
        have := hv (k + 1)
        rw [List.getElem?_cons_succ] at this
        rw [show i + 1 + k = i + (k + 1) by omega]
        exact this
      have hfit' : ∀ (k : Nat) t v, ts[k]? = some t → vs[k]? = some v → Fits P t v :=
        fun k t' v' h1 h2 => hfit (k + 1) t' v' (by simpa using h1) (by simpa using h2)
      have ht : vals[1 + i]? = some t := by
        rcases hv 0 with h | h
        · simp at h
        · simpa using h
      have hc' : ts.count .callback ≤ 1 := by rw [List.count_cons] at hc; omega
      simp only [convArgs, ht]
      rcases hfit 0 t v (by simp) (by simp) with rfl | ⟨rfl, hcall⟩ | ⟨p, hp⟩
      · -- user data
        have hnone : s.ud.isSome = false := by
          cases h : s.ud.isSome with
          | false => rfl
          | true => rw [h] at hu; simp at hu
        have hnot : CType.userdata ∉ ts := by
          intro h
          have := List.count_pos_iff.2 h
          rw [List.count_cons] at hu
          simp at hu
          omega
        obtain ⟨s', e, C⟩ := ih ts (i + 1) { s with ud := some (i, v) } hl' hv' hfit' (by
          have : ts.count .userdata = 0 := List.count_eq_zero.2 hnot
          simp [this]) hc'
        refine ⟨s', by simp only [convArg, hnone, Bool.false_eq_true, if_false]; exact e, C.err, fun j hj => C.before j (by omega), ?_, ?_, ?_, ?_, ?_⟩
        · intro k t' v' p' h1 h2 n1 n2 hp'
          cases k with
          | zero => simp at h1; exact absurd h1.symm n1
          | succ k =>
            have := C.plain k t' v' p' (by simpa using h1) (by simpa using h2) n1 n2 hp'
            rwa [show i + 1 + k = i + (k + 1) by omega] at this
        · intro k v' h1 h2
          cases k with
          | zero =>
            simp only [List.getElem?_cons_zero, Option.some.injEq] at h2
            subst h2
            exact C.noUd hnot
          | succ k => exact absurd (List.mem_of_getElem? (by simpa using h1)) hnot
        · intro h; simp at h
        · intro k v' h1 h2
          cases k with
          | zero => simp at h1
          | succ k =>
            have := C.fn k v' (by simpa using h1) (by simpa using h2)
            rwa [show i + 1 + k = i + (k + 1) by omega] at this
        · intro h; exact C.noFn (fun h' => h (by simp [h']))
      · -- callback
        have hnot : CType.callback ∉ ts := by
          intro h
          have := List.count_pos_iff.2 h
          rw [List.count_cons] at hc
          simp at hc
          omega
        obtain ⟨s', e, C⟩ := ih ts (i + 1) { s with fn := some (i, v) } hl' hv' hfit' (by
          rw [List.count_cons] at hu; simpa using hu) hc'
        refine ⟨s', by simp only [convArg, hcall, if_true]; exact e, C.err, fun j hj => C.before j (by omega), ?_, ?_, ?_, ?_, ?_⟩
        · intro k t' v' p' h1 h2 n1 n2 hp'
          cases k with
          | zero => simp at h1; exact absurd h1.symm n2
          | succ k =>
            have := C.plain k t' v' p' (by simpa using h1) (by simpa using h2) n1 n2 hp'
            rwa [show i + 1 + k = i + (k + 1) by omega] at this
        · intro k v' h1 h2
          cases k with
          | zero => simp at h1
          | succ k =>
            have := C.ud k v' (by simpa using h1) (by simpa using h2)
            rwa [show i + 1 + k = i + (k + 1) by omega] at this
        · intro h; exact C.noUd (fun h' => h (by simp [h']))
        · intro k v' h1 h2
          cases k with
          | zero =>
            simp only [List.getElem?_cons_zero, Option.some.injEq] at h2
            subst h2
            exact C.noFn hnot
          | succ k => exact absurd (List.mem_of_getElem? (by simpa using h1)) hnot
        · intro h; simp at h
      · -- anything else
        have hnu : t ≠ .userdata := by rintro rfl; cases hp
        have hnc : t ≠ .callback := by rintro rfl; cases hp
        obtain ⟨c, hconv, hpass⟩ := conv_ok hp
        obtain ⟨s', e, C⟩ := ih ts (i + 1) (s.set i (classOf t) c) hl' hv' hfit' (by
          rw [List.count_cons] at hu
          have : (t == CType.userdata) = false := by simpa using hnu
          simp only [this] at hu
          exact hu) hc'
        refine ⟨s', by rw [hconv]; exact e, C.err, ?_, ?_, ?_, ?_, ?_, ?_⟩
        · intro j hj
          rw [C.before j (by omega)]
          simp only [Conv.set]
          rw [if_neg (by omega)]
        · intro k t' v' p' h1 h2 n1 n2 hp'
          cases k with
          | zero =>
            simp only [List.getElem?_cons_zero, Option.some.injEq] at h1 h2
            subst h1 h2
            obtain ⟨c', hconv', hpass'⟩ := conv_ok hp'
            have hcc : c = c' := by
              have := (hconv i s).symm.trans (hconv' i s)
              simp only [Except.ok.injEq, Option.some.injEq] at this
              have := congrFun (congrArg Conv.args this) i
              simpa [Conv.set] using this
            rw [Nat.add_zero, C.before i (by omega)]
            simp only [Conv.set, if_true]
            rw [hcc]
            exact ⟨hpass', trivial⟩
          | succ k =>
            have := C.plain k t' v' p' (by simpa using h1) (by simpa using h2) n1 n2 hp'
            rwa [show i + 1 + k = i + (k + 1) by omega] at this
        · intro k v' h1 h2
          cases k with
          | zero => simp at h1; exact absurd h1 hnu
          | succ k =>
            have := C.ud k v' (by simpa using h1) (by simpa using h2)
            rwa [show i + 1 + k = i + (k + 1) by omega] at this
        · intro h; exact C.noUd (fun h' => h (by simp [h']))
        · intro k v' h1 h2
          cases k with
          | zero => simp at h1; exact absurd h1 hnc
          | succ k =>
            have := C.fn k v' (by simpa using h1) (by simpa using h2)
            rwa [show i + 1 + k = i + (k + 1) by omega] at this
        · intro h; exact C.noFn (fun h' => h (by simp [h']))

/-! ## The call -/

theorem takeWhile_get {α : Type} (p : α → Bool) (l : List α) (k : Nat) :
    (l.takeWhile p)[k]? = none ∨ l[k]? = (l.takeWhile p)[k]? := by
  induction l generalizing k with
  | nil => simp
  | cons a l ih =>
    rw [List.takeWhile_cons]
    split
    · cases k with
      | zero => simp
      | succ k => simpa using ih k
    · simp

theorem params_get (sig : Sig) (k : Nat) : (params sig)[k]? = none ∨ sig.vals[1 + (0 + k)]? = (params sig)[k]? := by
  rcases takeWhile_get (· ≠ CType.none) (sig.vals.drop 1) k with h | h
  · exact .inl h
  · right
    rw [List.getElem?_drop] at h
    rw [show 1 + (0 + k) = 1 + k by omega]
    exact h

theorem matching_some {l : List Node} {f u : Val} {n : Node} (h : matching l f u = some n) :
    n ∈ l ∧ n.func = f ∧ n.userdata = u := by
  unfold matching at h
  have h1 := List.find?_some h
  have h2 := List.mem_of_find?_eq_some h
  simp only [Bool.and_eq_true, beq_iff_eq] at h1
  exact ⟨h2, h1.1, h1.2⟩

theorem register_ok (id : Nat) (l : List Node) (cb : Sig) (f u : Val) :
    ∃ l' i, register (some id) l cb f u = .ok (l', i) ∧ ∃ n ∈ l', n.id = i ∧ n.func = f ∧ n.userdata = u := by
  unfold register
  cases h : matching l f u with
  | some n => exact ⟨l, n.id, rfl, n, (matching_some h).1, rfl, (matching_some h).2⟩
  | none => exact ⟨_, id, rfl, ⟨id, cb, f, u⟩, by simp, rfl, rfl, rfl⟩

theorem set_same (s : Conv) (i : Nat) (t : FfiType) (c : Cell) : (s.set i t c).args i = ⟨t, c⟩ := by simp [Conv.set]

theorem set_other (s : Conv) {i j : Nat} (h : j ≠ i) (t : FfiType) (c : Cell) : (s.set i t c).args j = s.args j := by
  simp [Conv.set, h]

/-- The callback and the user data are put in place. -/
theorem passCb_ok {P : Fpu} {sig : Sig} (hs : FunctionFormed sig) {vs : List Val} {s s' : Conv}
    (hl : vs.length = (params sig).length) (hud : s.ud = none) (hfn : s.fn = none)
    (hfit : ∀ (k : Nat) t v, (params sig)[k]? = some t → vs[k]? = some v → Fits P t v)
    (C : Conved P 0 (params sig) vs s s') (id : Nat) (regs : List Node) :
    ∃ s2 regs', passCb (some id) regs sig s' = .ok (s2, regs') ∧ s2.err = s'.err ∧
      ∀ (k : Nat) t v, (params sig)[k]? = some t → vs[k]? = some v →
        Receives P sig regs' (cbVal (params sig) vs) t v (passedOf (s2.args k)) ∧ (s2.args k).ctype = classOf t := by
  obtain ⟨_, _, hcnt, hiff, hcb⟩ := hs
  have plain : ∀ (k : Nat) t v, (params sig)[k]? = some t → vs[k]? = some v → t ≠ .userdata → t ≠ .callback →
      ∀ a : Arg, a = s'.args k → ∀ regs f, Receives P sig regs f t v (passedOf a) ∧ a.ctype = classOf t := by
    intro k t v h1 h2 n1 n2 a ha regs f
    rcases hfit k t v h1 h2 with h | ⟨h, _⟩ | ⟨p, hp⟩
    · exact absurd h n1
    · exact absurd h n2
    · have := C.plain k t v p h1 h2 n1 n2 hp
      rw [Nat.zero_add, ← ha] at this
      exact ⟨.inr (.inr ⟨n2, n1, by rw [this.1]; exact hp⟩), this.2⟩
  by_cases hm : CType.callback ∈ params sig
  · obtain ⟨c, hc, ⟨⟨hcf, _⟩, _⟩⟩ := hcb hm
    obtain ⟨g, hg⟩ := Option.isSome_iff_exists.1 hcf
    have hmu := hiff.1 hm
    have kc : (params sig)[(params sig).idxOf .callback]? = some .callback := by
      rw [List.getElem?_eq_getElem (List.idxOf_lt_length_of_mem hm), List.getElem_idxOf]
    have ku : (params sig)[(params sig).idxOf .userdata]? = some .userdata := by
      rw [List.getElem?_eq_getElem (List.idxOf_lt_length_of_mem hmu), List.getElem_idxOf]
    have lc := List.idxOf_lt_length_of_mem hm
    have lu := List.idxOf_lt_length_of_mem hmu
    generalize (params sig).idxOf .userdata = iu at ku lu
    generalize hic : (params sig).idxOf .callback = ic at kc lc
    obtain ⟨f, hf⟩ : ∃ f, vs[ic]? = some f := ⟨_, List.getElem?_eq_getElem (by omega)⟩
    obtain ⟨u, hu⟩ : ∃ u, vs[iu]? = some u := ⟨_, List.getElem?_eq_getElem (by omega)⟩
    have ef := C.fn ic f kc hf
    have eu := C.ud iu u ku hu
    simp only [Nat.zero_add] at ef eu
    obtain ⟨regs', i, er, n, hn, hni, hnf, hnu⟩ := register_ok id regs c f u
    have hne : ic ≠ iu := by rintro rfl; rw [kc] at ku; simp at ku
    refine ⟨(s'.set ic .word (.code g)).set iu .word (.reg i), regs', ?_, rfl, ?_⟩
    · simp only [passCb, eu, ef, hc, er, hg]
    · intro k t v h1 h2
      by_cases hkc : k = ic
      · subst hkc
        rw [kc] at h1
        simp only [Option.some.injEq] at h1
        subst h1
        rw [set_other _ hne, set_same]
        exact ⟨.inl ⟨rfl, c, g, hc, hg, rfl⟩, rfl⟩
      · by_cases hku : k = iu
        · subst hku
          rw [ku] at h1
          simp only [Option.some.injEq] at h1
          subst h1
          rw [hu] at h2
          simp only [Option.some.injEq] at h2
          subst h2
          rw [set_same]
          refine ⟨.inr (.inl ⟨rfl, n, hn, hnu, ?_, by rw [hni]; rfl⟩), rfl⟩
          unfold cbVal
          rw [hic, hf, hnf]
        · refine plain k t v h1 h2 ?_ ?_ _ ?_ _ _
          · rintro rfl
            have := C.ud k v h1 h2
            rw [Nat.zero_add, eu] at this
            simp only [Option.some.injEq, Prod.mk.injEq] at this
            exact hku this.1.symm
          · rintro rfl
            have := C.fn k v h1 h2
            rw [Nat.zero_add, ef] at this
            simp only [Option.some.injEq, Prod.mk.injEq] at this
            exact hkc this.1.symm
          · rw [set_other _ hku, set_other _ hkc]
  · have hmu : CType.userdata ∉ params sig := fun h => hm (hiff.2 h)
    refine ⟨s', regs, ?_, rfl, ?_⟩
    · simp only [passCb, (C.noUd hmu).trans hud, (C.noFn hm).trans hfn]
    · intro k t v h1 h2
      refine plain k t v h1 h2 ?_ ?_ _ rfl _ _
      · rintro rfl; exact hmu (List.mem_of_getElem? h1)
      · rintro rfl; exact hm (List.mem_of_getElem? h1)

theorem resType_some {t : CType} (h : t ∈ [CType.none, .int, .bool, .double, .float, .voidPtr, .charPtr]) :
    ∃ r, resType t = some r ∧ (r = .double → t = .double) ∧ (r = .float → t = .float) := by
  revert h
  cases t <;> simp [resType]

/-- A call with arguments that fit calls the function with them. -/
theorem call2_ok (P : Fpu) (junk : Nat → Arg) (id : Nat) (regs : List Node) {sig : Sig} (hs : FunctionFormed sig) {vs : List Val}
    (hl : vs.length = (params sig).length) (hfit : ∀ (k : Nat) t v, (params sig)[k]? = some t → vs[k]? = some v → Fits P t v)
    (hfp : FpOk (sig.vals.headD .none) (params sig)) :
    ∃ ws rest regs', call2 P junk (some id) regs sig vs = .ok (.ran (some (ws ++ rest)) false regs') ∧ ws.length = vs.length ∧
      ∀ (k : Nat) t v, (params sig)[k]? = some t → vs[k]? = some v →
        ∃ w, ws[k]? = some w ∧ Receives P sig regs' (cbVal (params sig) vs) t v w := by
  have hs0 := hs
  obtain ⟨⟨hfn, _, hcnt, h6, _, hud1⟩, hret, hcb1, _⟩ := hs
  obtain ⟨s', ec, C⟩ := convArgs_ok P sig.vals vs (params sig) 0 ⟨junk, false, none, none⟩ hl (params_get sig) hfit (by simpa using hud1) hcb1
  obtain ⟨s2, regs', ep, herr, hrec⟩ := passCb_ok hs0 hl rfl rfl hfit C id regs
  obtain ⟨rt, ert, hrd, hrf⟩ := resType_some hret
  have hty : ∀ i < vs.length, ∃ t, (params sig)[i]? = some t ∧ (s2.args i).ctype = classOf t := by
    intro i hi
    refine ⟨_, List.getElem?_eq_getElem (by omega), ?_⟩
    exact (hrec i _ _ (List.getElem?_eq_getElem (by omega)) (List.getElem?_eq_getElem hi)).2
  have isd : ∀ t, classOf t = .double → t = .double := by intro t; cases t <;> simp [classOf]
  have isf : ∀ t, classOf t = .float → t = .float := by intro t; cases t <;> simp [classOf]
  have D : (∃ i < vs.length, (s2.args i).ctype = .double) → CType.double ∈ params sig := by
    rintro ⟨i, hi, e⟩
    obtain ⟨t, h1, h2⟩ := hty i hi
    rw [h2] at e
    rw [← isd t e]
    exact List.mem_of_getElem? h1
  have F : (∃ i < vs.length, (s2.args i).ctype = .float) → CType.float ∈ params sig := by
    rintro ⟨i, hi, e⟩
    obtain ⟨t, h1, h2⟩ := hty i hi
    rw [h2] at e
    rw [← isf t e]
    exact List.mem_of_getElem? h1
  obtain ⟨rest, ef⟩ := ffiCall_ok rt vs.length (by omega) s2.args
    (fun i hi => by obtain ⟨t, _, e⟩ := hty i hi; rw [e]; cases t <;> simp [classOf])
    (fun h => hfp.1 ⟨D h.1, F h.2⟩) (fun h => by rw [hl]; exact hfp.2.1 (h.imp D F))
    (fun h k => hfp.2.2.1 (hrd h) (F k)) (fun h k => hfp.2.2.2 (hrf h) (D k))
  refine ⟨(List.range vs.length).map fun i => passedOf (s2.args i), rest, regs', ?_, by simp, ?_⟩
  · unfold call2
    rw [if_neg (by rw [hl, hcnt]; simp), ec]
    simp only [ep, ert, ef]
    rw [if_neg (by rintro ⟨_, h⟩; rw [h] at hfn; simp at hfn), herr, C.err]
  · intro k t v h1 h2
    have hk : k < vs.length := (List.getElem?_eq_some_iff.1 h2).1
    refine ⟨passedOf (s2.args k), ?_, (hrec k t v h1 h2).1⟩
    simp [hk]

/-! ## Whatever the arguments -/

/-- What holds of the local variables before argument `i` is converted. -/
structure Shape (T : List CType) (vs : List Val) (i : Nat) (s : Conv) : Prop where
  cls : ∀ j t, j < i → T[j]? = some t → t ≠ .userdata → t ≠ .callback → (s.args j).ctype = classOf t
  ud : ∀ j, j < i → T[j]? = some .userdata → ∃ v, s.ud = some (j, v)
  udAt : ∀ j v, s.ud = some (j, v) → T[j]? = some .userdata ∧ vs[j]? = some v
  fn : ∀ j, j < i → T[j]? = some .callback → ∃ v, s.fn = some (j, v)
  fnAt : ∀ j v, s.fn = some (j, v) → T[j]? = some .callback ∧ vs[j]? = some v
  wrong : ∀ j t v, j < i → T[j]? = some t → vs[j]? = some v → WrongType t v →
    t = .double ∨ t = .float ∨ ((t = .int ∨ t = .bool) ∧ s.err = true)

theorem set_shape {T : List CType} {vs : List Val} {i : Nat} {s : Conv} (h : Shape T vs i s) {t : CType} (ht : T[i]? = some t)
    (n1 : t ≠ .userdata) (n2 : t ≠ .callback) (c : Cell) (e : Bool) (hs : s.err = true → e = true)
    (hw : ∀ v, vs[i]? = some v → WrongType t v → t = .double ∨ t = .float ∨ ((t = .int ∨ t = .bool) ∧ e = true)) :
    Shape T vs (i + 1) { s.set i (classOf t) c with err := e } := by
  refine ⟨?_, ?_, h.udAt, ?_, h.fnAt, ?_⟩
  · intro j t' hj ht' m1 m2
    by_cases e : j = i
    · subst e
      rw [ht] at ht'
      simp only [Option.some.injEq] at ht'
      subst ht'
      simp [Conv.set]
    · have := h.cls j t' (by omega) ht' m1 m2
      simpa [Conv.set, e] using this
  · intro j hj ht'
    by_cases e : j = i
    · subst e
      rw [ht] at ht'
      simp only [Option.some.injEq] at ht'
      exact absurd ht' n1
    · exact h.ud j (by omega) ht'
  · intro j hj ht'
    by_cases e : j = i
    · subst e
      rw [ht] at ht'
      simp only [Option.some.injEq] at ht'
      exact absurd ht' n2
    · exact h.fn j (by omega) ht'
  · intro j t' v hj ht' hv hwt
    by_cases e : j = i
    · subst e
      rw [ht] at ht'
      simp only [Option.some.injEq] at ht'
      subst ht'
      exact hw v hv hwt
    · rcases h.wrong j t' v (by omega) ht' hv hwt with h | h | ⟨h, h'⟩
      · exact .inl h
      · exact .inr (.inl h)
      · exact .inr (.inr ⟨h, hs h'⟩)

/-- One argument. -/
theorem convArg_shape (P : Fpu) {T : List CType} {vs : List Val} {i : Nat} {s : Conv} (h : Shape T vs i s) {t : CType}
    (ht : T[i]? = some t) (hm : t ≠ .mgStr) (hn : t ≠ .none) {v : Val} (hv : vs[i]? = some v) (hcb : T.count .callback ≤ 1) :
    convArg P t i v s = .ok none ∨ ∃ s', convArg P t i v s = .ok (some s') ∧ Shape T vs (i + 1) s' := by
  have ok : ∀ c e, (s.err = true → e = true) →
      (WrongType t v → t = .double ∨ t = .float ∨ ((t = .int ∨ t = .bool) ∧ e = true)) → t ≠ .userdata → t ≠ .callback →
      Shape T vs (i + 1) { s.set i (classOf t) c with err := e } := by
    intro c e he hw n1 n2
    refine set_shape h ht n1 n2 c e he ?_
    intro v' hv'
    rw [hv] at hv'
    simp only [Option.some.injEq] at hv'
    subst hv'
    exact hw
  have nw : WrongType t v → t ≠ .userdata := by rintro h rfl; exact h
  cases t with
  | none => exact absurd rfl hn
  | mgStr => exact absurd rfl hm
  | userdata =>
    simp only [convArg]
    cases hu : s.ud with
    | some p => exact .inl rfl
    | none =>
      refine .inr ⟨_, rfl, ?_, ?_, ?_, ?_, h.fnAt, ?_⟩
      · intro j t' hj ht' m1 m2
        by_cases e : j = i
        · subst e; rw [ht] at ht'; simp only [Option.some.injEq] at ht'; exact absurd ht'.symm m1
        · exact h.cls j t' (by omega) ht' m1 m2
      · intro j hj ht'
        by_cases e : j = i
        · subst e; exact ⟨v, rfl⟩
        · obtain ⟨v', hv'⟩ := h.ud j (by omega) ht'
          rw [hu] at hv'
          simp at hv'
      · intro j v' e
        simp only [Option.some.injEq, Prod.mk.injEq] at e
        rw [← e.1, ← e.2]
        exact ⟨ht, hv⟩
      · intro j hj ht'
        by_cases e : j = i
        · subst e; rw [ht] at ht'; simp at ht'
        · exact h.fn j (by omega) ht'
      · intro j t' v' hj ht' hv' hw
        by_cases e : j = i
        · subst e; rw [ht] at ht'; simp only [Option.some.injEq] at ht'; subst ht'; exact hw.elim
        · exact h.wrong j t' v' (by omega) ht' hv' hw
  | callback =>
    simp only [convArg]
    split
    · rename_i hc
      refine .inr ⟨_, rfl, ?_, ?_, h.udAt, ?_, ?_, ?_⟩
      · intro j t' hj ht' m1 m2
        by_cases e : j = i
        · subst e; rw [ht] at ht'; simp only [Option.some.injEq] at ht'; exact absurd ht'.symm m2
        · exact h.cls j t' (by omega) ht' m1 m2
      · intro j hj ht'
        by_cases e : j = i
        · subst e; rw [ht] at ht'; simp at ht'
        · exact h.ud j (by omega) ht'
      · intro j hj ht'
        by_cases e : j = i
        · subst e; exact ⟨v, rfl⟩
        · exfalso
          have h2 : T.take i ++ .callback :: T.drop (i + 1) = T := by
            obtain ⟨hi, e1⟩ := List.getElem?_eq_some_iff.1 ht
            rw [← e1, List.getElem_cons_drop, List.take_append_drop]
          have hmem : CType.callback ∈ T.take i := by
            obtain ⟨hi, e1⟩ := List.getElem?_eq_some_iff.1 ht'
            have : (T.take i)[j]? = some .callback := by rw [List.getElem?_take, if_pos (by omega)]; exact ht'
            exact List.mem_of_getElem? this
          have := List.count_pos_iff.2 hmem
          rw [← h2, List.count_append, List.count_cons] at hcb
          simp at hcb
          omega
      · intro j v' e
        simp only [Option.some.injEq, Prod.mk.injEq] at e
        rw [← e.1, ← e.2]
        exact ⟨ht, hv⟩
      · intro j t' v' hj ht' hv' hw
        by_cases e : j = i
        · subst e
          rw [ht] at ht'
          rw [hv] at hv'
          simp only [Option.some.injEq] at ht' hv'
          subst ht' hv'
          simp only [WrongType] at hw
          simp [hw.1, hw.2.1, hw.2.2] at hc
        · exact h.wrong j t' v' (by omega) ht' hv' hw
    · exact .inl rfl
  | int =>
    refine .inr ⟨_, rfl, ?_⟩
    split
    · exact ok _ _ id (fun hw => by simp_all [WrongType]) (by simp) (by simp)
    · split
      · exact ok _ _ id (fun hw => by simp_all [WrongType]) (by simp) (by simp)
      · exact ok _ true (fun _ => rfl) (fun hw => by simp) (by simp) (by simp)
  | bool =>
    refine .inr ⟨_, rfl, ?_⟩
    split
    · exact ok _ _ id (fun hw => by simp_all [WrongType]) (by simp) (by simp)
    · split
      · exact ok _ _ id (fun hw => by simp_all [WrongType]) (by simp) (by simp)
      · exact ok _ true (fun _ => rfl) (fun hw => by simp) (by simp) (by simp)
  | double => exact .inr ⟨_, rfl, ok _ _ id (fun hw => .inl rfl) (by simp) (by simp)⟩
  | float => exact .inr ⟨_, rfl, ok _ _ id (fun hw => .inr (.inl rfl)) (by simp) (by simp)⟩
  | mgStrPtr =>
    simp only [convArg]
    split
    · exact .inr ⟨_, rfl, ok _ _ id (fun hw => by simp_all [WrongType]) (by simp) (by simp)⟩
    · exact .inl rfl
  | charPtr =>
    simp only [convArg]
    split
    · exact .inr ⟨_, rfl, ok _ _ id (fun hw => by simp_all [WrongType]) (by simp) (by simp)⟩
    · split
      · exact .inr ⟨_, rfl, ok _ _ id (fun hw => by simp_all [WrongType]) (by simp) (by simp)⟩
      · exact .inl rfl
  | voidPtr =>
    simp only [convArg]
    split
    · exact .inr ⟨_, rfl, ok _ _ id (fun hw => by simp_all [WrongType]) (by simp) (by simp)⟩
    · split
      · exact .inr ⟨_, rfl, ok _ _ id (fun hw => by simp_all [WrongType]) (by simp) (by simp)⟩
      · split
        · exact .inr ⟨_, rfl, ok _ _ id (fun hw => by simp_all [WrongType]) (by simp) (by simp)⟩
        · exact .inl rfl

/-- The loop. -/
theorem convArgs_shape (P : Fpu) {vals T : List CType} {all : List Val} (hm : CType.mgStr ∉ T) (hn : CType.none ∉ T)
    (hcb : T.count .callback ≤ 1) (hT : ∀ k, T[k]? = none ∨ vals[1 + (0 + k)]? = T[k]?) (hl : all.length = T.length) :
    ∀ (vs : List Val) (i : Nat) (s : Conv), all.drop i = vs → Shape T all i s →
      convArgs P vals i vs s = .ok none ∨ ∃ s', convArgs P vals i vs s = .ok (some s') ∧ Shape T all (i + vs.length) s' := by
  intro vs
  induction vs with
  | nil => intro i s _ hs; exact .inr ⟨s, rfl, hs⟩
  | cons v vs ih =>
    intro i s hd hs
    have hv : all[i]? = some v := by
      have := List.getElem?_drop (xs := all) (i := i) (j := 0)
      rw [hd] at this
      simpa using this.symm
    have hi : i < T.length := by rw [← hl]; exact (List.getElem?_eq_some_iff.1 hv).1
    have ht : T[i]? = some T[i] := List.getElem?_eq_getElem hi
    have hvals : vals[1 + i]? = some T[i] := by
      rcases hT i with h | h
      · rw [ht] at h; simp at h
      · rw [Nat.zero_add] at h; rw [h, ht]
    simp only [convArgs, hvals]
    rcases convArg_shape P hs ht (by rintro h; exact hm (h ▸ List.getElem_mem hi)) (by rintro h; exact hn (h ▸ List.getElem_mem hi)) hv hcb with
      e | ⟨s', e, hs'⟩
    · exact .inl (by rw [e])
    · rw [e]
      have hd' : all.drop (i + 1) = vs := by
        have := congrArg (List.drop 1) hd
        rw [List.drop_drop] at this
        simpa using this
      have := ih (i + 1) s' hd' hs'
      simp only [List.length_cons]
      rw [show i + (vs.length + 1) = i + 1 + vs.length by omega]
      exact this

theorem fpCall_total (is : Arg → Bool) (x : Cell → Passed) (k : FfiType) (his : ∀ a, is a = (a.ctype == k)) (n : Nat) (a : Nat → Arg)
    (hc : ∀ i < n, (a i).ctype = .word ∨ (a i).ctype = k) (h1 : k ≠ .word → ∃ i < n, (a i).ctype = k) : ∃ p, fpCall is x n a = .ok p := by
  unfold fpCall
  simp only [his, isW]
  by_cases h2 : n ≤ 2
  · rw [if_pos h2]
    split
    · exact ⟨_, rfl⟩
    · split <;> exact ⟨_, rfl⟩
  · rw [if_neg h2]
    by_cases h3 : n = 3
    · rw [if_pos h3]
      subst h3
      by_cases hkw : k = .word
      · subst hkw
        have e0 := hc 0 (by omega)
        have e1 := hc 1 (by omega)
        have e2 := hc 2 (by omega)
        simp only [or_self] at e0 e1 e2
        simp [e0, e1, e2]
      · have hwk : (FfiType.word == k) = false := by simpa using fun h => hkw h.symm
        have hkw' : (k == FfiType.word) = false := by simpa using hkw
        rcases hc 0 (by omega) with e0 | e0 <;> rcases hc 1 (by omega) with e1 | e1 <;> rcases hc 2 (by omega) with e2 | e2
        · obtain ⟨i, hi, e⟩ := h1 hkw
          have : i = 0 ∨ i = 1 ∨ i = 2 := by omega
          rcases this with rfl | rfl | rfl
          · rw [e0] at e; exact absurd e.symm hkw
          · rw [e1] at e; exact absurd e.symm hkw
          · rw [e2] at e; exact absurd e.symm hkw
        all_goals simp [e0, e1, e2, hwk, hkw']
    · rw [if_neg h3]
      exact ⟨none, rfl⟩

theorem wordCall_total (n : Nat) (hn : n ≤ 6) (a : Nat → Arg) : ∃ p, wordCall n a = .ok p := by
  unfold wordCall
  simp only
  split
  · exact ⟨_, rfl⟩
  · split
    · exact ⟨_, rfl⟩
    · rw [if_pos (by omega)]; exact ⟨_, rfl⟩

theorem ffiCall_total (rt : FfiType) (n : Nat) (hn : n ≤ 6) (a : Nat → Arg) (hb : ∀ i < n, (a i).ctype ≠ .bool) :
    ∃ p, ffiCall rt n a = .ok p := by
  have eD : 0 < ((List.range n).filter fun i => isD (a i)).length ↔ ∃ i < n, (a i).ctype = .double := by
    rw [filter_pos]; simp [isD]
  have eF : 0 < ((List.range n).filter fun i => isF (a i)).length ↔ ∃ i < n, (a i).ctype = .float := by
    rw [filter_pos]; simp [isF]
  have cls : ∀ i < n, (a i).ctype = .word ∨ (a i).ctype = .double ∨ (a i).ctype = .float := by
    intro i hi
    cases h : (a i).ctype with
    | bool => exact absurd h (hb i hi)
    | _ => simp
  unfold ffiCall
  rw [if_neg (by omega)]
  simp only
  generalize hd : ((List.range n).filter fun i => isD (a i)).length = D at eD
  generalize hf : ((List.range n).filter fun i => isF (a i)).length = F at eF
  by_cases hmix : D > 0 ∧ F > 0
  · rw [if_pos hmix]; exact ⟨_, rfl⟩
  · rw [if_neg hmix]
    have dbl : D ≠ 0 → ∃ p, fpCall isD .double n a = .ok p := by
      intro h
      have nf : ¬ ∃ i < n, (a i).ctype = .float := fun h' => hmix ⟨by omega, eF.2 h'⟩
      refine fpCall_total isD .double .double (fun _ => rfl) n a ?_ (fun _ => eD.1 (by omega))
      intro i hi
      rcases cls i hi with h | h | h
      · exact .inl h
      · exact .inr h
      · exact absurd ⟨i, hi, h⟩ nf
    have flt : F ≠ 0 → ∃ p, fpCall isF .float n a = .ok p := by
      intro h
      have nd : ¬ ∃ i < n, (a i).ctype = .double := fun h' => hmix ⟨eD.2 h', by omega⟩
      refine fpCall_total isF .float .float (fun _ => rfl) n a ?_ (fun _ => eF.1 (by omega))
      intro i hi
      rcases cls i hi with h | h | h
      · exact .inl h
      · exact absurd ⟨i, hi, h⟩ nd
      · exact .inr h
    have wd := wordCall_total n hn a
    cases rt <;> simp only
    · split
      · split
        · exact wd
        · exact flt ‹_›
      · exact dbl ‹_›
    · split
      · split
        · exact wd
        · exact flt ‹_›
      · exact dbl ‹_›
    · split
      · exact wd
      · exact flt ‹_›
    · split
      · exact wd
      · exact dbl ‹_›

theorem none_not_param (sig : Sig) : CType.none ∉ params sig := by
  intro h
  have := List.all_eq_true.1 (List.all_takeWhile (p := (· ≠ CType.none)) (l := sig.vals.drop 1)) _ h
  simp at this

/-- A call never stops the process, and it reports any argument of a wrong type that is no floating point number. -/
theorem call2_total (P : Fpu) (junk : Nat → Arg) (id : Nat) (regs : List Node) {sig : Sig} (hs : FunctionFormed sig) (vs : List Val) :
    call2 P junk (some id) regs sig vs = .ok .refused ∨
    ∃ p e regs', call2 P junk (some id) regs sig vs = .ok (.ran p e regs') ∧ vs.length = (params sig).length ∧
      (∀ (k : Nat) t v, (params sig)[k]? = some t → vs[k]? = some v → WrongType t v →
        t = .double ∨ t = .float ∨ ((t = .int ∨ t = .bool) ∧ e = true)) ∧
      ((CType.callback ∉ params sig ∧ regs' = regs) ∨ ∃ cb f u i, sig.cb = some cb ∧ cbVal (params sig) vs = some f ∧
        udVal (params sig) vs = some u ∧ register (some id) regs cb f u = .ok (regs', i)) := by
  obtain ⟨⟨hfn, _, hcnt, h6, hmg, _⟩, hret, hcb1, hiff, hcb⟩ := hs
  unfold call2
  by_cases hl : vs.length = sig.argsCnt
  · rw [if_neg (by omega)]
    rw [hcnt] at hl
    rcases convArgs_shape P hmg (none_not_param sig) hcb1 (params_get sig) hl vs 0 ⟨junk, false, none, none⟩ rfl
      ⟨by omega, by omega, by simp, by omega, by simp, by omega⟩ with e | ⟨s, e, S⟩
    · rw [e]; exact .inl rfl
    · right
      rw [e]
      simp only
      rw [Nat.zero_add, hl] at S
      obtain ⟨rt, ert, _⟩ := resType_some hret
      have fin : ∀ (s2 : Conv) regs', s2.err = s.err → passCb (some id) regs sig s = .ok (s2, regs') →
          (∀ k t, k < (params sig).length → (params sig)[k]? = some t → (s2.args k).ctype = classOf t) →
          ((CType.callback ∉ params sig ∧ regs' = regs) ∨ ∃ cb f u i, sig.cb = some cb ∧ cbVal (params sig) vs = some f ∧
            udVal (params sig) vs = some u ∧ register (some id) regs cb f u = .ok (regs', i)) →
          ∃ p e regs', (match passCb (some id) regs sig s with
            | .error e => .error e
            | .ok (s, regs) => match resType (sig.vals.headD .none) with
              | none => .error .ub
              | some rt => match ffiCall rt vs.length s.args with
                | .error e => .error e
                | .ok p => if p.isSome ∧ sig.fn = none then .error .ub else .ok (.ran p s.err regs) : Except Stop Outcome) =
            .ok (.ran p e regs') ∧ vs.length = (params sig).length ∧
            (∀ (k : Nat) t v, (params sig)[k]? = some t → vs[k]? = some v → WrongType t v →
              t = .double ∨ t = .float ∨ ((t = .int ∨ t = .bool) ∧ e = true)) ∧
            ((CType.callback ∉ params sig ∧ regs' = regs) ∨ ∃ cb f u i, sig.cb = some cb ∧ cbVal (params sig) vs = some f ∧
              udVal (params sig) vs = some u ∧ register (some id) regs cb f u = .ok (regs', i)) := by
        intro s2 regs' herr ep hc hreg
        obtain ⟨p, hp⟩ := ffiCall_total rt vs.length (by omega) s2.args (by
          intro i hi
          rw [hc i _ (by omega) (List.getElem?_eq_getElem (by omega))]
          cases (params sig)[i]'(by omega) <;> simp [classOf])
        refine ⟨p, s2.err, regs', ?_, hl, ?_, hreg⟩
        · simp only [ep, ert, hp]
          rw [if_neg (by rintro ⟨_, h⟩; rw [h] at hfn; simp at hfn)]
        · intro k t v h1 h2 hw
          rw [herr]
          exact S.wrong k t v (List.getElem?_eq_some_iff.1 h1).1 h1 h2 hw
      by_cases hm : CType.callback ∈ params sig
      · obtain ⟨c, hc, ⟨⟨hcf, _⟩, _⟩⟩ := hcb hm
        obtain ⟨g, hg⟩ := Option.isSome_iff_exists.1 hcf
        have lc := List.idxOf_lt_length_of_mem hm
        have lu := List.idxOf_lt_length_of_mem (hiff.1 hm)
        have kc : (params sig)[(params sig).idxOf .callback]? = some .callback := by
          rw [List.getElem?_eq_getElem lc, List.getElem_idxOf]
        have ku : (params sig)[(params sig).idxOf .userdata]? = some .userdata := by
          rw [List.getElem?_eq_getElem lu, List.getElem_idxOf]
        generalize hic : (params sig).idxOf .callback = ic at kc lc
        generalize hiu : (params sig).idxOf .userdata = iu at ku lu
        obtain ⟨f, ef⟩ := S.fn ic lc kc
        obtain ⟨u, eu⟩ := S.ud iu lu ku
        obtain ⟨regs', i, er, _⟩ := register_ok id regs c f u
        refine fin ((s.set ic .word (.code g)).set iu .word (.reg i)) regs' rfl ?_ ?_
          (.inr ⟨c, f, u, i, hc, by rw [cbVal, hic]; exact (S.fnAt ic f ef).2, by rw [udVal, hiu]; exact (S.udAt iu u eu).2, er⟩)
        · simp only [passCb, eu, ef, hc, er, hg]
        · intro k t hk h1
          by_cases hku : k = iu
          · subst hku
            rw [ku] at h1
            simp only [Option.some.injEq] at h1
            subst h1
            rw [set_same]
            rfl
          · rw [set_other _ hku]
            by_cases hkc : k = ic
            · subst hkc
              rw [kc] at h1
              simp only [Option.some.injEq] at h1
              subst h1
              rw [set_same]
              rfl
            · rw [set_other _ hkc]
              refine S.cls k t hk h1 ?_ ?_
              · rintro rfl
                obtain ⟨v, hv⟩ := S.ud k hk h1
                rw [eu] at hv
                simp only [Option.some.injEq, Prod.mk.injEq] at hv
                exact hku hv.1.symm
              · rintro rfl
                obtain ⟨v, hv⟩ := S.fn k hk h1
                rw [ef] at hv
                simp only [Option.some.injEq, Prod.mk.injEq] at hv
                exact hkc hv.1.symm
      · have hmu : CType.userdata ∉ params sig := fun h => hm (hiff.2 h)
        refine fin s regs rfl ?_ ?_ (.inl ⟨hm, rfl⟩)
        · have h1 : s.ud = none := by
            cases h : s.ud with
            | none => rfl
            | some q => exact absurd (List.mem_of_getElem? (S.udAt q.1 q.2 h).1) hmu
          have h2 : s.fn = none := by
            cases h : s.fn with
            | none => rfl
            | some q => exact absurd (List.mem_of_getElem? (S.fnAt q.1 q.2 h).1) hm
          simp only [passCb, h1, h2]
        · intro k t hk h1
          refine S.cls k t hk h1 ?_ ?_
          · rintro rfl; exact hmu (List.mem_of_getElem? h1)
          · rintro rfl; exact hm (List.mem_of_getElem? h1)
  · rw [if_pos hl]; exact .inl rfl

/-! ## Registrations -/

theorem matching_none {l : List Node} {f u : Val} (h : matching l f u = none) {n : Node} (hn : n ∈ l) : ¬ (n.func = f ∧ n.userdata = u) := by
  unfold matching at h
  have := List.find?_eq_none.1 h n hn
  simpa using this

/-- What holds of the registrations after a history. -/
structure RegInv (h : List RegOp) : Prop where
  one : ∀ n ∈ actual h, expected h n.func n.userdata = some (n.id, n.sig)
  all : ∀ f u i s, expected h f u = some (i, s) → ∃ n ∈ actual h, n.func = f ∧ n.userdata = u ∧ n.id = i ∧ n.sig = s
  keys : ((actual h).map fun n => (n.func, n.userdata)).Nodup
  ids : ((actual h).map Node.id).Nodup

theorem eraseP_keys {l : List Node} (h : (l.map fun n => (n.func, n.userdata)).Nodup) (f u : Val) :
    (l.eraseP fun n => n.func == f && n.userdata == u) = l.filter fun n => !(n.func == f && n.userdata == u) := by
  induction l with
  | nil => rfl
  | cons a l ih =>
    rw [List.map_cons, List.nodup_cons] at h
    by_cases ha : (a.func == f && a.userdata == u) = true
    · rw [List.eraseP_cons_of_pos (p := fun n : Node => n.func == f && n.userdata == u) ha, List.filter_cons_of_neg (by simp [ha])]
      refine (List.filter_eq_self.2 ?_).symm
      intro n hn
      simp only [Bool.and_eq_true, beq_iff_eq] at ha
      simp only [Bool.not_eq_true', Bool.and_eq_false_iff, beq_eq_false_iff_ne]
      by_cases hf : n.func = f
      · right
        intro hu
        exact h.1 (List.mem_map.2 ⟨n, hn, by rw [hf, hu, ha.1, ha.2]⟩)
      · exact .inl hf
    · rw [List.eraseP_cons_of_neg (p := fun n : Node => n.func == f && n.userdata == u) (by simpa using ha), List.filter_cons_of_pos (by simp [ha]), ih h.2]

theorem reg_inv : ∀ h : List RegOp, FreshIds h → RegInv h
  | [], _ => ⟨by simp [actual], by simp [expected], by simp [actual], by simp [actual]⟩
  | .pass cb f u id :: h, hf => by
    have I := reg_inv h hf.2
    cases hm : matching (actual h) f u with
    | some n =>
      obtain ⟨hn, rfl, rfl⟩ := matching_some hm
      have ea : actual (.pass cb n.func n.userdata id :: h) = actual h := by simp [actual, register, hm]
      have ee : expected (.pass cb n.func n.userdata id :: h) = expected h := by
        funext f' u'
        simp only [expected]
        split
        · rename_i e
          rw [e.1, e.2, I.one n hn]
          rfl
        · rfl
      exact ⟨by rw [ea, ee]; exact I.one, by rw [ea, ee]; exact I.all, by rw [ea]; exact I.keys, by rw [ea]; exact I.ids⟩
    | none =>
      have ea : actual (.pass cb f u id :: h) = actual h ++ [⟨id, cb, f, u⟩] := by simp [actual, register, hm]
      have en : expected h f u = none := by
        cases he : expected h f u with
        | none => rfl
        | some q =>
          obtain ⟨n, hn, e1, e2, _⟩ := I.all f u q.1 q.2 he
          exact absurd ⟨e1, e2⟩ (matching_none hm hn)
      have hk : ∀ n ∈ actual h, ¬ (n.func = f ∧ n.userdata = u) := fun n hn => matching_none hm hn
      refine ⟨?_, ?_, ?_, ?_⟩
      · intro n hn
        rw [ea, List.mem_append] at hn
        rcases hn with hn | hn
        · simp only [expected, if_neg (hk n hn)]
          exact I.one n hn
        · simp only [List.mem_singleton] at hn
          subst hn
          simp [expected, en]
      · intro f' u' i s he
        simp only [expected] at he
        rw [ea]
        by_cases e : f' = f ∧ u' = u
        · rw [if_pos e, en] at he
          simp only [Option.getD_none, Option.some.injEq, Prod.mk.injEq] at he
          exact ⟨⟨id, cb, f, u⟩, by simp, e.1.symm, e.2.symm, he.1, he.2⟩
        · rw [if_neg e] at he
          obtain ⟨n, hn, r⟩ := I.all f' u' i s he
          exact ⟨n, by simp [hn], r⟩
      · rw [ea, List.map_append, List.nodup_append]
        refine ⟨I.keys, by simp, ?_⟩
        intro a ha b hb
        obtain ⟨n, hn, rfl⟩ := List.mem_map.1 ha
        simp only [List.map_cons, List.map_nil, List.mem_singleton] at hb
        subst hb
        intro e
        simp only [Prod.mk.injEq] at e
        exact hk n hn e
      · rw [ea, List.map_append, List.nodup_append]
        refine ⟨I.ids, by simp, ?_⟩
        intro a ha b hb
        obtain ⟨n, hn, rfl⟩ := List.mem_map.1 ha
        simp only [List.map_cons, List.map_nil, List.mem_singleton] at hb
        subst hb
        exact hf.1 n hn
  | .free f u :: h, hf => by
    have I := reg_inv h hf
    by_cases hfn : isFunction f = true
    · have ea : actual (.free f u :: h) = (actual h).filter fun n => !(n.func == f && n.userdata == u) := by
        simp only [actual, cbFree, hfn, if_true]
        cases hm : matching (actual h) f u with
        | some n => exact eraseP_keys I.keys f u
        | none =>
          refine (List.filter_eq_self.2 ?_).symm
          intro n hn
          have := matching_none hm hn
          by_cases h1 : n.func = f
          · by_cases h2 : n.userdata = u
            · exact absurd ⟨h1, h2⟩ this
            · simp [h2]
          · simp [h1]
      refine ⟨?_, ?_, ?_, ?_⟩
      · intro n hn
        rw [ea, List.mem_filter] at hn
        simp only [expected]
        rw [if_neg (by rintro ⟨h1, h2, _⟩; simp [h1, h2] at hn)]
        exact I.one n hn.1
      · intro f' u' i s he
        simp only [expected] at he
        by_cases e : f' = f ∧ u' = u ∧ isFunction f = true
        · rw [if_pos e] at he; simp at he
        · rw [if_neg e] at he
          obtain ⟨n, hn, r1, r2, r3⟩ := I.all f' u' i s he
          refine ⟨n, ?_, r1, r2, r3⟩
          rw [ea, List.mem_filter]
          refine ⟨hn, ?_⟩
          by_cases h1 : n.func = f
          · by_cases h2 : n.userdata = u
            · exact absurd ⟨r1.symm.trans h1, r2.symm.trans h2, hfn⟩ e
            · simp [h2]
          · simp [h1]
      · rw [ea]; exact I.keys.sublist (List.filter_sublist.map _)
      · rw [ea]; exact I.ids.sublist (List.filter_sublist.map _)
    · have ea : actual (.free f u :: h) = actual h := by simp [actual, cbFree, hfn]
      have ee : expected (.free f u :: h) = expected h := by
        funext f' u'
        simp only [expected]
        rw [if_neg (by rintro ⟨_, _, h⟩; exact hfn h)]
      exact ⟨by rw [ea, ee]; exact I.one, by rw [ea, ee]; exact I.all, by rw [ea]; exact I.keys, by rw [ea]; exact I.ids⟩

end Mjs.Ffi
