import Verif.Lemmas.SimHeap
import Verif.Lemmas.ArrayHist

/-!
# What the interpreter can learn about a value does not depend on addresses
-/

namespace Mjs.Spec.Invisible
open Mjs Mjs.Mbuf Mjs.Varint Mjs.Str Mjs.Arena Mjs.Obj Mjs.Spec Mjs.Spec.Gc Mjs.Gc Mjs.Spec.Invisible Mjs.Exec
open Mjs.Client (Pairs)

/-! ### Kinds of values -/

/-- A string or an object. -/
structure Boxed (v : Val) : Prop where
  kind : isString v = true ∨ isObject v = true
  nan : isnan v = true
  number : isNumber v = false
  boolean : isBoolean v = false
  foreign : isForeign v = false
  function : isFunction v = false
  ffiSig : isFfiSig v = false
  undef : v ≠ mkUndefined
  null : v ≠ mkNull
  tagNan : v ≠ tagNan

theorem boxed_tagged {v : Val} (k : Fin 16) (hk : k = 1 ∨ k = 6 ∨ k = 7 ∨ k = 8 ∨ k = 9 ∨ k = 11 ∨ k = 12)
    (h : v &&& tagMask = makeTag 1 k) : Boxed v := by
  refine ⟨by unfold isString isObject; rw [h]; clear h; revert k; decide, isnan_tagged k (by clear h; revert k; decide) h, isNumber_tagged k (by clear h; revert k; decide) (by clear h; revert k; decide) h,
    ?_, ?_, ?_, ?_, ?_, ?_, ?_⟩
  · unfold isBoolean; rw [h]; clear h; revert k; decide
  · unfold isForeign; rw [h]; clear h; revert k; decide
  · unfold isFunction; rw [h]; clear h; revert k; decide
  · unfold isFfiSig; rw [h]; clear h; revert k; decide
  · rintro rfl; revert k; decide
  · rintro rfl; revert k; decide
  · rintro rfl; revert k; decide

theorem boxed_string {v : Val} (h : isString v = true) : Boxed v := by
  simp only [isString, Bool.or_eq_true, beq_iff_eq] at h
  rcases h with (((h | h) | h) | h) | h
  · exact boxed_tagged 6 (by decide) h
  · exact boxed_tagged 9 (by decide) h
  · exact boxed_tagged 8 (by decide) h
  · exact boxed_tagged 7 (by decide) h
  · exact boxed_tagged 11 (by decide) h

theorem boxed_object {v : Val} (h : isObject v = true) : Boxed v := by
  simp only [isObject, Bool.or_eq_true, beq_iff_eq] at h
  rcases h with h | h
  · exact boxed_tagged 1 (by decide) h
  · exact boxed_tagged 12 (by decide) h

theorem string_not_array {v : Val} (h : isString v = true) : isArray v = false := by
  have := (Client.string_not_object h).1
  simp only [isObject, Bool.or_eq_false_iff] at this
  exact this.2

/-! ### Values that are the same everywhere -/

theorem imm_of_not_nan {v : Val} (h : isnan v = false) : IsImm v := by
  refine ⟨?_, ?_, ?_⟩
  · cases ho : isObject v with
    | false => rfl
    | true => rw [(boxed_object ho).nan] at h; cases h
  · cases ho : isString v with
    | false => rfl
    | true => rw [(boxed_string ho).nan] at h; cases h
  · cases ho : isFfiSig v with
    | false => rfl
    | true =>
      simp only [isFfiSig, beq_iff_eq] at ho
      rw [isnan_tagged 14 (by decide) ho] at h
      cases h

theorem imm_tagNan : IsImm tagNan := by unfold IsImm; decide
theorem imm_null : IsImm mkNull := by unfold IsImm; decide
theorem imm_boolean (b : Bool) : IsImm (mkBoolean b) := by cases b <;> (unfold IsImm; decide)

theorem imm_number (d : Val) : IsImm (mkNumber d) := by
  unfold mkNumber
  cases h : isnan d with
  | true => exact imm_tagNan
  | false => exact imm_of_not_nan h

theorem imm_int (n : Int) : IsImm (mkInt n) := imm_number _

theorem imm_foreign (p : Val) : IsImm (mkForeign p).1 := by
  have h : (mkForeign p).1 &&& tagMask = tagForeign := tag_mk p tagForeign (by decide)
  refine ⟨?_, ?_, ?_⟩
  · unfold isObject; rw [h]; decide
  · unfold isString; rw [h]; decide
  · unfold isFfiSig; rw [h]; decide

theorem imm_function (off : Val) : IsImm (mkFunction off) := by
  have hb : ∀ i : Nat, i < 64 → tagMask.getLsbD i = true → tagFunction.getLsbD i = true → (mkFunction off &&& tagMask).getLsbD i = true := by
    intro i hi h1 h2
    simp only [mkFunction, BitVec.getLsbD_and, BitVec.getLsbD_or, h1, h2, Bool.or_true, Bool.and_self]
  have h48 := hb 48 (by decide) (by decide) (by decide)
  have h50 := hb 50 (by decide) (by decide) (by decide)
  have h51 := hb 51 (by decide) (by decide) (by decide)
  have key : ∀ u : Val, (u.getLsbD 48 = false ∨ u.getLsbD 50 = false ∨ u.getLsbD 51 = false) → mkFunction off &&& tagMask ≠ u := by
    intro u hu e
    rw [← e, h48, h50, h51] at hu
    simp at hu
  refine ⟨?_, ?_, ?_⟩
  · simp only [isObject, Bool.or_eq_false_iff, beq_eq_false_iff_ne]
    exact ⟨key tagObject (by decide), key tagArray (by decide)⟩
  · simp only [isString, Bool.or_eq_false_iff, beq_eq_false_iff_ne]
    exact ⟨⟨⟨⟨key tagStringI (by decide), key tagStringF (by decide)⟩, key tagStringO (by decide)⟩, key tagString5 (by decide)⟩, key tagStringD (by decide)⟩
  · simp only [isFfiSig, beq_eq_false_iff_ne]
    exact key tagFunctionFfi (by decide)

/-! ### Two values that stand for the same -/

/-- What holds for values of two engines that stand for the same value. -/
structure Agree (v1 v2 : Val) : Prop where
  same : v1 = v2 ∨ (Boxed v1 ∧ Boxed v2)
  string : isString v1 = isString v2
  object : isObject v1 = isObject v2
  array : isArray v1 = isArray v2

theorem Agree.of {α : Type} {v1 v2 : Val} (h : Agree v1 v2) (f : Val → α) (c : α) (hf : ∀ v, Boxed v → f v = c) : f v1 = f v2 := by
  rcases h.same with rfl | ⟨h1, h2⟩
  · rfl
  · rw [hf _ h1, hf _ h2]

theorem Agree.eq {v1 v2 : Val} (h : Agree v1 v2) (hn : ¬ Boxed v1) : v1 = v2 := by
  rcases h.same with rfl | ⟨h1, _⟩
  · rfl
  · exact absurd h1 hn

theorem Agree.number {v1 v2 : Val} (h : Agree v1 v2) : isNumber v1 = isNumber v2 := h.of isNumber false fun _ b => b.number
theorem Agree.boolean {v1 v2 : Val} (h : Agree v1 v2) : isBoolean v1 = isBoolean v2 := h.of isBoolean false fun _ b => b.boolean
theorem Agree.foreign {v1 v2 : Val} (h : Agree v1 v2) : isForeign v1 = isForeign v2 := h.of isForeign false fun _ b => b.foreign
theorem Agree.function {v1 v2 : Val} (h : Agree v1 v2) : isFunction v1 = isFunction v2 := h.of isFunction false fun _ b => b.function
theorem Agree.ffiSig {v1 v2 : Val} (h : Agree v1 v2) : isFfiSig v1 = isFfiSig v2 := h.of isFfiSig false fun _ b => b.ffiSig

theorem not_finite {v : Val} (h : isnan v = true) : ¬ Spec.Double.Finite v := fun hf => hf ((isnan_iff v).1 h).1

theorem Agree.getInt {v1 v2 : Val} (h : Agree v1 v2) : getInt v1 = getInt v2 :=
  h.of Mjs.getInt 0 fun v b => by
    unfold Mjs.getInt cvtInt getDouble
    rw [if_neg (fun hc => not_finite b.nan hc.1)]

theorem Agree.toI64 {v1 v2 : Val} (h : Agree v1 v2) : toI64 v1 = toI64 v2 :=
  h.of Exec.toI64 (-2 ^ 63) fun v b => by
    unfold Exec.toI64
    rw [if_neg (fun hc => not_finite b.nan hc.1)]

theorem Agree.getPtr {v1 v2 : Val} (h : Agree v1 v2) : getPtr v1 = getPtr v2 :=
  h.of Mjs.getPtr 0#64 fun v b => by
    unfold Mjs.getPtr
    rw [b.foreign]; rfl

theorem isnan_neg {v : Val} (h : isnan v = true) : isnan (negD v) = true := by
  unfold isnan negD at *
  rw [BitVec.extractLsb'_xor, BitVec.extractLsb'_xor]
  rw [show (0x8000000000000000#64).extractLsb' 52 11 = 0#11 by decide, show (0x8000000000000000#64).extractLsb' 0 52 = 0#52 by decide,
    BitVec.xor_zero, BitVec.xor_zero]
  exact h

theorem Agree.neg {v1 v2 : Val} (h : Agree v1 v2) : mkNumber (negD v1) = mkNumber (negD v2) :=
  h.of (fun v => mkNumber (negD v)) tagNan fun v b => by
    unfold mkNumber
    rw [isnan_neg b.nan]; rfl

theorem Agree.lt {v1 v2 w1 w2 : Val} (h : Agree v1 v2) (h' : Agree w1 w2) : ltD v1 w1 = ltD v2 w2 := by
  rcases h.same with rfl | ⟨a1, a2⟩
  · rcases h'.same with rfl | ⟨b1, b2⟩
    · rfl
    · simp [ltD, b1.nan, b2.nan]
  · simp [ltD, a1.nan, a2.nan]

theorem Agree.le {v1 v2 w1 w2 : Val} (h : Agree v1 v2) (h' : Agree w1 w2) : leD v1 w1 = leD v2 w2 := by
  rcases h.same with rfl | ⟨a1, a2⟩
  · rcases h'.same with rfl | ⟨b1, b2⟩
    · rfl
    · simp [leD, b1.nan, b2.nan]
  · simp [leD, a1.nan, a2.nan]

theorem not_array {v : Val} (h : isObject v = false) : isArray v = false := by
  simp only [isObject, Bool.or_eq_false_iff] at h
  exact h.2

theorem Rep.agree {L1 L2 : List (List UInt8)} {g1 g2 : Nat → Option Nat} {v1 v2 : Val} {x : AVal} (h1 : Rep L1 g1 v1 x) (h2 : Rep L2 g2 v2 x) :
    Agree v1 v2 := by
  cases x with
  | imm w =>
    obtain ⟨rfl, _⟩ := h1
    obtain ⟨rfl, _⟩ := h2
    exact ⟨.inl rfl, rfl, rfl, rfl⟩
  | str bs =>
    have s1 := StrRep.string h1
    have s2 := StrRep.string h2
    exact ⟨.inr ⟨boxed_string s1, boxed_string s2⟩, by rw [s1, s2], by rw [(Client.string_not_object s1).1, (Client.string_not_object s2).1],
      by rw [string_not_array s1, string_not_array s2]⟩
  | obj t i =>
    refine ⟨.inr ⟨boxed_object h1.1, boxed_object h2.1⟩, by rw [(Client.object_not h1.1).1, (Client.object_not h2.1).1], by rw [h1.1, h2.1], ?_⟩
    unfold isArray
    rw [h1.2.1, h2.2.1]

theorem Agree.getType {v1 v2 : Val} (h : Agree v1 v2) : getType v1 = getType v2 := by
  rcases h.same with rfl | ⟨b1, b2⟩
  · rfl
  · cases hs : isString v1 with
    | true => rw [getType_string hs, getType_string (h.string ▸ hs)]
    | false =>
      have ho : isObject v1 = true := b1.kind.resolve_left (by rw [hs]; decide)
      have ho' : isObject v2 = true := h.object ▸ ho
      have htag : v1 &&& tagMask = v2 &&& tagMask := by
        have ha := h.array
        simp only [isObject, Bool.or_eq_true, beq_iff_eq] at ho ho'
        unfold isArray at ha
        rw [Bool.eq_iff_iff, beq_iff_eq, beq_iff_eq] at ha
        rcases ho with ho | ho
        · rcases ho' with ho' | ho'
          · rw [ho, ho']
          · rw [ha.2 ho', ho']
        · rw [ho, ha.1 ho]
      unfold Mjs.getType
      rw [b1.number, b2.number, htag]

/-! ### Reading a value -/

variable {h : Heap} {w : World} {L : List (List UInt8)} {g : Nat → Option Nat}

theorem Rep.imm {v : Val} (hv : IsImm v) : Rep L g v (.imm v) := ⟨rfl, hv⟩

/-- The text of a value as a key. -/
def atext (numText : Val → List UInt8) : AVal → Option (List UInt8)
  | .str bs => some bs
  | .obj _ _ => none
  | .imm v =>
    if isNumber v then some (numText v)
    else if isBoolean v then some (if getBool v then [116, 114, 117, 101] else [102, 97, 108, 115, 101])
    else if isUndefined v then some [117, 110, 100, 101, 102, 105, 110, 101, 100]
    else if isNull v then some [110, 117, 108, 108]
    else if isForeign v then some [84, 79, 68, 79, 95, 102, 111, 114, 101, 105, 103, 110]
    else none

/-- Strings of at most 1 GB. -/
def AShort (x : AVal) : Prop := ∀ bs, x = .str bs → bs.length ≤ 2 ^ 30

theorem load_loc (st : Store) (bs : List UInt8) : load st.cmem st.owned (.loc bs) bs.length = some bs := by
  simp [load]

theorem Held.readsZ (s : Held h w L g) {v bs} (hr : StrRep L v bs) : ReadsZ h.str v bs := by
  obtain ⟨A, fo, fp, s⟩ := s
  exact s.readsZ hr

theorem Held.toStr (s : Held h w L g) (numText : Val → List UInt8) {v x} (hr : Rep L g v x) :
    (atext numText x = none ∧ toStr numText h.str v = some none) ∨
    ∃ bs p, atext numText x = some bs ∧ toStr numText h.str v = some (some (p, bs.length)) ∧ p.isNull = false ∧
      load h.str.cmem h.str.owned p bs.length = some bs ∧ GoodKey L (some v) bs := by
  cases x with
  | str bs =>
    obtain ⟨p, n, h1, h2, rfl, h4, _⟩ := s.readsZ hr
    refine .inr ⟨bs, p, rfl, ?_, h2, h4, ?_⟩
    · unfold Obj.toStr
      rw [if_pos (StrRep.string hr), h1]; rfl
    · intro v' e _
      cases e
      exact hr
  | obj t i =>
    left
    refine ⟨rfl, ?_⟩
    have b := boxed_object hr.1
    unfold Obj.toStr
    rw [if_neg (by rw [(Client.object_not hr.1).1]; decide), if_neg (by rw [b.number]; decide), if_neg (by rw [b.boolean]; decide),
      if_neg (by simp [isUndefined, b.undef]), if_neg (by simp [isNull, b.null]), if_pos hr.1]
  | imm w =>
    obtain ⟨rfl, hi⟩ := hr
    have hgk : ∀ bs, GoodKey L (some v) bs := by
      intro bs v' e hs
      cases e
      rw [hi.2.1] at hs; cases hs
    unfold Obj.toStr atext
    simp only [hi.2.1, hi.1, Bool.false_eq_true, if_false]
    by_cases h1 : isNumber v = true
    · simp only [h1, if_true]
      exact .inr ⟨_, .loc (numText v), rfl, rfl, rfl, load_loc _ _, hgk _⟩
    · simp only [h1]
      by_cases h2 : isBoolean v = true
      · simp only [h2, if_true]
        by_cases hb : getBool v = true
        · simp only [hb, if_true]
          exact .inr ⟨_, _, rfl, rfl, rfl, load_loc _ _, hgk _⟩
        · simp only [hb]
          exact .inr ⟨_, _, rfl, rfl, rfl, load_loc _ _, hgk _⟩
      · simp only [h2]
        by_cases h3 : isUndefined v = true
        · simp only [h3, if_true]
          exact .inr ⟨_, _, rfl, rfl, rfl, load_loc _ _, hgk _⟩
        · simp only [h3]
          by_cases h4 : isNull v = true
          · simp only [h4, if_true]
            exact .inr ⟨_, _, rfl, rfl, rfl, load_loc _ _, hgk _⟩
          · simp only [h4]
            by_cases h5 : isForeign v = true
            · simp only [h5, if_true]
              exact .inr ⟨_, _, rfl, rfl, rfl, load_loc _ _, hgk _⟩
            · simp only [h5]
              exact .inl (by simp)

/-- The texts of numbers are short. -/
def TextShort (numText : Val → List UInt8) : Prop := ∀ v, (numText v).length ≤ 2 ^ 30

theorem atext_short {numText} (ht : TextShort numText) {x bs} (hs : AShort x) (h : atext numText x = some bs) : bs.length ≤ 2 ^ 30 := by
  cases x with
  | str b => cases h; exact hs _ rfl
  | obj t i => cases h
  | imm v =>
    unfold atext at h
    simp only at h
    repeat' split at h
    all_goals first
      | (cases h; done)
      | (cases h; exact ht v)
      | (cases h; simp)

/-- Strings of at most 2 GB. -/
def KShort (x : AVal) : Prop := ∀ bs, x = .str bs → bs.length ≤ 2 ^ 31

theorem AShort.k {x} (h : AShort x) : KShort x := fun bs e => Nat.le_trans (h bs e) (by decide)

theorem atext_kshort {numText} (ht : TextShort numText) {x bs} (hs : KShort x) (h : atext numText x = some bs) : bs.length ≤ 2 ^ 31 := by
  cases x with
  | str b => cases h; exact hs _ rfl
  | obj t i => cases h
  | imm v => exact Nat.le_trans (atext_short ht (x := .imm v) (fun _ e => by cases e) h) (by decide)

/-- The property of a value with a key. -/
def aown (w : World) (x : AVal) (k : Option (List UInt8)) : Option AVal :=
  match x, k with
  | .obj _ i, some bs => ((w.objs i).find? fun q => sameKey q.1 bs).map (·.2)
  | _, _ => none

theorem aget_own (l : AObj) (bs : List UInt8) : aget l bs = ((l.find? fun q => sameKey q.1 bs).map (·.2)).getD (.imm mkUndefined) := by
  unfold aget
  cases l.find? fun q => sameKey q.1 bs <;> rfl

theorem Held.ownV (s : Held h w L g) {numText} (ht : TextShort numText) {o x key y} (ho : Rep L g o x) (hk : Rep L g key y) (hs : AShort y) :
    ∃ p z, getOwnPropertyV numText h o key = some p ∧ (p = 0 ↔ aown w x (atext numText y) = none) ∧ valueAt h p = some z ∧
      Rep L g z ((aown w x (atext numText y)).getD (.imm mkUndefined)) := by
  have hnone : valueAt h 0 = some mkUndefined := by simp [valueAt]
  unfold getOwnPropertyV
  rcases s.toStr numText hk with ⟨e1, e2⟩ | ⟨bs, p, e1, e2, e3, e4, _⟩
  · rw [e1, e2]
    refine ⟨0, mkUndefined, rfl, ?_, hnone, ?_⟩
    · cases x <;> simp [aown]
    · cases x <;> exact Rep.imm imm_undefined
  · rw [e1, e2]
    have hbl := atext_short ht hs e1
    simp only [Option.bind_some]
    cases x with
    | obj t i =>
      obtain ⟨q, z, f1, f2, f3, f4⟩ := s.own ho (name := p) (bs := bs) ⟨e3, e4, by omega⟩
      refine ⟨q, z, f1, ?_, f3, ?_⟩
      · rw [f2]; simp [aown]
      · simp only [aown, ← aget_own]
        exact f4
    | imm v =>
      refine ⟨0, mkUndefined, ?_, by simp [aown], hnone, Rep.imm imm_undefined⟩
      unfold getOwnProperty
      rw [if_pos (by rw [ho.1, ho.2.1]; decide)]
    | str v =>
      refine ⟨0, mkUndefined, ?_, by simp [aown], hnone, Rep.imm imm_undefined⟩
      unfold getOwnProperty
      rw [if_pos (by rw [(Client.string_not_object (StrRep.string ho)).1]; decide)]

theorem getV_eq (numText) (h : Heap) (o key : Val) : getV numText h o key = (getOwnPropertyV numText h o key).bind (valueAt h) := by
  unfold getV getOwnPropertyV Obj.get
  cases toStr numText h.str key with
  | none => rfl
  | some r =>
    cases r with
    | none => simp [valueAt]
    | some r => rfl

/-- Assigning to a property of a value. -/
def asetV (w : World) (x : AVal) (k : Option (List UInt8)) (v : AVal) : World :=
  match x, k with
  | .obj _ i, some bs => w.setObj i (aset (w.objs i) bs v)
  | _, _ => w

theorem Held.setV (s : Held h w L g) {numText} (ht : TextShort numText) {o x key y val z al} (ho : Rep L g o x) (hk : Rep L g key y)
    (hs : KShort y) (hx : Rep L g val z) (hg : Granted h (2 ^ 31) al) :
    ∃ h' e L', setV numText h o key val al = some (h', e) ∧ Held h' (asetV w x (atext numText y) z) L' g ∧ Grows L g L' g ∧
      h'.str.cmem = h.str.cmem ∧ Request h al h' := by
  unfold Obj.setV
  rcases s.toStr numText hk with ⟨e1, e2⟩ | ⟨bs, p, e1, e2, e3, e4, e5⟩
  · rw [e1, e2]
    refine ⟨h, .type, L, rfl, ?_, .refl _ _, rfl, .none⟩
    cases x <;> exact s
  · rw [e1, e2]
    have hbl := atext_kshort ht hs e1
    simp only [Option.bind_some]
    have hno : isObject o = false → setInternal h o (some key) p bs.length val al = some (h, .reference) := by
      intro hf
      unfold setInternal getOwnProperty
      simp [hf]
    cases x with
    | obj t i =>
      obtain ⟨h', L', f1, f2, f3, f4⟩ := s.set ho (nameV := some key) (name := p) (bs := bs) ⟨e3, e4, by omega⟩ e5 (by omega) hx hg
      exact ⟨h', _, L', f1, f2, f3, f4, .set (by omega) f1⟩
    | imm v =>
      exact ⟨h, _, L, hno (by rw [ho.1, ho.2.1]), s, .refl _ _, rfl, .none⟩
    | str v =>
      exact ⟨h, _, L, hno (Client.string_not_object (StrRep.string ho)).1, s, .refl _ _, rfl, .none⟩

/-! ### Arrays -/

def alen (w : World) : AVal → Nat
  | .obj _ i => ((w.objs i).map (·.1)).foldl Arr.lenStep 0
  | _ => 0

theorem pairs_keys {Ls : List Ent} {l : AObj} (h : Pairs (RepEnt L g) Ls l) : Ls.map Ent.key = l.map (·.1) := by
  induction h with
  | nil => rfl
  | cons r _ ih => rw [List.map_cons, List.map_cons, r.1, ih]

theorem Held.length (s : Held h w L g) {v x} (hv : Rep L g v x) : Arr.length h v = some (alen w x) := by
  have hno : isObject v = false → Arr.length h v = some 0 := by
    intro hf
    simp [Arr.length, hf]
  cases x with
  | obj t i =>
    obtain ⟨A, fo, fp, s⟩ := s
    obtain ⟨o, Ls, hio, hA, hgi, hp⟩ := s.obj hv
    obtain ⟨_, c, hc, hch⟩ := s.inv.obj o Ls hA
    rw [Arr.length, if_neg (by simp [hio.1]), getObjectStruct_of hio]
    simp only [Option.bind_eq_bind, Option.bind_some, hc]
    rw [Arr.lengthLoop_spec h s.inv.str hch (s.inv.names o Ls hA), pairs_keys hp]
    rfl
  | imm v => exact hno (by rw [hv.1, hv.2.1])
  | str v => exact hno (Client.string_not_object (StrRep.string hv)).1

theorem alen_lt (w : World) (x : AVal) : alen w x < 2 ^ 63 := by
  cases x with
  | obj t i =>
    show ((w.objs i).map (·.1)).foldl Arr.lenStep 0 < _
    rcases (Arr.foldl_lenStep ((w.objs i).map (·.1)) 0).2.2 with e | ⟨_, _, n, _, hn, e⟩
    · rw [e]; decide
    · rw [e]; omega
  | imm v => simp [alen]
  | str v => simp [alen]

/-- The text of an index. -/
def akey (n : Nat) : List UInt8 :=
  match Arr.indexKey n with
  | some (.loc buf, l) => buf.take l
  | _ => []

theorem indexKey_akey {n : Nat} (hn : n < 2 ^ 63) (st : Store) : ∃ buf, Arr.indexKey n = some (buf, (akey n).length) ∧ KeyPtr st buf (akey n) ∧
    (akey n).length ≤ 19 := by
  obtain ⟨buf, t, h1, h2, h3, h4, h5⟩ := Arr.indexKey_spec n hn
  have : akey n = t := by rw [akey, h1]; exact h3
  rw [this]
  exact ⟨.loc buf, h1, ⟨rfl, by rw [load, if_pos h4, h3], by omega⟩, h5⟩

def apush (w : World) (x v : AVal) : World :=
  match x with
  | .obj _ i => w.setObj i (aset (w.objs i) (akey (alen w x)) v)
  | _ => w

theorem Held.push (s : Held h w L g) {arr x val z al} (ha : Rep L g arr x) (hx : Rep L g val z) (hg : Granted h (2 ^ 31) al) :
    ∃ h' e L', Arr.push h arr val al = some (h', e) ∧ Held h' (apush w x z) L' g ∧ Grows L g L' g ∧ h'.str.cmem = h.str.cmem ∧
      Request h al h' ∧ (e = .ok ↔ ∃ t i, x = .obj t i) := by
  unfold Arr.push
  rw [s.length ha]
  simp only [Option.bind_eq_bind, Option.bind_some]
  have hno : isObject arr = false → Arr.set h arr (alen w x) val al = some (h, .type) := by
    intro hf
    simp [Arr.set, hf]
  cases x with
  | obj t i =>
    obtain ⟨buf, f1, f2, f3⟩ := indexKey_akey (alen_lt w (.obj t i)) h.str
    obtain ⟨h', L', e1, e2, e3, e4⟩ := s.set ha (nameV := none) f2 (fun _ hv => by cases hv) (by omega) hx hg
    refine ⟨h', .ok, L', ?_, e2, e3, e4, .set (by omega) e1, by simp⟩
    unfold Arr.set
    rw [if_pos ha.1, f1]
    exact e1
  | imm v => exact ⟨h, .type, L, hno (by rw [ha.1, ha.2.1]), s, .refl _ _, rfl, .none, by simp⟩
  | str v => exact ⟨h, .type, L, hno (Client.string_not_object (StrRep.string ha)).1, s, .refl _ _, rfl, .none, by simp⟩

theorem Held.newArray (s : Held h w L g) {al} (hg : CallocOk h.objs al.obj) :
    ∃ h' v g', mkArray h al = some (h', v) ∧ Held h' w.new L g' ∧ Grows L g L g' ∧ Rep L g' v (.obj tagArray w.next) ∧ h'.str = h.str ∧
      Request h al h' := by
  obtain ⟨h', v, g', e1, e2, e3, e4, e5, e6⟩ := s.new hg
  have hi := toArrayTag_isObj (v := v) (o := (getPtrRaw v).toNat) ⟨e4.1, rfl⟩
  refine ⟨h', toArrayTag v, g', by rw [mkArray, e1]; rfl, e2, e3, ⟨hi.1, tag_mk v tagArray (by decide), by rw [hi.2]; exact e5⟩, e6, .obj e1⟩

/-! ### Truth and equality -/

def atruthy : AVal → Bool
  | .str bs => decide (bs.length > 0)
  | .obj _ _ => true
  | .imm v => ((isBoolean v && getBool v) || (isNumber v && neZero (getDouble v)) || isFunction v || isForeign v) && v != tagNan

theorem Held.truthy (s : Held h w L g) {v x} (hr : Rep L g v x) : isTruthy h.str v = some (atruthy x) := by
  have hb : ∀ b, getBool (mkBoolean b) = b := by intro b; cases b <;> decide
  unfold isTruthy toBooleanV
  cases x with
  | str bs =>
    obtain ⟨p, n, h1, h2, rfl, _⟩ := s.readsZ hr
    have b := boxed_string (StrRep.string hr)
    rw [if_pos (StrRep.string hr), h1]
    simp [hb, h2, b.boolean, b.number, b.function, b.foreign, (Client.string_not_object (StrRep.string hr)).1, b.tagNan, atruthy]
  | obj t i =>
    have b := boxed_object hr.1
    rw [if_neg (by rw [(Client.object_not hr.1).1]; decide)]
    simp [hb, hr.1, b.tagNan, atruthy]
  | imm w =>
    obtain ⟨rfl, hi⟩ := hr
    rw [if_neg (by rw [hi.2.1]; decide)]
    simp [hb, hi.1, atruthy]

/-- Equality of values. -/
def aequal (x y : AVal) : Bool :=
  match x, y with
  | .str a, .str b => a == b
  | .obj t i, .obj t' j => t == t' && i == j
  | .imm a, .imm b =>
    if a = tagNan ∧ b = tagNan then false
    else if a = b then true
    else if isNumber a ∧ isNumber b then false
    else if isForeign a ∧ b = tagNull then getPtr a == 0
    else if a = tagNull ∧ isForeign b then getPtr b == 0
    else false
  | _, _ => false

theorem Held.equal (s : Held h w L g) {u v x y} (hu : Rep L g u x) (hv : Rep L g v y) : checkEqual h.str u v = some (aequal x y) := by
  have nn : ∀ {b : Val}, Boxed b → b ≠ tagNull := fun hb => hb.null
  -- one of them boxed, of different kinds
  have key : ∀ {u v : Val}, (Boxed u ∨ Boxed v) → u ≠ v → ¬ (isString u = true ∧ isString v = true) → checkEqual h.str u v = some false := by
    intro u v hb hne hs
    unfold checkEqual
    have h1 : ¬ (u = tagNan ∧ v = tagNan) := by rintro ⟨rfl, rfl⟩; exact hne rfl
    have h3 : ¬ (isNumber u = true ∧ isNumber v = true) := by
      rintro ⟨a, b⟩
      rcases hb with hb | hb
      · rw [hb.number] at a; cases a
      · rw [hb.number] at b; cases b
    have h4 : ¬ (isForeign u = true ∧ v = tagNull) := by
      rintro ⟨a, b⟩
      rcases hb with hb | hb
      · rw [hb.foreign] at a; cases a
      · exact nn hb b
    have h5 : ¬ (u = tagNull ∧ isForeign v = true) := by
      rintro ⟨a, b⟩
      rcases hb with hb | hb
      · exact nn hb a
      · rw [hb.foreign] at b; cases b
    rw [if_neg h1, if_neg hne, if_neg h3, if_neg hs, if_neg h4, if_neg h5]
  cases x with
  | str a =>
    have su := StrRep.string hu
    cases y with
    | str b =>
      have sv := StrRep.string hv
      have bu := boxed_string su
      obtain ⟨A, fo, fp, s'⟩ := s
      obtain ⟨pa, na, ga, nna, ea, la, _⟩ := s'.readsZ hu
      obtain ⟨pb, nb, gb, nnb, eb, lb, _⟩ := s'.readsZ hv
      obtain ⟨r, hr, h0⟩ := sCmp_core h.str s'.inv.str u v a b ⟨pa, na, ga, nna, la⟩ ⟨pb, nb, gb, nnb, lb⟩
      unfold checkEqual
      rw [if_neg (fun e => bu.tagNan e.1)]
      by_cases he : u = v
      · rw [if_pos he]
        subst he
        rw [ga] at gb
        cases gb
        rw [la] at lb
        cases lb
        simp [aequal]
      · rw [if_neg he, if_neg (fun e => by rw [bu.number] at e; cases e.1), if_pos ⟨su, sv⟩, hr]
        show some (r == 0) = some (a == b)
        congr 1
        rw [Bool.eq_iff_iff, beq_iff_eq, beq_iff_eq]
        exact h0
    | imm b =>
      have hns : isString v = false := by rw [hv.1, hv.2.2.1]
      exact key (.inl (boxed_string su)) (by rintro rfl; rw [su] at hns; cases hns) (by rw [hns]; simp)
    | obj t i =>
      have hns := (Client.object_not hv.1).1
      exact key (.inl (boxed_string su)) (by rintro rfl; rw [su] at hns; cases hns) (by rw [hns]; simp)
  | obj t i =>
    have hns := (Client.object_not hu.1).1
    have bu := boxed_object hu.1
    cases y with
    | str b =>
      have sv := StrRep.string hv
      exact key (.inl bu) (by rintro rfl; rw [sv] at hns; cases hns) (by rw [hns]; simp)
    | imm b =>
      have ho : isObject v = false := by rw [hv.1, hv.2.1]
      exact key (.inl bu) (by rintro rfl; rw [hu.1] at ho; cases ho) (by rw [hns]; simp)
    | obj t' j =>
      by_cases he : u = v
      · subst he
        have e1 := hu.2.1.symm.trans hv.2.1
        have e2 := hu.2.2.symm.trans hv.2.2
        unfold checkEqual
        rw [if_neg (fun e => bu.tagNan e.1), if_pos rfl]
        cases e2
        simp [aequal, e1]
      · rw [key (.inl bu) he (by rw [hns]; simp)]
        have : ¬ (t = t' ∧ i = j) := by
          rintro ⟨rfl, rfl⟩
          obtain ⟨A, fo, fp, s'⟩ := s
          have e := s'.inj _ _ _ hu.2.2 hv.2.2
          refine he (val_ext (hu.2.1.trans hv.2.1.symm) ?_)
          unfold valToOffset
          rw [BitVec.eq_of_toNat_eq e]
        simp only [aequal, Option.some.injEq]
        symm
        simpa using this
  | imm a =>
    have ho : isObject u = false := by rw [hu.1, hu.2.1]
    have hns : isString u = false := by rw [hu.1, hu.2.2.1]
    cases y with
    | str b =>
      have sv := StrRep.string hv
      exact key (.inr (boxed_string sv)) (by rintro rfl; rw [sv] at hns; cases hns) (by rw [hns]; simp)
    | obj t i => exact key (.inr (boxed_object hv.1)) (by rintro rfl; rw [hv.1] at ho; cases ho) (by rw [hns]; simp)
    | imm b =>
      obtain ⟨rfl, _⟩ := hu
      obtain ⟨rfl, _⟩ := hv
      unfold checkEqual aequal
      simp only [hns]
      repeat' split
      all_goals first
        | rfl
        | (exfalso; simp_all; done)

end Mjs.Spec.Invisible
