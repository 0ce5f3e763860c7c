import Verif.Props.Builtin
import Verif.Props.NumText
import Verif.Props.Assign

/-!
# C79: members, elements and bytes in scripts

`e.x`, `e[k]`, `e.x = v` and `e[k] = v` for every kind of value of `e`.
-/

namespace Mjs.Props
open Mjs Mjs.Mbuf Mjs.Str Mjs.Arena Mjs.Obj Mjs.Spec Mjs.Core Mjs.Code Mjs.Sem Mjs.Exec Mjs.Spec.Double

/-- The value as the name of a property: a string names itself, a number its text. -/
inductive Names (vm : Vm) : Val → List UInt8 → Prop
  | text {k : Val} {x : List UInt8} : IsName vm k x → Names vm k x
  | number {k : Val} : isNumber k = true → Names vm k (Print.numText k)

section
variable {cmem : Nat → Option UInt8} {E : Env} [Natives E] {F : Nat → Option Fn} {d : Nat} {vm vm1 vm2 vm3 : Vm} {ops : List ObjOp}
  {e e1 e2 e3 : Expr} {t k v : Val} {x : List UInt8}

theorem number_not_string {v : Val} (h : isNumber v = true) : isString v = false := by
  cases hs : isString v with
  | false => rfl
  | true => exact absurd (C04_one_kind v .string .number hs h) (by decide)

omit [Natives E] in
theorem Names.key (h : Names vm k x) (hE : E.numText = Print.numText) (hi : InvS vm.heap.str) :
    ∃ p, toStr E.numText vm.heap.str k = some (some (p, x.length)) ∧ KeyPtr vm.heap.str p x := by
  cases h with
  | text h => exact h.text hi E.numText
  | number h =>
    refine ⟨.loc (Print.numText k), ?_, rfl, loc_load _ _, Nat.lt_of_le_of_lt (numText_short k).1 (by decide)⟩
    rw [hE, toStr, number_not_string h]
    simp [h]

omit [Natives E] in
/-- What the built-in members answer. -/
theorem builtin_key (h : Names vm k x) (hE : E.numText = Print.numText) (hi : InvS vm.heap.str) (t : Val) :
    builtin E vm t k = if isString t then builtinString E vm t x else if x = txt "apply" then some (vm, some (mkFn E.applyFn))
      else if isArray t then builtinArray E vm t x else if isForeign t then builtinForeign vm t x else some (vm, none) := by
  obtain ⟨p, ht, hp⟩ := h.key hE hi
  unfold builtin
  have hk : keyErr E vm k = some vm := by rw [keyErr, ht]; rfl
  rw [hk]
  simp only [Option.bind_eq_bind, Option.bind_some]
  rw [ht]
  simp only [Option.bind_some, hp.bytes]

/-! ## The expressions -/

/-- `e1[e2]`, once `e1` and `e2` are evaluated. -/
theorem means_index (h1 : Means E F d e1 vm (.ok vm1 t)) (h2 : Means E F d e2 vm1 (.ok vm2 k)) (hg : getProp E vm2 t k = some (vm3, v)) :
    Means E F (d + 2) (.get (.index e1 e2)) vm (if vm3.error = .ok then .ok { vm3 with lastGetprop := t } v else .err vm3) := by
  obtain ⟨n1, h1⟩ := h1
  obtain ⟨n2, h2⟩ := h2
  refine ⟨n1 + n2 + 2, ?_⟩
  rw [eval, evalL]
  have : (eval E F (n1 + n2) d e1 >>= fun o => eval E F (n1 + n2) d e2 >>= fun v => pure (v, o)) vm = some (.ok vm2 (k, t)) := by
    rw [bind_ok (eval_mono h1 (by omega) (Nat.le_refl _)), bind_ok (eval_mono h2 (by omega) (Nat.le_refl _))]
    rfl
  rw [bind_ok this]
  show (prim _ >>= _) vm2 = _
  by_cases he : vm3.error = .ok
  · rw [bind_ok (prim_ok hg he), if_pos he]
    rfl
  · rw [bind_err (vm' := vm3) (by simp [prim, hg, he]), if_neg he]

/-- `e.x`, once `e` is evaluated and the name is made. -/
theorem means_dot (h1 : Means E F d e vm (.ok vm1 t)) (hok : vm1.error = .ok) (hk : mkStr vm1 x = some (vm2, k)) (he2 : vm2.error = vm1.error)
    (hg : getProp E vm2 t k = some (vm3, v)) :
    Means E F (d + 2) (.get (.dot e x)) vm (if vm3.error = .ok then .ok { vm3 with lastGetprop := t } v else .err vm3) := by
  obtain ⟨n1, h1⟩ := h1
  refine ⟨n1 + 2, ?_⟩
  rw [eval, evalL]
  have : (eval E F n1 d e >>= fun o => Sem.string x >>= fun k => pure (k, o)) vm = some (.ok vm2 (k, t)) := by
    rw [bind_ok h1]
    unfold Sem.string
    rw [bind_ok (prim_ok hk (he2.trans hok))]
    rfl
  rw [bind_ok this]
  show (prim _ >>= _) vm2 = _
  by_cases he : vm3.error = .ok
  · rw [bind_ok (prim_ok hg he), if_pos he]
    rfl
  · rw [bind_err (vm' := vm3) (by simp [prim, hg, he]), if_neg he]

/-- `e1[e2] = e3`, once the three are evaluated. -/
theorem means_index_assign {vm4 : Vm} {w r : Val} (h1 : Means E F d e1 vm (.ok vm1 t)) (h2 : Means E F d e2 vm1 (.ok vm2 k))
    (h3 : Means E F (d + 1) e3 vm2 (.ok vm3 w)) (ha : assign E vm3 w t k = some (vm4, r)) :
    Means E F (d + 2) (.assign none (.index e1 e2) e3) vm (if vm4.error = .ok then .ok vm4 r else .err vm4) := by
  obtain ⟨n1, h1⟩ := h1
  obtain ⟨n2, h2⟩ := h2
  obtain ⟨n3, h3⟩ := h3
  refine ⟨n1 + n2 + n3 + 2, ?_⟩
  rw [eval, evalL]
  have : (eval E F (n1 + n2 + n3) d e1 >>= fun o => eval E F (n1 + n2 + n3) d e2 >>= fun v => pure (v, o)) vm = some (.ok vm2 (k, t)) := by
    rw [bind_ok (eval_mono h1 (by omega) (Nat.le_refl _)), bind_ok (eval_mono h2 (by omega) (Nat.le_refl _))]
    rfl
  rw [bind_ok this, bind_ok (eval_mono h3 (by omega) (Nat.le_refl _))]
  rw [Sem.store]
  by_cases he : vm4.error = .ok
  · rw [prim_ok ha he, if_pos he]
  · rw [if_neg he]; simp [prim, ha, he]

/-! ## Numbers as indices -/

/-- The text of an integer is read as that integer, as an `unsigned long`. -/
theorem int_text {n : Int} (h : IsInt k n) (h1 : -2 ^ 63 ≤ n) (h2 : n < 2 ^ 63) :
    cstrToUlong (Print.numText k) = some ((n % 2 ^ 64).toNat, true) ∧ Print.numText k ≠ [] ∧
      ∀ c ∈ Print.numText k, isDecimal c = true ∨ c = 45 := by
  have hn := C70_integer h h1 h2
  generalize Print.numText k = u at hn
  have key : ∀ (sg ds : List UInt8), sg = [] ∨ sg = [45] → Numeral.Nat 10 n.natAbs ds → cstrToUlong (sg ++ ds) =
      some (if sg = [45] then (2 ^ 64 - n.natAbs) % 2 ^ 64 else n.natAbs, true) := by
    intro sg ds hsg hds
    have hdec := Arr.numeral_decimal hds
    have hsc : Arr.Scan [] sg ds 0 := by
      refine ⟨by simp, hsg.elim .inl fun h => .inr (.inr h), hdec, by decide, fun _ hnil => absurd hnil hds.2.1⟩
    have := Arr.strtoul_scan hsc (fun i => if i < (sg ++ ds).length then (sg ++ ds)[i]? else if i = (sg ++ ds).length then some 0 else none) ?_
    · unfold cstrToUlong
      rw [this, if_neg hds.2.1]
      simp only [(Arr.value_fold hds.1).2, Option.map_some, List.length_nil, Nat.zero_add, List.length_append, beq_self_eq_true, Bool.true_and]
      rw [if_neg (by omega)]
      have hl : 0 < ds.length := List.length_pos_iff.2 hds.2.1
      have : (sg.length + ds.length != 0) = true := bne_iff_ne.2 (by omega)
      rw [this]
    · intro i c hc
      rw [List.nil_append] at hc
      have hlt := (List.getElem?_eq_some_iff.1 hc).1
      rw [List.length_append, List.length_singleton] at hlt
      by_cases hi : i < (sg ++ ds).length
      · rw [if_pos hi, ← hc, List.getElem?_append_left hi]
      · have : i = (sg ++ ds).length := by omega
        subst this
        rw [if_neg hi, if_pos rfl, ← hc, List.getElem?_append_right (Nat.le_refl _), Nat.sub_self]
        rfl
  unfold Numeral.Int at hn
  split at hn
  · obtain ⟨ds, rfl, hds⟩ := hn
    refine ⟨(key [45] ds (.inr rfl) hds).trans ?_, by simp, ?_⟩
    · rw [if_pos rfl]
      congr 2
      omega
    · intro c hc
      rcases List.mem_cons.1 hc with rfl | hc
      · exact .inr rfl
      · exact .inl (Arr.numeral_decimal hds c hc)
  · refine ⟨(key [] u (.inl rfl) hn).trans ?_, hn.2.1, fun c hc => .inl (Arr.numeral_decimal hn c hc)⟩
    rw [if_neg (by decide)]
    congr 2
    omega

/-- The text of an integer is none of the names that begin with a letter. -/
theorem int_text_ne {n : Int} (h : IsInt k n) (h1 : -2 ^ 63 ≤ n) (h2 : n < 2 ^ 63) :
    cstr (Print.numText k) = Print.numText k ∧ ∀ (y : List UInt8) (c : UInt8), y.head? = some c → isDecimal c = false → c ≠ 45 →
      Print.numText k ≠ y := by
  obtain ⟨_, _, h3⟩ := int_text h h1 h2
  constructor
  · unfold cstr
    have : ∀ c ∈ Print.numText k, (decide (c ≠ 0)) = true := by
      intro c hc
      rcases h3 c hc with h | rfl
      · simpa using (Arr.decimal_ne_zero h).1
      · decide
    simpa using List.takeWhile_append_of_pos (l₂ := []) this
  · intro y c hy hc hm e
    rcases h3 c (by rw [e]; exact List.mem_of_head? hy) with h | h
    · rw [h] at hc; cases hc
    · exact hm h

/-- The 32 bits that are left of an index. -/
theorem cInt_index (n : Int) : cInt (n % 2 ^ 64).toNat = n.bmod (2 ^ 32) := by
  unfold cInt
  rw [BitVec.toInt_eq_toNat_cond, BitVec.toNat_ofNat, Int.bmod]
  split <;> split <;> omega

/-! ## Strings -/

/-- What looking up a member leaves alone. -/
structure Calm (cmem : Nat → Option UInt8) (E : Env) (ops : List ObjOp) (vm vm' : Vm) : Prop where
  inv : Scoped cmem E vm' ops
  error : vm'.error = .ok
  scopes : vm'.scopes = vm.scopes
  this : vm'.this = vm.this
  reads : ∀ w ws, Reads vm.heap.str w ws → Reads vm'.heap.str w ws

omit [Natives E] in
/-- The byte of a string at an index; `int` has 32 bits. -/
theorem getProp_string {n : Int} {bs : List UInt8} (hE : E.numText = Print.numText) (h : Scoped cmem E vm ops) (hok : vm.error = .ok)
    (ht : Reads vm.heap.str t bs) (hb : bs.length < 2 ^ 31) (hk : IsInt k n) (h1 : -2 ^ 63 ≤ n) (h2 : n < 2 ^ 63)
    (hg : Granted vm.heap 1 (vm.al 0)) :
    (∀ b, 0 ≤ n.bmod (2 ^ 32) → bs[(n.bmod (2 ^ 32)).toNat]? = some b →
      ∃ vm' v, getProp E vm t k = some (vm', v) ∧ Calm cmem E ops vm vm' ∧ Reads vm'.heap.str v [b]) ∧
    ((n.bmod (2 ^ 32) < 0 ∨ bs.length ≤ (n.bmod (2 ^ 32)).toNat) → getProp E vm t k = some (vm, mkUndefined)) := by
  have hstr := reads_isString ht
  obtain ⟨c1, _, _⟩ := int_text hk h1 h2
  obtain ⟨c3, c4⟩ := int_text_ne hk h1 h2
  obtain ⟨p, m, g1, g2, g3⟩ := ht
  have hm := load_length h.inv.1.1 g3
  subst hm
  have hbs : builtin E vm t k = if n.bmod (2 ^ 32) ≥ 0 ∧ n.bmod (2 ^ 32) < bs.length then
      (mkStrP vm (p.add (n.bmod (2 ^ 32)).toNat) 1).map fun r => (r.1, some r.2) else some (vm, some mkUndefined) := by
    rw [builtin_key (.number (isNumber_finite hk.1)) hE h.inv, if_pos hstr]
    unfold builtinString
    simp only [c1, Option.bind_eq_bind, Option.bind_some, g1, c3, cInt_index, cInt_eq hb]
    rw [if_neg (c4 _ 108 (by decide) (by decide) (by decide)),
      if_neg (not_or.2 ⟨c4 _ 97 (by decide) (by decide) (by decide), c4 _ 99 (by decide) (by decide) (by decide)⟩),
      if_neg (c4 _ 105 (by decide) (by decide) (by decide)), if_neg (c4 _ 115 (by decide) (by decide) (by decide)), if_pos trivial]
  unfold getProp
  rw [hbs]
  constructor
  · intro b h0 hb'
    have hlt := (List.getElem?_eq_some_iff.1 hb').1
    rw [if_pos ⟨h0, by omega⟩]
    have hpart := load_add g3 (n.bmod (2 ^ 32)).toNat 1 (by omega)
    have hone : (bs.drop (n.bmod (2 ^ 32)).toNat).take 1 = [b] := by
      rw [List.getElem?_eq_getElem hlt] at hb'
      rw [List.drop_eq_getElem_cons hlt, Option.some.inj hb']
      rfl
    rw [hone] at hpart
    obtain ⟨st', v, e1, i2, i3, i4, _⟩ := C07_copy_reads_back (vm.al 0).hr vm.heap.str h.inv (p.add (n.bmod (2 ^ 32)).toNat) [b] (vm.al 0).strs
      (by rw [add_isNull]; exact g2) hpart hg.room hg.low hg.grant
    refine ⟨{ used vm with heap := { vm.heap with str := st' } }, v, ?_, ?_, i3.reads⟩
    · rw [mkStrP, show (1 : Nat) = [b].length from rfl, e1]; rfl
    · exact ⟨⟨.string h.hist (by rw [add_isNull]; exact g2) hpart (bs := [b]) hg e1, h.noNul, h.scopes, h.plain⟩, hok, rfl, rfl, fun w ws hw => i4 w ws hw⟩
  · intro hno
    rw [if_neg (by omega)]
    rfl

/-- **C79, `s[i]`.** For a string of less than 2^31 bytes and an integer `i` of 32 bits: the string of the byte at `i`;
undefined if there is none.  Negative indices do not count from the end. -/
theorem C79_string_index_partial {n : Int} {bs : List UInt8} (hE : E.numText = Print.numText) (h1 : Means E F d e1 vm (.ok vm1 t))
    (h2 : Means E F d e2 vm1 (.ok vm2 k)) (h : Scoped cmem E vm2 ops) (hok : vm2.error = .ok) (ht : Reads vm2.heap.str t bs)
    (hb : bs.length < 2 ^ 31) (hk : IsInt k n) (hn1 : -2 ^ 31 ≤ n) (hn2 : n < 2 ^ 31) (hg : Granted vm2.heap 1 (vm2.al 0)) :
    ∃ vm3 v, Means E F (d + 2) (.get (.index e1 e2)) vm (.ok vm3 v) ∧ Calm cmem E ops vm2 vm3 ∧
      (∀ b, 0 ≤ n → bs[n.toNat]? = some b → Reads vm3.heap.str v [b]) ∧ ((n < 0 ∨ bs.length ≤ n.toNat) → v = mkUndefined) := by
  obtain ⟨g1, g2⟩ := getProp_string hE h hok ht hb hk (by omega) (by omega) hg
  have hbm : n.bmod (2 ^ 32) = n := by rw [Int.bmod]; omega
  rw [hbm] at g1 g2
  by_cases hin : 0 ≤ n ∧ n.toNat < bs.length
  · obtain ⟨vm', v, e, hc, hr⟩ := g1 _ hin.1 (List.getElem?_eq_getElem hin.2)
    have := means_index h1 h2 e
    rw [if_pos hc.error] at this
    refine ⟨_, v, this, ⟨⟨hc.inv.hist, hc.inv.noNul, hc.inv.scopes, hc.inv.plain⟩, hc.error, hc.scopes, hc.this, hc.reads⟩, fun b _ hb' => ?_, by omega⟩
    rw [List.getElem?_eq_getElem hin.2] at hb'
    cases hb'
    exact hr
  · have hno : n < 0 ∨ bs.length ≤ n.toNat := by omega
    have := means_index h1 h2 (g2 hno)
    rw [if_pos hok] at this
    refine ⟨_, _, this, ⟨⟨h.hist, h.noNul, h.scopes, h.plain⟩, hok, rfl, rfl, fun _ _ h => h⟩, fun b h0 hb' => ?_, fun _ => rfl⟩
    have := (List.getElem?_eq_some_iff.1 hb').1
    omega

/-- **C79, violation.** An index is cut to 32 bits: beyond the end, at 2^32 + `i`, is the byte at `i` again. -/
theorem C79_string_index_wraps {i : Nat} {b : UInt8} {bs : List UInt8} (hE : E.numText = Print.numText) (h1 : Means E F d e1 vm (.ok vm1 t))
    (h2 : Means E F d e2 vm1 (.ok vm2 k)) (h : Scoped cmem E vm2 ops) (hok : vm2.error = .ok) (ht : Reads vm2.heap.str t bs)
    (hb : bs.length < 2 ^ 31) (hk : IsInt k (2 ^ 32 + i : Nat)) (hi : bs[i]? = some b) (hg : Granted vm2.heap 1 (vm2.al 0)) :
    bs.length < 2 ^ 32 + i ∧ ∃ vm3 v, Means E F (d + 2) (.get (.index e1 e2)) vm (.ok vm3 v) ∧ Reads vm3.heap.str v [b] := by
  have hlt := (List.getElem?_eq_some_iff.1 hi).1
  obtain ⟨g1, _⟩ := getProp_string hE h hok ht hb hk (by omega) (by omega) hg
  have hbm : ((2 ^ 32 + i : Nat) : Int).bmod (2 ^ 32) = i := by rw [Int.bmod]; omega
  rw [hbm] at g1
  obtain ⟨vm', v, e, hc, hr⟩ := g1 b (by omega) (by simpa using hi)
  have := means_index h1 h2 e
  rw [if_pos hc.error] at this
  exact ⟨by omega, _, v, this, hr⟩

omit [Natives E] in
/-- `length` of a string and of an array. -/
theorem getProp_length (h : Scoped cmem E vm ops) (hk : IsName vm k (txt "length")) (hE : E.numText = Print.numText) :
    (∀ bs, Reads vm.heap.str t bs → getProp E vm t k = some (vm, mkInt bs.length)) ∧
    (∀ f, isArray t = true → ArrayOps t ops f → ∃ n : Nat, getProp E vm t k = some (vm, mkInt n) ∧ IsLength f n) := by
  constructor
  · intro bs ht
    have hstr := reads_isString ht
    obtain ⟨p, m, g1, g2, g3⟩ := ht
    have hm := load_length h.inv.1.1 g3
    subst hm
    unfold getProp
    rw [builtin_key (.text hk) hE h.inv, if_pos hstr]
    unfold builtinString
    rw [cstrToUlong_name (c := 108) (by decide) (by decide) (by decide) (by decide)]
    simp only [Option.bind_eq_bind, Option.bind_some, g1]
    rw [if_pos (by decide)]
    rfl
  · intro f ha hf
    obtain ⟨n, e, hn⟩ := C18_length h.hist hf
    refine ⟨n, ?_, hn⟩
    have hob : isObject t = true := created_isObject h (Arr.view_of hf).cr
    unfold getProp
    rw [builtin_key (.text hk) hE h.inv, if_neg (by rw [(tags_of_isObject hob).1]; decide), if_neg (by decide), if_pos ha]
    unfold builtinArray
    rw [if_neg (by decide), if_neg (by decide), if_pos (by decide), e]
    rfl

omit [Natives E] in
/-- The state after the name of a member is made and the member looked up. -/
theorem calm_dot {u : Vm} (h : Scoped cmem E u ops) (h3 : u.scopes = vm.scopes) (h4 : u.error = .ok) (h5 : u.this = vm.this)
    (hr : ∀ w ws, Reads vm.heap.str w ws → Reads u.heap.str w ws) : Calm cmem E ops vm { u with lastGetprop := t } :=
  ⟨⟨h.hist, h.noNul, h.scopes, h.plain⟩, h4, h3, h5, hr⟩

/-- **C79, `s.length`.** The number of bytes of a string. -/
theorem C79_string_length {bs : List UInt8} (hE : E.numText = Print.numText) (h1 : Means E F d e vm (.ok vm1 t)) (h : Scoped cmem E vm1 ops)
    (hok : vm1.error = .ok) (ht : Reads vm1.heap.str t bs) (hb : bs.length < 2 ^ 53) (hg : Granted vm1.heap 6 (vm1.al 0)) :
    ∃ vm3 v, Means E F (d + 2) (.get (.dot e (txt "length"))) vm (.ok vm3 v) ∧ Calm cmem E ops vm1 vm3 ∧ IsInt v bs.length := by
  obtain ⟨u, k, e1, g1, g2, g3, g4, g5, g6, _⟩ := mkStr_name (x := txt "length") h (by decide) hg
  obtain ⟨hkeep, _⟩ := mkStr_keeps (x := txt "length") h hg e1
  have := means_dot h1 hok e1 g4 ((getProp_length g1 g2 hE).1 bs (hkeep _ _ ht))
  rw [if_pos (g4.trans hok)] at this
  exact ⟨_, _, this, calm_dot g1 g3 (g4.trans hok) g5 hkeep, mkInt_isInt _ (by omega)⟩

/-- **C79, `a.length`.** One more than the greatest index that has an element. -/
theorem C79_array_length {f : Nat → Option Val} (hE : E.numText = Print.numText) (h1 : Means E F d e vm (.ok vm1 t)) (h : Scoped cmem E vm1 ops)
    (hok : vm1.error = .ok) (ht : isArray t = true) (ha : ArrayOps t ops f) (hg : Granted vm1.heap 6 (vm1.al 0)) :
    ∃ vm3 v n, Means E F (d + 2) (.get (.dot e (txt "length"))) vm (.ok vm3 v) ∧ Calm cmem E ops vm1 vm3 ∧ IsInt v (n : Nat) ∧ IsLength f n := by
  obtain ⟨u, k, e1, g1, g2, g3, g4, g5, g6, _⟩ := mkStr_name (x := txt "length") h (by decide) hg
  obtain ⟨hkeep, _⟩ := mkStr_keeps (x := txt "length") h hg e1
  obtain ⟨n, e2, hn⟩ := (getProp_length (t := t) g1 g2 hE).2 f ht ha
  have := means_dot h1 hok e1 g4 e2
  rw [if_pos (g4.trans hok)] at this
  refine ⟨_, _, n, this, calm_dot g1 g3 (g4.trans hok) g5 hkeep, mkInt_isInt _ ?_, hn⟩
  rcases hn.2 with rfl | h0
  · decide
  · have := (Arr.view_of ha).idx _ h0
    unfold IsIndex at this
    omega

/-! ## Objects and arrays -/

/-- The names that are methods, or the length, of the value itself: `apply` of everything, and those of arrays. -/
def Own (t : Val) (x : List UInt8) : Prop :=
  x = txt "apply" ∨ isArray t = true ∧ (x = txt "splice" ∨ x = txt "push" ∨ x = txt "length")

omit [Natives E] in
/-- The value of a member: that of the first object of the chain of prototypes that has it. -/
theorem getProp_member {chain : List Val} (hE : E.numText = Print.numText) (h : Scoped cmem E vm ops) (hc : created ops t)
    (hp : ProtoChain (Spec.current ops) protoKey t chain) (hw : ∀ w ∈ chain, created ops w ∨ isObject w = false)
    (hk : Names vm k x) (hx : (0 : UInt8) ∉ x) (ho : ¬ Own t x) :
    getProp E vm t k = some (vm, (nearest (Spec.current ops) chain x).getD mkUndefined) := by
  have hob := created_isObject h hc
  obtain ⟨p, ht, hkp⟩ := hk.key hE h.inv
  have hcs : cstr x = x := by
    unfold cstr
    have : ∀ c ∈ x, (decide (c ≠ 0)) = true := fun c hc => by
      rw [decide_eq_true_eq]; rintro rfl; exact hx hc
    simpa using List.takeWhile_append_of_pos (l₂ := []) this
  have hb : builtin E vm t k = some (vm, none) := by
    rw [builtin_key hk hE h.inv, if_neg (by rw [(tags_of_isObject hob).1]; decide), if_neg fun hh => ho (.inl hh)]
    split
    · rename_i ha
      unfold builtinArray
      rw [hcs, if_neg fun hh => ho (.inr ⟨ha, .inl hh⟩), if_neg fun hh => ho (.inr ⟨ha, .inr (.inl hh)⟩),
        if_neg fun hh => ho (.inr ⟨ha, .inr (.inr hh)⟩)]
    · rw [if_neg (by rw [(tags_of_isObject hob).2]; decide)]
  unfold getProp
  rw [hb]
  simp only [Option.bind_eq_bind, Option.bind_some, hob, if_true]
  rw [C17_proto_lookup_partial h.hist h.noNul hp hw ht hkp]
  rfl

/-- **C79, `o[k]`.** The value of the property that `k` names in the first object of the prototype chain that has it,
undefined if none has it; nothing changes. -/
theorem C79_member_index_partial {chain : List Val} (hE : E.numText = Print.numText) (h1 : Means E F d e1 vm (.ok vm1 t))
    (h2 : Means E F d e2 vm1 (.ok vm2 k)) (h : Scoped cmem E vm2 ops) (hok : vm2.error = .ok) (hc : created ops t)
    (hp : ProtoChain (Spec.current ops) protoKey t chain) (hw : ∀ w ∈ chain, created ops w ∨ isObject w = false)
    (hk : Names vm2 k x) (hx : (0 : UInt8) ∉ x) (ho : ¬ Own t x) :
    ∃ vm3, Means E F (d + 2) (.get (.index e1 e2)) vm (.ok vm3 ((nearest (Spec.current ops) chain x).getD mkUndefined)) ∧
      Calm cmem E ops vm2 vm3 := by
  have := means_index h1 h2 (getProp_member hE h hc hp hw hk hx ho)
  rw [if_pos hok] at this
  exact ⟨_, this, calm_dot h rfl hok rfl fun _ _ h => h⟩

/-- **C79, `o.x`.** -/
theorem C79_member_dot_partial {chain : List Val} (hE : E.numText = Print.numText) (h1 : Means E F d e vm (.ok vm1 t))
    (h : Scoped cmem E vm1 ops) (hok : vm1.error = .ok) (hc : created ops t)
    (hp : ProtoChain (Spec.current ops) protoKey t chain) (hw : ∀ w ∈ chain, created ops w ∨ isObject w = false)
    (hl : x.length < 2 ^ 32) (hx : (0 : UInt8) ∉ x) (ho : ¬ Own t x) (hg : Granted vm1.heap x.length (vm1.al 0)) :
    ∃ vm3, Means E F (d + 2) (.get (.dot e x)) vm (.ok vm3 ((nearest (Spec.current ops) chain x).getD mkUndefined)) ∧
      Calm cmem E ops vm1 vm3 := by
  obtain ⟨u, k, e1, g1, g2, g3, g4, g5, g6, _⟩ := mkStr_name h hl hg
  obtain ⟨hkeep, _⟩ := mkStr_keeps h hg e1
  have := means_dot h1 hok e1 g4 (getProp_member hE g1 hc hp hw (.text g2) hx ho)
  rw [if_pos (g4.trans hok)] at this
  exact ⟨_, this, calm_dot g1 g3 (g4.trans hok) g5 hkeep⟩

/-- **C79, violation: `apply`.** Whatever an object has stored under `apply`, `o.apply` is the built-in function. -/
theorem C79_apply_hides (hE : E.numText = Print.numText) (h1 : Means E F d e vm (.ok vm1 t)) (h : Scoped cmem E vm1 ops)
    (hok : vm1.error = .ok) (ht : isString t = false) (hg : Granted vm1.heap 5 (vm1.al 0)) :
    ∃ vm3, Means E F (d + 2) (.get (.dot e (txt "apply"))) vm (.ok vm3 (mkFn E.applyFn)) ∧ Calm cmem E ops vm1 vm3 := by
  obtain ⟨u, k, e1, g1, g2, g3, g4, g5, g6, _⟩ := mkStr_name (x := txt "apply") h (by decide) hg
  obtain ⟨hkeep, _⟩ := mkStr_keeps (x := txt "apply") h hg e1
  have hgp : getProp E u t k = some (u, mkFn E.applyFn) := by
    unfold getProp
    rw [builtin_key (.text g2) hE g1.inv, if_neg (by rw [ht]; decide), if_pos rfl]
    rfl
  have := means_dot h1 hok e1 g4 hgp
  rw [if_pos (g4.trans hok)] at this
  exact ⟨_, this, calm_dot g1 g3 (g4.trans hok) g5 hkeep⟩

omit [Natives E] in
/-- Storing a property of an object. -/
theorem assign_member (hE : E.numText = Print.numText) (h : Scoped cmem E vm ops) (hc : created ops t) (hk : Names vm k x)
    (hx : (0 : UInt8) ∉ x) (w : Val) (hg : Granted vm.heap x.length (vm.al 0)) :
    ∃ vm', assign E vm w t k = some (vm', w) ∧ Scoped cmem E vm' (.set t x w :: ops) ∧ vm'.error = vm.error ∧ vm'.scopes = vm.scopes ∧
      vm'.this = vm.this ∧ ∀ a as, Reads vm.heap.str a as → Reads vm'.heap.str a as := by
  have hob := created_isObject h hc
  cases hk with
  | text hk =>
    obtain ⟨vm', e, g1, g2, g3, g4, _, g5⟩ := setVm_name h hk hx hc w hg
    exact ⟨vm', by rw [Exec.assign, if_pos hob, e]; rfl, g1, g3, g2, g4, g5⟩
  | number hk =>
    have hns := number_not_string hk
    obtain ⟨p, ht, hp⟩ := (Names.number (vm := vm) hk).key hE h.inv
    obtain ⟨A, fo, fp, hsim⟩ := h.hist.sim
    obtain ⟨o, L, hv, hA, _, h2⟩ := hsim.obj _ hc
    have hsh : isString k = true → (Print.numText k).length ≤ 5 →
        mkStringCopy 0 vm.heap.str (.loc (Print.numText k)) (Print.numText k).length (fun _ => none) = some (vm.heap.str, k) := by
      rw [hns]; simp
    have hz : isString k = true → numberish (Print.numText k) = true → ReadsZ vm.heap.str k (Print.numText k) := by
      rw [hns]; simp
    obtain ⟨h', L', fp', e, ha, hi, hex, _⟩ := setInternal_spec hsim.inv hA hv hp (goodName_of ht hp hsh hz) w hg false (by simp)
    have e1 : setV E.numText vm.heap t k w (vm.al 0) = some (h', .ok) := by
      rw [Obj.setV, ht, Option.bind_some]
      exact e
    refine ⟨{ used vm with heap := h' }, ?_, ⟨.setV h.hist hc ht hp hsh hz hg e1, ?_, fun s hs => created_cons (h.scopes s hs), h.plain⟩, rfl, rfl, rfl,
      fun _ _ => reads_mono hsim.inv.str hi.str hex⟩
    · rw [Exec.assign, if_pos hob]
      unfold setVm
      have hke : keyErr E vm k = some vm := by rw [keyErr, ht]; rfl
      rw [hke]
      simp only [Option.bind_eq_bind, Option.bind_some]
      rw [e1]
      rfl
    · intro o ho
      rcases List.mem_cons.1 ho with rfl | ho
      · exact hx
      · exact h.noNul o ho

/-- **C79, `o[k] = v`.** The property that `k` names is `v` afterwards, nothing else changes, and the value of the expression
is `v`. -/
theorem C79_assign_index {w : Val} (hE : E.numText = Print.numText) (h1 : Means E F d e1 vm (.ok vm1 t)) (h2 : Means E F d e2 vm1 (.ok vm2 k))
    (h3 : Means E F (d + 1) e3 vm2 (.ok vm3 w)) (h : Scoped cmem E vm3 ops) (hok : vm3.error = .ok) (hc : created ops t)
    (hk : Names vm3 k x) (hx : (0 : UInt8) ∉ x) (hg : Granted vm3.heap x.length (vm3.al 0)) :
    ∃ vm4 ops', Means E F (d + 2) (.assign none (.index e1 e2) e3) vm (.ok vm4 w) ∧ Calm cmem E ops' vm3 vm4 ∧ OnlyChanged ops ops' t x w ∧
      ∀ o, created ops o → created ops' o := by
  obtain ⟨vm4, e, g1, g2, g3, g4, g5⟩ := assign_member hE h hc hk hx w hg
  have := means_index_assign h1 h2 h3 e
  rw [if_pos (g2.trans hok)] at this
  exact ⟨vm4, _, this, ⟨g1, g2.trans hok, g3, g4, g5⟩, onlyChanged_set _ _ _ _, fun o ho => created_cons ho⟩

/-- **C79, `o.x = v`.** The object is evaluated first, then the value. -/
theorem C79_assign_dot (hE : E.numText = Print.numText) (h1 : Means E F d e vm (.ok vm1 t)) (h : Scoped cmem E vm1 ops) (hok : vm1.error = .ok)
    (hl : x.length < 2 ^ 32) (hx : (0 : UInt8) ∉ x) (hg : Granted vm1.heap x.length (vm1.al 0)) :
    ∃ vm2 k, Kept cmem E ops x.length vm1 vm2 ∧ IsName vm2 k x ∧ ∀ e3 vm3 w ops3, Means E F (d + 1) e3 vm2 (.ok vm3 w) → Scoped cmem E vm3 ops3 →
      vm3.error = .ok → created ops3 t → IsName vm3 k x → Granted vm3.heap x.length (vm3.al 0) →
      ∃ vm4 ops4, Means E F (d + 2) (.assign none (.dot e x) e3) vm (.ok vm4 w) ∧ Calm cmem E ops4 vm3 vm4 ∧ OnlyChanged ops3 ops4 t x w := by
  obtain ⟨u, k, e1, g1, g2, g3, g4, g5, g6, g7⟩ := mkStr_name h hl hg
  obtain ⟨hkeep, hreq⟩ := mkStr_keeps h hg e1
  refine ⟨u, k, ⟨g1, g4, g3, g5, hkeep, g7, hreq, g6⟩, g2, fun e3 vm3 w ops3 h3 hs3 hok3 hc hk hg3 => ?_⟩
  obtain ⟨vm4, e4, i1, i2, i3, i4, i5⟩ := assign_member hE hs3 hc (.text hk) hx w hg3
  refine ⟨vm4, _, ?_, ⟨i1, i2.trans hok3, i3, i4, i5⟩, onlyChanged_set _ _ _ _⟩
  obtain ⟨n1, h1⟩ := h1
  obtain ⟨n3, h3⟩ := h3
  refine ⟨n1 + n3 + 2, ?_⟩
  rw [eval, evalL]
  have : (eval E F (n1 + n3) d e >>= fun o => Sem.string x >>= fun k => pure (k, o)) vm = some (.ok u (k, t)) := by
    rw [bind_ok (eval_mono h1 (by omega) (Nat.le_refl _))]
    unfold Sem.string
    rw [bind_ok (prim_ok e1 (g4.trans hok))]
    rfl
  rw [bind_ok this, bind_ok (eval_mono h3 (by omega) (Nat.le_refl _)), Sem.store, prim_ok e4 (i2.trans hok3)]

theorem array_other {f : Nat → Option Val} (ha : ArrayOps t ops f) (hx : ∀ i, ¬ Numeral.Nat 10 i x) : Spec.current ops t x = none := by
  induction ha with
  | new => simp [Spec.current]
  | set _ _ hn ih => rw [Spec.current, if_neg]; exact ih; rintro ⟨_, rfl⟩; exact hx _ hn
  | del _ _ hn ih => rw [Spec.current, if_neg]; exact ih; rintro ⟨_, rfl⟩; exact hx _ hn
  | @other ops f op _ hne ih =>
    cases op with
    | new w => rw [Spec.current, if_neg (fun h => hne h.symm)]; exact ih
    | set w y z => rw [Spec.current, if_neg (fun h => hne h.1.symm)]; exact ih
    | del w y => rw [Spec.current, if_neg (fun h => hne h.1.symm)]; exact ih

/-- The text of an index. -/
theorem index_text {i : Nat} (hk : IsInt k i) (hi : i < 2 ^ 63) : Numeral.Nat 10 i (Print.numText k) ∧ (0 : UInt8) ∉ Print.numText k ∧
    ∀ t, ¬ Own t (Print.numText k) := by
  have hn := C70_integer hk (by omega) (by omega)
  unfold Numeral.Int at hn
  rw [if_neg (by omega), Int.natAbs_natCast] at hn
  obtain ⟨_, c4⟩ := int_text_ne hk (by omega) (by omega)
  refine ⟨hn, fun h0 => (Arr.decimal_ne_zero (Arr.numeral_decimal hn _ h0)).1 rfl, fun t ho => ?_⟩
  rcases ho with h | ⟨_, h | h | h⟩
  · exact c4 _ 97 (by decide) (by decide) (by decide) h
  · exact c4 _ 115 (by decide) (by decide) (by decide) h
  · exact c4 _ 112 (by decide) (by decide) (by decide) h
  · exact c4 _ 108 (by decide) (by decide) (by decide) h

/-- **C79, `a[i]`.** The element of the array at `i`, undefined if there is none. -/
theorem C79_array_index {f : Nat → Option Val} {i : Nat} (hE : E.numText = Print.numText) (h1 : Means E F d e1 vm (.ok vm1 t))
    (h2 : Means E F d e2 vm1 (.ok vm2 k)) (h : Scoped cmem E vm2 ops) (hok : vm2.error = .ok) (ha : ArrayOps t ops f)
    (hk : IsInt k i) (hi : i < 2 ^ 63) :
    ∃ vm3, Means E F (d + 2) (.get (.index e1 e2)) vm (.ok vm3 ((f i).getD mkUndefined)) ∧ Calm cmem E ops vm2 vm3 := by
  obtain ⟨t1, t2, t3⟩ := index_text hk hi
  have hv := Arr.view_of ha
  have hpr : Spec.current ops t protoKey = none := array_other ha fun j hj => by
    have := Arr.numeral_decimal hj 95 (by decide)
    exact absurd this (by decide)
  obtain ⟨vm3, g1, g2⟩ := C79_member_index_partial hE h1 h2 h hok hv.cr (.last hpr) (by simpa using .inl hv.cr) (.number (isNumber_finite hk.1)) t2 (t3 t)
  refine ⟨vm3, ?_, g2⟩
  have : nearest (Spec.current ops) [t] (Print.numText k) = f i := by
    unfold nearest
    rw [List.findSome?_cons, ← engineCurrent_eq h.noNul, hv.cur i _ t1]
    cases f i <;> rfl
  rw [this] at g1
  exact g1

/-- **C79, `a[i] = v`.** The element at `i` is `v` afterwards, the other elements and objects are as before. -/
theorem C79_array_assign {f : Nat → Option Val} {i : Nat} {w : Val} (hE : E.numText = Print.numText) (h1 : Means E F d e1 vm (.ok vm1 t))
    (h2 : Means E F d e2 vm1 (.ok vm2 k)) (h3 : Means E F (d + 1) e3 vm2 (.ok vm3 w)) (h : Scoped cmem E vm3 ops) (hok : vm3.error = .ok)
    (ha : ArrayOps t ops f) (hk : IsInt k i) (hi : IsIndex i) (hg : Granted vm3.heap 50 (vm3.al 0)) :
    ∃ vm4 ops', Means E F (d + 2) (.assign none (.index e1 e2) e3) vm (.ok vm4 w) ∧ Calm cmem E ops' vm3 vm4 ∧
      ArrayOps t ops' (setAt f i (some w)) ∧ ∀ o' y, o' ≠ t → Spec.current ops' o' y = Spec.current ops o' y := by
  have hi' := hi; unfold IsIndex at hi'
  obtain ⟨t1, t2, t3⟩ := index_text hk (by omega)
  have hg' : Granted vm3.heap (Print.numText k).length (vm3.al 0) :=
    ⟨hg.low, hg.grant, by have := hg.room; have := (numText_short k).1; omega, hg.obj, hg.prop⟩
  obtain ⟨vm4, e, g1, g2, g3, g4, g5⟩ := assign_member hE h (Arr.view_of ha).cr (.number (isNumber_finite hk.1)) t2 w hg'
  have := means_index_assign h1 h2 h3 e
  rw [if_pos (g2.trans hok)] at this
  exact ⟨vm4, _, this, ⟨g1, g2.trans hok, g3, g4, g5⟩, .set ha hi t1, fun o' y hne => (onlyChanged_set _ _ _ _).2 _ _ (fun h => hne (congrArg Prod.fst h))⟩

/-! ## Pointers -/

/-- An integer of 64 bits, cut to `int`. -/
theorem getInt_bmod {n : Int} (h : IsInt k n) (h1 : -2 ^ 63 ≤ n) (h2 : n < 2 ^ 63) : getInt k = n.bmod (2 ^ 32) := by
  rw [getInt, getDouble, cvtInt, truncD_isInt h, if_pos ⟨h.1, h1, h2⟩, BitVec.toInt_ofInt]

/-- **C79, `p[i]`.** For a pointer and an integer of 32 bits, which may be negative: the byte of memory `i` behind the pointer,
as a number; nothing changes. -/
theorem C79_pointer_index_partial {n : Int} {a : Nat} {b : UInt8} (hE : E.numText = Print.numText) (h1 : Means E F d e1 vm (.ok vm1 t))
    (h2 : Means E F d e2 vm1 (.ok vm2 k)) (hi : InvS vm2.heap.str) (hok : vm2.error = .ok) (ht : isForeign t = true) (hk : IsInt k n)
    (hn1 : -2 ^ 31 ≤ n) (hn2 : n < 2 ^ 31) (ha : (a : Int) = (getPtr t).toNat + n) (ha2 : a < 2 ^ 64) (hb : vm2.heap.str.cmem a = some b) :
    ∃ v, Means E F (d + 2) (.get (.index e1 e2)) vm (.ok { vm2 with lastGetprop := t } v) ∧ IsInt v b.toNat := by
  obtain ⟨c1, _, _⟩ := int_text hk (by omega) (by omega)
  obtain ⟨_, c4⟩ := int_text_ne hk (by omega) (by omega)
  have hx := C04_one_kind t
  have hns : isString t = false := by
    cases hs : isString t with
    | false => rfl
    | true => exact absurd (hx .string .foreign hs ht) (by decide)
  have hna : isArray t = false := by
    cases hs : isArray t with
    | false => rfl
    | true =>
      have : isObject t = true := by
        unfold isArray at hs; unfold isObject; rw [beq_iff_eq] at hs; rw [hs]; decide
      exact absurd (hx .object .foreign this ht) (by decide)
  have hbm : n.bmod (2 ^ 32) = n := by rw [Int.bmod]; omega
  have hgp : getProp E vm2 t k = some (vm2, mkInt b.toNat) := by
    unfold getProp
    rw [builtin_key (.number (isNumber_finite hk.1)) hE hi, if_neg (by rw [hns]; decide), if_neg (c4 _ 97 (by decide) (by decide) (by decide)),
      if_neg (by rw [hna]; decide), if_pos ht]
    unfold builtinForeign
    simp only [c1, Option.bind_eq_bind, Option.bind_some, cInt_index, hbm, not_true_eq_false, if_false]
    rw [show wrap (((getPtr t).toNat : Int) + n) = a by rw [← ha, wrap]; omega, hb]
    rfl
  have := means_index h1 h2 hgp
  rw [if_pos hok] at this
  exact ⟨_, this, mkInt_isInt _ (by have := b.toNat_lt; omega)⟩

/-- Only the byte at `a` is another one: `b`. -/
def StoredByte (vm vm' : Vm) (a : Nat) (b : UInt8) : Prop :=
  vm'.heap.str.cmem a = some b ∧ (∀ a', a' ≠ a → vm'.heap.str.cmem a' = vm.heap.str.cmem a') ∧
    vm' = { vm with heap := { vm.heap with str := { vm.heap.str with cmem := vm'.heap.str.cmem } } }

omit [Natives E] in
theorem assign_pointer {n m : Int} {w : Val} {a : Nat} (ht : isForeign t = true) (hk : IsInt k n) (hn1 : -2 ^ 31 ≤ n) (hn2 : n < 2 ^ 31)
    (ha : (a : Int) = (getPtr t).toNat + n) (ha2 : a < 2 ^ 64) (hw : IsInt w m) (hm1 : -2 ^ 63 ≤ m) (hm2 : m < 2 ^ 63) :
    (0 ≤ m.bmod (2 ^ 32) → m.bmod (2 ^ 32) ≤ 255 → (vm.heap.str.cmem a).isSome = true →
      ∃ vm', Exec.assign E vm w t k = some (vm', w) ∧ StoredByte vm vm' a (UInt8.ofNat (m.bmod (2 ^ 32)).toNat)) ∧
    (m.bmod (2 ^ 32) < 0 ∨ 255 < m.bmod (2 ^ 32) →
      Exec.assign E vm w t k = some (prepend vm .type (txt "only number 0 .. 255 can be assigned"), mkUndefined)) := by
  have hob : isObject t = false := by
    cases hs : isObject t with
    | false => rfl
    | true => exact absurd (C04_one_kind t .object .foreign hs ht) (by decide)
  have hbm : n.bmod (2 ^ 32) = n := by rw [Int.bmod]; omega
  have hadr : wrap (((getPtr t).toNat : Int) + n) = a := by rw [← ha, wrap]; omega
  have hnk := isNumber_finite hk.1
  have hnw := isNumber_finite hw.1
  rw [Exec.assign, if_neg (by rw [hob]; decide), if_pos ht, if_neg (by rw [hnk]; decide), getInt_bmod hk (by omega) (by omega), hbm,
    getInt_bmod hw hm1 hm2, hadr]
  constructor
  · intro g1 g2 g3
    rw [if_neg (by rw [hnw]; rintro (hh | hh | hh); exact hh rfl; all_goals omega)]
    simp only [g3, if_true]
    exact ⟨_, rfl, by simp, fun a' h => by simp [h], rfl⟩
  · intro g1
    rw [if_pos (.inr (by omega))]

/-- **C79, `p[i] = v`.** For an integer `v` from 0 to 255 the byte of memory `i` behind the pointer becomes `v`, nothing else
changes, and the value of the expression is `v`. -/
theorem C79_pointer_assign {n : Int} {a : Nat} {b : UInt8} {w : Val} (h1 : Means E F d e1 vm (.ok vm1 t)) (h2 : Means E F d e2 vm1 (.ok vm2 k))
    (h3 : Means E F (d + 1) e3 vm2 (.ok vm3 w)) (hok : vm3.error = .ok) (ht : isForeign t = true) (hk : IsInt k n) (hn1 : -2 ^ 31 ≤ n)
    (hn2 : n < 2 ^ 31) (ha : (a : Int) = (getPtr t).toNat + n) (ha2 : a < 2 ^ 64) (hw : IsInt w b.toNat)
    (hm : (vm3.heap.str.cmem a).isSome = true) :
    ∃ vm4, Means E F (d + 2) (.assign none (.index e1 e2) e3) vm (.ok vm4 w) ∧ StoredByte vm3 vm4 a b := by
  have hb := b.toNat_lt
  have hbm : ((b.toNat : Nat) : Int).bmod (2 ^ 32) = b.toNat := by rw [Int.bmod]; omega
  obtain ⟨g, _⟩ := assign_pointer (vm := vm3) (E := E) ht hk hn1 hn2 ha ha2 hw (by omega) (by omega)
  rw [hbm] at g
  obtain ⟨vm4, e, hs⟩ := g (by omega) (by omega) hm
  have := means_index_assign h1 h2 h3 e
  rw [if_pos (by rw [hs.2.2]; exact hok)] at this
  refine ⟨vm4, this, ?_⟩
  simpa using hs

/-- **C79, `p[i] = v` with an integer of 32 bits that is no byte** is a TypeError; memory is as before. -/
theorem C79_pointer_assign_range_partial {n m : Int} {a : Nat} {w : Val} (h1 : Means E F d e1 vm (.ok vm1 t)) (h2 : Means E F d e2 vm1 (.ok vm2 k))
    (h3 : Means E F (d + 1) e3 vm2 (.ok vm3 w)) (hok : vm3.error = .ok) (ht : isForeign t = true) (hk : IsInt k n) (hn1 : -2 ^ 31 ≤ n)
    (hn2 : n < 2 ^ 31) (ha : (a : Int) = (getPtr t).toNat + n) (ha2 : a < 2 ^ 64) (hw : IsInt w m) (hm1 : -2 ^ 31 ≤ m) (hm2 : m < 2 ^ 31)
    (hm : m < 0 ∨ 255 < m) :
    ∃ vm4, Means E F (d + 2) (.assign none (.index e1 e2) e3) vm (.err vm4) ∧ vm4.error = .type ∧ vm4.heap = vm3.heap := by
  have hbm : m.bmod (2 ^ 32) = m := by rw [Int.bmod]; omega
  obtain ⟨_, g⟩ := assign_pointer (vm := vm3) (E := E) ht hk hn1 hn2 ha ha2 hw (by omega) (by omega)
  rw [hbm] at g
  have he : (prepend vm3 .type (txt "only number 0 .. 255 can be assigned")).error = .type := by rw [prepend]; exact if_pos hok
  have := means_index_assign h1 h2 h3 (g hm)
  rw [if_neg (by rw [he]; decide)] at this
  exact ⟨_, this, he, rfl⟩

/-- **C79, violation.** The value is cut to 32 bits before the check: 2^32 + `b`, which is no byte, is stored as `b`. -/
theorem C79_pointer_assign_wraps {n : Int} {a : Nat} {b : UInt8} {w : Val} (h1 : Means E F d e1 vm (.ok vm1 t)) (h2 : Means E F d e2 vm1 (.ok vm2 k))
    (h3 : Means E F (d + 1) e3 vm2 (.ok vm3 w)) (hok : vm3.error = .ok) (ht : isForeign t = true) (hk : IsInt k n) (hn1 : -2 ^ 31 ≤ n)
    (hn2 : n < 2 ^ 31) (ha : (a : Int) = (getPtr t).toNat + n) (ha2 : a < 2 ^ 64) (hw : IsInt w (2 ^ 32 + b.toNat : Nat))
    (hm : (vm3.heap.str.cmem a).isSome = true) :
    ∃ vm4, Means E F (d + 2) (.assign none (.index e1 e2) e3) vm (.ok vm4 w) ∧ StoredByte vm3 vm4 a b := by
  have hb := b.toNat_lt
  have hbm : ((2 ^ 32 + b.toNat : Nat) : Int).bmod (2 ^ 32) = b.toNat := by rw [Int.bmod]; omega
  obtain ⟨g, _⟩ := assign_pointer (vm := vm3) (E := E) ht hk hn1 hn2 ha ha2 hw (by omega) (by omega)
  rw [hbm] at g
  obtain ⟨vm4, e, hs⟩ := g (by omega) (by omega) hm
  have := means_index_assign h1 h2 h3 e
  rw [if_pos (by rw [hs.2.2]; exact hok)] at this
  refine ⟨vm4, this, ?_⟩
  simpa using hs

/-- **C79, `p[k] = v` with a key or a value that is no number** is a TypeError; memory is as before. -/
theorem C79_pointer_assign_type {w : Val} (h1 : Means E F d e1 vm (.ok vm1 t)) (h2 : Means E F d e2 vm1 (.ok vm2 k))
    (h3 : Means E F (d + 1) e3 vm2 (.ok vm3 w)) (hok : vm3.error = .ok) (ht : isForeign t = true) (hno : isNumber k = false ∨ isNumber w = false) :
    ∃ vm4, Means E F (d + 2) (.assign none (.index e1 e2) e3) vm (.err vm4) ∧ vm4.error = .type ∧ vm4.heap = vm3.heap := by
  have hob : isObject t = false := by
    cases hs : isObject t with
    | false => rfl
    | true => exact absurd (C04_one_kind t .object .foreign hs ht) (by decide)
  have he : ∀ s, (prepend vm3 .type s).error = .type := fun s => by rw [prepend]; exact if_pos hok
  have main : ∃ s r, Exec.assign E vm3 w t k = some (prepend vm3 .type s, r) := by
    rw [Exec.assign, if_neg (by rw [hob]; decide), if_pos ht]
    cases hk : isNumber k with
    | false => exact ⟨_, _, if_pos (by decide)⟩
    | true =>
      rw [if_neg (by decide), if_pos (.inl (by rcases hno with h | h; · rw [h] at hk; cases hk
                                               · rw [h]; decide))]
      exact ⟨_, _, rfl⟩
  obtain ⟨s, r, e⟩ := main
  have := means_index_assign h1 h2 h3 e
  rw [if_neg (by rw [he]; decide)] at this
  exact ⟨_, this, he s, rfl⟩

/-! ## Other values -/

/-- **C79, members of what has none.** Reading a member other than `apply` of a number, a boolean, null, undefined or a function is
a TypeError; nothing changes. -/
theorem C79_no_member (hE : E.numText = Print.numText) (h1 : Means E F d e1 vm (.ok vm1 t)) (h2 : Means E F d e2 vm1 (.ok vm2 k))
    (hi : InvS vm2.heap.str) (hok : vm2.error = .ok) (hk : Names vm2 k x) (hx : x ≠ txt "apply") (hs : isString t = false)
    (ho : isObject t = false) (hf : isForeign t = false) :
    ∃ vm3, Means E F (d + 2) (.get (.index e1 e2)) vm (.err vm3) ∧ vm3.error = .type ∧ vm3.heap = vm2.heap := by
  have hna : isArray t = false := by
    cases hs : isArray t with
    | false => rfl
    | true =>
      have : isObject t = true := by
        unfold isArray at hs; unfold isObject; rw [beq_iff_eq] at hs; rw [hs]; decide
      rw [this] at ho; cases ho
  have he : (prepend vm2 .type (txt "type error")).error = .type := by rw [prepend]; exact if_pos hok
  have hgp : getProp E vm2 t k = some (prepend vm2 .type (txt "type error"), mkUndefined) := by
    unfold getProp
    rw [builtin_key hk hE hi, if_neg (by rw [hs]; decide), if_neg hx, if_neg (by rw [hna]; decide), if_neg (by rw [hf]; decide)]
    simp only [Option.bind_eq_bind, Option.bind_some, ho, Bool.false_eq_true, if_false]
  have := means_index h1 h2 hgp
  rw [if_neg (by rw [he]; decide)] at this
  exact ⟨_, this, he, rfl⟩

/-- A name that begins with a letter, as identifiers do: not with a blank, a sign or a digit. -/
def BeginsLikeName (x : List UInt8) : Prop :=
  ∃ c, x.head? = some c ∧ Arr.isspace c = false ∧ c ≠ 45 ∧ c ≠ 43 ∧ ¬ (48 ≤ c.toNat ∧ c.toNat ≤ 57)

/-- **C79, other members of strings and pointers.** A string has the members `length`, `at`, `charCodeAt`, `indexOf`, `slice`, a pointer
has `apply`, besides what indices address; every other name is a TypeError (not undefined); nothing changes. -/
theorem C79_no_such_member (hE : E.numText = Print.numText) (h1 : Means E F d e1 vm (.ok vm1 t)) (h2 : Means E F d e2 vm1 (.ok vm2 k))
    (hi : InvS vm2.heap.str) (hok : vm2.error = .ok) (hk : Names vm2 k x) (h0 : (0 : UInt8) ∉ x) (hx : BeginsLikeName x)
    (ht : (∃ bs, Reads vm2.heap.str t bs) ∧ x ∉ [txt "length", txt "at", txt "charCodeAt", txt "indexOf", txt "slice"] ∨
      isForeign t = true ∧ x ≠ txt "apply") :
    ∃ vm3, Means E F (d + 2) (.get (.index e1 e2)) vm (.err vm3) ∧ vm3.error = .type ∧ vm3.heap = vm2.heap := by
  have he : ∀ s, (prepend vm2 .type s).error = .type := fun s => by rw [prepend]; exact if_pos hok
  have hcs : cstr x = x := by
    unfold cstr
    have : ∀ c ∈ x, (decide (c ≠ 0)) = true := fun c hc => by
      rw [decide_eq_true_eq]; rintro rfl; exact h0 hc
    simpa using List.takeWhile_append_of_pos (l₂ := []) this
  obtain ⟨c, c1, c2, c3, c4, c5⟩ := hx
  have hu := cstrToUlong_name c1 c2 ⟨c3, c4⟩ c5
  have main : ∃ s, getProp E vm2 t k = some (prepend vm2 .type s, mkUndefined) := by
    unfold getProp
    rw [builtin_key hk hE hi]
    rcases ht with ⟨⟨bs, hr⟩, hno⟩ | ⟨hf, hna⟩
    · have hst := reads_isString hr
      obtain ⟨p, m, g1, _⟩ := hr
      have hob : isObject t = false := by
        cases hs : isObject t with
        | false => rfl
        | true => exact absurd (C04_one_kind t .object .string hs hst) (by decide)
      simp only [List.mem_cons, List.not_mem_nil, or_false, not_or] at hno
      rw [if_pos hst]
      unfold builtinString
      rw [hu]
      simp only [Option.bind_eq_bind, Option.bind_some, g1, hcs]
      rw [if_neg hno.1, if_neg (not_or.2 ⟨hno.2.1, hno.2.2.1⟩), if_neg hno.2.2.2.1, if_neg hno.2.2.2.2]
      simp only [Bool.false_eq_true, if_false, Option.bind_some, hob]
      exact ⟨_, rfl⟩
    · have hst : isString t = false := by
        cases hs : isString t with
        | false => rfl
        | true => exact absurd (C04_one_kind t .string .foreign hs hf) (by decide)
      have hna' : isArray t = false := by
        cases hs : isArray t with
        | false => rfl
        | true =>
          have : isObject t = true := by
            unfold isArray at hs; unfold isObject; rw [beq_iff_eq] at hs; rw [hs]; decide
          exact absurd (C04_one_kind t .object .foreign this hf) (by decide)
      rw [if_neg (by rw [hst]; decide), if_neg hna, if_neg (by rw [hna']; decide), if_pos hf]
      unfold builtinForeign
      rw [hu]
      exact ⟨_, rfl⟩
  obtain ⟨s, hgp⟩ := main
  have := means_index h1 h2 hgp
  rw [if_neg (by rw [he]; decide)] at this
  exact ⟨_, this, he s, rfl⟩

/-- **C79, assigning to members of what has none**, which includes strings, is a TypeError; nothing changes. -/
theorem C79_no_assign {w : Val} (h1 : Means E F d e1 vm (.ok vm1 t)) (h2 : Means E F d e2 vm1 (.ok vm2 k))
    (h3 : Means E F (d + 1) e3 vm2 (.ok vm3 w)) (hok : vm3.error = .ok) (ho : isObject t = false) (hf : isForeign t = false) :
    ∃ vm4, Means E F (d + 2) (.assign none (.index e1 e2) e3) vm (.err vm4) ∧ vm4.error = .type ∧ vm4.heap = vm3.heap := by
  have he : (prepend vm3 .type (txt "unsupported object type")).error = .type := by rw [prepend]; exact if_pos hok
  have e : Exec.assign E vm3 w t k = some (prepend vm3 .type (txt "unsupported object type"), w) := by
    rw [Exec.assign, if_neg (by rw [ho]; decide), if_neg (by rw [hf]; decide)]
  have := means_index_assign h1 h2 h3 e
  rw [if_neg (by rw [he]; decide)] at this
  exact ⟨_, this, he, rfl⟩

end

/-! ## The hypotheses are met -/

/-- An engine with the texts of numbers that the code makes. -/
def textEnv : Env := { libEnv with numText := Print.numText }

instance : Bodies textEnv where
  body := libBody
  code {a b} h := by
    funext vm
    show (libBody a).bind _ = _
    rw [h]; rfl

theorem means_int {E : Env} [Natives E] {F : Nat → Option Fn} {d : Nat} (n : Nat) (hn : n < 2 ^ 53) (vm : Vm) :
    Means E F (d + 1) (.int n) vm (.ok vm (mkInt n)) := by
  refine ⟨1, ?_⟩
  rw [eval, BitVec.toInt_eq_toNat_of_lt (by rw [BitVec.toNat_ofNat]; omega), BitVec.toNat_ofNat, Nat.mod_eq_of_lt (by omega)]
  rfl

theorem means_this {E : Env} [Natives E] {F : Nat → Option Fn} {d : Nat} (vm : Vm) : Means E F (d + 1) .this vm (.ok vm vm.this) :=
  ⟨1, by rw [eval]; rfl⟩

/-- `"hello"[1]` is `"e"`, `"hello"[5]` is undefined, `"hello"[4294967297]` is `"e"` again, and `"hello".length` is 5. -/
example (F : Nat → Option Fn) : ∃ vm vm1 v1 vm2 vm3 v3 vm4 v4, Means textEnv F 3 (.get (.index (.str (txt "hello")) (.int 1))) vm (.ok vm1 v1) ∧
    Reads vm1.heap.str v1 (txt "e") ∧ Means textEnv F 3 (.get (.index (.str (txt "hello")) (.int 5))) vm (.ok vm2 mkUndefined) ∧
    Means textEnv F 3 (.get (.index (.str (txt "hello")) (.int 4294967297))) vm (.ok vm3 v3) ∧ Reads vm3.heap.str v3 (txt "e") ∧
    Means textEnv F 3 (.get (.dot (.str (txt "hello")) (txt "length"))) vm (.ok vm4 v4) ∧ IsInt v4 5 := by
  obtain ⟨vm, s1, s2, ops, h, he, _, _, _, _, _, _, _, _, hg⟩ := demo_scopes textEnv
  obtain ⟨vm1, k, e1, h1, h2, h3, h4, h5, h6, h7⟩ := mkStr_name (x := txt "hello") h (by decide) (hg 0 _ (by decide))
  have hme : Means textEnv F 1 (.str (txt "hello")) vm (.ok vm1 k) := ⟨1, by rw [eval]; exact prim_ok e1 (h4.trans he)⟩
  have h5 : (txt "hello").length = 5 := by decide
  have hg1 : ∀ i n, n < 1024 → Granted vm1.heap n (vm1.al i) := fun i n hn => by rw [h6]; exact h7 _ _ (hg _ _ (by omega))
  obtain ⟨vmA, vA, a1, _, a2, _⟩ := C79_string_index_partial (n := 1) (F := F) rfl hme (means_int 1 (by decide) _) h1 (h4.trans he) h2.reads.reads
    (by decide) (mkInt_isInt _ (by decide)) (by decide) (by decide) (hg1 _ _ (by decide))
  obtain ⟨vmB, vB, b1, _, _, b2⟩ := C79_string_index_partial (n := 5) (F := F) rfl hme (means_int 5 (by decide) _) h1 (h4.trans he) h2.reads.reads
    (by decide) (mkInt_isInt _ (by decide)) (by decide) (by decide) (hg1 _ _ (by decide))
  obtain ⟨_, vmC, vC, c1, c2⟩ := C79_string_index_wraps (i := 1) (b := 101) (F := F) rfl hme (means_int 4294967297 (by decide) _) h1 (h4.trans he)
    h2.reads.reads (by decide) (mkInt_isInt _ (by decide)) (by decide) (hg1 _ _ (by decide))
  obtain ⟨vmD, vD, d1, _, d2⟩ := C79_string_length (F := F) rfl hme h1 (h4.trans he) h2.reads.reads (by decide) (hg1 _ _ (by decide))
  have hB := b2 (.inr (by decide))
  subst hB
  exact ⟨vm, vmA, vA, vmB, vmC, vC, vmD, vD, a1, a2 101 (by decide) (by decide), b1, c1, c2, d1, d2⟩

/-- An engine whose `this` is a new array. -/
theorem array_this : ∃ vm, isArray vm.this = true ∧ Scoped demoMem textEnv vm [.new vm.this] ∧ vm.error = .ok ∧ Granted vm.heap 50 (vm.al 0) := by
  obtain ⟨h0, hh0, hr0⟩ := demo_start textEnv.numText
  obtain ⟨h1, v, e, hh1, _, hv⟩ := newArray_step hh0 (al := alFor 65536) (hr0.granted (n := 0) (by decide) (by decide)).obj
  obtain ⟨A, fo, fp, hs⟩ := hh0.sim
  obtain ⟨r1, i1⟩ := next_room hr0 hs.inv.str (by decide) (.new e)
  exact ⟨{ heap := h1, this := v, al := fun k => supplyFrom (65536 + 1048576) ((k + 1) / 2) }, hv, ⟨hh1, by simp [ObjOp.noNul], by simp, by simp⟩, rfl,
    r1.granted (by decide) (by omega)⟩

/-- `this[2] = 7` for an empty array; then the length is 3, `this[2]` is 7 and `this[1]` is undefined. -/
example (F : Nat → Option Fn) : ∃ vm vm1 vm2 vm3, Means textEnv F 3 (.assign none (.index .this (.int 2)) (.int 7)) vm (.ok vm1 (mkInt 7)) ∧
    Means textEnv F 3 (.get (.index .this (.int 2))) vm1 (.ok vm2 (mkInt 7)) ∧
    Means textEnv F 3 (.get (.index .this (.int 1))) vm1 (.ok vm3 mkUndefined) := by
  obtain ⟨vm, hv, h, he, hg⟩ := array_this
  obtain ⟨vm1, ops1, a1, a2, a3, _⟩ := C79_array_assign (F := F) (i := 2) rfl (means_this (d := 0) vm) (means_int 2 (by decide) vm) (means_int 7 (by decide) vm) h he .new
    (mkInt_isInt _ (by decide)) (show 2 < 2 ^ 32 - 1 by decide) hg
  rw [← a2.this] at a3
  obtain ⟨vm2, b1, _⟩ := C79_array_index (F := F) (i := 2) rfl (means_this (d := 0) vm1) (means_int 2 (by decide) vm1) a2.inv a2.error a3
    (mkInt_isInt _ (by decide)) (by decide)
  obtain ⟨vm3, c1, _⟩ := C79_array_index (F := F) (i := 1) rfl (means_this (d := 0) vm1) (means_int 1 (by decide) vm1) a2.inv a2.error a3
    (mkInt_isInt _ (by decide)) (by decide)
  exact ⟨vm, vm1, vm2, vm3, a1, b1, c1⟩

/-- `this.length` of a new array is 0. -/
example (F : Nat → Option Fn) : ∃ vm vm1 v, Means textEnv F 3 (.get (.dot .this (txt "length"))) vm (.ok vm1 v) ∧ IsInt v 0 := by
  obtain ⟨vm, hv, h, he, hg⟩ := array_this
  obtain ⟨vm1, v, n, a1, _, a2, a3⟩ := C79_array_length (F := F) rfl (means_this (d := 0) vm) h he hv .new
    ⟨hg.low, hg.grant, by have := hg.room; omega, hg.obj, hg.prop⟩
  refine ⟨vm, vm1, v, a1, ?_⟩
  rcases a3.2 with rfl | h0
  · exact a2
  · exact absurd rfl h0

/-- An engine whose `this` is a new object. -/
theorem object_this : ∃ vm, isArray vm.this = false ∧ Scoped demoMem textEnv vm [.new vm.this] ∧ vm.error = .ok ∧
    ∀ i n, n < 1024 → Granted vm.heap n (vm.al i) := by
  obtain ⟨h0, hh0, hr0⟩ := demo_start textEnv.numText
  obtain ⟨h1, o, hh1, hr1, hn, p1⟩ := grow_new hh0 hr0 (by decide)
  exact ⟨{ heap := h1, this := o, al := fun _ => alFor (65536 + 1048576) }, p1, ⟨hh1, by simp [ObjOp.noNul], by simp, by simp⟩, rfl,
    fun i n hn => hr1.granted (by decide) (by omega)⟩

/-- For a new object: `this.q = 7`; `this[8] = 7`, then `this[8]` is 7; `this.q` is undefined; `this.apply` is the built-in function. -/
example (F : Nat → Option Fn) : ∃ vm vm1 vm2 vm3 vm4 vm5, Means textEnv F 3 (.assign none (.dot .this (txt "q")) (.int 7)) vm (.ok vm1 (mkInt 7)) ∧
    Means textEnv F 3 (.assign none (.index .this (.int 8)) (.int 7)) vm (.ok vm2 (mkInt 7)) ∧
    Means textEnv F 3 (.get (.index .this (.int 8))) vm2 (.ok vm3 (mkInt 7)) ∧
    Means textEnv F 3 (.get (.dot .this (txt "q"))) vm (.ok vm4 mkUndefined) ∧
    Means textEnv F 3 (.get (.dot .this (txt "apply"))) vm (.ok vm5 (mkFn textEnv.applyFn)) := by
  obtain ⟨vm, hv, h, he, hg⟩ := object_this
  have hq : ∀ x, Spec.current [ObjOp.new vm.this] vm.this x = none := by simp [Spec.current]
  have hcr : created [ObjOp.new vm.this] vm.this := .inl rfl
  obtain ⟨u, k, ku, kn, a1⟩ := C79_assign_dot (E := textEnv) (F := F) (x := txt "q") rfl (means_this (d := 0) vm) h he (by decide) (by decide) (hg 0 _ (by decide))
  obtain ⟨vm1, _, a2, _⟩ := a1 (.int 7) u (mkInt 7) _ (means_int 7 (by decide) u) ku.inv (ku.error.trans he) hcr kn
    (ku.room _ _ (by rw [ku.al]; exact hg _ _ (by decide)))
  have hi : IsInt (mkInt (8 : Nat)) (8 : Nat) := mkInt_isInt _ (by decide)
  have ht := index_text hi (by decide)
  obtain ⟨vm2, ops2, b1, b2, b3, b4⟩ := C79_assign_index (E := textEnv) (F := F) rfl (means_this (d := 0) vm) (means_int 8 (by decide) vm) (means_int 7 (by decide) vm) h he hcr
    (.number (isNumber_finite hi.1)) ht.2.1 (hg 0 _ (by have := (numText_short (mkInt (8 : Nat))).1; omega))
  have hne : (vm.this, protoKey) ≠ (vm.this, Print.numText (mkInt (8 : Nat))) := fun hh => by
    have hn := ht.1
    generalize Print.numText (mkInt (8 : Nat)) = z at hh hn
    rw [← (Prod.mk.inj hh).2] at hn
    exact absurd (Arr.numeral_decimal hn 95 (by decide)) (by decide)
  have hcr2 : created ops2 vm2.this := b2.this ▸ b4 _ hcr
  obtain ⟨vm4, d1, _⟩ := C79_member_dot_partial (E := textEnv) (F := F) (x := txt "q") rfl (means_this (d := 0) vm) h he hcr (.last (hq _)) (by simpa using .inl hcr)
    (by decide) (by decide) (by unfold Own; rw [hv]; decide) (hg 0 _ (by decide))
  have hn : nearest (Spec.current [ObjOp.new vm.this]) [vm.this] (txt "q") = none := by simp [nearest, Spec.current]
  rw [hn] at d1
  obtain ⟨vm5, f1, _⟩ := C79_apply_hides (E := textEnv) (F := F) rfl (means_this (d := 0) vm) h he (tags_of_isObject (created_isObject h hcr)).1 (hg 0 _ (by decide))
  obtain ⟨vm3, c1, _⟩ := C79_member_index_partial (E := textEnv) (F := F) (chain := [vm2.this]) rfl (means_this (d := 0) vm2) (means_int 8 (by decide) vm2) b2.inv b2.error hcr2
    (.last (by rw [b2.this, b3.2 _ _ hne]; exact hq _)) (by simpa using .inl hcr2) (.number (isNumber_finite hi.1)) ht.2.1 (ht.2.2 _)
  have hn2 : nearest (Spec.current ops2) [vm2.this] (Print.numText (mkInt (8 : Nat))) = some (mkInt 7) := by
    unfold nearest
    rw [List.findSome?_cons, b2.this, b3.1]
    rfl
  rw [hn2] at c1
  exact ⟨vm, vm1, vm2, vm3, vm4, vm5, a2, b1, c1, d1, f1⟩

/-- An engine whose `this` is a pointer to the two bytes of `demoMem`. -/
theorem pointer_this : ∃ vm : Vm, isForeign vm.this = true ∧ (getPtr vm.this).toNat = 100 ∧ InvS vm.heap.str ∧ vm.error = .ok ∧ vm.heap.str.cmem = demoMem := by
  obtain ⟨h, v, hh, _, hc, _⟩ := demo_object textEnv.numText
  obtain ⟨A, fo, fp, hs⟩ := hh.sim
  refine ⟨{ heap := h, this := (mkForeign 100#64).1, al := fun _ => demoAl }, (C04_constructors.2.2.2.2.1 _ .foreign).2 rfl, ?_, hs.inv.str, rfl, hc⟩
  show (getPtr (mkForeign 100#64).1).toNat = 100
  rw [(C06_foreign_roundtrip_partial 100#64 (by decide)).1]
  rfl

/-- Reading and writing these bytes: `this[1]` is 98; `this[1] = 7`; `this[1] = 300` is an error, `this[1] = 4294967303` is not;
`this[1] = null` and `5[1]` are errors. -/
example (F : Nat → Option Fn) : ∃ vm vm1 v1 vm2 vm3 vm4 vm5 vm6, Means textEnv F 3 (.get (.index .this (.int 1))) vm (.ok vm1 v1) ∧ IsInt v1 98 ∧
    Means textEnv F 3 (.assign none (.index .this (.int 1)) (.int 7)) vm (.ok vm2 (mkInt 7)) ∧ vm2.heap.str.cmem 101 = some 7 ∧
    vm2.heap.str.cmem 100 = some 97 ∧ Means textEnv F 3 (.assign none (.index .this (.int 1)) (.int 300)) vm (.err vm3) ∧ vm3.error = .type ∧
    Means textEnv F 3 (.assign none (.index .this (.int 1)) (.int 4294967303)) vm (.ok vm4 (mkInt 4294967303)) ∧ vm4.heap.str.cmem 101 = some 7 ∧
    Means textEnv F 3 (.assign none (.index .this (.int 1)) .null) vm (.err vm5) ∧ vm5.error = .type ∧
    Means textEnv F 3 (.get (.index (.int 5) (.int 1))) vm (.err vm6) ∧ vm6.error = .type := by
  obtain ⟨vm, hf, hp, hi, he, hc⟩ := pointer_this
  have i1 : IsInt (mkInt (1 : Nat)) (1 : Nat) := mkInt_isInt _ (by decide)
  have hadr : ((101 : Nat) : Int) = (getPtr vm.this).toNat + ((1 : Nat) : Int) := by rw [hp]; decide
  have hin : (vm.heap.str.cmem 101).isSome = true := by rw [hc]; decide
  obtain ⟨v1, a1, a2⟩ := C79_pointer_index_partial (E := textEnv) (F := F) (b := 98) rfl (means_this (d := 0) vm) (means_int 1 (by decide) vm) hi he hf i1 (by decide)
    (by decide) (a := 101) hadr (by decide) (by rw [hc]; decide)
  obtain ⟨vm2, b1, b2⟩ := C79_pointer_assign (E := textEnv) (F := F) (b := 7) (means_this (d := 0) vm) (means_int 1 (by decide) vm) (means_int 7 (by decide) vm) he hf i1
    (by decide) (by decide) hadr (by decide) (mkInt_isInt _ (by decide)) hin
  obtain ⟨vm3, c1, c2, _⟩ := C79_pointer_assign_range_partial (E := textEnv) (F := F) (m := 300) (means_this (d := 0) vm) (means_int 1 (by decide) vm)
    (means_int 300 (by decide) vm) he hf i1 (by decide) (by decide) hadr (by decide) (mkInt_isInt _ (by decide)) (by decide) (by decide) (by decide)
  obtain ⟨vm4, d1, d2⟩ := C79_pointer_assign_wraps (E := textEnv) (F := F) (b := 7) (means_this (d := 0) vm) (means_int 1 (by decide) vm) (means_int 4294967303 (by decide) vm)
    he hf i1 (by decide) (by decide) hadr (by decide) (mkInt_isInt _ (by decide)) hin
  obtain ⟨vm5, f1, f2, _⟩ := C79_pointer_assign_type (E := textEnv) (F := F) (e3 := .null) (w := mkNull) (means_this (d := 0) vm) (means_int 1 (by decide) vm)
    ⟨1, by rw [eval]; rfl⟩ he hf (.inr (by decide))
  have h5 : IsInt (mkInt (5 : Nat)) (5 : Nat) := mkInt_isInt _ (by decide)
  have hn5 := isNumber_finite h5.1
  obtain ⟨vm6, g1, g2, _⟩ := C79_no_member (E := textEnv) (F := F) (d := 1) rfl (means_int 5 (by decide) vm) (means_int 1 (by decide) vm) hi he (.number (isNumber_finite i1.1))
    ((int_text_ne i1 (by decide) (by decide)).2 _ 97 (by decide) (by decide) (by decide)) (number_not_string hn5)
    (by cases hs : isObject (mkInt (5 : Nat)) with
        | false => rfl
        | true => exact absurd (C04_one_kind _ .object .number hs hn5) (by decide))
    (number_not_foreign hn5)
  exact ⟨vm, _, v1, vm2, vm3, vm4, vm5, vm6, a1, a2, b1, b2.1, by rw [b2.2.1 _ (by decide), hc]; decide, c1, c2, d1, d2.1, f1, f2, g1, g2⟩

/-- `"hello".foo` (as `"hello"["foo"]`) is a TypeError, and so is `5[1] = 2`. -/
example (F : Nat → Option Fn) : ∃ vm vm1 vm2, Means textEnv F 3 (.get (.index (.str (txt "hello")) (.str (txt "foo")))) vm (.err vm1) ∧ vm1.error = .type ∧
    Means textEnv F 3 (.assign none (.index (.int 5) (.int 1)) (.int 2)) vm (.err vm2) ∧ vm2.error = .type := by
  obtain ⟨vm, s1, s2, ops, h, he, _, _, _, _, _, _, _, _, hg⟩ := demo_scopes textEnv
  obtain ⟨vm1, k, e1, h1, h2, h3, h4, h5, h6, h7⟩ := mkStr_name (x := txt "hello") h (by decide) (hg 0 _ (by decide))
  have hme : Means textEnv F 1 (.str (txt "hello")) vm (.ok vm1 k) := ⟨1, by rw [eval]; exact prim_ok e1 (h4.trans he)⟩
  have h5 : (txt "hello").length = 5 := by decide
  have hg1 : ∀ i n, n < 1024 → Granted vm1.heap n (vm1.al i) := fun i n hn => by rw [h6]; exact h7 _ _ (hg _ _ (by omega))
  obtain ⟨vm2, k2, e2, i1, i2, i3, i4, _⟩ := mkStr_name (x := txt "foo") h1 (by decide) (hg1 0 _ (by decide))
  have hme2 : Means textEnv F 1 (.str (txt "foo")) vm1 (.ok vm2 k2) := ⟨1, by rw [eval]; exact prim_ok e2 (i4.trans (h4.trans he))⟩
  obtain ⟨vm3, a1, a2, _⟩ := C79_no_such_member (E := textEnv) (F := F) rfl hme hme2 i1.inv (i4.trans (h4.trans he)) (.text i2) (by decide)
    ⟨102, by decide, by decide, by decide, by decide, by decide⟩
    (.inl ⟨⟨_, (mkStr_keeps h1 (E := textEnv) (hg1 0 _ (by decide)) e2).1 _ _ h2.reads.reads⟩, by decide⟩)
  have hn5 := isNumber_finite (mkInt_isInt (5 : Nat) (by decide)).1
  obtain ⟨vm4, b1, b2, _⟩ := C79_no_assign (E := textEnv) (F := F) (means_int (d := 0) 5 (by decide) vm) (means_int 1 (by decide) vm) (means_int 2 (by decide) vm) he
    (by cases hs : isObject (mkInt (5 : Nat)) with
        | false => rfl
        | true => exact absurd (C04_one_kind _ .object .number hs hn5) (by decide))
    (number_not_foreign hn5)
  exact ⟨vm, vm3, vm4, a1, a2, b1, b2⟩

end Mjs.Props
