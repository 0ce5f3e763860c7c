import Verif.Props.Builtin
import Verif.Props.ObjectProto
import Verif.Props.JsonRound

/-!
# C67: built-in functions in scripts

The functions are values at some address `a`; `Bodies.body E a` says which code is there.
-/

namespace Mjs.Props
open Mjs Mjs.Mbuf Mjs.Str Mjs.Arena Mjs.Obj Mjs.Spec Mjs.Core Mjs.Code Mjs.Sem Mjs.Exec Mjs.Spec.Double Mjs.JsonOut

theorem digits_noNul {t : List UInt8} (h : Spec.Json.Digits t) : (0 : UInt8) ∉ t := fun hm => absurd (h.2 0 hm).1 (by decide)

theorem blank_noNul {t : List UInt8} (h : Spec.Json.Blank t) : (0 : UInt8) ∉ t := fun hm => absurd (h 0 hm) (by decide)

theorem isNumeral_noNul {t : List UInt8} (h : Spec.Json.IsNumeral t) : (0 : UInt8) ∉ t := by
  obtain ⟨i, f, e, rfl, hi, _, hf, he⟩ := h
  simp only [List.mem_append, not_or]
  refine ⟨digits_noNul hi, ?_, ?_⟩
  · rcases hf with rfl | ⟨ds, rfl, h⟩
    · simp
    · simp [digits_noNul h]
  · rcases he with rfl | ⟨c, s, ds, rfl, hc, hs, h⟩
    · simp
    · rcases hc with rfl | rfl <;> rcases hs with rfl | rfl | rfl <;> simp [digits_noNul h]

theorem sep_noNul {α : Type} {W : α → List UInt8 → Prop} {l : List α} {t : List UInt8} (h : Spec.Json.Sep W l t) :
    (∀ b x, W b x → x.length ≤ t.length → (0 : UInt8) ∉ x) → (0 : UInt8) ∉ t := by
  induction h with
  | none => intro _; simp
  | last h1 h2 =>
    intro ih
    simp only [List.mem_append, not_or]
    exact ⟨ih _ _ h1 (by simp), blank_noNul h2⟩
  | more h1 h2 h3 _ ih' =>
    intro ih
    simp only [List.mem_append, List.mem_cons, not_or]
    exact ⟨ih _ _ h1 (by simp), blank_noNul h2, by decide, blank_noNul h3, ih' fun b x hx hl => ih b x hx (by simp; omega)⟩

/-- JSON texts have no NUL. -/
theorem writes_noNul {j : Spec.Json.J} {text : List UInt8} (h : Spec.Json.Writes Spec.Json.PlainKey j text) : (0 : UInt8) ∉ text := by
  have main : ∀ (n : Nat) (j : Spec.Json.J) (t : List UInt8), t.length < n → Spec.Json.Writes Spec.Json.PlainKey j t → (0 : UInt8) ∉ t := by
    intro n
    induction n with
    | zero => intro _ _ h; omega
    | succ n ih =>
      intro j t hl h
      cases h with
      | null => decide
      | true => decide
      | false => decide
      | @num neg t h => cases neg <;> simp [isNumeral_noNul h]
      | str h => simp [JsonOut.chars_noNul h]
      | arr h1 h2 =>
        simp only [List.length_cons, List.length_append, List.length_nil] at hl
        have := sep_noNul h2 fun b x hx hlx => ih b x (by omega) hx
        simp [blank_noNul h1, this]
      | obj h1 h2 =>
        simp only [List.length_cons, List.length_append, List.length_nil] at hl
        have := sep_noNul h2 fun b x hx hlx => by
          cases hx with
          | mk hk hw hw' hx =>
            simp only [List.length_cons, List.length_append] at hlx
            have hc := hk.2.1
            have he := hk.1
            subst he
            simp [JsonOut.chars_noNul hc, blank_noNul hw, blank_noNul hw', ih _ _ (by omega) hx]
        simp [blank_noNul h1, this]
  exact main _ j text (Nat.lt_succ_self _) h

section
variable {cmem : Nat → Option UInt8} {E : Env} [Bodies E] {F : Nat → Option Fn} {d : Nat} {vm vm3 : Vm} {ops : List ObjOp}
  {f : Expr} {args : List Expr} {t : Val} {vs : List Val} {a : Nat}

/-- **C67, `chr`.** `chr(n)` is the string of the one byte `n`. -/
theorem C67_chr (ha : a < 2 ^ 48 ∧ Bodies.body E a = some Builtin.chr) {i : Val} {rest : List Val} {n : Int}
    (hc : Called E F d f args vm (mkFn a) t (i :: rest) vm3) (h : Scoped cmem E vm3 ops) (hi : IsInt i n) (h0 : 0 ≤ n) (h1 : n ≤ 255)
    (hg : Granted vm3.heap 1 (vm3.al 0)) :
    ∃ vm4 v, Gives E F (d + (i :: rest).length + 2) (.call f args) vm vm3 v vm4 ∧ Reads vm4.heap.str v [UInt8.ofNat n.toNat] ∧
      Scoped cmem E vm4 ops ∧ ∀ w ws, Reads vm3.heap.str w ws → Reads vm4.heap.str w ws := by
  have hn : isNumber i = true := isNumber_finite hi.1
  have hv := getInt_isInt hi (by omega) (by omega)
  refine called_copy hc ha h (p := .loc [UInt8.ofNat n.toNat]) rfl (loc_load _ _) hg fun r e => ?_
  unfold Builtin.chr
  simp only [List.getElem?_cons_zero, Option.getD_some, hn, hv, h0, h1, and_self, if_true, Nat.mul_zero]
  rw [show (1 : Nat) = [UInt8.ofNat n.toNat].length from rfl, e]
  rfl

/-- **C67, `chr` of anything else** is null. -/
theorem C67_chr_other (ha : a < 2 ^ 48 ∧ Bodies.body E a = some Builtin.chr) (hc : Called E F d f args vm (mkFn a) t vs vm3)
    (hbad : (∀ i, vs[0]? = some i → isNumber i = false) ∨ ∃ i n, vs[0]? = some i ∧ IsInt i n ∧ -2 ^ 31 ≤ n ∧ n < 2 ^ 31 ∧ (n < 0 ∨ 255 < n)) :
    ∃ vm4, Gives E F (d + vs.length + 2) (.call f args) vm vm3 mkNull vm4 ∧ vm4.heap = vm3.heap := by
  refine called_gives hc ha ?_
  unfold Builtin.chr
  simp only
  rw [if_neg]
  rintro ⟨h1, h2, h3⟩
  rcases hbad with hb | ⟨i, n, hi, hn, g1, g2, g3⟩
  · cases h0 : vs[0]? with
    | none => rw [h0] at h1; revert h1; decide
    | some i => rw [h0] at h1; rw [Option.getD_some, hb i h0] at h1; cases h1
  · rw [hi, Option.getD_some, getInt_isInt hn g1 g2] at h2 h3
    omega

/-- **C67, `isNaN`.** Of a number: whether it is NaN.  Nothing else is NaN. -/
theorem C67_isNaN (ha : a < 2 ^ 48 ∧ Bodies.body E a = some Builtin.isNaN) {i : Val} {rest : List Val}
    (hc : Called E F d f args vm (mkFn a) t (i :: rest) vm3) :
    ∃ vm4, vm4.heap = vm3.heap ∧
      (∀ x, i = mkNumber x → ∃ b, Gives E F (d + (i :: rest).length + 2) (.call f args) vm vm3 (mkBoolean b) vm4 ∧ (b = true ↔ IsNaN x)) ∧
      (isNumber i = false → Gives E F (d + (i :: rest).length + 2) (.call f args) vm vm3 (mkBoolean false) vm4) := by
  obtain ⟨vm4, g1, g2⟩ := called_gives hc ha (h := vm3.heap) (v := opIsnan i) rfl
  refine ⟨vm4, g2, fun x hx => ⟨i == tagNan, g1, ?_⟩, fun hn => ?_⟩
  · have := C05_isnan x
    rw [← hx] at this
    rw [← this, opIsnan, (C05_boolean_roundtrip _).1]
  · have : opIsnan i = mkBoolean false := by
      unfold opIsnan
      congr 1
      rw [beq_eq_false_iff_ne]
      rintro rfl
      revert hn; decide
    rw [this] at g1
    exact g1

/-- **C67, `die`.** `die(s)` ends the script with the text `s`, up to a NUL. -/
theorem C67_die (ha : a < 2 ^ 48 ∧ Bodies.body E a = some Builtin.die) {s : Val} {rest : List Val} {x : List UInt8}
    (hc : Called E F d f args vm (mkFn a) t (s :: rest) vm3) (hok : vm3.error = .ok) (hm : vm3.msg = none) (hs : Reads vm3.heap.str s x) :
    ∃ u, Means E F (d + (s :: rest).length + 2) (.call f args) vm (.err u) ∧ u.error = .type ∧ u.msg = some (x.takeWhile (· ≠ 0)) ∧
      u.heap = vm3.heap := by
  have hb : strBytes vm3.heap.str s = some x := by
    obtain ⟨p, n, hg, _, hl⟩ := hs
    simp [strBytes, hg, hl]
  have hr : Builtin.die t (s :: rest) vm3.heap (fun k => vm3.al (2 * k)) = some ⟨vm3.heap, mkUndefined, some (.type, cstr x)⟩ := by
    unfold Builtin.die
    simp only [List.getElem?_cons_zero, checkArg_string (reads_isString hs), Option.bind_eq_bind, Option.bind_some, hb]
  refine ⟨_, called_body hc ha.1 ha.2 hr (by
    unfold Builtin.leave; simp only [if_neg (show ¬ Err.type = .ok by decide)]; rfl), ?_, ?_, ?_⟩
  · show (if vm3.error = .ok then Err.type else vm3.error) = _
    rw [if_pos hok]
  · show some (match vm3.msg with | some old => _ | none => cstr x) = _
    rw [hm]; rfl
  · rfl

/-- **C67, `Object.create`.** `Object.create(p)` is a new object, whose prototype is `p` and which has no other property. -/
theorem C67_create {lit : Nat} (ha : a < 2 ^ 48 ∧ Bodies.body E a = some (Builtin.objectCreate lit)) {p : Val} {rest : List Val}
    (hc : Called E F d f args vm (mkFn a) t (p :: rest) vm3) (h : Scoped cmem E vm3 ops) (hp : isObject p = true) (hpa : isArray p = false)
    (hl : readC cmem lit 4 = some (protoKey ++ [0])) (hcm : vm3.heap.str.cmem = cmem) (h1 : CallocOk vm3.heap.objs (vm3.al 0).obj)
    (h2 : ∀ h1 v, mkObject vm3.heap (vm3.al 0) = some (h1, v) → Granted h1 3 (vm3.al 2)) :
    ∃ vm4 v, Gives E F (d + (p :: rest).length + 2) (.call f args) vm vm3 v vm4 ∧ ¬ created ops v ∧
      Scoped cmem E vm4 (.set v protoKey p :: .new v :: ops) := by
  obtain ⟨h', v, e, hh⟩ := C17_create_object (proto := p) h.hist hl hcm h1 h2
  obtain ⟨vm4, g1, g2⟩ := called_gives hc ha (h := h') (v := v) (by
    unfold Builtin.objectCreate
    have : checkArg (some p) .objectGeneric = some (some p) := by
      unfold checkArg
      simp [getType_generic hp hpa]
    simp only [List.getElem?_cons_zero, this, Option.bind_eq_bind, Option.bind_some, Nat.mul_zero, Nat.mul_one, e, Option.map_some])
  have ho := orderly hh
  exact ⟨vm4, v, g1, ho.2.1, scoped_of (new := [.set v protoKey p, .new v]) h g1.scopes (by rw [g2]; exact hh) (by
    intro o ho
    simp only [List.mem_cons, List.not_mem_nil, or_false] at ho
    rcases ho with rfl | rfl
    · show (0 : UInt8) ∉ protoKey
      decide
    · trivial)⟩

/-- **C67, violation.** `Object.create(null)` is a TypeError: there are no objects without a prototype. -/
theorem C67_create_null {lit : Nat} (ha : a < 2 ^ 48 ∧ Bodies.body E a = some (Builtin.objectCreate lit))
    (hc : Called E F d f args vm (mkFn a) t [mkNull] vm3) (hok : vm3.error = .ok) : TypeError E F (d + 3) (.call f args) vm vm3 :=
  called_type hc ha hok rfl

/-- **C67, `JSON.stringify` (partial).** Of a tree of objects and arrays: a JSON text for its value.  Missing: as for
`C65_text_partial`. -/
theorem C67_stringify_partial {D : Nat} {fresh : Nat → List UInt8} (ha : a < 2 ^ 48 ∧ Bodies.body E a = some (Builtin.jsonStringify E D fresh))
    (hT : TextOk E.numText) (hfr : ∀ n, (fresh n).length = n) {v : Val} {rest : List Val} {j : Spec.Json.J}
    (hc : Called E F d f args vm (mkFn a) t (v :: rest) vm3) (h : Scoped cmem E vm3 ops) (hd : Spec.Json.Denotes E.numText ops vm3.heap.str v j) :
    ∃ text, Spec.Json.Writes Spec.Json.PlainKey j text ∧ (text.length < D → Granted vm3.heap text.length (vm3.al 0) →
      ∃ vm4 s, Gives E F (d + (v :: rest).length + 2) (.call f args) vm vm3 s vm4 ∧ Reads vm4.heap.str s text ∧ Scoped cmem E vm4 ops) := by
  obtain ⟨text, hw, ht⟩ := C65_text_partial hT h.hist h.noNul hd
  refine ⟨text, hw, fun hlt hg => ?_⟩
  have e := ((ht D hlt hfr [] 0 0 (.inl rfl)).resolve_left fun ⟨_, h, _⟩ => by omega).2
  have hz : (0 : UInt8) ∉ text := writes_noNul hw
  have hcs : cstr (text ++ [0]) = text := by
    unfold cstr
    rw [List.takeWhile_append_of_pos (by intro c hc; simp; rintro rfl; exact hz hc)]
    simp
  have hl : load vm3.heap.str.cmem vm3.heap.str.owned (.loc (text ++ [0])) text.length = some text := by
    simp [load]
  obtain ⟨vm4, s, g1, g2, g3, _⟩ := called_copy hc ha h (p := .loc (text ++ [0])) rfl hl hg fun r e1 => by
    unfold Builtin.jsonStringify
    simp only [e, hcs, Nat.mul_zero]
    rw [e1]
    rfl
  exact ⟨vm4, s, g1, g2, g3⟩

/-- **C67, `JSON.parse` (partial).** Of a JSON text: a value that shows what is written.  Missing: as for `C46_partial`. -/
theorem C67_parse_partial {D : Nat} (ha : a < 2 ^ 48 ∧ Bodies.body E a = some (Builtin.jsonParse E D)) {s : Val} {rest : List Val}
    {j : Spec.Json.J} {w text tail : List UInt8} (hc : Called E F d f args vm (mkFn a) t (s :: rest) vm3) (h : Scoped cmem E vm3 ops)
    (hs : Reads vm3.heap.str s (w ++ text ++ tail)) (hw : Spec.Json.Blank w) (ht : Spec.Json.Writes Spec.Json.PlainKey j text)
    (hf : Spec.Json.Fits 0 j)
    (htail : ∀ neg n, j = .num neg n → ∃ c r, tail = c :: r ∧ (c = 32 ∨ c = 9 ∨ c = 10 ∨ c = 13 ∨ c = 44 ∨ c = 93 ∨ c = 125))
    (hd : text.length < D) (h31 : text.length < 2 ^ 31)
    (hg : Spec.Json.Supplied (text.length + 255) (2 * text.length) vm3.heap fun k => vm3.al (2 * k)) :
    ∃ vm4 v new, Gives E F (d + (s :: rest).length + 2) (.call f args) vm vm3 v vm4 ∧ Spec.Json.Shows E.numVal vm4.heap v j ∧
      Scoped cmem E vm4 (new ++ ops) ∧ (∀ o ∈ new, ¬ created ops o.target) ∧ ∀ w ws, Reads vm3.heap.str w ws → Reads vm4.heap.str w ws := by
  obtain ⟨v, c, new, e1, e2, e3, e4, e5, e6, e7⟩ := C46_partial (E := E) h.hist h.noNul hw ht hf htail hd h31 hg
  have hb : strBytes vm3.heap.str s = some (w ++ text ++ tail) := by
    obtain ⟨p, n, hg, _, hl⟩ := hs
    simp [strBytes, hg, hl]
  obtain ⟨vm4, g1, g2⟩ := called_gives hc ha (h := c.heap) (v := v) (by
    unfold Builtin.jsonParse
    simp only [List.getElem?_cons_zero, Option.getD_some, reads_isString hs, if_true, hb, Option.bind_some]
    rw [e1]
    simp only [e2, if_true])
  refine ⟨vm4, v, new, g1, by rw [g2]; exact e3, scoped_of h g1.scopes (by rw [g2]; exact e4) e5, e6, by rw [g2]; exact e7⟩

/-- **C67, `JSON.parse` of anything but a string** is a TypeError. -/
theorem C67_parse_errors {D : Nat} (ha : a < 2 ^ 48 ∧ Bodies.body E a = some (Builtin.jsonParse E D))
    (hc : Called E F d f args vm (mkFn a) t vs vm3) (hok : vm3.error = .ok) (hbad : ∀ s, vs[0]? = some s → isString s = false) :
    TypeError E F (d + vs.length + 2) (.call f args) vm vm3 := by
  refine called_type (v := mkUndefined) (text := txt "string argument required") hc ha hok ?_
  unfold Builtin.jsonParse
  simp only
  rw [if_neg]
  cases h0 : vs[0]? with
  | none => decide
  | some s => rw [Option.getD_some, hbad s h0]; decide

omit [Bodies E] in
/-- A text that is not accepted is a TypeError of the parser. -/
theorem parse_type {D : Nat} {h : Heap} {al : Nat → Allocs} {x : List UInt8} {rc : Err} {v : Val} {c : Json.Ctx}
    (e : Json.parse E D h al x = .done rc v c) (hr : rc ≠ .ok) : rc = .type ∧ v = mkUndefined ∧ c.error = .type := by
  unfold Json.parse at e
  split at e
  · split at e
    · cases e; exact absurd rfl hr
    · cases e
  · cases e; exact ⟨rfl, rfl, rfl⟩
  all_goals cases e

/-- **C67, `JSON.parse` of a text that is not accepted** is a TypeError that says so (C46, C47 say which texts are accepted). -/
theorem C67_parse_invalid {D : Nat} (ha : a < 2 ^ 48 ∧ Bodies.body E a = some (Builtin.jsonParse E D)) {s : Val} {rest : List Val} {x : List UInt8}
    (hc : Called E F d f args vm (mkFn a) t (s :: rest) vm3) (hok : vm3.error = .ok) (hm : vm3.msg = none) (hs : Reads vm3.heap.str s x)
    {rc : Err} {v : Val} {c : Json.Ctx} (hp : Json.parse E D vm3.heap (fun k => vm3.al (2 * k)) x = .done rc v c) (hrc : rc ≠ .ok) :
    ∃ u, Means E F (d + (s :: rest).length + 2) (.call f args) vm (.err u) ∧ u.error = .type ∧ u.msg = some (txt "invalid JSON string") := by
  obtain ⟨_, h2, h3⟩ := parse_type hp hrc
  have hb : strBytes vm3.heap.str s = some x := by
    obtain ⟨p, n, hg, _, hl⟩ := hs
    simp [strBytes, hg, hl]
  have hr : Builtin.jsonParse E D t (s :: rest) vm3.heap (fun k => vm3.al (2 * k)) =
      some ⟨c.heap, v, some (.type, txt "invalid JSON string")⟩ := by
    unfold Builtin.jsonParse
    simp only [List.getElem?_cons_zero, Option.getD_some, reads_isString hs, if_true, hb, Option.bind_some]
    rw [hp]
    simp only [h3]
    rw [if_neg (by decide)]
  refine ⟨_, called_body hc ha.1 ha.2 hr (by
    unfold Builtin.leave; simp only [if_neg (show ¬ Err.type = .ok by decide)]; rfl), ?_, ?_⟩
  · show (if vm3.error = .ok then Err.type else vm3.error) = _
    rw [if_pos hok]
  · show some (match vm3.msg with | some old => _ | none => txt "invalid JSON string") = _
    rw [hm]

/-- **C67, missing arguments.** `JSON.stringify()`, `die()` and `Object.create()` are TypeErrors. -/
theorem C67_missing {b : Builtin.Body} (ha : a < 2 ^ 48 ∧ Bodies.body E a = some b)
    (hb : (∃ D fresh, b = Builtin.jsonStringify E D fresh) ∨ b = Builtin.die ∨ ∃ lit, b = Builtin.objectCreate lit)
    (hc : Called E F d f args vm (mkFn a) t [] vm3) (hok : vm3.error = .ok) : TypeError E F (d + 2) (.call f args) vm vm3 := by
  rcases hb with ⟨D, fresh, rfl⟩ | rfl | ⟨lit, rfl⟩
  · exact called_type hc ha hok rfl
  · exact called_type hc ha hok rfl
  · exact called_type hc ha hok rfl

end

/-! ## Concrete cases: `this` is the function -/

/-- The functions of an example engine. -/
def fnBody (D : Nat) : Nat → Option Builtin.Body
  | 1 => some Builtin.chr
  | 2 => some Builtin.isNaN
  | 3 => some Builtin.die
  | 4 => some (Builtin.objectCreate 200)
  | 5 => some (Builtin.jsonStringify demoEnv D (List.replicate · 7))
  | 6 => some (Builtin.jsonParse demoEnv D)
  | _ => none

/-- An engine with these functions. -/
def fnEnv (D : Nat) : Env := { demoEnv with cfun := fun a vm => (fnBody D a).bind fun b => Builtin.cfunction b vm }

instance (D : Nat) : Bodies (fnEnv D) where
  body := fnBody D
  code {a b} h := by
    funext vm
    show (fnBody D a).bind _ = _
    rw [h]; rfl

/-- The call `this(s)` with a string `s`. -/
theorem this_called (D : Nat) (F : Nat → Option Fn) (a : Nat) (s : List UInt8) (hs : s.length < 1000) :
    ∃ vm vm3 k t, Called (fnEnv D) F 3 .this [.str s] vm (mkFn a) t [k] vm3 ∧ Scoped demoMem (fnEnv D) vm3 [] ∧ vm3.error = .ok ∧
      vm3.msg = none ∧ Reads vm3.heap.str k s ∧ Room vm3.heap (65536 + 1048576) ∧ InvS vm3.heap.str ∧
      ∀ i, vm3.al (2 * i) = supplyFrom (65536 + 1048576) i := by
  obtain ⟨h0, hh0, hr0⟩ := demo_start (fnEnv D).numText
  obtain ⟨A, fo, fp, hsim⟩ := hh0.sim
  let vm : Vm := { heap := h0, this := mkFn a, lastGetprop := mkUndefined, al := fun k => supplyFrom 65536 ((k + 1) / 2) }
  have h : Scoped demoMem (fnEnv D) vm [] := ⟨hh0, by simp, by simp [vm], by simp [vm]⟩
  have hg : Granted vm.heap s.length (vm.al 0) := hr0.granted (by decide) (by omega)
  obtain ⟨vm1, k, e1, h1, h2, h3, h4, h5, h6, h7⟩ := mkStr_name (x := s) h (by omega) hg
  obtain ⟨_, hreq⟩ := mkStr_keeps h hg e1
  obtain ⟨r2, i2⟩ := request_room (need := s.length) hr0 hsim.inv.str (by decide) (by omega) hreq
  have hm : vm1.msg = none := by
    rw [mkStr, mkStrP] at e1
    obtain ⟨r, _, e1⟩ := Option.map_eq_some_iff.1 e1
    cases e1
    rfl
  have ha : evalArgs (fnEnv D) F 2 3 [.str s] vm = some (.ok vm1 [k]) := by
    rw [evalArgs, bind_ok (show eval (fnEnv D) F 1 2 (.str s) vm = some (.ok vm1 k) by rw [eval]; exact prim_ok e1 h4), evalArgs]
    rfl
  refine ⟨vm, vm1, k, mkUndefined, ⟨2, vm, vm, by rw [eval]; rfl, by unfold calleeThis; rfl, ha⟩, h1, h4, hm, h2.reads.reads, r2, i2, fun i => ?_⟩
  rw [h6]
  show supplyFrom 65536 ((2 * i + 1 + 1) / 2) = _
  rw [show (2 * i + 1 + 1) / 2 = i + 1 by omega]
  rfl

theorem string_not_number {v : Val} (h : isString v = true) : isNumber v = false := by
  cases hn : isNumber v with
  | false => rfl
  | true =>
    have := getType_number hn
    rw [getType_string h] at this
    cases this

/-- `chr("a")` is `null`, and `isNaN("a")` is false. -/
example (F : Nat → Option Fn) : (∃ vm vm3 vm4, Gives (fnEnv 9) F 6 (.call .this [.str (txt "a")]) vm vm3 mkNull vm4) ∧
    ∃ vm vm3 vm4, Gives (fnEnv 9) F 6 (.call .this [.str (txt "a")]) vm vm3 (mkBoolean false) vm4 := by
  constructor
  · obtain ⟨vm, vm3, k, t, hc, _, _, _, hr, _⟩ := this_called 9 F 1 (txt "a") (by decide)
    obtain ⟨vm4, g, _⟩ := C67_chr_other (a := 1) ⟨by decide, rfl⟩ hc (.inl fun i hi => by cases hi; exact string_not_number (reads_isString hr))
    exact ⟨vm, vm3, vm4, g⟩
  · obtain ⟨vm, vm3, k, t, hc, _, _, _, hr, _⟩ := this_called 9 F 2 (txt "a") (by decide)
    obtain ⟨vm4, _, _, g⟩ := C67_isNaN (a := 2) ⟨by decide, rfl⟩ hc
    exact ⟨vm, vm3, vm4, g (string_not_number (reads_isString hr))⟩

/-- `die("no")` is an error with the message `no`. -/
example (F : Nat → Option Fn) : ∃ vm u, Means (fnEnv 9) F 6 (.call .this [.str (txt "no")]) vm (.err u) ∧ u.error = .type ∧
    u.msg = some (txt "no") := by
  obtain ⟨vm, vm3, k, t, hc, _, he, hm, hr, _⟩ := this_called 9 F 3 (txt "no") (by decide)
  obtain ⟨u, g1, g2, g3, _⟩ := C67_die (a := 3) ⟨by decide, rfl⟩ hc he hm hr
  exact ⟨vm, u, g1, g2, g3⟩

/-- `JSON.parse("\"a\n\"")`, with a newline in the string, is an error. -/
example (F : Nat → Option Fn) : ∃ vm u, Means (fnEnv 9) F 6 (.call .this [.str [34, 97, 10, 34]]) vm (.err u) ∧ u.error = .type ∧
    u.msg = some (txt "invalid JSON string") := by
  obtain ⟨vm, vm3, k, t, hc, _, he, hm, hr, _⟩ := this_called 9 F 6 [34, 97, 10, 34] (by decide)
  obtain ⟨c, hp⟩ := C46_control_rejected (fnEnv 9) vm3.heap (fun k => vm3.al (2 * k)) (d := 9) (w := []) (body := [97]) (bs := [97]) (c := 10)
    (tail := [34]) (fun _ h => by cases h) (.plain ⟨by decide, by decide, by decide, by decide⟩ .nil) (by decide) (by decide)
  obtain ⟨u, g1, g2, g3⟩ := C67_parse_invalid (a := 6) (E := fnEnv 9) (x := [34, 97, 10, 34]) ⟨by decide, rfl⟩ hc he hm hr hp (by decide)
  exact ⟨vm, u, g1, g2, g3⟩

theorem chars_length {t b : List UInt8} (h : Spec.Json.Chars t b) : t.length ≤ 6 * b.length := by
  induction h <;> simp only [List.length_cons, List.length_nil] at * <;> omega

/-- `JSON.stringify("a\"b")` is a JSON text for this string. -/
example (F : Nat → Option Fn) : ∃ text vm vm3 vm4 s, Spec.Json.Writes Spec.Json.PlainKey (.str [97, 34, 98]) text ∧
    Gives (fnEnv 1000) F 6 (.call .this [.str [97, 34, 98]]) vm vm3 s vm4 ∧ Reads vm4.heap.str s text := by
  obtain ⟨vm, vm3, k, t, hc, h, he, hm, hr, hroom, _, hal⟩ := this_called 1000 F 5 [97, 34, 98] (by decide)
  obtain ⟨text, hw, ht⟩ := C67_stringify_partial (a := 5) (E := fnEnv 1000) ⟨by decide, rfl⟩ (fun v => ⟨by simp [fnEnv, demoEnv], by simp [fnEnv, demoEnv]⟩)
    (by simp) hc h (.str (reads_isString hr) hr (.ascii (by decide) (by decide) (.ascii (by decide) (by decide) (.ascii (by decide) (by decide) .nil))))
  have hl : text.length < 1000 := by
    cases hw with
    | str h =>
      have := chars_length h
      simp only [List.length_cons, List.length_append, List.length_nil] at *
      omega
  obtain ⟨vm4, s, g1, g2, _⟩ := ht hl (by
    have := hal 0
    simp only [Nat.mul_zero] at this
    rw [this]
    exact hroom.granted (by decide) (by omega))
  exact ⟨text, vm, vm3, vm4, s, hw, g1, g2⟩

/-- `JSON.parse` of `{"a":[1,"x\n"],"b":{}}` shows this object. -/
example (F : Nat → Option Fn) : ∃ vm vm3 vm4 v, Gives (fnEnv 99) F 6 (.call .this [.str demoJText]) vm vm3 v vm4 ∧
    Spec.Json.Shows demoEnv.numVal vm4.heap v demoJ := by
  obtain ⟨vm, vm3, k, t, hc, h, he, hm, hr, hroom, hi, hal⟩ := this_called 99 F 6 demoJText (by decide)
  have hb : Spec.Json.Blank [] := by simp [Spec.Json.Blank]
  obtain ⟨vm4, v, new, g1, g2, _⟩ := C67_parse_partial (a := 6) (E := fnEnv 99) (w := []) (tail := []) ⟨by decide, rfl⟩ hc h
    (by simpa using hr) hb demoJ_writes demoJ_fits (fun _ _ h => by cases h) (by decide) (by decide) (by
      have e : (fun k => vm3.al (2 * k)) = supplyFrom (65536 + 1048576) := funext hal
      rw [e]
      exact supplied_room (by decide) _ hroom hi (by decide))
  exact ⟨vm, vm3, vm4, v, g1, g2⟩

end Mjs.Props
