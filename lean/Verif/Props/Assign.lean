import Verif.Props.Operators

/-!
# C58: compound assignment, `++` and `--`

`store E (some op) (k, o) w` (Spec/Sem.lean) is `o.k op= w` after the operands are evaluated; a variable is a property of its
scope.  `current ops o x` (Spec/ObjMap.lean) is the value of the property `x` of `o` after the operations `ops`.
-/

namespace Mjs.Props
open Mjs Mjs.Mbuf Mjs.Str Mjs.Arena Mjs.Obj Mjs.Spec Mjs.Core Mjs.Code Mjs.Sem Mjs.Exec Spec.Double

variable {cmem : Nat → Option UInt8} {E : Env} [Natives E] {vm : Vm} {ops : List ObjOp} {k o : Val} {x : Name}

theorem getVm_name (h : Scoped cmem E vm ops) (hk : IsName vm k x) (ho : created ops o) :
    getVm E vm o k = some (vm, (Spec.current ops o x).getD mkUndefined) := by
  obtain ⟨p, g1, _, g3⟩ := own_name h hk ho
  obtain ⟨q, ht, hq⟩ := hk.text h.inv E.numText
  rw [getOwnPropertyV, ht, Option.bind_some] at g1
  unfold getVm
  rw [keyErr_name h hk]
  simp only [Option.bind_eq_bind, Option.bind_some]
  rw [getV, ht, Option.bind_some]
  simp only at g1 ⊢
  rw [Obj.get, g1, Option.bind_some, g3, Option.bind_some]

/-- Reading, operating and writing back. -/
theorem update_name (h : Scoped cmem E vm ops) (hk : IsName vm k x) (hx : (0 : UInt8) ∉ x) (ho : created ops o) {v w r : Val} {t : Nat} {vm1 : Vm}
    (hv : (Spec.current ops o x).getD mkUndefined = v) (hop : doOp E vm v w t = some (vm1, r)) (h1 : Scoped cmem E vm1 ops)
    (hk1 : IsName vm1 k x) (hg : Granted vm1.heap x.length (vm1.al 0)) :
    ∃ vm2, update E vm o k w t = some (vm2, v, r) ∧ Scoped cmem E vm2 (.set o x r :: ops) ∧ vm2.scopes = vm1.scopes ∧ vm2.error = vm1.error ∧
      ∀ v bs, Reads vm1.heap.str v bs → Reads vm2.heap.str v bs := by
  obtain ⟨vm2, e, s, s1, s2, _, _, s3⟩ := setVm_name h1 hk1 hx ho r hg
  refine ⟨vm2, ?_, s, s1, s2, s3⟩
  unfold update
  rw [getVm_name h hk ho, hv]
  simp only [Option.bind_eq_bind, Option.bind_some]
  rw [hop]
  simp only [Option.bind_some]
  rw [e]
  rfl

theorem IsName.isObjStr (h : Scoped cmem E vm ops) (hk : IsName vm k x) (ho : created ops o) : (isObject o && isString k) = true := by
  rw [created_isObject h ho, hk.str]; rfl

/-- What the operations did: `x` of `o` is `r`, everything else as before. -/
def OnlyChanged (ops ops1 : List ObjOp) (o : Val) (x : Name) (r : Val) : Prop :=
  Spec.current ops1 o x = some r ∧ ∀ o' y, (o', y) ≠ (o, x) → Spec.current ops1 o' y = Spec.current ops o' y

theorem onlyChanged_set (ops : List ObjOp) (o : Val) (x : Name) (r : Val) : OnlyChanged ops (.set o x r :: ops) o x r := by
  refine ⟨by simp [Spec.current], ?_⟩
  intro o' y hne
  simp only [Spec.current]
  rw [if_neg fun hh => hne (by rw [hh.1, hh.2])]

theorem arithTok_isSome {op : BinOp} {t : Nat} (ht : arithTok op = some t) (h : Scoped cmem E vm ops) (hk : IsName vm k x) (ho : created ops o) (w : Val) :
    store E (some op) (k, o) w vm = prim (fun vm => (update E vm o k w t).map fun r => (r.1, r.2.1)) vm := by
  unfold Sem.store
  simp only [ht]
  unfold prim withValue opAssign
  simp only [IsName.isObjStr h hk ho, if_true]
  cases update E vm o k w t <;> rfl

omit [Natives E] in
theorem doOp_of_binary {op : BinOp} {t : Nat} (ht : arithTok op = some t) {v w r : Val}
    (hr : binary E op v w vm = some (.ok vm r)) : doOp E vm v w t = some (vm, r) := by
  rw [binary_arith E vm op t ht, prim, Option.map_eq_some_iff] at hr
  obtain ⟨⟨vm1, r1⟩, h1, h2⟩ := hr
  simp only at h2
  split at h2
  · cases h2; exact h1
  · cases h2

/-- **C58, `o.x op= w`.** The property `x` of `o` becomes what `o.x op w` yields, nothing else changes.  (Strings are in `C58_append`: there
`o.x + w` is a new string.)  The value of the whole
expression is the *old* value (in JavaScript it is the new one). -/
theorem C58_compound (h : Scoped cmem E vm ops) (he : vm.error = .ok) (hk : IsName vm k x) (hx : (0 : UInt8) ∉ x) (ho : created ops o)
    (hg : Granted vm.heap x.length (vm.al 0)) {v w r : Val} (hv : Spec.current ops o x = some v) (op : BinOp) (hop : (arithTok op).isSome = true)
    (hr : binary E op v w vm = some (.ok vm r)) :
    ∃ vm1 ops1, store E (some op) (k, o) w vm = some (.ok vm1 v) ∧ Scoped cmem E vm1 ops1 ∧ vm1.scopes = vm.scopes ∧
      OnlyChanged ops ops1 o x r := by
  obtain ⟨t, ht⟩ := Option.isSome_iff_exists.1 hop
  have hd := doOp_of_binary ht hr
  obtain ⟨vm1, e, s, s1, s2, _⟩ := update_name h hk hx ho (by rw [hv]; rfl) hd h hk hg
  refine ⟨vm1, _, ?_, s, s1, onlyChanged_set _ _ _ _⟩
  rw [arithTok_isSome ht h hk ho]
  exact prim_ok (by rw [e]; rfl) (s2.trans he)

/-- **C58, `o.x += w` on strings.** -/
theorem C58_append (h : Scoped cmem E vm ops) (he : vm.error = .ok) (hk : IsName vm k x) (hx : (0 : UInt8) ∉ x) (ho : created ops o)
    {v w : Val} {a b : List UInt8} (hv : Spec.current ops o x = some v) (ra : Reads vm.heap.str v a) (rb : Reads vm.heap.str w b)
    (hg : ∀ i, i < 2 → Granted vm.heap (a.length + b.length + x.length + 11) (vm.al i)) :
    ∃ vm1 ops1 r, store E (some .add) (k, o) w vm = some (.ok vm1 v) ∧ Scoped cmem E vm1 ops1 ∧ vm1.scopes = vm.scopes ∧
      OnlyChanged ops ops1 o x r ∧ Reads vm1.heap.str r (a ++ b) := by
  have g0 := hg 0 (by omega)
  obtain ⟨st', r, e, i, ex, hz, _, hlen⟩ := sConcat_core (vm.al 0).hr vm.heap.str h.inv v w a b (vm.al 0).strs ra rb
    (by have := g0.room; omega) g0.low g0.grant
  have sa := reads_isString ra
  have sb := reads_isString rb
  have hd : doOp E vm v w Tok.PLUS = some ({ used vm with heap := { vm.heap with str := st' } }, r) := by
    rw [doOp, if_neg (by simp [string_not_number sa, string_not_foreign sa]), if_pos (by rw [sa, sb]; rfl), Exec.concat, e]
    rfl
  have g0' : Granted vm.heap (a.length + b.length) (vm.al 0) := Arr.granted_le g0 (by omega)
  have h1 : Scoped cmem E { used vm with heap := { vm.heap with str := st' } } ops :=
    ⟨.concat h.hist ra rb g0' e, h.noNul, h.scopes, h.plain⟩
  have hk1 : IsName { used vm with heap := { vm.heap with str := st' } } k x := ⟨hk.str, readsZ_mono h.inv i ex hk.reads, hk.short, hk.len⟩
  have g1 := hg 1 (by omega)
  obtain ⟨vm1, e1, s, s1, s2, hst⟩ := update_name h hk hx ho (by rw [hv]; rfl) hd h1 hk1
    ⟨g1.low, g1.grant, by have := g1.room; show st'.owned.len + _ + _ < _; omega, g1.obj, g1.prop⟩
  refine ⟨vm1, _, r, ?_, s, s1, onlyChanged_set _ _ _ _, hst _ _ hz.reads⟩
  rw [arithTok_isSome (op := .add) rfl h hk ho]
  exact prim_ok (by rw [e1]; rfl) (s2.trans he)

/-- **Finding: a compound assignment that fails still assigns.** With an operand of the wrong type, a TypeError is raised, and the variable
or property has lost its value: it is undefined. -/
theorem C58_failed_assignment_clobbers (h : Scoped cmem E vm ops) (he : vm.error = .ok) (hk : IsName vm k x) (hx : (0 : UInt8) ∉ x)
    (ho : created ops o) (hg : Granted vm.heap x.length (vm.al 0)) {v w : Val} (hv : Spec.current ops o x = some v)
    (hn : ¬ ((isForeign v = true ∨ isNumber v = true) ∧ (isForeign w = true ∨ isNumber w = true)))
    (op : BinOp) (hop : (arithTok op).isSome = true) (hs : ¬ (isString v = true ∧ isString w = true ∧ op = .add)) :
    ∃ vm1 ops1, store E (some op) (k, o) w vm = some (.err vm1) ∧ vm1.error = .type ∧ Scoped cmem E vm1 ops1 ∧
      OnlyChanged ops ops1 o x mkUndefined := by
  obtain ⟨t, ht⟩ := Option.isSome_iff_exists.1 hop
  have hd : doOp E vm v w t = some (prepend vm .type (txt "implicit type conversion is prohibited"), mkUndefined) := by
    rw [doOp, if_neg (by simpa using hn), if_neg]
    simp only [Bool.and_eq_true, beq_iff_eq]
    rintro ⟨⟨h1, h3⟩, h4⟩
    refine hs ⟨h1, h3, ?_⟩
    subst h4
    cases op <;> simp_all [arithTok, Tok.PLUS, Tok.MINUS, Tok.MUL, Tok.DIV, Tok.REM, Tok.LSHIFT, Tok.RSHIFT, Tok.URSHIFT, Tok.AND, Tok.OR, Tok.XOR]
  have h1 : Scoped cmem E (prepend vm .type (txt "implicit type conversion is prohibited")) ops := ⟨h.hist, h.noNul, h.scopes, h.plain⟩
  have hk1 : IsName (prepend vm .type (txt "implicit type conversion is prohibited")) k x := ⟨hk.str, hk.reads, hk.short, hk.len⟩
  have h2 : (prepend vm .type (txt "implicit type conversion is prohibited")).error = .type := by rw [prepend]; exact if_pos he
  obtain ⟨vm1, e, s, s1, s2, _⟩ := update_name h hk hx ho (by rw [hv]; rfl) hd h1 hk1 hg
  refine ⟨vm1, _, ?_, s2.trans h2, s, onlyChanged_set _ _ _ _⟩
  rw [arithTok_isSome ht h hk ho]
  simp only [prim, e, Option.map_some]
  rw [if_neg (by rw [s2, h2]; decide)]

/-- The operator of `++` and `--`. -/
def step (plus : Bool) : BinOp := if plus then .add else .sub

/-- **C58, `++` and `--` on a variable.** The variable `x` of the innermost scope that has one changes by one; the value of the
expression is the new value for `++x` and `--x`, the old value for `x++` and `x--`. -/
theorem C58_increment {F : Nat → Option Fn} {n d : Nat} (h : Scoped cmem E vm ops) (he : vm.error = .ok) (hl : x.length < 2 ^ 32)
    (hx : (0 : UInt8) ∉ x) (hg : ∀ i, i < 2 → Granted vm.heap (2 * x.length + 11) (vm.al i)) (post plus : Bool) {v r : Val}
    (hv : valueOf ops vm.scopes x = some v)
    (hr : ∀ vm', vm'.error = .ok → binary E (step plus) v (mkInt 1) vm' = some (.ok vm' r)) :
    ∃ vm1 ops1 s, eval E F (n + 2) (d + 2) (.incr post plus (.var x)) vm = some (.ok vm1 (if post then v else r)) ∧
      Scoped cmem E vm1 ops1 ∧ vm1.scopes = vm.scopes ∧ innermost ops vm.scopes x = some s ∧ OnlyChanged ops ops1 s x r := by
  obtain ⟨s, hs, hm, hc⟩ := valueOf_innermost hv
  obtain ⟨vm1, k, e1, h1, h2, h3, h4, h5, h6, h7⟩ := resolve_name h he hl (Arr.granted_le (hg 0 (by omega)) (by omega)) hs
  have ho := h.scopes s hm
  have hr1 := hr vm1 h4
  obtain ⟨t, ht, htok⟩ : ∃ t, arithTok (step plus) = some t ∧ t = if plus then Tok.PLUS else Tok.MINUS := by cases plus <;> exact ⟨_, rfl, rfl⟩
  have hd := doOp_of_binary ht hr1
  obtain ⟨vm2, e2, s0, s1, s2, _⟩ := update_name h1 h2 hx ho (by rw [hc]; rfl) hd h1 h2
    (by rw [h6]; exact h7 _ _ (Arr.granted_le (hg 1 (by omega)) (by omega)))
  refine ⟨vm2, _, s, ?_, s0, s1.trans h3, hs, onlyChanged_set _ _ _ _⟩
  rw [eval, evalL, bind_ok e1]
  refine prim_ok ?_ (s2.trans h4)
  show withValue (incr E vm1 post (if plus = true then Tok.PLUS else Tok.MINUS) s k) = _
  rw [← htok, incr, IsName.isObjStr h1 h2 ho, if_pos rfl, e2]
  rfl

/-! ## The hypotheses hold -/

/-- `y *= 3`, `y++` and the failing `y += undefined`, where `y` is 7 in the outer scope. -/
example (E : Env) [Natives E] (F : Nat → Option Fn) (q : Val) (hq : E.add (mkInt 7) (mkInt 1) = q) :
    ∃ vm k s vm1 vm2 vm3, store E (some .mul) (k, s) (mkInt 3) vm = some (.ok vm1 (mkInt 7)) ∧
      store E (some .add) (k, s) mkUndefined vm = some (.err vm2) ∧ vm2.error = .type ∧
      eval E F 2 2 (.incr false true (.var (txt "y"))) vm = some (.ok vm3 (mkNumber q)) := by
  obtain ⟨vm, s1, s2, ops, h, he, hs, hne, v1, v2, v3, v4, v5, _, hg⟩ := demo_scopes E
  obtain ⟨vm1, k, e1, h1, h2, h3, h4, h5, h6, h7⟩ := mkStr_name (x := txt "y") h (by decide) (hg 0 _ (by decide))
  have i7 := mkInt_isInt 7 (by decide)
  have n7 := isNumber_finite i7.1
  have hgr : ∀ i n, n < 400000 → Granted vm1.heap n (vm1.al i) := by
    intro i n hn
    rw [h6]
    exact h7 _ _ (hg _ _ (by simp only [show (txt "y").length = 1 by decide]; omega))
  have hm : s1 ∈ vm1.scopes := by rw [h3, hs]; simp
  have ho := h1.scopes s1 hm
  have hc : Spec.current ops s1 (txt "y") = some (mkInt 7) := by
    obtain ⟨s, g1, _, g3⟩ := valueOf_innermost v2
    rw [v5] at g1; cases g1
    exact g3
  have arith : ∀ vm', vm'.error = .ok → ∀ i : Int, i.natAbs < 2 ^ 53 →
      binary E .add (mkInt 7) (mkInt i) vm' = some (.ok vm' (mkNumber (E.add (mkInt 7) (mkInt i)))) ∧
      binary E .mul (mkInt 7) (mkInt i) vm' = some (.ok vm' (mkNumber (E.mul (mkInt 7) (mkInt i)))) := by
    intro vm' he' i hi
    have ii := mkInt_isInt i hi
    have := C40_arith E vm' he' (mkInt 7) (mkInt i) n7 (isNumber_finite ii.1) (IsInt.notNaN i7) (IsInt.notNaN ii)
    exact ⟨this.1, this.2.2.1⟩
  obtain ⟨w1, _, r1, _⟩ := C58_compound h1 (h4.trans he) h2 (by decide) ho (hgr 0 _ (by decide)) hc
    .mul rfl (arith vm1 (h4.trans he) 3 (by decide)).2
  obtain ⟨w2, _, r2, r3, _⟩ := C58_failed_assignment_clobbers h1 (h4.trans he) h2 (by decide) ho (hgr 0 _ (by decide)) hc
    (w := mkUndefined) (by decide) .add rfl (by decide)
  obtain ⟨w3, _, _, r4, _⟩ := C58_increment (F := F) (n := 0) (d := 0) h1 (h4.trans he) (x := txt "y") (by decide) (by decide)
    (fun i _ => hgr i _ (by decide)) false true (by rw [h3]; exact v2) fun vm' h => hq ▸ (arith vm' h 1 (by decide)).1
  exact ⟨vm1, k, s1, w1, w2, w3, r1, r2, r3, r4⟩

end Mjs.Props
