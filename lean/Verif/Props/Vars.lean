import Verif.Props.ObjectProto
import Verif.Lemmas.Means
import Verif.Props.Flow
import Verif.Lemmas.ArrayHist
import Verif.Props.ObjectDemo

/-!
# C39: variables

A scope is an object whose properties are the variables.  `current ops s x` (Spec/ObjMap.lean) is the value of `x` in the scope
`s` after the object operations `ops`.
-/

namespace Mjs.Props
open Mjs Mjs.Mbuf Mjs.Str Mjs.Arena Mjs.Obj Mjs.Spec Mjs.Core Mjs.Code Mjs.Sem Mjs.Exec

/-- The heap of the engine is the result of the object operations `ops`, and the scopes are objects of the heap.  (No key
contains a NUL byte: identifiers do not.) -/
structure Scoped (cmem : Nat → Option UInt8) (E : Env) (vm : Vm) (ops : List ObjOp) : Prop where
  hist : History cmem E.numText vm.heap ops
  noNul : ∀ o ∈ ops, o.noNul
  scopes : ∀ s ∈ vm.scopes, created ops s
  plain : ∀ s ∈ vm.scopes, isArray s = false

/-- The string value `k` is the name `x`. -/
structure IsName (vm : Vm) (k : Val) (x : Name) : Prop where
  str : isString k = true
  reads : ReadsZ vm.heap.str k x
  short : x.length ≤ 5 → k = inlineVal x
  len : x.length < 2 ^ 32

variable {cmem : Nat → Option UInt8} {E : Env} [Natives E] {vm : Vm} {ops : List ObjOp} {k : Val} {x : Name}

theorem IsName.text (h : IsName vm k x) (hi : InvS vm.heap.str) (numText : Val → List UInt8) :
    ∃ p, toStr numText vm.heap.str k = some (some (p, x.length)) ∧ KeyPtr vm.heap.str p x := by
  obtain ⟨p, n, h1, h2, h4⟩ := h.reads.reads
  have h3 := (load_length hi.1.1 h4).symm
  subst h3
  exact ⟨p, by rw [toStr, if_pos h.str, h1]; rfl, h2, h4, h.len⟩

omit [Natives E] in
theorem Scoped.inv (h : Scoped cmem E vm ops) : InvS vm.heap.str := by
  obtain ⟨A, fo, fp, hs⟩ := h.hist.sim
  exact hs.inv.str

omit [Natives E] in
theorem keyErr_name (h : Scoped cmem E vm ops) (hk : IsName vm k x) : keyErr E vm k = some vm := by
  obtain ⟨p, ht, _⟩ := hk.text h.inv E.numText
  rw [keyErr, ht]; rfl

omit [Natives E] in
/-- Whether a scope has the name. -/
theorem own_name (h : Scoped cmem E vm ops) (hk : IsName vm k x) {s : Val} (hs : created ops s) :
    ∃ p, getOwnPropertyV E.numText vm.heap s k = some p ∧ (p ≠ 0 ↔ (current ops s x).isSome = true) ∧
      valueAt vm.heap p = some ((current ops s x).getD mkUndefined) := by
  obtain ⟨A, fo, fp, hsim⟩ := h.hist.sim
  obtain ⟨o, L, hv, hA, _, h2⟩ := hsim.obj _ hs
  obtain ⟨p, ht, hp⟩ := hk.text hsim.inv.str E.numText
  have e2 : current ops s x = lookup L x := by rw [← engineCurrent_eq h.noNul, h2]
  refine ⟨_, getOwnPropertyV_spec hsim.inv hA hv ht hp, ?_, by rw [valueAt_locate hsim.inv hA, e2]⟩
  rw [e2]
  unfold locate lookup
  cases hf : L.find? fun e => sameKey e.key x with
  | none => simp
  | some e =>
    obtain ⟨_, c, _, hch⟩ := hsim.inv.obj o L hA
    obtain ⟨h0, _⟩ := hch.at (List.mem_of_find?_eq_some hf)
    simp [h0]

/-- The innermost of the scopes (the last of the list) that has the name. -/
def innermost (ops : List ObjOp) (scopes : List Val) (x : Name) : Option Val :=
  scopes.reverse.find? fun s => (current ops s x).isSome

omit [Natives E] in
theorem findIn_spec (h : Scoped cmem E vm ops) (hk : IsName vm k x) : ∀ {l : List Val}, (∀ s ∈ l, created ops s) →
    findIn E vm.heap k l = some (l.find? fun s => (current ops s x).isSome)
  | [], _ => rfl
  | s :: r, hl => by
    obtain ⟨p, h1, h2, _⟩ := own_name h hk (hl s (by simp))
    rw [findIn, h1, Option.bind_some, List.find?_cons]
    cases hc : (current ops s x).isSome with
    | true => rw [if_pos (h2.2 hc)]
    | false =>
      rw [if_neg (by rw [h2, hc]; simp)]
      exact findIn_spec h hk fun s hs => hl s (by simp [hs])

omit [Natives E] in
/-- **C39, lookup.** A name is found in the innermost scope that declares it; a name that no scope declares is a
ReferenceError. -/
theorem C39_innermost (h : Scoped cmem E vm ops) (hk : IsName vm k x) :
    findScope E vm k = match innermost ops vm.scopes x with
      | some s => some (vm, s)
      | none => some (setErrorf vm .reference (some (txt "[" ++ x ++ txt "] is not defined")), mkUndefined) := by
  unfold findScope
  rw [keyErr_name h hk]
  simp only [Option.bind_eq_bind, Option.bind_some]
  rw [findIn_spec h hk fun s hs => h.scopes s (by simpa using hs), Option.bind_some]
  unfold innermost
  cases vm.scopes.reverse.find? fun s => (current ops s x).isSome with
  | some s => rfl
  | none =>
    obtain ⟨p, n, h1, h2, h3⟩ := hk.reads.reads
    have : strBytes vm.heap.str k = some x := by
      unfold strBytes
      rw [h1]; exact h3
    simp only [this, Option.bind_some]

omit [Natives E] in
/-- Making the string of a name. -/
theorem mkStr_name (h : Scoped cmem E vm ops) (hl : x.length < 2 ^ 32) (hg : Granted vm.heap x.length (vm.al 0)) :
    ∃ vm1 k, mkStr vm x = some (vm1, k) ∧ Scoped cmem E vm1 ops ∧ IsName vm1 k x ∧ vm1.scopes = vm.scopes ∧ vm1.error = vm.error ∧
      vm1.this = vm.this ∧ (vm1.al = fun n => vm.al (n + 1)) ∧
      ∀ n al, Granted vm.heap (n + x.length + 11) al → Granted vm1.heap n al := by
  obtain ⟨A, fo, fp, hs⟩ := h.hist.sim
  obtain ⟨st', v, bs', e, i', ex, hlen, hsrc, hz, _, hc, hgrow, hcase⟩ :=
    mkStringCopy_core (vm.al 0).hr vm.heap.str hs.inv.str (.loc x) x.length (vm.al 0).strs (.inr ⟨x, loc_load _ _⟩) hg.room hg.low hg.grant
  have hbs : bs' = x := by
    have := hsrc rfl
    rw [loc_load] at this
    exact (Option.some.inj this).symm
  subst hbs
  have hstr : isString v = true := by
    obtain ⟨p, n, h1, h2, _⟩ := hz.reads
    by_cases hv : isString v = true
    · exact hv
    · rw [getString, if_pos hv] at h1
      cases h1; cases h2
  refine ⟨{ used vm with heap := { vm.heap with str := st' } }, v, by rw [mkStr, mkStrP, e]; rfl,
    ⟨.string h.hist rfl (loc_load _ _) hg e, h.noNul, h.scopes, h.plain⟩, ⟨hstr, hz, ?_, hl⟩, rfl, rfl, rfl, rfl,
    fun n al g => ⟨g.low, g.grant, by have := g.room; show st'.owned.len + _ + _ < _; omega, g.obj, g.prop⟩⟩
  intro h5
  unfold inlineVal
  rcases hcase with ⟨h4, _, hv, _⟩ | ⟨h5, _, hv, _⟩ | ⟨h6, _⟩
  · rw [if_pos h4]; exact hv
  · rw [if_neg (by omega)]; exact hv
  · omega

omit [Natives E] in
theorem created_isObject (h : Scoped cmem E vm ops) {s : Val} (hs : created ops s) : isObject s = true := by
  obtain ⟨A, fo, fp, hsim⟩ := h.hist.sim
  obtain ⟨o, L, hv, _⟩ := hsim.obj _ hs
  exact hv.1

omit [Natives E] in
/-- Writing to a variable of a scope. -/
theorem setVm_name (h : Scoped cmem E vm ops) (hk : IsName vm k x) (hx : (0 : UInt8) ∉ x) {s : Val} (hs : created ops s) (v : Val)
    (hg : Granted vm.heap x.length (vm.al 0)) :
    ∃ vm1, setVm E vm s k v = some vm1 ∧ Scoped cmem E vm1 (.set s x v :: ops) ∧ vm1.scopes = vm.scopes ∧ vm1.error = vm.error ∧
      vm1.this = vm.this ∧ (vm1.al = fun n => vm.al (n + 1)) ∧ ∀ w bs, Reads vm.heap.str w bs → Reads vm1.heap.str w bs := by
  obtain ⟨A, fo, fp, hsim⟩ := h.hist.sim
  obtain ⟨o, L, hv, hA, _, h2⟩ := hsim.obj _ hs
  obtain ⟨p, ht, hp⟩ := hk.text hsim.inv.str E.numText
  have hsh : isString k = true → x.length ≤ 5 →
      mkStringCopy 0 vm.heap.str (.loc x) x.length (fun _ => none) = some (vm.heap.str, k) := by
    intro _ h5
    rw [mkShort_spec 0 vm.heap.str (.loc x) x _ h5 rfl (loc_load _ _), hk.short h5]
  have hz : isString k = true → numberish x = true → ReadsZ vm.heap.str k x := fun _ _ => hk.reads
  obtain ⟨h', L', fp', e, ha, hi, hex, _⟩ := setInternal_spec hsim.inv hA hv hp (goodName_of ht hp hsh hz) v hg false (by simp)
  have e1 : setV E.numText vm.heap s k v (vm.al 0) = some (h', .ok) := by
    rw [Obj.setV, ht, Option.bind_some]
    exact e
  refine ⟨{ used vm with heap := h' }, ?_, ⟨.setV h.hist hs ht hp hsh hz hg e1, ?_, h.scopes, h.plain⟩, rfl, rfl, rfl, rfl,
    fun _ _ => reads_mono hsim.inv.str hi.str hex⟩
  · unfold setVm
    rw [keyErr_name h hk]
    simp only [Option.bind_eq_bind, Option.bind_some]
    rw [e1]
    rfl
  · intro o ho
    rcases List.mem_cons.1 ho with rfl | ho
    · exact hx
    · exact h.noNul o ho

/-! ## Names in programs -/

theorem tags_of_isObject {s : Val} (h : isObject s = true) : isString s = false ∧ isForeign s = false := by
  unfold isObject at h
  unfold isString isForeign
  rw [Bool.or_eq_true, beq_iff_eq, beq_iff_eq] at h
  rcases h with h | h <;> rw [h] <;> decide

theorem prim_ok {α : Type} {f : Vm → Option (Vm × α)} {vm vm1 : Vm} {a : α} (h : f vm = some (vm1, a)) (he : vm1.error = .ok) :
    prim f vm = some (.ok vm1 a) := by
  simp [prim, h, he]

omit [Natives E] in
theorem resolve_name (h : Scoped cmem E vm ops) (he : vm.error = .ok) (hl : x.length < 2 ^ 32) (hg : Granted vm.heap x.length (vm.al 0))
    {s : Val} (hs : innermost ops vm.scopes x = some s) :
    ∃ vm1 k, resolve E x vm = some (.ok vm1 (k, s)) ∧ Scoped cmem E vm1 ops ∧ IsName vm1 k x ∧ vm1.scopes = vm.scopes ∧ vm1.error = .ok ∧
      vm1.this = vm.this ∧ (vm1.al = fun n => vm.al (n + 1)) ∧
      ∀ n al, Granted vm.heap (n + x.length + 11) al → Granted vm1.heap n al := by
  obtain ⟨vm1, k, e1, h1, h2, h3, h4, h5, h6, h7⟩ := mkStr_name h hl hg
  refine ⟨vm1, k, ?_, h1, h2, h3, h4.trans he, h5, h6, h7⟩
  unfold resolve Sem.string
  rw [bind_ok (prim_ok e1 (h4.trans he))]
  have := C39_innermost h1 h2
  rw [h3, hs] at this
  rw [bind_ok (prim_ok this (h4.trans he))]
  rfl

omit [Natives E] in
/-- **C39, the scope of a name.** -/
theorem C39_resolve (h : Scoped cmem E vm ops) (he : vm.error = .ok) (hl : x.length < 2 ^ 32) (hg : Granted vm.heap x.length (vm.al 0))
    {s : Val} (hs : innermost ops vm.scopes x = some s) :
    ∃ vm1 k, resolve E x vm = some (.ok vm1 (k, s)) ∧ Scoped cmem E vm1 ops ∧ IsName vm1 k x ∧ vm1.scopes = vm.scopes ∧ vm1.error = .ok ∧
      vm1.this = vm.this ∧ vm1.al = fun n => vm.al (n + 1) := by
  obtain ⟨vm1, k, e, h1, h2, h3, h4, h5, h6, _⟩ := resolve_name h he hl hg hs
  exact ⟨vm1, k, e, h1, h2, h3, h4, h5, h6⟩

omit [Natives E] in
/-- **C39, undeclared names.** Using a name that no scope declares, for reading or writing, is a ReferenceError. -/
theorem C39_undeclared (h : Scoped cmem E vm ops) (he : vm.error = .ok) (hl : x.length < 2 ^ 32) (hg : Granted vm.heap x.length (vm.al 0))
    (hs : innermost ops vm.scopes x = none) :
    ∃ vm1, resolve E x vm = some (.err vm1) ∧ vm1.error = .reference ∧ vm1.msg = some (txt "[" ++ x ++ txt "] is not defined") ∧
      Scoped cmem E vm1 ops := by
  obtain ⟨vm1, k, e1, h1, h2, h3, h4, h5, h6, _⟩ := mkStr_name h hl hg
  refine ⟨setErrorf vm1 .reference (some (txt "[" ++ x ++ txt "] is not defined")), ?_, rfl, rfl, ⟨h1.hist, h1.noNul, h1.scopes, h1.plain⟩⟩
  unfold resolve Sem.string
  rw [bind_ok (prim_ok e1 (h4.trans he))]
  have := C39_innermost h1 h2
  rw [h3, hs] at this
  exact bind_err (show prim (fun vm => findScope E vm k) vm1 = _ by simp only [prim, this]; rfl)

/-- The value of a name: that of the innermost scope that has it. -/
def valueOf (ops : List ObjOp) (scopes : List Val) (x : Name) : Option Val := nearest (current ops) scopes.reverse x

theorem valueOf_innermost {ops : List ObjOp} {scopes : List Val} {x : Name} {v : Val} (h : valueOf ops scopes x = some v) :
    ∃ s, innermost ops scopes x = some s ∧ s ∈ scopes ∧ current ops s x = some v := by
  unfold valueOf nearest at h
  unfold innermost
  have hm : ∀ s ∈ scopes.reverse, s ∈ scopes := fun s hs => by simpa using hs
  generalize scopes.reverse = l at h hm
  induction l with
  | nil => simp at h
  | cons s r ih =>
    rw [List.findSome?_cons] at h
    rw [List.find?_cons]
    cases hc : current ops s x with
    | some w =>
      rw [hc] at h
      cases h
      exact ⟨s, by simp, hm s (by simp), hc⟩
    | none =>
      rw [hc] at h
      exact ih h fun s hs => hm s (by simp [hs])

/-- **C39, reading a variable (partial).** The value of the expression `x` is that of the innermost scope that has the name `x`;
nothing changes.  Missing: the name `apply`, for which it fails (`C39_apply_is_not_a_variable`). -/
theorem C39_read_partial {F : Nat → Option Fn} {n d : Nat} (h : Scoped cmem E vm ops) (he : vm.error = .ok) (hl : x.length < 2 ^ 32)
    (hg : Granted vm.heap x.length (vm.al 0)) {v : Val} (hv : valueOf ops vm.scopes x = some v) (hx : x ≠ txt "apply") :
    ∃ vm1, eval E F (n + 2) (d + 2) (.get (.var x)) vm = some (.ok vm1 v) ∧ Scoped cmem E vm1 ops ∧ vm1.scopes = vm.scopes ∧
      vm1.this = vm.this := by
  obtain ⟨s, hs, hm, hc⟩ := valueOf_innermost hv
  obtain ⟨vm1, k, e1, h1, h2, h3, h4, h5, h6⟩ := C39_resolve h he hl hg hs
  have hcr := h.scopes s hm
  have hob := created_isObject h1 hcr
  obtain ⟨p, g1, g2, g3⟩ := own_name h1 h2 hcr
  obtain ⟨q, ht, hq⟩ := h2.text h1.inv E.numText
  have hb : builtin E vm1 s k = some (vm1, none) := by
    unfold builtin
    rw [keyErr_name h1 h2]
    simp only [Option.bind_eq_bind, Option.bind_some]
    rw [ht]
    simp only [Option.bind_some, hq.bytes]
    have n1 : isString s = false := (tags_of_isObject hob).1
    have n2 : isArray s = false := h.plain s hm
    have n3 : isForeign s = false := (tags_of_isObject hob).2
    simp only [n1, n2, n3, hx, Bool.false_eq_true, if_false]
  have hgp : getProp E vm1 s k = some (vm1, v) := by
    unfold getProp
    rw [hb]
    simp only [Option.bind_eq_bind, Option.bind_some, hob, if_true]
    rw [getVProto, protoName_spec]
    simp only [Option.bind_eq_bind, Option.bind_some]
    rw [g1]
    simp only [Option.bind_some]
    rw [if_pos (g2.2 (by rw [hc]; rfl)), g3, hc]
    rfl
  refine ⟨{ vm1 with lastGetprop := mkUndefined }, ?_, ⟨h1.hist, h1.noNul, h1.scopes, h1.plain⟩, h3, h5⟩
  rw [eval, evalL, bind_ok e1]
  show (prim _ >>= _) vm1 = _
  rw [bind_ok (prim_ok hgp h4)]
  rfl

/-- **C39 fails for the name `apply`.** Whatever the value of the variable `apply`, the expression `apply` is the built-in
function of that name. -/
theorem C39_apply_is_not_a_variable {F : Nat → Option Fn} {n d : Nat} (h : Scoped cmem E vm ops) (he : vm.error = .ok)
    (hg : Granted vm.heap (txt "apply").length (vm.al 0)) {v : Val} (hv : valueOf ops vm.scopes (txt "apply") = some v) :
    ∃ vm1, eval E F (n + 2) (d + 2) (.get (.var (txt "apply"))) vm = some (.ok vm1 (mkFn E.applyFn)) := by
  obtain ⟨s, hs, hm, hc⟩ := valueOf_innermost hv
  obtain ⟨vm1, k, e1, h1, h2, h3, h4, h5, h6⟩ := C39_resolve h he (by decide) hg hs
  have hob := created_isObject h1 (h.scopes s hm)
  obtain ⟨q, ht, hq⟩ := h2.text h1.inv E.numText
  have hb : builtin E vm1 s k = some (vm1, some (mkFn E.applyFn)) := by
    unfold builtin
    rw [keyErr_name h1 h2]
    simp only [Option.bind_eq_bind, Option.bind_some]
    rw [ht]
    simp only [Option.bind_some, hq.bytes]
    simp only [(tags_of_isObject hob).1, Bool.false_eq_true, if_false, if_true]
  have hgp : getProp E vm1 s k = some (vm1, mkFn E.applyFn) := by
    unfold getProp
    rw [hb]
    rfl
  refine ⟨{ vm1 with lastGetprop := mkUndefined }, ?_⟩
  rw [eval, evalL, bind_ok e1]
  show (prim _ >>= _) vm1 = _
  rw [bind_ok (prim_ok hgp h4)]
  rfl

omit [Natives E] in
/-- **C39, assignment.** Assigning to a resolved name changes the variable of that name in that scope, and no other variable of
any scope. -/
theorem C39_assign (h : Scoped cmem E vm ops) (he : vm.error = .ok) (hk : IsName vm k x) (hx : (0 : UInt8) ∉ x) {s : Val}
    (hs : s ∈ vm.scopes) (v : Val) (hg : Granted vm.heap x.length (vm.al 0)) :
    ∃ vm1 ops1, store E none (k, s) v vm = some (.ok vm1 v) ∧ Scoped cmem E vm1 ops1 ∧ vm1.scopes = vm.scopes ∧
      current ops1 s x = some v ∧ ∀ s' y, (s', y) ≠ (s, x) → current ops1 s' y = current ops s' y := by
  obtain ⟨vm1, e1, h1, h2, h3, h4, h5⟩ := setVm_name h hk hx (h.scopes s hs) v hg
  refine ⟨vm1, _, ?_, h1, h2, by simp [Spec.current], ?_⟩
  · have : assign E vm v s k = some (vm1, v) := by
      unfold Exec.assign
      rw [if_pos (created_isObject h (h.scopes s hs)), e1]
      rfl
    exact prim_ok (f := fun vm => Exec.assign E vm v s k) this (h3.trans he)
  · intro s' y hne
    simp only [Spec.current]
    rw [if_neg fun hh => hne (by rw [hh.1, hh.2])]

omit [Natives E] in
/-- **C39, `let`.** `let x` creates `x`, with the value undefined, in the current scope, if it is not there yet; a variable that
is there keeps its value.  No other variable of any scope changes. -/
theorem C39_let (h : Scoped cmem E vm ops) (he : vm.error = .ok) (hl : x.length < 2 ^ 32) (hx : (0 : UInt8) ∉ x)
    {outer : List Val} {s : Val} (hs : vm.scopes = outer ++ [s])
    (hg : ∀ i, i < 2 → Granted vm.heap (2 * x.length + 11) (vm.al i)) :
    ∃ vm1 ops1, declare E x vm = some (.ok vm1 ()) ∧ Scoped cmem E vm1 ops1 ∧ vm1.scopes = vm.scopes ∧
      current ops1 s x = some ((current ops s x).getD mkUndefined) ∧
      ∀ s' y, (s', y) ≠ (s, x) → current ops1 s' y = current ops s' y := by
  have hsm : s ∈ vm.scopes := by rw [hs]; simp
  obtain ⟨vm1, k, e1, h1, h2, h3, h4, h5, h6, h7⟩ := mkStr_name h hl (Arr.granted_le (hg 0 (by omega)) (by omega))
  have hne : ¬ vm1.scopes.length = 0 := by rw [h3, hs]; simp
  have htop : vtop vm1.scopes = s := by rw [h3, hs]; simp [vtop]
  obtain ⟨p, g1, g2, g3⟩ := own_name h1 h2 (h.scopes s hsm)
  have key : ∀ vm2, createIn E vm1 s k = some vm2 → vm2.error = .ok → declare E x vm = some (.ok vm2 ()) := by
    intro vm2 hc hok
    unfold declare Sem.string
    rw [bind_ok (prim_ok e1 (h4.trans he))]
    refine prim_ok ?_ hok
    rw [if_pos (by omega), htop, hc]
    rfl
  have hcr : createIn E vm1 s k = if p = 0 then setVm E vm1 s k mkUndefined else some vm1 := by
    unfold createIn
    rw [keyErr_name h1 h2]
    simp only [Option.bind_eq_bind, Option.bind_some]
    rw [g1, Option.bind_some]
  cases hc : Spec.current ops s x with
  | some w =>
    have hp : p ≠ 0 := g2.2 (by rw [hc]; rfl)
    rw [if_neg hp] at hcr
    exact ⟨vm1, ops, key _ hcr (h4.trans he), h1, h3, by rw [hc]; rfl, fun _ _ _ => rfl⟩
  | none =>
    have hp : p = 0 := by
      by_cases hp : p = 0
      · exact hp
      · have := g2.1 hp
        rw [hc] at this
        cases this
    obtain ⟨vm2, e2, i1, i2, i3, i4, i5⟩ := setVm_name h1 h2 hx (h.scopes s hsm) mkUndefined
      (by rw [h6]; exact h7 _ _ (Arr.granted_le (hg 1 (by omega)) (by omega)))
    rw [if_pos hp, e2] at hcr
    refine ⟨vm2, _, key _ hcr (i3.trans (h4.trans he)), i1, i2.trans h3, by simp [Spec.current], ?_⟩
    intro s' y hne
    simp only [Spec.current]
    rw [if_neg fun hh => hne (by rw [hh.1, hh.2])]

/-! ## The hypotheses hold

Two nested scopes: the outer one has `x` and `y`, the inner one another `x` and a variable called `apply`. -/

theorem demo_scopes (E : Env) : ∃ vm s1 s2 ops, Scoped demoMem E vm ops ∧ vm.error = .ok ∧ vm.scopes = [s1, s2] ∧ s1 ≠ s2 ∧
    valueOf ops vm.scopes (txt "x") = some (mkInt 2) ∧ valueOf ops vm.scopes (txt "y") = some (mkInt 7) ∧
    valueOf ops vm.scopes (txt "apply") = some (mkInt 5) ∧ innermost ops vm.scopes (txt "zz") = none ∧
    innermost ops vm.scopes (txt "y") = some s1 ∧ current ops s1 (txt "x") = some (mkInt 1) ∧
    ∀ i n, n < 524288 → Granted vm.heap n (vm.al i) := by
  obtain ⟨h, hh, hr⟩ := demo_start E.numText
  obtain ⟨h, s1, hh, hr, _, p1⟩ := grow_new hh hr (by decide)
  obtain ⟨h, s2, hh, hr, hn, p2⟩ := grow_new hh hr (by decide)
  have hne : s1 ≠ s2 := by
    intro e
    exact hn (by simp [created, e])
  obtain ⟨h, hh, hr⟩ := grow_set hh hr (by decide) (v := s1) (by simp [created]) (txt "x") (by decide) (mkInt 1)
  obtain ⟨h, hh, hr⟩ := grow_set hh hr (by decide) (v := s1) (by simp [created]) (txt "y") (by decide) (mkInt 7)
  obtain ⟨h, hh, hr⟩ := grow_set hh hr (by decide) (v := s2) (by simp [created]) (txt "x") (by decide) (mkInt 2)
  obtain ⟨h, hh, hr⟩ := grow_set hh hr (by decide) (v := s2) (by simp [created]) (txt "apply") (by decide) (mkInt 5)
  have t1 : txt "x" ≠ txt "y" := by decide
  have t2 : txt "x" ≠ txt "apply" := by decide
  have t3 : txt "y" ≠ txt "apply" := by decide
  have t4 : txt "x" ≠ txt "zz" := by decide
  have t5 : txt "y" ≠ txt "zz" := by decide
  have t6 : txt "apply" ≠ txt "zz" := by decide
  refine ⟨{ heap := h, scopes := [s1, s2], al := fun _ => alFor _ }, s1, s2, _, ⟨hh, ?_, ?_, ?_⟩, rfl, rfl, hne, ?_, ?_, ?_, ?_, ?_, ?_,
    fun i n hn => hr.granted (by decide) hn⟩
  · intro o ho
    simp only [List.mem_cons, List.not_mem_nil, or_false] at ho
    rcases ho with rfl | rfl | rfl | rfl | rfl | rfl <;> simp only [ObjOp.noNul] <;> decide
  · intro s hs
    simp only [List.mem_cons, List.not_mem_nil, or_false] at hs
    rcases hs with rfl | rfl <;> simp [created]
  · intro s hs
    simp only [List.mem_cons, List.not_mem_nil, or_false] at hs
    rcases hs with rfl | rfl <;> assumption
  all_goals simp [valueOf, innermost, nearest, Spec.current, hne, hne.symm, t1, t1.symm, t2, t2.symm, t3, t3.symm, t4.symm, t5.symm, t6.symm]

example (E : Env) [Natives E] (F : Nat → Option Fn) : ∃ vm vm1 vm2 vm3 vm4 vm5 vm6 vm7,
    eval E F 2 2 (.get (.var (txt "x"))) vm = some (.ok vm1 (mkInt 2)) ∧
    eval E F 2 2 (.get (.var (txt "y"))) vm = some (.ok vm2 (mkInt 7)) ∧
    eval E F 2 2 (.get (.var (txt "apply"))) vm = some (.ok vm3 (mkFn E.applyFn)) ∧
    resolve E (txt "zz") vm = some (.err vm4) ∧ vm4.error = .reference ∧
    declare E (txt "x") vm = some (.ok vm5 ()) ∧ declare E (txt "zz") vm = some (.ok vm6 ()) ∧
    ∃ k s, resolve E (txt "y") vm = some (.ok vm7 (k, s)) := by
  obtain ⟨vm, s1, s2, ops, h, he, hs, hne, v1, v2, v3, v4, v5, _, hg⟩ := demo_scopes E
  obtain ⟨vm1, r1, _⟩ := C39_read_partial (F := F) (n := 0) (d := 0) h he (by decide) (hg 0 _ (by decide)) v1 (by decide)
  obtain ⟨vm2, r2, _⟩ := C39_read_partial (F := F) (n := 0) (d := 0) h he (by decide) (hg 0 _ (by decide)) v2 (by decide)
  obtain ⟨vm3, r3⟩ := C39_apply_is_not_a_variable (F := F) (n := 0) (d := 0) h he (hg 0 _ (by decide)) v3
  obtain ⟨vm4, r4, r5, _⟩ := C39_undeclared h he (by decide) (hg 0 _ (by decide)) v4
  obtain ⟨vm5, _, r6, _⟩ := C39_let (x := txt "x") (outer := [s1]) h he (by decide) (by decide) hs fun i _ => hg i _ (by decide)
  obtain ⟨vm6, _, r7, _⟩ := C39_let (x := txt "zz") (outer := [s1]) h he (by decide) (by decide) hs fun i _ => hg i _ (by decide)
  obtain ⟨vm7, k, r8, _⟩ := C39_resolve h he (by decide) (hg 0 _ (by decide)) v5
  exact ⟨vm, vm1, vm2, vm3, vm4, vm5, vm6, vm7, r1, r2, r3, r4, r5, r6, r7, k, s1, r8⟩

/-- The hypotheses of `C39_assign` hold after resolving `y`. -/
example (E : Env) [Natives E] : ∃ vm vm1 k s ops ops1, Scoped demoMem E vm ops ∧ store E none (k, s) (mkInt 9) vm = some (.ok vm1 (mkInt 9)) ∧
    Scoped demoMem E vm1 ops1 ∧ current ops1 s (txt "y") = some (mkInt 9) := by
  obtain ⟨vm, s1, s2, ops, h, he, hs, hne, v1, v2, v3, v4, v5, _, hg⟩ := demo_scopes E
  obtain ⟨vm1, k, e1, h1, h2, h3, h4, h5, h6, h7⟩ := mkStr_name (x := txt "y") h (by decide) (hg 0 _ (by decide))
  obtain ⟨vm2, ops1, r, h8, _, h9, _⟩ := C39_assign h1 (h4.trans he) h2 (by decide) (s := s1) (by rw [h3, hs]; simp) (mkInt 9)
    (by rw [h6]; exact h7 _ _ (hg 1 _ (by decide)))
  exact ⟨vm1, vm2, k, s1, ops, ops1, h1, r, h8, h9⟩

end Mjs.Props
