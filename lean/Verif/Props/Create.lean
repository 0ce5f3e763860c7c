import Verif.Spec.Create
import Verif.Props.Vars
import Verif.Props.BuiltinFn
import Verif.Lemmas.HistoryOrder

/-!
# C68: what a new engine has
-/

namespace Mjs.Props
open Mjs Mjs.Mbuf Mjs.Str Mjs.Arena Mjs.Obj Mjs.Spec Mjs.Core Mjs.Code Mjs.Sem Mjs.Exec Mjs.Create

section
variable {cmem : Nat → Option UInt8} {numText : Val → List UInt8} {lit : List UInt8 → Nat} {need : Nat}

theorem allNames_facts : ∀ k ∈ allNames, (0 : UInt8) ∉ k ∧ k.length ≤ 11 := by decide

theorem answers_setAll (hneed : 11 ≤ need) (hlit : Literals cmem lit) (l : List (List UInt8 × Val)) : ∀ {h ops v n} {al : Nat → Allocs},
    History cmem numText h ops → created ops v → h.str.cmem = cmem → (∀ p ∈ l, p.1 ∈ allNames) → Json.Supplied need (n + l.length) h al →
    ∃ h', setAll lit h v l al = some h' ∧ History cmem numText h' ((l.map fun p => ObjOp.set v p.1 p.2).reverse ++ ops) ∧
      h'.str.cmem = cmem ∧ Json.Supplied need n h' fun k => al (k + l.length) := by
  induction l with
  | nil => intro h ops v n al hh _ hc _ ha; exact ⟨h, rfl, by simpa using hh, hc, ha⟩
  | cons p l ih =>
    intro h ops v n al hh hv hc hl ha
    obtain ⟨hz, hn⟩ := allNames_facts p.1 (hl p (by simp))
    rw [show n + (p :: l).length = n + l.length + 1 by simp; omega] at ha
    obtain ⟨hg, hnext⟩ := ha
    have hr := hlit p.1 (hl p (by simp))
    rw [← hc] at hr
    obtain ⟨hk, hsl⟩ := keyPtr_z hr hz (by omega)
    obtain ⟨A, fo, fp, hs⟩ := hh.sim
    obtain ⟨o, L, hio, hA, _⟩ := hs.obj v hv
    have hg' : Granted h p.1.length (al 0) := ⟨hg.low, hg.grant, by have := hg.room; omega, hg.obj, hg.prop⟩
    obtain ⟨h1, L', fp', e, _, _, _, hcm, _⟩ := setInternal_spec hs.inv hA hio hk (goodName_none _ _) p.2 hg' true (fun _ => hz)
    have e' : setZ h v (lit p.1) p.2 (al 0) = some (h1, .ok) := by rw [setZ, hsl, Option.bind_some, e]
    obtain ⟨h', e2, hh', hc', ha'⟩ := ih (al := fun k => al (k + 1)) (.setZ hh hv hr hz (by omega) hg' e') hv (hcm.trans hc)
      (fun q hq => hl q (by simp [hq])) (hnext h1 (.setZ (by omega) (by omega) hz hr e'))
    refine ⟨h', ?_, by simpa using hh', hc', ?_⟩
    · obtain ⟨k, x⟩ := p
      rw [setAll, e', Option.bind_some, e2]
    · have : (fun k => al (k + (p :: l).length)) = fun k => (fun k => al (k + 1)) (k + l.length) := by
        funext k; simp [Nat.add_assoc]
      rw [this]; exact ha'

theorem answers_new {h ops n} {al : Nat → Allocs} (hh : History cmem numText h ops) (hc : h.str.cmem = cmem) (ha : Json.Supplied need (n + 1) h al) :
    ∃ h' v, mkObject h (al 0) = some (h', v) ∧ History cmem numText h' (.new v :: ops) ∧ ¬ created ops v ∧ isArray v = false ∧
      h'.str.cmem = cmem ∧ Json.Supplied need n h' fun k => al (k + 1) := by
  obtain ⟨A, fo, fp, hs⟩ := hh.sim
  obtain ⟨h', v, o, fo', e, hv, hA, hst, hi⟩ := mkObject_spec hs.inv ha.1.obj
  have hh' := History.newObject hh ha.1.obj e
  refine ⟨h', v, e, hh', newObject_fresh hh ha.1.obj e, ?_, by rw [hst]; exact hc, ha.2 h' (.obj e)⟩
  simp only [mkObject, Option.bind_eq_bind, Option.bind_eq_some_iff] at e
  obtain ⟨_, _, _, _, w, hw, e⟩ := e
  cases e
  exact plain_of_objectToValue hw

theorem nil_noNul : ∀ o ∈ ([] : List ObjOp), o.noNul := by simp

theorem new_noNul (v : Val) {ops : List ObjOp} (h : ∀ o ∈ ops, o.noNul) : ∀ o ∈ ObjOp.new v :: ops, o.noNul := by
  intro o ho
  rcases List.mem_cons.1 ho with rfl | ho
  · exact True.intro
  · exact h o ho

theorem setAll_noNul (v : Val) {l : List (List UInt8 × Val)} (hl : ∀ p ∈ l, p.1 ∈ allNames) {ops : List ObjOp} (h : ∀ o ∈ ops, o.noNul) :
    ∀ o ∈ (l.map fun p => ObjOp.set v p.1 p.2).reverse ++ ops, o.noNul := by
  intro o ho
  rcases List.mem_append.1 ho with ho | ho
  · simp only [List.mem_reverse, List.mem_map] at ho
    obtain ⟨p, hp, rfl⟩ := ho
    exact (allNames_facts p.1 (hl p hp)).1
  · exact h o ho

theorem lookup_if {β : Type} (k a : List UInt8) (b : β) (l : List (List UInt8 × β)) :
    List.lookup k ((a, b) :: l) = if k = a then some b else List.lookup k l := by
  rw [List.lookup_cons]
  by_cases h : k = a
  · simp [h]
  · simp [h, beq_eq_false_iff_ne.2 h]

/-- **C68.** A new engine has one scope, the global object; its names are the built-in ones, and no others; `this` is undefined and there is no
error.  The objects behind the names `global`, `JSON` and `Object` are three different ones. -/
theorem C68_create (hneed : 11 ≤ need) (hlit : Literals cmem lit) {E : Env} {f : Fns} {hr : Nat} {al1 al2 : Alloc} {bo bp : Option Nat} {al : Nat → Allocs} {h : Heap}
    (hh : History cmem E.numText h []) (hc : createHeap hr cmem al1 al2 bo bp = some h) {n : Nat} (ha : Json.Supplied need (n + 21) h al) :
    ∃ vm g j o ops, create lit f hr cmem al1 al2 bo bp al = some vm ∧ Scoped cmem E vm ops ∧ vm.scopes = [g] ∧ vm.this = mkUndefined ∧
      vm.error = .ok ∧ vm.msg = none ∧ g ≠ j ∧ g ≠ o ∧ j ≠ o ∧ created ops j ∧ created ops o ∧ isArray j = false ∧ isArray o = false ∧
      Json.Supplied need n vm.heap vm.al ∧
      (∀ k, Spec.current ops g k = (globalNames f g j o).lookup k) ∧ (∀ k, Spec.current ops j k = (jsonNames f).lookup k) ∧
      ∀ k, Spec.current ops o k = (objectNames f).lookup k := by
  have hcm : h.str.cmem = cmem := by
    simp only [createHeap, createStore, Option.bind_eq_bind, Option.bind_eq_some_iff] at hc
    obtain ⟨st, ⟨x, _, e⟩, _, _, _, _, e'⟩ := hc
    cases e'; cases e
    rfl
  obtain ⟨h1, g, e1, hh1, n1, p1, c1, a1⟩ := answers_new (n := n + 20) hh hcm ha
  obtain ⟨h2, e2, hh2, c2, a2⟩ := answers_setAll (n := n + 9) hneed hlit
    [(txt "global", g), (txt "load", mkFn f.load), (txt "print", mkFn f.print), (txt "ffi", mkFn f.ffi),
     (txt "ffi_cb_free", mkFn f.ffiCbFree), (txt "mkstr", mkFn f.mkstr), (txt "getMJS", mkFn f.getMJS), (txt "die", mkFn f.die),
     (txt "gc", mkFn f.gc), (txt "chr", mkFn f.chr), (txt "s2o", mkFn f.s2o)] hh1 (.inl rfl) c1 (by simp [allNames]) a1
  obtain ⟨h3, j, e3, hh3, n3, p3, c3, a3⟩ := answers_new (n := n + 8) hh2 c2 a2
  obtain ⟨h4, e4, hh4, c4, a4⟩ := answers_setAll (n := n + 6) hneed hlit [(txt "stringify", mkFn f.jsonStringify), (txt "parse", mkFn f.jsonParse)]
    hh3 (.inl rfl) c3 (by simp [allNames]) a3
  obtain ⟨h5, e5, hh5, c5, a5⟩ := answers_setAll (n := n + 5) hneed hlit [(txt "JSON", j)] (v := g) hh4 (by simp [created]) c4 (by simp [allNames]) a4
  obtain ⟨h6, o, e6, hh6, n6, p6, c6, a6⟩ := answers_new (n := n + 4) hh5 c5 a5
  obtain ⟨h7, e7, hh7, c7, a7⟩ := answers_setAll (n := n + 3) hneed hlit [(txt "create", mkFn f.objectCreate)] hh6 (.inl rfl) c6 (by simp [allNames]) a6
  obtain ⟨h8, e8, hh8, c8, a8⟩ := answers_setAll (n := n) hneed hlit [(txt "Object", o), (txt "NaN", tagNan), (txt "isNaN", mkFn f.isNaN)] (v := g)
    hh7 (by simp [created]) c7 (by simp [allNames]) a7
  simp only [List.map_cons, List.map_nil, List.reverse_cons, List.reverse_nil, List.nil_append, List.cons_append] at hh8 n3 n6
  have gj : g ≠ j := by rintro rfl; exact n3 (by simp [created])
  have go : g ≠ o := by rintro rfl; exact n6 (by simp [created])
  have jo : j ≠ o := by rintro rfl; exact n6 (by simp [created])
  refine ⟨{ heap := h8, scopes := [g], this := mkUndefined, al := fun n => al (n + 21) }, g, j, o, _, ?_,
    ⟨hh8, ?_, ?_, ?_⟩, rfl, rfl, rfl, rfl, gj, go, jo, ?_, ?_, p3, p6, ?_, ?_, ?_, ?_⟩
  · simp only [Create.create, hc, Option.bind_eq_bind, Option.bind_some, e1, initBuiltin, e2]
    simp only [List.length_cons, List.length_nil, Nat.zero_add, Nat.reduceAdd, Nat.add_assoc] at e3 e4 e5 e6 e7 e8
    simp only [Nat.reduceAdd, e3, Option.bind_some, e4, e5, e6, e7, e8, Nat.add_assoc]
  · have n2 := setAll_noNul g (l := [(txt "global", g), (txt "load", mkFn f.load), (txt "print", mkFn f.print), (txt "ffi", mkFn f.ffi),
     (txt "ffi_cb_free", mkFn f.ffiCbFree), (txt "mkstr", mkFn f.mkstr), (txt "getMJS", mkFn f.getMJS), (txt "die", mkFn f.die),
     (txt "gc", mkFn f.gc), (txt "chr", mkFn f.chr), (txt "s2o", mkFn f.s2o)]) (by simp [allNames]) (new_noNul g nil_noNul)
    have n4 := setAll_noNul j (l := [(txt "stringify", mkFn f.jsonStringify), (txt "parse", mkFn f.jsonParse)]) (by simp [allNames]) (new_noNul j n2)
    have n5 := setAll_noNul g (l := [(txt "JSON", j)]) (by simp [allNames]) n4
    have n7 := setAll_noNul o (l := [(txt "create", mkFn f.objectCreate)]) (by simp [allNames]) (new_noNul o n5)
    exact setAll_noNul g (l := [(txt "Object", o), (txt "NaN", tagNan), (txt "isNaN", mkFn f.isNaN)]) (by simp [allNames]) n7
  · simp [created]
  · simp [p1]
  · simp [created]
  · simp [created]
  · simp only [List.length_cons, List.length_nil, Nat.zero_add, Nat.reduceAdd, Nat.add_assoc] at a8
    exact a8
  · intro k
    simp only [Spec.current, globalNames, lookup_if, List.lookup_nil, gj, go, true_and, false_and, if_false, if_true]
  · intro k
    simp only [Spec.current, jsonNames, lookup_if, List.lookup_nil, gj.symm, jo, true_and, false_and, if_false, if_true]
  · intro k
    simp only [Spec.current, objectNames, lookup_if, List.lookup_nil, go.symm, true_and, false_and, if_false, if_true]

end

/-! ## Calls by name -/

section
variable {cmem : Nat → Option UInt8} {E : Env} [Natives E] {F : Nat → Option Fn} {d : Nat} {vm vm1 vm3 : Vm} {ops : List ObjOp} {x : Name}
  {e : Expr} {t v : Val} {l : Lval} {args : List Expr} {vs : List Val}

theorem called_get (hm : Means E F d (.get l) vm (.ok vm1 v)) (ha : ∃ n, evalArgs E F n d args vm1 = some (.ok vm3 vs)) :
    Called E F d (.get l) args vm v vm1.lastGetprop vs vm3 := by
  obtain ⟨n1, hm⟩ := hm
  obtain ⟨n2, ha⟩ := ha
  exact ⟨n1 + n2, vm1, vm1, eval_mono hm (by omega) (Nat.le_refl _), rfl,
    (Mono.of_le (show n2 ≤ n1 + n2 by omega)).evalArgs _ _ _ (Nat.le_refl _) _ _ ha⟩

omit [Natives E] in
theorem getProp_own (h1 : Scoped cmem E vm ops) {k : Val} (h2 : IsName vm k x) (hcr : created ops t) (hp : isArray t = false)
    (hc : Spec.current ops t x = some v) (hx : x ≠ txt "apply") : getProp E vm t k = some (vm, v) := by
  have hob := created_isObject h1 hcr
  obtain ⟨p, g1, g2, g3⟩ := own_name h1 h2 hcr
  obtain ⟨q, ht, hq⟩ := h2.text h1.inv E.numText
  have hb : builtin E vm t k = some (vm, none) := by
    unfold builtin
    rw [keyErr_name h1 h2]
    simp only [Option.bind_eq_bind, Option.bind_some]
    rw [ht]
    simp only [Option.bind_some, hq.bytes]
    have n1 : isString t = false := (tags_of_isObject hob).1
    have n3 : isForeign t = false := (tags_of_isObject hob).2
    simp only [n1, hp, n3, hx, Bool.false_eq_true, if_false]
  unfold getProp
  rw [hb]
  simp only [Option.bind_eq_bind, Option.bind_some, hob, if_true]
  rw [getVProto, protoName_spec]
  simp only [Option.bind_eq_bind, Option.bind_some]
  rw [g1]
  simp only [Option.bind_some]
  rw [if_pos (g2.2 (by rw [hc]; rfl)), g3, hc]
  rfl

/-- Reading a variable takes memory for its name only. -/
theorem read_kept (h : Scoped cmem E vm ops) (he : vm.error = .ok) (hl : x.length < 2 ^ 32) (hg : Granted vm.heap x.length (vm.al 0))
    (hv : valueOf ops vm.scopes x = some v) (hx : x ≠ txt "apply") :
    ∃ vm1, Means E F 2 (.get (.var x)) vm (.ok vm1 v) ∧ Kept cmem E ops x.length vm vm1 ∧ vm1.lastGetprop = mkUndefined := by
  obtain ⟨s, hs, hm, hc⟩ := valueOf_innermost hv
  obtain ⟨u, k, e1, h1, h2, h3, h4, h5, h6, h7⟩ := mkStr_name h hl hg
  obtain ⟨hk, hsh⟩ := mkStr_keeps h hg e1
  have hgp := getProp_own h1 h2 (h.scopes s hm) (h.plain s hm) hc hx
  refine ⟨{ u with lastGetprop := mkUndefined }, ⟨2, ?_⟩, ⟨⟨h1.hist, h1.noNul, h1.scopes, h1.plain⟩, h4, h3, h5, hk, h7, hsh, h6⟩, rfl⟩
  have hr : resolve E x vm = some (.ok u (k, s)) := by
    unfold resolve Sem.string
    rw [bind_ok (prim_ok e1 (h4.trans he))]
    have := C39_innermost h1 h2
    rw [h3, hs] at this
    rw [bind_ok (prim_ok this (h4.trans he))]
    rfl
  rw [eval, evalL, bind_ok hr]
  show (prim _ >>= _) u = _
  rw [bind_ok (prim_ok hgp (h4.trans he))]
  rfl

/-- Reading an own property takes memory for its name only. -/
theorem member_kept (hm : Means E F d e vm (.ok vm1 t)) (h : Scoped cmem E vm1 ops) (he : vm1.error = .ok) (hl : x.length < 2 ^ 32)
    (hg : Granted vm1.heap x.length (vm1.al 0)) (hcr : created ops t) (hp : isArray t = false) (hc : Spec.current ops t x = some v)
    (hx : x ≠ txt "apply") :
    ∃ vm2, Means E F (d + 2) (.get (.dot e x)) vm (.ok vm2 v) ∧ Kept cmem E ops x.length vm1 vm2 ∧ vm2.lastGetprop = t := by
  obtain ⟨u, k, e1, h1, h2, h3, h4, h5, h6, h7⟩ := mkStr_name h hl hg
  obtain ⟨hk, hsh⟩ := mkStr_keeps h hg e1
  have hgp := getProp_own h1 h2 hcr hp hc hx
  obtain ⟨n, hm⟩ := hm
  refine ⟨{ u with lastGetprop := t }, ⟨n + 2, ?_⟩, ⟨⟨h1.hist, h1.noNul, h1.scopes, h1.plain⟩, h4, h3, h5, hk, h7, hsh, h6⟩, rfl⟩
  rw [eval, evalL]
  have : (eval E F n d e >>= fun o => Sem.string x >>= fun k => pure (k, o)) vm = some (.ok u (k, t)) := by
    rw [bind_ok hm]
    unfold Sem.string
    rw [bind_ok (prim_ok e1 (h4.trans he))]
    rfl
  rw [bind_ok this]
  show (prim _ >>= _) u = _
  rw [bind_ok (prim_ok hgp (h4.trans he))]
  rfl

/-- **C68, calls of global functions.** In an engine where the name `x` stands for the value `v`, `x(args)` calls `v` with
`this` undefined; that the name was looked up has changed nothing the arguments depend on. -/
theorem C68_function (h : Scoped cmem E vm ops) (he : vm.error = .ok) (hl : x.length < 2 ^ 32) (hg : Granted vm.heap x.length (vm.al 0))
    (hv : valueOf ops vm.scopes x = some v) (hx : x ≠ txt "apply") :
    ∃ vm1, Kept cmem E ops x.length vm vm1 ∧ ∀ args vs vm3, (∃ n, evalArgs E F n (d + 2) args vm1 = some (.ok vm3 vs)) →
      Called E F (d + 2) (.get (.var x)) args vm v mkUndefined vs vm3 := by
  obtain ⟨vm1, ⟨n, hm⟩, hk, hu⟩ := read_kept (F := F) h he hl hg hv hx
  exact ⟨vm1, hk, fun args vs vm3 ha => hu ▸ called_get ⟨n, eval_mono hm (Nat.le_refl _) (by omega)⟩ ha⟩

/-- **C68, calls of functions in a global object.** In an engine where the name `x` stands for an object with a member `m` that
is `v`, `x.m(args)` calls `v` with this object as `this`. -/
theorem C68_method (h : Scoped cmem E vm ops) (he : vm.error = .ok) (hl : x.length < 2 ^ 32) (hg : Granted vm.heap x.length (vm.al 0))
    (hv : valueOf ops vm.scopes x = some t) (hx : x ≠ txt "apply") {m : Name} (hcr : created ops t) (hp : isArray t = false)
    (hc : Spec.current ops t m = some v) (hm : m ≠ txt "apply") (hml : m.length < 2 ^ 32)
    (hg2 : ∀ h', Spec.Json.Request x.length vm.heap (vm.al 0) h' → Granted h' m.length (vm.al 1)) :
    ∃ vm1 vm2, Kept cmem E ops x.length vm vm1 ∧ Kept cmem E ops m.length vm1 vm2 ∧
      ∀ args vs vm3, (∃ n, evalArgs E F n (d + 4) args vm2 = some (.ok vm3 vs)) →
        Called E F (d + 4) (.get (.dot (.get (.var x)) m)) args vm v t vs vm3 := by
  obtain ⟨vm1, hm1, hk, hu⟩ := read_kept (F := F) h he hl hg hv hx
  obtain ⟨vm2, ⟨n, hm2⟩, hk2, hu2⟩ := member_kept hm1 hk.inv (hk.error.trans he) hml (by rw [hk.al]; exact hg2 _ hk.heap) hcr hp hc hm
  exact ⟨vm1, vm2, hk, hk2, fun args vs vm3 ha => hu2 ▸ called_get ⟨n, eval_mono hm2 (Nat.le_refl _) (by omega)⟩ ha⟩

end

/-! ## A new engine exists -/

theorem request_le {n need : Nat} (hn : n ≤ need) {h h' : Heap} {al : Allocs} (hq : Spec.Json.Request n h al h') :
    Spec.Json.Request need h al h' := by
  cases hq with
  | set a b => exact .set (by omega) b
  | setZ a b c d e => exact .setZ (by omega) b c d e
  | obj a => exact .obj a
  | arr a => exact .arr a
  | str a b => exact .str (by omega) b
  | none => exact .none

theorem Kept.supplied {cmem : Nat → Option UInt8} {E : Env} {ops : List ObjOp} {n m need : Nat} {vm vm1 : Vm} (hk : Kept cmem E ops n vm vm1)
    (hn : n ≤ need) (hs : Spec.Json.Supplied need (m + 1) vm.heap vm.al) : Spec.Json.Supplied need m vm1.heap vm1.al := by
  rw [hk.al]
  exact hs.2 _ (request_le hn hk.heap)

/-- Of the answers of the allocator every second one is used. -/
theorem supplied_even {need : Nat} : ∀ (n : Nat) {h : Heap} {al : Nat → Allocs}, Spec.Json.Supplied need (2 * n) h al →
    Spec.Json.Supplied need n h fun k => al (2 * k)
  | 0, _, _, _ => trivial
  | n + 1, h, al, hs => by
    refine ⟨hs.1, fun h' hq => ?_⟩
    have := (hs.2 h' hq).2 h' .none
    exact supplied_even n this

/-- A memory with the literals. -/
def libMem (a : Nat) : Option UInt8 :=
  if 1000 ≤ a then allNames[(a - 1000) / 20]?.bind fun k => (k ++ [0])[(a - 1000) % 20]? else none

/-- Where they are. -/
def libLit (k : List UInt8) : Nat := 1000 + 20 * allNames.idxOf k

theorem lib_literals : Literals libMem libLit := by
  have h : (allNames.all fun k => readC libMem (libLit k) (k.length + 1) == some (k ++ [0])) = true := by decide +kernel
  intro k hk
  exact eq_of_beq (List.all_eq_true.1 h k hk)

/-- Where the functions are. -/
def libFns : Fns where
  load := 101
  print := 102
  ffi := 103
  ffiCbFree := 104
  mkstr := 105
  getMJS := 106
  die := 3
  gc := 107
  chr := 1
  s2o := 108
  jsonStringify := 5
  jsonParse := 6
  objectCreate := 4
  isNaN := 2

/-- There is a new engine with all these names, and memory for as many further requests as wanted. -/
theorem lib_new (E : Env) (n : Nat) (hn : n < 100000) : ∃ vm g j o ops,
    Create.create libLit libFns 0 libMem (some (4096, fun _ => 0)) (some (4096, fun _ => 0)) (some 8192) (some 16384) (supplyFrom 65536) = some vm ∧
    Scoped libMem E vm ops ∧ vm.scopes = [g] ∧ vm.this = mkUndefined ∧ vm.error = .ok ∧ vm.msg = none ∧ g ≠ j ∧ g ≠ o ∧ j ≠ o ∧
    created ops j ∧ created ops o ∧ isArray j = false ∧ isArray o = false ∧ Spec.Json.Supplied 1000 n vm.heap vm.al ∧
    (∀ k, Spec.current ops g k = (globalNames libFns g j o).lookup k) ∧ (∀ k, Spec.current ops j k = (jsonNames libFns).lookup k) ∧
    ∀ k, Spec.current ops o k = (objectNames libFns).lookup k := by
  have hlow : AllocLow (some (4096, fun _ => 0)) := by intro r hr; cases hr; exact ⟨by decide, by decide⟩
  have hd : (createHeap 0 libMem (some (4096, fun _ => 0)) (some (4096, fun _ => 0)) (some 8192) (some 16384)).map
      (fun h => ([h.objs.cellSize, h.objs.inc, h.props.cellSize, h.props.inc, h.str.owned.len, h.str.foreign.len],
        [h.objs.blocks, h.props.blocks])) = some ([8, 10, 24, 10, 1, 0], [[(8192, 20)], [(16384, 20)]]) := by
    decide +kernel
  simp only [Option.map_eq_some_iff] at hd
  obtain ⟨h, hc, hp⟩ := hd
  simp only [Prod.mk.injEq, List.cons.injEq, and_true] at hp
  obtain ⟨⟨p1, p2, p4, p5, p7, p8⟩, p3, p6⟩ := hp
  have hh : History libMem E.numText h [] := .create hlow hlow (by simp) (by simp) hc
  have hr : Room h 65536 :=
    ⟨by decide, by decide, p1, p2, by rw [p3]; simp, p4, p5, by rw [p6]; simp, by omega, by omega⟩
  obtain ⟨A, fo, fp, hs⟩ := hh.sim
  exact C68_create (need := 1000) (by decide) lib_literals hh hc (supplied_room (by decide) (n + 21) hr hs.inv.str (by omega))

theorem supplied_le {m need : Nat} (hm : m ≤ need) : ∀ (n : Nat) {h : Heap} {al : Nat → Allocs}, Spec.Json.Supplied need n h al →
    Spec.Json.Supplied m n h al
  | 0, _, _, _ => trivial
  | n + 1, _, _, hs => ⟨Arr.granted_le hs.1 hm, fun _ hq => supplied_le hm n (hs.2 _ (request_le hm hq))⟩

/-- `chr(65)` in a new engine is the string "A". -/
example (F : Nat → Option Fn) : ∃ vm vm3 vm4 v,
    Create.create libLit libFns 0 libMem (some (4096, fun _ => 0)) (some (4096, fun _ => 0)) (some 8192) (some 16384) (supplyFrom 65536) = some vm ∧
    Gives (fnEnv 9) F 6 (.call (.get (.var (txt "chr"))) [.int 65]) vm vm3 v vm4 ∧ Reads vm4.heap.str v [65] := by
  obtain ⟨vm, g, j, o, ops, e1, h, hsc, _, he, _, _, _, _, _, _, _, _, hs, hgn, _, _⟩ := lib_new (fnEnv 9) 10 (by decide)
  have hv : valueOf ops vm.scopes (txt "chr") = some (mkFn 1) := by
    rw [hsc]
    simp only [valueOf, List.reverse_singleton, nearest, List.findSome?_cons, hgn, List.findSome?_nil]
    rfl
  obtain ⟨vm1, hk, hcall⟩ := C68_function (F := F) (d := 1) h he (by decide) (Arr.granted_le hs.1 (by decide)) hv (by decide)
  have hs1 := hk.supplied (need := 1000) (by decide) hs
  have ha : evalArgs (fnEnv 9) F 3 3 [.int 65] vm1 = some (.ok vm1 [mkInt 65]) := by
    rw [evalArgs, bind_ok (show eval (fnEnv 9) F 2 2 (.int 65) vm1 = some (.ok vm1 (mkInt 65)) by rw [eval]; rfl), evalArgs]
    rfl
  obtain ⟨vm4, v, g1, g2, _⟩ := C67_chr (a := 1) (n := 65) ⟨by decide, rfl⟩ (hcall [.int 65] [mkInt 65] vm1 ⟨3, ha⟩) hk.inv
    (mkInt_isInt 65 (by decide)) (by decide) (by decide) (Arr.granted_le hs1.1 (by decide))
  exact ⟨vm, vm1, vm4, v, e1, g1, g2⟩

/-- `JSON.parse` of the text `{"a":[1,"x\n"],"b":{}}` in a new engine shows this object. -/
example (F : Nat → Option Fn) : ∃ vm vm3 vm4 v,
    Create.create libLit libFns 0 libMem (some (4096, fun _ => 0)) (some (4096, fun _ => 0)) (some 8192) (some 16384) (supplyFrom 65536) = some vm ∧
    Gives (fnEnv 99) F 7 (.call (.get (.dot (.get (.var (txt "JSON"))) (txt "parse"))) [.str demoJText]) vm vm3 v vm4 ∧
    Spec.Json.Shows demoEnv.numVal vm4.heap v demoJ := by
  obtain ⟨vm, g, j, o, ops, e1, h, hsc, _, he, _, _, _, _, hj, _, hja, _, hs, hgn, hjn, _⟩ := lib_new (fnEnv 99) (2 * (2 * demoJText.length) + 3) (by decide)
  have hv : valueOf ops vm.scopes (txt "JSON") = some j := by
    rw [hsc]
    simp only [valueOf, List.reverse_singleton, nearest, List.findSome?_cons, hgn, List.findSome?_nil]
    rfl
  obtain ⟨vm1, vm2, hk1, hk2, hcall⟩ := C68_method (F := F) (d := 0) h he (by decide) (Arr.granted_le hs.1 (by decide)) hv (by decide) hj hja
    (m := txt "parse") (v := mkFn 6) (by rw [hjn]; rfl) (by decide) (by decide)
    (fun h' hq => Arr.granted_le (hs.2 h' (request_le (by decide) hq)).1 (by decide))
  have hs2 := hk2.supplied (need := 1000) (by decide) (hk1.supplied (need := 1000) (by decide) hs)
  have hg := Arr.granted_le (m := demoJText.length) hs2.1 (by decide)
  obtain ⟨vm3, k, q1, q2, q3, q4, q5, q6, q7, q8⟩ := mkStr_name (x := demoJText) hk2.inv (by decide) hg
  obtain ⟨_, hreq⟩ := mkStr_keeps hk2.inv hg q1
  have ha : evalArgs (fnEnv 99) F 3 4 [.str demoJText] vm2 = some (.ok vm3 [k]) := by
    rw [evalArgs, bind_ok (show eval (fnEnv 99) F 2 3 (.str demoJText) vm2 = some (.ok vm3 k) by
      rw [eval]; exact prim_ok q1 (q5.trans (hk2.error.trans (hk1.error.trans he)))), evalArgs]
    rfl
  have hb : Spec.Json.Blank [] := by simp [Spec.Json.Blank]
  have hs3 : Spec.Json.Supplied 1000 (2 * (2 * demoJText.length)) vm3.heap vm3.al := by
    rw [q7]
    exact hs2.2 _ (request_le (by decide) hreq)
  obtain ⟨vm4, v, new, g1, g2, _⟩ := C67_parse_partial (a := 6) (E := fnEnv 99) (w := []) (tail := []) ⟨by decide, rfl⟩
    (hcall _ _ _ ⟨3, ha⟩) q2
    (by simpa using q3.reads.reads) hb demoJ_writes demoJ_fits (fun _ _ h => by cases h) (by decide) (by decide)
    (supplied_le (by decide) _ (supplied_even _ hs3))
  exact ⟨vm, vm3, vm4, v, e1, g1, g2⟩

end Mjs.Props
