import Verif.Lemmas.SimSupply
import Verif.Props.Create
import Verif.Props.Client

/-!
# A new engine, seen without addresses
-/

namespace Mjs.Spec.Invisible
open Mjs Mjs.Mbuf Mjs.Varint Mjs.Str Mjs.Arena Mjs.Obj Mjs.Spec Mjs.Spec.Gc Mjs.Gc Mjs.Core Mjs.Exec Mjs.Create
open Mjs.Client (Pairs ok_even)

theorem held_create {cmem hr al1 al2 bo bp h} (h1 : AllocLow al1) (h2 : AllocLow al2) (h3 : al1 ≠ none)
    (ho : ∀ b, bo = some b → 0 < b ∧ b % 8 = 0 ∧ b + 20 * 8 < 2 ^ 47) (hp : ∀ b, bp = some b → 0 < b ∧ b % 8 = 0 ∧ b + 20 * 24 < 2 ^ 47)
    (hc : createHeap hr cmem al1 al2 bo bp = some h) : Held h ⟨fun _ => [], 0⟩ [] (fun _ => none) ∧ h.str.cmem = cmem := by
  obtain ⟨fo, fp, hi⟩ := createHeap_inv h1 h2 ho hp hc
  simp only [createHeap, Option.bind_eq_bind, Option.bind_eq_some_iff] at hc
  obtain ⟨st, hst, ao, hao, ap, hap, hc⟩ := hc
  cases hc
  obtain ⟨bo, rfl⟩ : ∃ b, bo = some b := by
    cases bo with
    | none => simp [Arena.init, newBlock] at hao
    | some b => exact ⟨b, rfl⟩
  obtain ⟨bp, rfl⟩ : ∃ b, bp = some b := by
    cases bp with
    | none => simp [Arena.init, newBlock] at hap
    | some b => exact ⟨b, rfl⟩
  obtain ⟨a1, e1, ok1, c1, _, u1⟩ := init_spec (α := Unit) 8 20 10 bo (by decide) (by decide) (by decide) (ho _ rfl).1 (ho _ rfl).2.1 (ho _ rfl).2.2
  obtain ⟨a2, e2, ok2, c2, _, u2⟩ := init_spec (α := Val × Val) 24 20 10 bp (by decide) (by decide) (by decide) (hp _ rfl).1 (hp _ rfl).2.1
    (hp _ rfl).2.2
  rw [hao] at e1; cases e1
  rw [hap] at e2; cases e2
  have ev : ∀ {α : Type} [Inhabited α] {a : Arena α} {fl}, Ok a fl → (∀ x, ¬ Used a fl x) → ∀ x c, a.mem x = some c → c.head % 2 = 0 := by
    intro α _ a fl hok hu x c hx
    by_cases hf : x ∈ fl
    · exact ok_even hok hf hx
    · exact absurd ⟨by simp [hx], hf⟩ (hu x)
  have hcont : st.owned.content = stringBytes [] ∧ st.cmem = cmem := by
    simp only [createStore, Option.bind_eq_bind, Option.bind_eq_some_iff] at hst
    obtain ⟨⟨mb, q⟩, hq, hh⟩ := hst
    cases hh
    have hi0 : Mbuf.Inv (Mbuf.init 0 none) := by simp [Mbuf.init, resize, Mbuf.Inv, Mbuf.size]
    obtain ⟨m', r', he, _, hcase⟩ := insert_spec hr (Mbuf.init 0 none) hi0 _ [0] al1 al2 (Nat.le_refl _)
      (by simp [Mbuf.init, resize, Mbuf.size]) h1.ok h2.ok
    have : some (mb, q) = some (m', r') := by rw [← hq, ← he]; rfl
    cases this
    refine ⟨?_, rfl⟩
    rcases hcase with ⟨_, hcc⟩ | ⟨_, _, hbad | ⟨_, hbad⟩⟩
    · rw [hcc]; rfl
    · exfalso
      have : (Mbuf.init 0 none).addr = 0 := rfl
      rw [this] at hbad
      simp at hbad
    · exact absurd hbad h3
  refine ⟨⟨fun _ => none, fo, fp, hi, hcont.1, by simp, ?_, c2, ev ok1 u1, ev ok2 u2, by simp, by simp, by simp, by simp, by simp⟩, hcont.2⟩
  have := content_length hi.str.1.1
  rw [hcont.1] at this
  have e : (stringBytes []).length = 1 := rfl
  show st.owned.len < _
  simp only at this
  omega

/-- Several assignments to the properties of an object. -/
def asetAll (w : World) (i : Nat) (l : List (List UInt8 × AVal)) : World :=
  l.foldl (fun w p => w.setObj i (aset (w.objs i) p.1 p.2)) w

theorem Held.setAll {cmem lit} (hlit : Literals cmem lit) {n} : ∀ (l : List (List UInt8 × Val)) {h w L g} {al : Nat → Allocs} {v t i xs}, Held h w L g →
    h.str.cmem = cmem → Rep L g v (.obj t i) → (∀ p ∈ l, p.1 ∈ allNames) →
    Pairs (fun p q => p.1 = q.1 ∧ Rep L g p.2 q.2) l xs → Supplied (n + l.length) h al →
    ∃ h' L', Create.setAll lit h v l al = some h' ∧ Held h' (asetAll w i xs) L' g ∧ Grows L g L' g ∧ h'.str.cmem = cmem ∧
      (Supplied n h' fun k => al (k + l.length)) ∧ h'.str.owned.len ≤ h.str.owned.len + 100 * l.length := by
  intro l
  induction l with
  | nil =>
    intro h w L g al v t i xs s hc _ _ hp hs
    cases hp
    exact ⟨h, L, rfl, s, .refl _ _, hc, hs, Nat.le_add_right _ _⟩
  | cons p l ih =>
    intro h w L g al v t i xs s hc hv hn hp hs
    cases hp with
    | @cons _ q _ xs r hp =>
      obtain ⟨hz, hlen⟩ := Props.allNames_facts p.1 (hn p List.mem_cons_self)
      obtain ⟨hk, hsl⟩ := Props.keyPtr_z (st := h.str) (a := lit p.1) (bs := p.1) (by rw [hc]; exact hlit _ (hn p List.mem_cons_self)) hz (by omega)
      obtain ⟨h1, L1, e1, s1, g1, c1⟩ := s.set hv (nameV := none) hk (fun _ e => by cases e) (by omega) r.2 (hs.1) true (fun _ => hz)
      have e1' : setZ h v (lit p.1) p.2 (al 0) = some (h1, .ok) := by rw [setZ, hsl, Option.bind_some]; exact e1
      obtain ⟨h2, L2, e2, s2, g2, c2, hs2, hl2⟩ := ih s1 (c1.trans hc) (hv.mono g1) (fun p hp => hn p (List.mem_cons_of_mem _ hp))
        (hp.imp fun a b r => ⟨r.1, r.2.mono g1⟩) (hs.2 h1 (.set (by omega) e1))
      have hl1 := set_len (by omega) e1
      refine ⟨h2, L2, ?_, ?_, g1.trans g2, c2, ?_, by simp only [List.length_cons]; omega⟩
      · show (setZ h v (lit p.1) p.2 (al 0)).bind _ = _
        rw [e1', Option.bind_some]
        exact e2
      · show Held h2 (asetAll (w.setObj i (aset (w.objs i) q.1 q.2)) i xs) L2 g
        rw [← r.1]
        exact s2
      · have : (fun k => al (k + l.length + 1)) = fun k => al (k + (p :: l).length) := by
          funext k; rw [List.length_cons, Nat.add_assoc]
        rw [← this]
        exact hs2

/-- The objects of a new engine: the global object 0, `JSON` 1 and `Object` 2. -/
def newWorld (f : Fns) : World :=
  let fn := fun a => AVal.imm (mkFn a)
  let o := fun i => AVal.obj tagObject i
  let w1 : World := (⟨fun _ => [], 0⟩ : World).new
  let w2 := asetAll w1 0
    [(txt "global", o 0), (txt "load", fn f.load), (txt "print", fn f.print), (txt "ffi", fn f.ffi),
     (txt "ffi_cb_free", fn f.ffiCbFree), (txt "mkstr", fn f.mkstr), (txt "getMJS", fn f.getMJS), (txt "die", fn f.die),
     (txt "gc", fn f.gc), (txt "chr", fn f.chr), (txt "s2o", fn f.s2o)]
  let w3 := asetAll w2.new 1 [(txt "stringify", fn f.jsonStringify), (txt "parse", fn f.jsonParse)]
  let w4 := asetAll w3 0 [(txt "JSON", o 1)]
  let w5 := asetAll w4.new 2 [(txt "create", fn f.objectCreate)]
  asetAll w5 0 [(txt "Object", o 2), (txt "NaN", .imm tagNan), (txt "isNaN", fn f.isNaN)]

/-- The state of a new engine. -/
def newState (f : Fns) (cmem : Nat → Option UInt8) : State where
  world := newWorld f
  stack := []
  callStack := []
  argStack := []
  scopes := [.obj tagObject 0]
  this := .imm mkUndefined
  lastGetprop := .imm 0#64
  loopAddrs := []
  parts := []
  bcodeLen := 0
  error := .ok
  msg := none
  cmem := cmem

theorem asetAll_next (i : Nat) (l : List (List UInt8 × AVal)) : ∀ w : World, (asetAll w i l).next = w.next := by
  induction l with
  | nil => intro w; rfl
  | cons p l ih =>
    intro w
    show (asetAll _ i l).next = _
    rw [ih]
    rfl

theorem rep_fn {L g} (a : Nat) : Rep L g (mkFn a) (.imm (mkFn a)) := Rep.imm (imm_foreign _)

/-- A name and a native. -/
theorem pair_fn {L g} (k : List UInt8) (a : Nat) : (k, mkFn a).1 = (k, AVal.imm (mkFn a)).1 ∧ Rep L g (k, mkFn a).2 (k, AVal.imm (mkFn a)).2 := ⟨rfl, rep_fn a⟩

theorem imm_zero : IsImm (0#64) := by unfold IsImm; decide

/-- A new engine. -/
theorem create_shows {lit : List UInt8 → Nat} {f : Fns} {hr : Nat} {cmem : Nat → Option UInt8} {al1 al2 : Alloc} {bo bp : Option Nat} {al : Nat → Allocs}
    {h : Heap} (hlit : Literals cmem lit) (h1 : AllocLow al1) (h2 : AllocLow al2) (h3 : al1 ≠ none)
    (ho : ∀ b, bo = some b → 0 < b ∧ b % 8 = 0 ∧ b + 20 * 8 < 2 ^ 47) (hp : ∀ b, bp = some b → 0 < b ∧ b % 8 = 0 ∧ b + 20 * 24 < 2 ^ 47)
    (hc : createHeap hr cmem al1 al2 bo bp = some h) {n : Nat} (ha : Supplied (n + 21) h al) :
    ∃ vm L g, create lit f hr cmem al1 al2 bo bp al = some vm ∧ Shows vm (newState f cmem) L g ∧ Supplied n vm.heap vm.al ∧
      vm.heap.str.owned.len ≤ h.str.owned.len + 1800 := by
  obtain ⟨s0, c0⟩ := held_create h1 h2 h3 ho hp hc
  -- the global object
  obtain ⟨k1, vg, g1, e1, s1, gr1, r1, _, st1⟩ := s0.new (ha.1.obj)
  have a1 := ha.2 k1 (.obj e1)
  have c1 : k1.str.cmem = cmem := by rw [st1]; exact c0
  obtain ⟨k2, L2, e2, s2, gr2, c2, a2, z2⟩ := Held.setAll hlit (n := n + 9)
    [(txt "global", vg), (txt "load", mkFn f.load), (txt "print", mkFn f.print), (txt "ffi", mkFn f.ffi),
     (txt "ffi_cb_free", mkFn f.ffiCbFree), (txt "mkstr", mkFn f.mkstr), (txt "getMJS", mkFn f.getMJS), (txt "die", mkFn f.die),
     (txt "gc", mkFn f.gc), (txt "chr", mkFn f.chr), (txt "s2o", mkFn f.s2o)] s1 c1 r1 (by simp [allNames])
    (.cons (b := (_, .obj tagObject 0)) ⟨rfl, r1⟩ (.cons (pair_fn _ _) (.cons (pair_fn _ _) (.cons (pair_fn _ _) (.cons (pair_fn _ _) (.cons (pair_fn _ _)
      (.cons (pair_fn _ _) (.cons (pair_fn _ _) (.cons (pair_fn _ _) (.cons (pair_fn _ _) (.cons (pair_fn _ _) .nil))))))))))) a1
  -- JSON
  obtain ⟨k3, vj, g3, e3, s3, gr3, r3, _, st3⟩ := s2.new (a2.1.obj)
  have a3 := a2.2 k3 (.obj e3)
  have c3 : k3.str.cmem = cmem := by rw [st3]; exact c2
  rw [asetAll_next] at r3
  obtain ⟨k4, L4, e4, s4, gr4, c4, a4, z4⟩ := Held.setAll hlit (n := n + 6) [(txt "stringify", mkFn f.jsonStringify), (txt "parse", mkFn f.jsonParse)] s3 c3 r3
    (by simp [allNames]) (.cons (pair_fn _ _) (.cons (pair_fn _ _) .nil)) a3
  have q1 := ((r1.mono gr2).mono gr3).mono gr4
  obtain ⟨k5, L5, e5, s5, gr5, c5, a5, z5⟩ := Held.setAll hlit (n := n + 5) [(txt "JSON", vj)] s4 c4 q1 (by simp [allNames])
    (.cons (b := (_, .obj tagObject 1)) ⟨rfl, r3.mono gr4⟩ .nil) a4
  -- Object
  obtain ⟨k6, vo, g6, e6, s6, gr6, r6, _, st6⟩ := s5.new (a5.1.obj)
  have a6 := a5.2 k6 (.obj e6)
  have c6 : k6.str.cmem = cmem := by rw [st6]; exact c5
  rw [asetAll_next, asetAll_next] at r6
  obtain ⟨k7, L7, e7, s7, gr7, c7, a7, z7⟩ := Held.setAll hlit (n := n + 3) [(txt "create", mkFn f.objectCreate)] s6 c6 r6
    (by simp [allNames]) (.cons (pair_fn _ _) .nil) a6
  have q2 := ((q1.mono gr5).mono gr6).mono gr7
  obtain ⟨k8, L8, e8, s8, gr8, c8, a8, z8⟩ := Held.setAll hlit (n := n) [(txt "Object", vo), (txt "NaN", tagNan), (txt "isNaN", mkFn f.isNaN)] s7 c7 q2 (by simp [allNames])
    (.cons (b := (_, .obj tagObject 2)) ⟨rfl, r6.mono gr7⟩ (.cons (b := (_, .imm tagNan)) ⟨rfl, Rep.imm imm_tagNan⟩ (.cons (pair_fn _ _) .nil))) a7
  refine ⟨{ heap := k8, scopes := [vg], this := mkUndefined, al := fun n => al (n + 21) }, L8, g6, ?_, ?_, ?_, ?_⟩
  · simp only [Create.create, hc, Option.bind_eq_bind, Option.bind_some, e1, initBuiltin, e2]
    simp only [List.length_cons, List.length_nil, Nat.zero_add, Nat.reduceAdd, Nat.add_assoc] at e3 e4 e5 e6 e7 e8
    simp only [Nat.reduceAdd, e3, Option.bind_some, e4, e5, e6, e7, e8, Nat.add_assoc]
  · exact ⟨s8, .nil, .nil, .nil, .cons (q2.mono gr8) .nil, Rep.imm imm_undefined, Rep.imm imm_zero, rfl, rfl, rfl, rfl, rfl, c8⟩
  · simp only [List.length_cons, List.length_nil, Nat.zero_add, Nat.reduceAdd, Nat.add_assoc] at a8
    exact a8
  · simp only [List.length_cons, List.length_nil, st1, st3, st6] at z2 z4 z5 z7 z8
    show k8.str.owned.len ≤ _
    omega

end Mjs.Spec.Invisible
