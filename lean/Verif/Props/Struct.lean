import Verif.Lemmas.Struct
import Verif.Props.Invisible

/-!
# C75: objects from C structures

Properties of `mjs_struct_to_obj` and of `s2o`, with which scripts get at the data of C structures.
-/

namespace Mjs.Props
open Mjs Mjs.Mbuf Mjs.Str Mjs.Arena Mjs.Obj Mjs.Spec Mjs.Core Mjs.Code Mjs.Sem Mjs.Exec Mjs.Spec.Struct Mjs.Struct
open Mjs.Spec.Invisible (AVal AObj World IsImm StrRep Rep RepEnt Side Held Grows aset aget Supplied Same)
open Mjs.Client (Pairs)

/-- Values that were there before are as they were, as deep as one looks. -/
theorem same_old {h1 h2 : Heap} {w1 w2 L1 L2 g1 g2} (s1 : Held h1 w1 L1 g1) (s2 : Held h2 w2 L2 g2) (hw : ∀ j, j < w1.next → w2.objs j = w1.objs j) :
    ∀ (d : Nat) {v1 v2 x}, Rep L1 g1 v1 x → Rep L2 g2 v2 x → Same d h1 v1 h2 v2 := by
  intro d
  induction d with
  | zero => intro v1 v2 x _ _; trivial
  | succ d ih =>
    intro v1 v2 x r1 r2
    cases x with
    | imm u =>
      obtain ⟨rfl, hp⟩ := r1
      obtain ⟨rfl, _⟩ := r2
      exact .inl ⟨rfl, hp⟩
    | str bs => exact .inr (.inl ⟨bs, (s1.readsZ r1).reads, (s2.readsZ r2).reads⟩)
    | obj t i =>
      obtain ⟨A1, fo1, fp1, d1⟩ := s1
      obtain ⟨A2, fo2, fp2, d2⟩ := s2
      refine .inr (.inr ⟨r1.1, r2.1, by unfold isArray; rw [r1.2.1, r2.2.1], ?_⟩)
      obtain ⟨o1, l1, i1, e1, g1, p1⟩ := d1.obj r1
      obtain ⟨o2, l2, i2, e2, g2, p2⟩ := d2.obj r2
      have := i1.2
      subst this
      have := i2.2
      subst this
      obtain ⟨_, c1, hc1, hch1⟩ := d1.inv.obj _ _ e1
      obtain ⟨_, c2, hc2, hch2⟩ := d2.inv.obj _ _ e2
      rw [hw i (d1.lt _ _ g1)] at p2
      refine ⟨c1, c2, l1, l2, hc1, hc2, hch1, hch2, Spec.Invisible.pairs_zip p1 p2 ?_⟩
      rintro e he e' he' q ⟨k1, v1⟩ ⟨k2, v2⟩
      exact ⟨k1.trans k2.symm, (d1.readsZ (d1.names _ _ e1 e he)).reads, (d2.readsZ (d2.names _ _ e2 e' he')).reads, ih v1 v2⟩

variable {cmem : Nat → Option UInt8} {custom : Customs} {ct : Nat → Nat → Tree → Prop}

/-- **C75, objects.** The structure at `base` with the description at `defs` becomes an object with the keys of the description, in that
order, each with the value of its field; structures in the structure become objects in the object, to any depth.  It can be done in
every engine that has memory for it and enough C stack (`d` levels); nothing that was there before changes.

Missing: a `char *` that is NULL (`C75_violation_null`), pointers from `2 ^ 48` on, names that occur twice, and functions in
descriptions that use the engine. -/
theorem C75_object_partial (hcust : Returns cmem custom ct) {base defs : Nat} {l : List (List UInt8 × Tree)} (hb : base ≠ 0) (hd : defs ≠ 0)
    (hs : Spec.Struct.Struct cmem ct base defs l) :
    ∀ d, depth (.obj l) ≤ d → ∀ h w L g al bad, Held h w L g → h.str.cmem = cmem → Supplied (cost (.obj l)) h al →
      ∃ s' v, structToObj custom d ⟨h, al, bad⟩ base defs = some (s', v) ∧ IsObjectOf s'.heap v l ∧ s'.bad = bad ∧
        (∀ u x, Rep L g u x → ∀ k, Same k h u s'.heap u) ∧ s'.heap.str.cmem = cmem ∧ ∃ w' L' g', Held s'.heap w' L' g' := by
  have hc : ∀ arg p t, ct arg p t → Builds cmem (custom arg p) t (cost t) := by
    intro arg p t ht
    obtain ⟨v, rfl, hv, hf⟩ := hcust arg p t ht
    exact builds_imm hv hf
  obtain ⟨c, e, hf⟩ := struct_fills hc hs
  intro d hdd h w L g al bad hh hcm hsup
  rw [depth] at hdd
  rw [cost] at hsup
  obtain ⟨d, rfl⟩ : ∃ d', d = d' + 1 := ⟨d - 1, by omega⟩
  obtain ⟨s', v, w', L', g', x, e1, a1, r1, sh1⟩ := structToObj_builds hb hd e (hf d (by omega)) 0 ⟨h, al, bad⟩ w L g hh hcm (by rw [Nat.zero_add]; exact hsup)
  refine ⟨s', v, e1, ⟨?_, ?_⟩, a1.bad, fun u x hu k => ?_, a1.mem, w', L', g', a1.held⟩
  · obtain ⟨A, fo, fp, sd⟩ := a1.held
    exact sh1.sees sd r1
  · intro name k hk h0
    cases sh1 with
    | @obj i _ _ _ shs =>
      obtain ⟨p, y, p1, _, p2, p3⟩ := a1.held.own r1 hk
      refine ⟨y, by rw [Obj.get, p1]; exact p2, ?_⟩
      have := shs.lookup h0
      obtain ⟨A, fo, fp, sd⟩ := a1.held
      cases hl : l.lookup k with
      | some t =>
        rw [hl] at this
        exact Shape.sees sd this p3
      | none =>
        rw [hl] at this
        simp only at this
        rw [this] at p3
        exact p3.1
  · exact same_old hh a1.held (fun j hj => a1.old j hj (fun h => h)) k hu (hu.mono a1.grows)

/-- **C75, nothing.** NULL has no fields. -/
theorem C75_undefined {d : Nat} {s : St} {base defs : Nat} (h : base = 0 ∨ defs = 0) : structToObj custom (d + 1) s base defs = some (s, mkUndefined) := by
  rw [structToObj, if_pos h]

/-- **C75, violation.** A `char *` that is NULL is not null in the object, as a NULL of other kinds is: the length of the string at
address 0 is taken, which crashes. -/
theorem C75_violation_null {base defs name p arg : Nat} {offset : Int} (hb : base ≠ 0) (hd : defs ≠ 0) (h1 : Unsigned cmem 8 defs name) (h2 : name ≠ 0)
    (h3 : Signed cmem 4 (defs + 8) offset) (h4 : Unsigned cmem 4 (defs + 12) 7) (h5 : Unsigned cmem 8 (defs + 16) arg) (h6 : Unsigned cmem 8 (defs + 24) 0)
    (hp : (p : Int) = base + offset) (h7 : Unsigned cmem 8 p 0) (d : Nat) (s : St) (hc : s.heap.str.cmem = cmem) : structToObj custom d s base defs = none := by
  cases d with
  | zero => rfl
  | succ d =>
    rw [structToObj, if_neg (by omega)]
    cases e : mkObject s.heap (s.al 0) with
    | none => rfl
    | some r =>
      obtain ⟨h, obj⟩ := r
      have hcm : h.str.cmem = cmem := by
        obtain ⟨a, o, gc, c, _, _, _, rfl⟩ := Client.mkObject_inv e
        exact hc
      have hct : countDefs cmem defs = some 1 := by
        rw [countDefs, readLE_unsigned.2 h1, Option.bind_eq_bind, Option.bind_some, if_neg h2, countDefs, readLE_unsigned.2 h6]
        rfl
      have e2 : ∃ u, readLE cmem (defs + 8) 4 = some u ∧ (BitVec.ofNat 32 u).toInt = offset := by
        have := readInt_signed (by decide) h3
        unfold readInt at this
        rw [Option.map_eq_some_iff] at this
        exact this
      obtain ⟨u, e2, e3⟩ := e2
      have hme : member cmem defs = some ⟨name, offset, 7, arg⟩ := by
        unfold member
        rw [readLE_unsigned.2 h1, e2, readLE_unsigned.2 h4, readLE_unsigned.2 h5]
        simp only [Option.bind_eq_bind, Option.bind_some, e3]
      simp only [Option.bind_eq_bind, Option.bind_some, hcm, hct]
      have hr : round custom (structToObj custom d) base obj defs { s with heap := h, al := fun k => s.al (k + 1) } = none := by
        unfold round
        have hp0 : ¬ ((base : Int) + offset < 0) := by omega
        have hpn : ((base : Int) + offset).toNat = p := by omega
        have hfd : field custom (structToObj custom d) 7 arg { s with heap := h, al := fun k => s.al (k + 1) } p = none := by
          show (readLE h.str.cmem p 8).bind _ = _
          rw [hcm, readLE_unsigned.2 h7]
          rfl
        simp only [hcm, hme, Option.bind_eq_bind, Option.bind_some, if_neg hp0, hpn, hfd, Option.bind_none]
      rw [rounds, show defs + 24 * 0 = defs by omega, hr]
      rfl

/-! ### In scripts -/

section
variable {E : Env} [Bodies E] {F : Nat → Option Fn} {d : Nat} {f : Expr} {args : List Expr} {vm vm3 : Vm} {t : Val} {vs : List Val}

/-- **C75, scripts.** A call `s2o(p, q)` with pointers to a structure and to its description gives that object. -/
theorem C75_script_partial (hcust : Returns cmem custom ct) {base defs : Nat} {l : List (List UInt8 × Tree)} (hb : base ≠ 0) (hd : defs ≠ 0)
    (hs : Spec.Struct.Struct cmem ct base defs l) {D : Nat} (hD : depth (.obj l) ≤ D) {fn : Nat} {p q : Val} {rest : List Val} {w L g}
    (hc : Called E F d f args vm (mkFn fn) t (p :: q :: rest) vm3) (hbody : fn < 2 ^ 48 ∧ Bodies.body E fn = some (s2o custom D))
    (hp : (getPtr p).toNat = base) (hq : (getPtr q).toNat = defs) (hh : Held vm3.heap w L g) (hcm : vm3.heap.str.cmem = cmem)
    (hsup : Supplied (2 * cost (.obj l)) vm3.heap vm3.al) :
    ∃ v vm4, Gives E F (d + (rest.length + 2) + 2) (.call f args) vm vm3 v vm4 ∧ IsObjectOf vm4.heap v l ∧
      (∀ u x, Rep L g u x → ∀ k, Same k vm3.heap u vm4.heap u) := by
  obtain ⟨s', v, e, ho, hbad, hold, _⟩ := C75_object_partial hcust hb hd hs D hD vm3.heap w L g (fun k => vm3.al (2 * k)) false hh hcm (Spec.Invisible.Supplied.even _ hsup)
  have hr : s2o custom D t (p :: q :: rest) vm3.heap (fun k => vm3.al (2 * k)) = some ⟨s'.heap, v, none⟩ := by
    unfold s2o
    show (structToObj custom D _ (getPtr p).toNat (getPtr q).toNat).bind _ = _
    rw [hp, hq, e, Option.bind_some]
    simp only [hbad, if_neg (show ¬ (false = true) by decide)]
  obtain ⟨vm4, hg, hh4⟩ := called_gives hc hbody hr
  exact ⟨v, vm4, hg, by rw [hh4]; exact ho, by rw [hh4]; exact hold⟩

/-- **C75, scripts.** `s2o` is undefined if there is no structure or no description: with fewer arguments, NULL, or other values than
pointers. -/
theorem C75_script_undefined {fn D : Nat} (hc : Called E F d f args vm (mkFn fn) t vs vm3) (hbody : fn < 2 ^ 48 ∧ Bodies.body E fn = some (s2o custom (D + 1)))
    (hn : vs.length < 2 ∨ (∃ i, ∃ h : i < vs.length, i < 2 ∧ (isForeign vs[i] = false ∨ vs[i] = tagForeign))) :
    ∃ vm4, Gives E F (d + vs.length + 2) (.call f args) vm vm3 mkUndefined vm4 ∧ vm4.heap = vm3.heap := by
  have key : (getPtr (vs.getD 0 mkUndefined)).toNat = 0 ∨ (getPtr (vs.getD 1 mkUndefined)).toNat = 0 := by
    have hz : ∀ v : Val, isForeign v = false ∨ v = tagForeign → (getPtr v).toNat = 0 := by
      rintro v (h | rfl)
      · rw [getPtr, if_neg (by simp [h])]; rfl
      · decide
    rcases hn with hn | ⟨i, hi, h2, h3⟩
    · refine .inr (hz _ (.inl ?_))
      rw [List.getD_eq_getElem?_getD, List.getElem?_eq_none (by omega)]
      decide
    · have e : vs.getD i mkUndefined = vs[i] := by
        rw [List.getD_eq_getElem?_getD, List.getElem?_eq_getElem hi]; rfl
      rcases (by omega : i = 0 ∨ i = 1) with rfl | rfl
      · exact .inl (by rw [e]; exact hz _ h3)
      · exact .inr (by rw [e]; exact hz _ h3)
  have hr : s2o custom (D + 1) t vs vm3.heap (fun k => vm3.al (2 * k)) = some ⟨vm3.heap, mkUndefined, none⟩ := by
    unfold s2o
    rw [C75_undefined key]
    rfl
  exact called_gives hc hbody hr
end

/-! ### A structure -/

/-- `struct { int a; float f; char *s; struct { uint8_t b; } in; }` at 1000 with a = -5, f = 1.5, s = "hi" and in.b = 200; the
description is at 1056, and that of the inner structure at 1200. -/
def structBytes : List UInt8 :=
  [251, 255, 255, 255, 0, 0, 192, 63, 16, 4, 0, 0, 0, 0, 0, 0, 200, 0, 0, 0, 0, 0, 0, 0, 0, 0, 0, 0, 0, 0, 0, 0, 0, 0, 0, 0, 0, 0, 0, 0,
   104, 105, 0, 97, 0, 102, 0, 115, 0, 105, 110, 0, 98, 0, 0, 0, 19, 4, 0, 0, 0, 0, 0, 0, 0, 0, 0, 0, 3, 0, 0, 0, 0, 0, 0, 0, 0, 0, 0, 0,
   21, 4, 0, 0, 0, 0, 0, 0, 4, 0, 0, 0, 6, 0, 0, 0, 0, 0, 0, 0, 0, 0, 0, 0, 23, 4, 0, 0, 0, 0, 0, 0, 8, 0, 0, 0, 7, 0, 0, 0,
   0, 0, 0, 0, 0, 0, 0, 0, 25, 4, 0, 0, 0, 0, 0, 0, 16, 0, 0, 0, 1, 0, 0, 0, 176, 4, 0, 0, 0, 0, 0, 0, 0, 0, 0, 0, 0, 0, 0, 0,
   0, 0, 0, 0, 0, 0, 0, 0, 0, 0, 0, 0, 0, 0, 0, 0, 0, 0, 0, 0, 0, 0, 0, 0, 0, 0, 0, 0, 0, 0, 0, 0, 0, 0, 0, 0, 0, 0, 0, 0,
   28, 4, 0, 0, 0, 0, 0, 0, 0, 0, 0, 0, 14, 0, 0, 0, 0, 0, 0, 0, 0, 0, 0, 0, 0, 0, 0, 0, 0, 0, 0, 0]

def structMem : Nat → Option UInt8 := fun a => if a < 1000 then none else structBytes[a - 1000]?

def structTree : List (List UInt8 × Tree) :=
  [(txt "a", .imm (ofIntD (-5))), (txt "f", .imm 0x3FF8000000000000#64), (txt "s", .str (txt "hi")), (txt "in", .obj [(txt "b", .imm (ofIntD 200))])]

theorem unsigned_of {cmem : Nat → Option UInt8} {n a x : Nat} (h : readLE cmem a n = some x) : Unsigned cmem n a x := readLE_unsigned.1 h

theorem struct_demo : Spec.Struct.Struct structMem (fun _ _ _ => False) 1000 1056 structTree := by
  refine .member (p := 1000) (name := 1043) (offset := 0) (type := 3) (arg := 0) (unsigned_of (by decide +kernel)) (by decide)
    ⟨by decide +kernel, by decide +kernel, by decide +kernel⟩ ⟨0, unsigned_of (by decide +kernel), by decide +kernel⟩ (unsigned_of (by decide +kernel))
    (unsigned_of (by decide +kernel)) (by decide)
    (.int (n := -5) ⟨4294967291, unsigned_of (by decide +kernel), by decide +kernel⟩ (ofIntD_isInt _ (by decide)) (.inr (by decide))) ?_ (by decide +kernel)
  refine .member (p := 1004) (name := 1045) (offset := 4) (type := 6) (arg := 0) (unsigned_of (by decide +kernel)) (by decide)
    ⟨by decide +kernel, by decide +kernel, by decide +kernel⟩ ⟨4, unsigned_of (by decide +kernel), by decide +kernel⟩ (unsigned_of (by decide +kernel))
    (unsigned_of (by decide +kernel)) (by decide) (.float (x := 0x3FC00000) (unsigned_of (by decide +kernel)) ?_) ?_ (by decide +kernel)
  · unfold IsFloat
    rw [if_neg (by decide)]
    exact ⟨by decide +kernel, by decide +kernel, by decide +kernel⟩
  refine .member (p := 1008) (name := 1047) (offset := 8) (type := 7) (arg := 0) (unsigned_of (by decide +kernel)) (by decide)
    ⟨by decide +kernel, by decide +kernel, by decide +kernel⟩ ⟨8, unsigned_of (by decide +kernel), by decide +kernel⟩ (unsigned_of (by decide +kernel))
    (unsigned_of (by decide +kernel)) (by decide)
    (.charPtr (q := 1040) (unsigned_of (by decide +kernel)) (by decide) ⟨by decide +kernel, by decide +kernel, by decide +kernel⟩) ?_ (by decide +kernel)
  refine .member (p := 1016) (name := 1049) (offset := 16) (type := 1) (arg := 1200) (unsigned_of (by decide +kernel)) (by decide)
    ⟨by decide +kernel, by decide +kernel, by decide +kernel⟩ ⟨16, unsigned_of (by decide +kernel), by decide +kernel⟩ (unsigned_of (by decide +kernel))
    (unsigned_of (by decide +kernel)) (by decide) (.struct (by decide) (by decide) ?_) (.done (unsigned_of (by decide +kernel))) (by decide +kernel)
  exact .member (p := 1016) (name := 1052) (offset := 0) (type := 14) (arg := 0) (unsigned_of (by decide +kernel)) (by decide)
    ⟨by decide +kernel, by decide +kernel, by decide +kernel⟩ ⟨0, unsigned_of (by decide +kernel), by decide +kernel⟩ (unsigned_of (by decide +kernel))
    (unsigned_of (by decide +kernel)) (by decide)
    (.uint8 (n := 200) (unsigned_of (by decide +kernel)) (ofIntD_isInt _ (by decide)) (.inr (by decide))) (.done (unsigned_of (by decide +kernel))) (by decide +kernel)

/-- New heaps with memory for `n` allocations. -/
theorem held_demo (cmem : Nat → Option UInt8) (n : Nat) (hn : 65536 + n * 4294967296 < 2 ^ 46) : ∃ h al, Held h ⟨fun _ => [], 0⟩ [] (fun _ => none) ∧
    h.str.cmem = cmem ∧ Supplied n h al := by
  have hlow : AllocLow (some (4096, fun _ => 0)) := by intro r hr; cases hr; exact ⟨by decide, by decide⟩
  have hd : (createHeap 0 cmem (some (4096, fun _ => 0)) (some (4096, fun _ => 0)) (some 8192) (some 16384)).map
      (fun h => ([h.objs.cellSize, h.objs.inc, h.props.cellSize, h.props.inc, h.str.owned.len, h.str.foreign.len],
        [h.objs.blocks, h.props.blocks])) = some ([8, 10, 24, 10, 1, 0], [[(8192, 20)], [(16384, 20)]]) := by
    rfl
  simp only [Option.map_eq_some_iff] at hd
  obtain ⟨h, hc, hp⟩ := hd
  simp only [Prod.mk.injEq, List.cons.injEq, and_true] at hp
  obtain ⟨⟨p1, p2, p4, p5, p7, p8⟩, p3, p6⟩ := hp
  have hr : Spec.Invisible.Spaced h 65536 :=
    ⟨by decide, by decide, p1, p2, by rw [p3]; simp, p4, p5, by rw [p6]; simp, by omega⟩
  obtain ⟨h1, h2⟩ := Spec.Invisible.held_create hlow hlow (by simp) (by simp) (by simp) hc
  exact ⟨h, _, h1, h2, Spec.Invisible.supplied_spaced n hr hn⟩

/-- The structure becomes the object `{a: -5, f: 1.5, s: "hi", in: {b: 200}}`. -/
example : ∃ h al s' v, structToObj (fun _ _ _ => none) 3 ⟨h, al, false⟩ 1000 1056 = some (s', v) ∧ Spec.Struct.Sees s'.heap v (.obj structTree) := by
  obtain ⟨h, al, h1, h2, h3⟩ := held_demo structMem (cost (.obj structTree)) (by decide +kernel)
  obtain ⟨s', v, e, ho, _⟩ := C75_object_partial (custom := fun _ _ _ => none) (fun _ _ _ h => h.elim) (by decide) (by decide) struct_demo 3 (by decide +kernel)
    h _ _ _ al false h1 h2 h3
  exact ⟨h, al, s', v, e, ho.1⟩

/-- A description at 1000 of one field, `n`, which is the offset in that description. -/
def selfMem : Nat → Option UInt8 := fun a => if a < 1000 then none else
  ([16, 4, 0, 0, 0, 0, 0, 0, 8, 0, 0, 0, 3, 0, 0, 0, 0, 0, 0, 0, 0, 0, 0, 0, 0, 0, 0, 0, 0, 0, 0, 0, 0, 0, 0, 0, 0, 0, 0, 0, 110, 0] : List UInt8)[a - 1000]?

def s2oEnv : Env := { demoEnv with cfun := fun a vm => if a = 1000 then Builtin.cfunction (s2o (fun _ _ _ => none) 2) vm else none }

instance : Bodies s2oEnv where
  body a := if a = 1000 then some (s2o (fun _ _ _ => none) 2) else none
  code {a b} h := by
    split at h
    · rename_i ha
      cases h
      subst ha
      rfl
    · cases h

/-- `this(this, this)`, where `this` is the function `s2o` at the address 1000. -/
theorem called_self (F : Nat → Option Fn) (n : Nat) (hn : 65536 + n * 4294967296 < 2 ^ 46) : ∃ vm : Vm,
    Called s2oEnv F 3 .this [.this, .this] vm (mkFn 1000) mkUndefined [mkFn 1000, mkFn 1000] vm ∧ Held vm.heap ⟨fun _ => [], 0⟩ [] (fun _ => none) ∧
      vm.heap.str.cmem = selfMem ∧ Supplied n vm.heap vm.al := by
  obtain ⟨h, al, h1, h2, h3⟩ := held_demo selfMem n hn
  refine ⟨{ heap := h, this := mkFn 1000, lastGetprop := mkUndefined, al := al }, ⟨5, _, _, by rw [eval]; rfl, by unfold calleeThis; rfl, ?_⟩, h1, h2, h3⟩
  rw [evalArgs, bind_ok (show eval s2oEnv F 4 2 .this _ = some (.ok _ (mkFn 1000)) by rw [eval]; rfl), evalArgs,
    bind_ok (a := [mkFn 1000]) (vm' := { heap := h, this := mkFn 1000, lastGetprop := mkUndefined, al := al })]
  · rfl
  · rw [bind_ok (show eval s2oEnv F 3 1 .this _ = some (.ok _ (mkFn 1000)) by rw [eval]; rfl), evalArgs]
    rfl

example (F : Nat → Option Fn) : ∃ vm v vm4, Gives s2oEnv F 7 (.call .this [.this, .this]) vm vm v vm4 ∧ Spec.Struct.Sees vm4.heap v (.obj [(txt "n", .imm (ofIntD 8))]) := by
  obtain ⟨vm, h1, h2, h3, h4⟩ := called_self F 4 (by decide)
  have hs : Spec.Struct.Struct selfMem (fun _ _ _ => False) 1000 1000 [(txt "n", .imm (ofIntD 8))] :=
    .member (p := 1008) (name := 1040) (offset := 8) (type := 3) (arg := 0) (unsigned_of (by decide +kernel)) (by decide)
      ⟨by decide +kernel, by decide +kernel, by decide +kernel⟩ ⟨8, unsigned_of (by decide +kernel), by decide +kernel⟩ (unsigned_of (by decide +kernel))
      (unsigned_of (by decide +kernel)) (by decide)
      (.int (n := 8) ⟨8, unsigned_of (by decide +kernel), by decide +kernel⟩ (ofIntD_isInt _ (by decide)) (.inr (by decide))) (.done (unsigned_of (by decide +kernel)))
      (by decide +kernel)
  obtain ⟨v, vm4, g, ho, _⟩ := C75_script_partial (D := 2) (fun _ _ _ h => h.elim) (by decide) (by decide) hs (by decide +kernel) h1 ⟨by decide, rfl⟩ (by decide)
    (by decide) h2 h3 h4
  exact ⟨vm, v, vm4, g, ho.1⟩

/-- `s2o` of a number, and a NULL `char *` (the field is the argument, at 1016). -/
example : (∃ i, ∃ h : i < [mkInt 5, mkFn 1000].length, i < 2 ∧ (isForeign [mkInt 5, mkFn 1000][i] = false ∨ [mkInt 5, mkFn 1000][i] = tagForeign)) ∧
    ∃ cmem : Nat → Option UInt8, Unsigned cmem 8 1000 1040 ∧ Signed cmem 4 1008 16 ∧ Unsigned cmem 4 1012 7 ∧ Unsigned cmem 8 1016 0 ∧ Unsigned cmem 8 1024 0 := by
  refine ⟨⟨0, by decide, by decide, by decide +kernel⟩, fun a => if a = 1008 then some 16 else if a = 1012 then some 7 else selfMem a, ?_⟩
  exact ⟨unsigned_of (by decide +kernel), ⟨16, unsigned_of (by decide +kernel), by decide +kernel⟩, unsigned_of (by decide +kernel), unsigned_of (by decide +kernel),
    unsigned_of (by decide +kernel)⟩

end Mjs.Props
