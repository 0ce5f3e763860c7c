import Verif.Lemmas.GcMono
import Verif.Model.GcVm
import Verif.Lemmas.Instr
import Verif.Props.Gc
import Verif.Props.ParseOdd

/-!
# C26: collections while a script runs
-/

namespace Mjs.Props
open Mjs Mjs.Mbuf Mjs.Str Mjs.Arena Mjs.Obj Mjs.Core Mjs.Exec Mjs.Spec.Gc Mjs.Gc Mjs.Parser

variable {σ : Type}

/-! ### What survives -/

theorem mem_bufSlots {l : List Val} {v : Val} : ∀ {base}, v ∈ l → ∃ a, (a, v) ∈ bufSlots base l := by
  induction l with
  | nil => intro _ h; cases h
  | cons x l ih =>
    intro base h
    rcases List.mem_cons.1 h with rfl | h
    · exact ⟨base, by simp [bufSlots]⟩
    · obtain ⟨a, ha⟩ := ih (base := base + 8) h
      exact ⟨a, by simp [bufSlots, ha]⟩

theorem slots_read : ∀ {l : List (Nat × Val)}, (l.map (·.1)).Nodup → ∀ {a v}, (a, v) ∈ l →
    l.foldr (fun s f => upd f s.1 (some s.2)) (fun _ => none) a = some v := by
  intro l
  induction l with
  | nil => intro _ a v h; cases h
  | cons x l ih =>
    intro hn a v h
    rw [List.map_cons, List.nodup_cons] at hn
    rw [List.foldr_cons]
    rcases List.mem_cons.1 h with rfl | h
    · exact upd_same _ _ _
    · rw [upd_other _ _ _ _ (fun e => hn.1 (by rw [← e]; exact List.mem_map_of_mem h))]
      exact ih hn.2 h

/-- **C26, what holds.** Between two instructions, the objects that `this`, the variable `last_getprop_obj`, the scopes, the
data stack or the call stack refer to survive a collection, in their cells and with their contents. -/
theorem C26_partial [Inhabited σ] {pl : Places} {vm : Vm} {sg : Arena σ} {m' full al L fo fp fs}
    (h : Sound (memOf pl vm sg) (rootsOf pl vm).all L fo fp fs) (hd : ((slotsOf pl vm).map (·.1)).Nodup) (ha : AllocLow al)
    (hc : Collects (memOf pl vm sg) (rootsOf pl vm) full al m') {v : Val}
    (hv : v = vm.this ∨ v = vm.lastGetprop ∨ v ∈ vm.scopes ∨ v ∈ vm.stack ∨ v ∈ vm.callStack) (ho : isObject v = true) :
    ∃ c, vm.heap.objs.mem (getPtrRaw v).toNat = some c ∧ m'.heap.objs.mem (getPtrRaw v).toNat = some c := by
  have hs : ∃ a, (a, v) ∈ slotsOf pl vm ∧ a ∈ (rootsOf pl vm).all := by
    simp only [slotsOf, valSlots, roots_all, rootsOf, List.mem_append]
    rcases hv with rfl | rfl | hv | hv | hv
    · exact ⟨pl.this, .inl (.inl (.inl (by simp))), .inl (.inl (by simp))⟩
    · exact ⟨pl.last, .inl (.inl (.inl (by simp))), .inl (.inl (by simp))⟩
    · obtain ⟨a, h⟩ := mem_bufSlots (base := pl.scopes) hv
      exact ⟨a, .inl (.inl (.inr h)), .inl (.inr (.inl (List.mem_map_of_mem (f := (·.1)) h)))⟩
    · obtain ⟨a, h⟩ := mem_bufSlots (base := pl.stack) hv
      exact ⟨a, .inl (.inr h), .inl (.inr (.inr (.inl (List.mem_map_of_mem (f := (·.1)) h))))⟩
    · obtain ⟨a, h⟩ := mem_bufSlots (base := pl.callStack) hv
      exact ⟨a, .inr h, .inl (.inr (.inr (.inr (.inl (List.mem_map_of_mem (f := (·.1)) h)))))⟩
  obtain ⟨a, h1, h2⟩ := hs
  have hr : readSlot (memOf pl vm sg) a = some v := by
    simp only [readSlot, memOf, slots_read hd h1]
  have k := (C24_kept h ha hc).1 _ (.obj (.root h2) hr ho)
  cases hm : vm.heap.objs.mem (getPtrRaw v).toNat with
  | none => exact absurd hm k.1
  | some c => exact ⟨c, rfl, k.2.trans hm⟩

/-! ### The receiver of a pending call -/

/-- The source text. -/
def lostText : List UInt8 := txt "({}).m({}.y,{})"

/-- Its code: the header, then `PUSH_OBJ`, `PUSH_STR "m"`, `SWAP`, `GET`, `ARGS`, `PUSH_OBJ`, `PUSH_STR "y"`, `SWAP`, `GET`,
`PUSH_OBJ`, `CALL`, `EXIT`. -/
def lostCode : List UInt8 :=
  [36, 30, 0, 0, 0, 13, 0, 0, 0, 29, 0, 0, 0, 0, 18, 11, 1, 109, 3, 22, 37, 18, 11, 1, 121, 3, 22, 18, 29, 35, 0]

theorem lost_parse : parseScript numEnv 60 [] lostText = .code lostCode := by
  have : sameCode (parseScript numEnv 60 [] lostText) (.code lostCode) = true := by decide +kernel
  obtain ⟨c, h1, h2⟩ := sameCode_eq this
  cases h2
  exact h1

theorem findNone {h : Heap} {ss : Val} : findShort h ss 0 = some 0 := by rw [findShort]; rfl

/-- An object without properties has no property with a name of at most 4 bytes. -/
theorem own_empty {h : Heap} {v : Val} {bs : List UInt8} {n : Nat} (ht : v &&& tagMask = tagObject)
    (hm : h.objs.mem (getPtrRaw v).toNat = some ⟨0, ()⟩) (hn : n ≤ 4) (hl : n ≤ bs.length) : getOwnProperty h v (.loc bs) n = some 0 := by
  have hio : IsObj v (getPtrRaw v).toNat := ⟨Client.isObject_tag ht, rfl⟩
  have hb : inlineBytes h.str.cmem h.str.owned (.loc bs) n = some (bs.take n) := by
    simp [inlineBytes, Str.load, Ptr.isNull, hl]
  have hs : ∃ r, mkStringCopy 0 h.str (.loc bs) n (fun _ => none) = some r := by
    unfold mkStringCopy
    simp only [if_pos hn, Option.bind_eq_bind, hb, Option.bind_some]
    exact ⟨_, rfl⟩
  obtain ⟨r, hs⟩ := hs
  simp only [getOwnProperty, hio.1, getObjectStruct_of hio, hm, hs, Option.bind_eq_bind, Option.bind_some, not_true_eq_false, if_false,
    findNone]
  rw [if_pos ⟨by omega, trivial⟩]

/-- The strings `"m"` and `"y"` of the script. -/
def letter (c : UInt8) : Val := mkTagged (packLE [1, c]) tagStringI

theorem letter_string (c : UInt8) (hc : c = 109 ∨ c = 121) (st : Store) :
    ∃ bs, getString st (letter c) = some (.loc bs, 1) ∧ Str.load st.cmem st.owned (.loc bs) 1 = some [c] ∧ 1 ≤ bs.length := by
  rcases hc with rfl | rfl
  · refine ⟨bytesFrom (letter 109) 1, ?_, ?_, ?_⟩
    · unfold getString
      simp only
      rw [if_neg (by decide), if_pos (by decide)]
      rfl
    · rfl
    · decide
  · refine ⟨bytesFrom (letter 121) 1, ?_, ?_, ?_⟩
    · unfold getString
      simp only
      rw [if_neg (by decide), if_pos (by decide)]
      rfl
    · rfl
    · decide

/-- A property of one letter of an object without properties. -/
theorem getProp_empty {E : Env} {vm : Vm} {v : Val} {c : UInt8} (ht : v &&& tagMask = tagObject)
    (hm : vm.heap.objs.mem (getPtrRaw v).toNat = some ⟨0, ()⟩) (hc : c = 109 ∨ c = 121) :
    getProp E vm v (letter c) = some (vm, mkUndefined) := by
  obtain ⟨bs, h1, h2, h3⟩ := letter_string c hc vm.heap.str
  have hs : isString (letter c) = true := by rcases hc with rfl | rfl <;> decide
  have hts : toStr E.numText vm.heap.str (letter c) = some (some (.loc bs, 1)) := by
    simp only [toStr, hs, if_true, h1, Option.map_some]
  have hv := Client.isObject_tag ht
  have hnf : isString v = false ∧ isArray v = false ∧ isForeign v = false := by
    simp only [isString, isArray, isForeign, ht]
    decide
  have hne : [c] ≠ txt "apply" := by simp [txt]
  have hb : builtin E vm v (letter c) = some (vm, none) := by
    simp only [builtin, keyErr, hts, Option.bind_eq_bind, Option.map_some, Option.bind_some, h2, hnf.1, hnf.2.1, hnf.2.2, hne]
    simp
  have hpn : ∃ b, protoName vm.heap = some b ∧ ∃ n bs, toStr E.numText vm.heap.str b = some (some (.loc bs, n)) ∧ n ≤ 4 ∧ n ≤ bs.length := by
    refine ⟨mkTagged (packLE [3, 95, 95, 112]) tagStringI, rfl, 3, bytesFrom (mkTagged (packLE [3, 95, 95, 112]) tagStringI) 1, ?_, by decide, by decide⟩
    have : getString vm.heap.str (mkTagged (packLE [3, 95, 95, 112]) tagStringI) =
        some (.loc (bytesFrom (mkTagged (packLE [3, 95, 95, 112]) tagStringI) 1), 3) := by
      unfold getString
      simp only
      rw [if_neg (by decide), if_pos (by decide)]
      rfl
    unfold toStr
    rw [if_pos (by decide), this]
    rfl
  obtain ⟨b, hb1, n, bs', hb2, hn, hl⟩ := hpn
  have hgv : getVProto E.numText vm.heap v (letter c) = some mkUndefined := by
    rw [getVProto]
    simp only [hb1, getOwnPropertyV, hts, hb2, Option.bind_eq_bind, Option.bind_some, own_empty ht hm hn hl,
      own_empty ht hm (show 1 ≤ 4 by decide) h3]
    rfl
  simp only [getProp, hb, Option.bind_eq_bind, Option.bind_some, hv, if_true, hgv, Option.map_some]

theorem mkStr_letter (vm : Vm) (c : UInt8) : mkStr vm [c] = some (used vm, letter c) := rfl

theorem wrap_small {n : Nat} (h : n < 2 ^ 64) : wrap (n : Int) = n := by
  unfold wrap
  omega

theorem pop_push' (vm : Vm) (v : Val) : pop (Core.push vm v) = (v, vm) := by
  simp [pop, Core.push, popVal]

/-- The engine after ten instructions of the script. -/
def lostVm (vm : Vm) (h2 : Heap) (o1 o2 : Val) : Vm :=
  { vm with
    heap := h2
    al := fun k => vm.al (k + 4)
    stack := vm.stack ++ [mkUndefined] ++ [mkUndefined]
    argStack := vm.argStack ++ [o1, mkInt (vm.stack ++ [mkUndefined]).length]
    lastGetprop := o2 }

theorem stepTo {E : Env} {vm vm' : Vm} {bp : Part} {i i' j : Nat} {op prev : UInt8} {m : Mach} (hi : bp.data[i]? = some op)
    (hx : execOp E ⟨vm, bp, i, op⟩ prev = some (.go ⟨vm', bp, i', op⟩)) (he : vm'.error = .ok) (hj : wrap ((i' : Int) + 1) = j)
    (h : Steps E ⟨vm', bp, j, op⟩ m) : Steps E ⟨vm, bp, i, prev⟩ m := by
  subst hj
  exact .step hi hx he h

/-- The first ten instructions of the script. -/
theorem lost_steps (E : Env) (vm : Vm) (bp : Part) (hd : bp.data = lostCode) (he : vm.error = .ok) {h1 h2 : Heap} {o1 o2 : Val}
    (e1 : mkObject vm.heap (vm.al 0) = some (h1, o1)) (e2 : mkObject h1 (vm.al 2) = some (h2, o2))
    (t1 : o1 &&& tagMask = tagObject) (m1 : h1.objs.mem (getPtrRaw o1).toNat = some ⟨0, ()⟩)
    (t2 : o2 &&& tagMask = tagObject) (m2 : h2.objs.mem (getPtrRaw o2).toNat = some ⟨0, ()⟩) :
    Steps E ⟨vm, bp, 0, OP_MAX⟩ ⟨lostVm vm h2 o1 o2, bp, 27, GET⟩ := by
  obtain ⟨si, data, er⟩ := bp
  simp only at hd
  subst hd
  have p : ∀ (x : Vm) a b, Core.push (Core.push (pop (pop (Core.push (Core.push x a) b)).2).2 (pop (Core.push (Core.push x a) b)).1) (pop (pop (Core.push (Core.push x a) b)).2).1 =
      Core.push (Core.push x b) a := by
    intro x a b
    rw [pop_push', pop_push']
  let v1 : Vm := { used vm with heap := h1 }
  let v2 : Vm := { Core.push (used v1) mkUndefined with lastGetprop := o1 }
  let v3 : Vm := { v2 with argStack := vm.argStack ++ [o1, mkInt (vm.stack ++ [mkUndefined]).length] }
  let v4 : Vm := { used v3 with heap := h2 }
  refine stepTo (op := BCODE_HEADER) (vm' := vm) (i' := 13) (j := 14) rfl rfl he rfl ?_
  refine stepTo (op := PUSH_OBJ) (vm' := Core.push v1 o1) (i' := 14) (j := 15) rfl
    ((execOp_pushObj ..).trans (by rw [mkObj, e1]; rfl)) he rfl ?_
  refine stepTo (op := PUSH_STR) (vm' := Core.push (Core.push (used v1) o1) (letter 109)) (i' := 17) (j := 18) rfl
    ((execOp_pushStr _ _ 15 1 [109] _ (by show operand lostCode 16 = some (1, 1); decide +kernel) (by decide) rfl).trans (by rw [mkStr_letter]; rfl)) he rfl ?_
  refine stepTo (op := SWAP) (vm' := Core.push (Core.push (used v1) (letter 109)) o1) (i' := 18) (j := 19) rfl
    ((execOp_swap ..).trans (by rw [p])) he rfl ?_
  refine stepTo (op := GET) (vm' := v2) (i' := 19) (j := 20) rfl
    ((execOp_get ..).trans (by
      rw [pop_push', pop_push']
      simp only
      rw [getProp_empty t1 m1 (.inl rfl)]
      rfl)) he rfl ?_
  refine stepTo (op := ARGS) (vm' := v3) (i' := 20) (j := 21) rfl rfl he rfl ?_
  refine stepTo (op := PUSH_OBJ) (vm' := Core.push v4 o2) (i' := 21) (j := 22) rfl
    ((execOp_pushObj ..).trans (by rw [mkObj, show mkObject v3.heap (v3.al 0) = some (h2, o2) from e2]; rfl)) he rfl ?_
  refine stepTo (op := PUSH_STR) (vm' := Core.push (Core.push (used v4) o2) (letter 121)) (i' := 24) (j := 25) rfl
    ((execOp_pushStr _ _ 22 1 [121] _ (by show operand lostCode 23 = some (1, 1); decide +kernel) (by decide) rfl).trans (by rw [mkStr_letter]; rfl)) he rfl ?_
  refine stepTo (op := SWAP) (vm' := Core.push (Core.push (used v4) (letter 121)) o2) (i' := 25) (j := 26) rfl
    ((execOp_swap ..).trans (by rw [p])) he rfl ?_
  refine stepTo (op := GET) (vm' := lostVm vm h2 o1 o2) (i' := 26) (j := 27) rfl
    ((execOp_get ..).trans (by
      rw [pop_push', pop_push']
      simp only
      rw [getProp_empty (vm := used v4) t2 m2 (.inr rfl)]
      rfl)) he rfl ?_
  exact .refl _

/-- A new engine with a global object, and the two objects that the script makes first. -/
def lost : Option (Heap × Val × Heap × Val × Heap × Val) := do
  let h ← createHeap 0 demoMem (some (4096, fun _ => 0)) (some (4096, fun _ => 0)) (some 8192) (some 16384)
  let (h0, g) ← mkObject h demoAl
  let (h1, o1) ← mkObject h0 demoAl
  let (h2, o2) ← mkObject h1 demoAl
  pure (h0, g, h1, o1, h2, o2)

/-- The variables of that engine, somewhere in memory. -/
def lostPlaces : Places := ⟨40000, 40008, mkUndefined, 40016, 41000, 42000, 43000⟩

def lostSigs : Arena Unit := ((Arena.init 8 20 10 (some 65536)).getD ⟨8, 10, [], 0, fun _ => none⟩)

/-- The engine when the script starts. -/
def lostStart (h0 : Heap) (g : Val) : Vm :=
  { heap := h0, parts := [⟨0, lostCode, none⟩], bcodeLen := 31, scopes := [g], al := fun _ => demoAl }

/-- `markFreeList` with a bound on the length of the list, to compute with. -/
def markFreeN {α : Type} : Nat → (Nat → Option (Cell α)) → Nat → Option (Nat → Option (Cell α))
  | 0, _, _ => none
  | k + 1, mem, cur =>
    if cur = 0 then some mem
    else (mem cur).bind fun c => markFreeN k (upd mem cur (some ⟨markFree c.head, c.body⟩)) c.head

theorem markFreeN_eq {α : Type} : ∀ {k} {mem : Nat → Option (Cell α)} {cur mem'}, markFreeN k mem cur = some mem' →
    markFreeList mem cur = some mem' := by
  intro k
  induction k with
  | zero => intro _ _ _ h; cases h
  | succ k ih =>
    intro mem cur mem' h
    rw [markFreeList]
    simp only [markFreeN] at h
    by_cases hc : cur = 0
    · rw [if_pos hc] at h ⊢
      exact h
    · rw [if_neg hc] at h ⊢
      simp only [Option.bind_eq_some_iff, Option.bind_eq_bind] at h ⊢
      obtain ⟨c, h1, h2⟩ := h
      exact ⟨c, h1, ih h2⟩

def sweepN {α : Type} [Inhabited α] (k : Nat) (a : Arena α) : Option (Arena α) :=
  (markFreeN k a.mem a.free).bind fun mem =>
    (sweepBlocks a.cellSize mem 0 a.blocks).map fun r => { a with mem := r.1, free := r.2.1, blocks := r.2.2 }

theorem sweepN_eq {α : Type} [Inhabited α] {k : Nat} {a a' : Arena α} (h : sweepN k a = some a') : sweep a = some a' := by
  simp only [sweepN, Option.bind_eq_some_iff] at h
  obtain ⟨mem, h1, h2⟩ := h
  simp only [sweep, markFreeN_eq h1, Option.bind_some, h2]

/-- `mjsGc` with bounds, to compute with. -/
def gcN (k n : Nat) (m : Mem Unit) (r : Roots) (full : Bool) (al : Alloc) : Option (Mem Unit) := do
  let m ← markAll n m r.all
  let m ← compactStrings n m
  let o ← sweepN k m.heap.objs
  let p ← sweepN k m.heap.props
  let s ← sweepN k m.sigs
  some (trimStrings { m with heap := { m.heap with objs := o, props := p }, sigs := s } full al)

theorem gcN_eq {k n : Nat} {m m' : Mem Unit} {r full al} (h : gcN k n m r full al = some m') : mjsGc n m r full al = some m' := by
  simp only [gcN, Option.bind_eq_bind, Option.bind_eq_some_iff] at h
  obtain ⟨m1, h1, m2, h2, o, h3, p, h4, s, h5, h6⟩ := h
  simp only [mjsGc, h1, h2, sweepN_eq h3, sweepN_eq h4, sweepN_eq h5, Option.bind_eq_bind, Option.bind_some, h6]

/-- The collection at that point, and an allocation afterwards. -/
def lostGc : Option (Mem Unit × Heap × Val) := do
  let (h0, g, _, o1, h2, o2) ← lost
  let m' ← gcN 60 60 (memOf lostPlaces (lostVm (lostStart h0 g) h2 o1 o2) lostSigs)
    (rootsOf lostPlaces (lostVm (lostStart h0 g) h2 o1 o2)) false none
  let (h3, v) ← mkObject m'.heap demoAl
  pure (m', h3, v)

/-- An object value without properties. -/
def emptyObj (h : Heap) (v : Val) : Bool :=
  v &&& tagMask == tagObject && (match h.objs.mem (getPtrRaw v).toNat with | some c => c.head == 0 | none => false)

theorem emptyObj_spec {h v} (e : emptyObj h v = true) : v &&& tagMask = tagObject ∧ h.objs.mem (getPtrRaw v).toNat = some ⟨0, ()⟩ := by
  simp only [emptyObj, Bool.and_eq_true, beq_iff_eq] at e
  refine ⟨e.1, ?_⟩
  cases hm : h.objs.mem (getPtrRaw v).toNat with
  | none => rw [hm] at e; cases e.2
  | some c =>
    rw [hm] at e
    obtain ⟨hd, u⟩ := c
    cases u
    simp only [beq_iff_eq] at e
    rw [e.2]

/-- **C26, where it fails.** A new engine with a global object runs `({}).m({}.y,{})`.  Before the last argument is made,
the receiver of the pending call is on `arg_stack` only.  A collection at this point, between two instructions, gives its
cell back, and the last argument becomes an object in the same cell: the value that the call will use as `this` is now the
argument. -/
theorem C26_receiver_lost : ∃ (vm : Vm) (bp : Part) (m m2 : Mach) (recv : Val) (m' : Mem Unit),
    parseScript numEnv 60 [] (txt "({}).m({}.y,{})") = .code bp.data ∧ vm.parts = [bp] ∧
    Steps numEnv ⟨vm, bp, 0, OP_MAX⟩ m ∧ m.vm.argStack = [recv, mkInt 1] ∧ isObject recv = true ∧
    (∃ c, m.vm.heap.objs.mem (getPtrRaw recv).toNat = some c) ∧
    Collects (memOf lostPlaces m.vm lostSigs) (rootsOf lostPlaces m.vm) false none m' ∧
    m.bp.data[m.i]? = some PUSH_OBJ ∧
    execOp numEnv { m with vm := { m.vm with heap := m'.heap }, op := PUSH_OBJ } m.op = some (.go m2) ∧
    m2.vm.argStack = [recv, mkInt 1] ∧ m2.vm.stack = [mkUndefined, mkUndefined, recv] := by
  have hl : lost.map (fun r => (emptyObj r.2.2.1 r.2.2.2.1, emptyObj r.2.2.2.2.1 r.2.2.2.2.2, emptyObj r.2.2.2.2.1 r.2.2.2.1)) =
      some (true, true, true) := by decide +kernel
  have hg : lostGc.map (fun r => some r.2.2) = some (lost.map fun r => r.2.2.2.1) := by decide +kernel
  cases e : lost with
  | none => rw [e] at hl; cases hl
  | some r =>
    obtain ⟨h0, g, h1, o1, h2, o2⟩ := r
    have e0 := e
    rw [e] at hl hg
    simp only [Option.map_some, Option.some.injEq, Prod.mk.injEq] at hl hg
    obtain ⟨t1, m1⟩ := emptyObj_spec hl.1
    obtain ⟨t2, m2⟩ := emptyObj_spec hl.2.1
    obtain ⟨t3, m3⟩ := emptyObj_spec hl.2.2
    simp only [lost, Option.bind_eq_bind, Option.bind_eq_some_iff] at e0
    obtain ⟨h, _, ⟨h0', g'⟩, _, ⟨h1', o1'⟩, e1, ⟨h2', o2'⟩, e2, e3⟩ := e0
    simp only [Option.pure_def, Option.some.injEq, Prod.mk.injEq] at e3
    obtain ⟨rfl, rfl, rfl, rfl, rfl, rfl⟩ := e3
    cases eg : lostGc with
    | none => rw [eg] at hg; cases hg
    | some q =>
      obtain ⟨m', h3, v⟩ := q
      rw [eg] at hg
      simp only [Option.map_some, Option.some.injEq] at hg
      subst hg
      simp only [lostGc, e, Option.bind_eq_bind, Option.bind_some, Option.bind_eq_some_iff] at eg
      obtain ⟨m1', hgc, ⟨h3', v'⟩, hmk, e4⟩ := eg
      simp only [Option.pure_def, Option.some.injEq, Prod.mk.injEq] at e4
      obtain ⟨rfl, rfl, rfl⟩ := e4
      refine ⟨lostStart h0' g', ⟨0, lostCode, none⟩, _, ⟨Core.push { used (lostVm (lostStart h0' g') h2' v' o2') with heap := h3' } v', ⟨0, lostCode, none⟩, 27, PUSH_OBJ⟩,
        v', m1', lost_parse, rfl, lost_steps numEnv (lostStart h0' g') ⟨0, lostCode, none⟩ rfl rfl e1 e2 t1 m1 t2 m2, rfl, Client.isObject_tag t1, ⟨_, m3⟩,
        ⟨60, fun n hn => mjsGc_mono (gcN_eq hgc) hn⟩, rfl, ?_, rfl, rfl⟩
      refine (execOp_pushObj ..).trans ?_
      rw [mkObj]
      simp only
      rw [show mkObject m1'.heap ((lostVm (lostStart h0' g') h2' v' o2').al 0) = some (h3', v') from hmk]
      rfl

/-- The hypotheses of `C26_partial` are met: the engine of `C26_receiver_lost` when it starts, with its global object. -/
example : ∃ (vm : Vm) (m' : Mem Unit) (L : List (List UInt8)) (fo fp fs : List Nat) (v : Val),
    Sound (memOf lostPlaces vm lostSigs) (rootsOf lostPlaces vm).all L fo fp fs ∧
    ((slotsOf lostPlaces vm).map (·.1)).Nodup ∧ Collects (memOf lostPlaces vm lostSigs) (rootsOf lostPlaces vm) true none m' ∧
    v ∈ vm.scopes ∧ isObject v = true := by
  have hlow : AllocLow (some (4096, fun _ => 0)) := by intro r hr; cases hr; exact ⟨by decide, by decide⟩
  have hl : (createHeap 0 demoMem (some (4096, fun _ => 0)) (some (4096, fun _ => 0)) (some 8192) (some 16384)).map
      (fun h => (h.objs.free, h.str.owned.len, [40000, 40008, 40016, 41000].all fun a => (h.props.mem (a - 8)).isNone && (h.props.mem (a - 16)).isNone)) =
      some (8344, 1, true) := by decide +kernel
  cases hc : createHeap 0 demoMem (some (4096, fun _ => 0)) (some (4096, fun _ => 0)) (some 8192) (some 16384) with
  | none => rw [hc] at hl; cases hl
  | some h =>
    rw [hc] at hl
    simp only [Option.map_some, Option.some.injEq, Prod.mk.injEq] at hl
    obtain ⟨hf, hln, hp⟩ := hl
    have hsg : Arena.init 8 20 10 (some 65536) = some lostSigs := rfl
    obtain ⟨⟨L, A, g, fo, fp, fs, hh⟩, _⟩ := good_create (σ := Unit) (r := ⟨[], [], [], [], [], []⟩) hlow hlow (by simp) (by simp) (by simp)
      (show 0 < 8 by decide) (by decide) (by decide) (by decide) (by decide) hc hsg rfl (by intro a ha; cases ha)
    have hco : CallocOk h.objs demoAl.obj := fun e => by rw [hf] at e; cases e
    obtain ⟨h0, gv, _, _, e0, _, _, hst, _⟩ := mkObject_spec hh.inv (al := demoAl) hco
    obtain ⟨o, fo', hh1, hr⟩ := hh.newObj hco e0
    obtain ⟨_, _, _, _, _, _, _, hq⟩ := Client.mkObject_inv e0
    have hqs : h0.str = h.str := by rw [hq]
    have hqp : h0.props = h.props := by rw [hq]
    rw [← hqp] at hp
    rw [← hqs] at hln
    have pl : ∀ a ∈ [40000, 40008, 40016, 41000], 0 < a ∧ a < 2 ^ 48 ∧ h0.props.mem (a - 8) = none ∧ h0.props.mem (a - 16) = none := by
      intro a ha
      have := List.all_eq_true.1 hp a ha
      simp only [Bool.and_eq_true, Option.isNone_iff_eq_none] at this
      refine ⟨?_, ?_, this⟩ <;> (simp only [List.mem_cons, List.not_mem_nil, or_false] at ha; omega)
    have prim : ∀ v : Val, Spec.Client.IsPrim v → Client.Rep h0.str L (put g o 0) v (.prim v) := fun v hv => ⟨rfl, hv⟩
    have w1 := hh1.write (a := 41000) (pl _ (by simp)) hr
    have w2 := w1.write (a := 40016) (pl _ (by simp)) (prim 0#64 ⟨by decide, by decide, by decide⟩)
    have w3 := w2.write (a := 40008) (pl _ (by simp)) (prim mkUndefined ⟨by decide, by decide, by decide⟩)
    have w4 := w3.write (a := 40000) (pl _ (by simp)) (prim mkUndefined ⟨by decide, by decide, by decide⟩)
    have hs := w4.sound (roots := [40000, 40008, 40016, 41000]) (by
      intro a ha
      simp only [List.mem_cons, List.not_mem_nil, or_false] at ha
      rcases ha with rfl | rfl | rfl | rfl <;> simp [Spec.Client.World.assign]) (by show h0.str.owned.len < 2 ^ 31; rw [hln]; decide)
    have hs' : Sound (memOf lostPlaces { heap := h0, scopes := [gv] } lostSigs) (rootsOf lostPlaces { heap := h0, scopes := [gv] }).all L fo' fp fs := hs
    obtain ⟨m', _, _, _, _, hcol, _⟩ := C24_collects hs' true (al := none) (by intro r hr; cases hr)
    exact ⟨_, m', L, fo', fp, fs, gv, hs', by show [40000, 40008, 40016, 41000].Nodup; decide, hcol, by simp, Client.isObject_tag hr.1⟩

end Mjs.Props
