import Verif.Lemmas.SimVm
import Verif.Lemmas.StrApi

/-!
# Operators and property access in two engines that differ only in where things are in memory
-/

namespace Mjs.Spec.Invisible
open Mjs Mjs.Mbuf Mjs.Varint Mjs.Str Mjs.Arena Mjs.Obj Mjs.Spec Mjs.Spec.Gc Mjs.Gc Mjs.Core Mjs.Exec
open Mjs.Client (Pairs)

variable {n : Nat} {k : Link} {a b : Vm} {E : Env}

theorem Supplied.less : ∀ {n : Nat} {h : Heap} {al : Nat → Allocs}, Supplied (n + 1) h al → Supplied n h al
  | 0, _, _, _ => trivial
  | _ + 1, _, _, s => ⟨s.1, fun h' q => (s.2 h' q).less⟩

theorem Rel.less (r : Rel (n + 1) k a b) : Rel n k a b := { r with sup1 := r.sup1.less, sup2 := r.sup2.less }

theorem PV.zero {x y} (h : PV n k x y) : PV 0 k x y := ⟨h.1.zero, h.2⟩

theorem SRel.agree {v1 v2} (h : SRel k v1 v2) : Agree v1 v2 := h.v.agree

/-! ### Operators -/

theorem doOp_rel (r : Rel (n + 1) k a b) {u1 u2 v1 v2} (hu : SRel k u1 u2) (hv : SRel k v1 v2) (op : Nat) :
    Does k (PV n) (doOp E a u1 v1 op) (doOp E b u2 v2 op) := by
  have ua := hu.agree
  have va := hv.agree
  by_cases hc : ((isForeign u1 || isNumber u1) && (isForeign v1 || isNumber v1)) = true
  · have prim : ∀ {w : Val}, (isForeign w || isNumber w) = true → ¬ Boxed w := by
      intro w hw hb
      rw [hb.foreign, hb.number] at hw
      cases hw
    simp only [Bool.and_eq_true] at hc
    obtain rfl := ua.eq (prim hc.1)
    obtain rfl := va.eq (prim hc.2)
    unfold doOp
    have hc' : ((isForeign u1 || isNumber u1) && (isForeign v1 || isNumber v1)) = true := by rw [hc.1, hc.2]; rfl
    rw [if_pos hc', if_pos hc']
    simp only
    have hvm : ∀ (c d : Bool) (p q : Prop) [Decidable p] [Decidable q], Rel n k
        (if c then (if p then prepend a .type (txt "invalid operands") else a)
          else if d then (if q then prepend a .type (txt "invalid operands") else a) else a)
        (if c then (if p then prepend b .type (txt "invalid operands") else b)
          else if d then (if q then prepend b .type (txt "invalid operands") else b) else b) := by
      intro c d p q _ _
      repeat' split
      all_goals first
        | exact r.less
        | exact r.less.pre _ _
    have hvm' := hvm (isForeign u1 && isForeign v1) (isForeign u1 || isForeign v1) (op ≠ Tok.MINUS) (op ≠ Tok.MINUS ∧ op ≠ Tok.PLUS)
    revert hvm'
    generalize (if (isForeign u1 && isForeign v1) = true then _ else _ : Vm) = A
    generalize (if (isForeign u1 && isForeign v1) = true then _ else _ : Vm) = B
    intro hvm'
    refine (Did.refl _).dbind ?_
    rintro o _ rfl
    cases o with
    | none => exact .pure ⟨hvm', .imm imm_tagNan⟩
    | some d =>
      simp only
      split
      · refine .pure ⟨?_, .imm (imm_foreign _)⟩
        simp only
        split
        · exact hvm'.pre _ _
        · exact hvm'
      · exact .pure ⟨hvm', .imm (imm_number _)⟩
  · unfold doOp
    have hc' : ¬ ((isForeign u2 || isNumber u2) && (isForeign v2 || isNumber v2)) = true := by
      rw [← ua.foreign, ← ua.number, ← va.foreign, ← va.number]; exact hc
    rw [if_neg hc, if_neg hc', ua.string, va.string]
    split
    · rename_i hs
      simp only [Bool.and_eq_true] at hs
      exact concat_rel r hu hv (by rw [ua.string]; exact hs.1.1) (by rw [va.string]; exact hs.1.2)
    · exact .pure ⟨r.less.pre _ _, .undef k⟩

/-- Bytes outside the engine are changed. -/
theorem Held.poke {h : Heap} {w L g} (s : Held h w L g) (f : Nat → Option UInt8) : Held { h with str := { h.str with cmem := f } } w L g := by
  obtain ⟨A, fo, fp, s⟩ := s
  have hi : InvS { h.str with cmem := f } := s.inv.str
  refine ⟨A, fo, fp, ⟨hi, s.inv.objs, s.inv.props, s.inv.obj, s.inv.used, s.inv.nodup, s.inv.sep, ?_, s.inv.keys⟩,
    s.content, s.long, s.room, s.size, s.cleanObj, s.cleanProp, s.dom, s.inj, s.lt, s.lists, s.names⟩
  intro o Ls ho e he
  exact (s.names o Ls ho e he).named hi s.content s.room s.long (s.inv.names o Ls ho e he).2.2.1

theorem Rel.poke (r : Rel n k a b) (f : Nat → Option UInt8) :
    Rel 0 k { a with heap := { a.heap with str := { a.heap.str with cmem := f } } } { b with heap := { b.heap with str := { b.heap.str with cmem := f } } } := by
  obtain ⟨w, s1, s2⟩ := r.heap
  exact { r with heap := ⟨w, s1.poke f, s2.poke f⟩, cmem := rfl, sup1 := trivial, sup2 := trivial }

theorem assign_rel (ht : TextShort E.numText) (r : Rel (n + 1) k a b) {v1 v2 o1 o2 k1 k2} (hv : VRel k v1 v2) (ho : VRel k o1 o2) (hk : SRel k k1 k2) :
    Does k (PV 0) (Exec.assign E a v1 o1 k1) (Exec.assign E b v2 o2 k2) := by
  have va := hv.agree
  have oa := ho.agree
  have ka := hk.agree
  unfold Exec.assign
  rw [oa.object, oa.foreign, ka.number, va.number, va.getInt]
  split
  · exact (setVm_rel ht r ho hk.key hv).map fun k' x y hl q => ⟨q.zero, hv.mono hl⟩
  · split
    · split
      · exact .pure ⟨r.zero.pre _ _, .undef k⟩
      · split
        · exact .pure ⟨r.zero.pre _ _, .undef k⟩
        · simp only [oa.getPtr, ka.getInt, r.cmem]
          split
          · exact .pure ⟨r.poke _, hv⟩
          · exact .none
    · exact .pure ⟨r.zero.pre _ _, hv⟩

theorem update_rel (ht : TextShort E.numText) (hs : Small k) (r : Rel (n + 2) k a b) {v1 v2 o1 o2 k1 k2} (ho : VRel k o1 o2) (hk : SRel k k1 k2)
    (hv : VRel k v1 v2) (op : Nat) :
    Does k (fun k x y => Rel n k x.1 y.1 ∧ VRel k x.2.1 y.2.1 ∧ VRel k x.2.2 y.2.2) (update E a o1 k1 v1 op) (update E b o2 k2 v2 op) := by
  unfold update
  refine (getVm_rel ht r ho hk).dbind ?_
  rintro ⟨a1, w1⟩ ⟨b1, w2⟩ ⟨r1, hw⟩
  refine (doOp_rel r1 (hw.short hs) (hv.short hs) op).bind ?_
  rintro k' ⟨a2, x1⟩ ⟨b2, x2⟩ hl ⟨r2, hx⟩
  refine (setVm_rel ht r2 (ho.mono hl) (hk.mono hl).key hx).bind ?_
  rintro k'' a3 b3 hl' r3
  exact .pure ⟨r3, (hw.mono hl).mono hl', hx.mono hl'⟩

/-- The result of an operation that may yield a value. -/
def PO (n : Nat) (k : Link) (x y : Vm × Option Val) : Prop :=
  Rel n k x.1 y.1 ∧ ((x.2 = none ∧ y.2 = none) ∨ ∃ u v, x.2 = some u ∧ y.2 = some v ∧ VRel k u v)

theorem PO.push {x y} (h : PO n k x y) : Rel n k (pushOpt x) (pushOpt y) := by
  obtain ⟨x1, x2⟩ := x
  obtain ⟨y1, y2⟩ := y
  rcases h with ⟨r, ⟨e1, e2⟩ | ⟨u, v, e1, e2, hv⟩⟩
  · simp only at e1 e2
    subst e1 e2
    exact r
  · simp only at e1 e2
    subst e1 e2
    exact r.push hv

theorem incr_rel (ht : TextShort E.numText) (hs : Small k) (r : Rel (n + 2) k a b) {o1 o2 k1 k2} (ho : VRel k o1 o2) (hk : SRel k k1 k2)
    (post : Bool) (op : Nat) : Does k (PO 0) (incr E a post op o1 k1) (incr E b post op o2 k2) := by
  unfold incr
  rw [ho.agree.object, hk.agree.string]
  split
  · refine (update_rel ht hs r ho hk (.imm (imm_int 1)) op).map ?_
    rintro k' ⟨x1, x2, x3⟩ ⟨y1, y2, y3⟩ hl ⟨h1, h2, h3⟩
    refine ⟨h1.zero, .inr ⟨_, _, rfl, rfl, ?_⟩⟩
    cases post
    · exact h3
    · exact h2
  · exact .pure ⟨r.zero.err _ _, .inl ⟨rfl, rfl⟩⟩

theorem opAssign_rel (ht : TextShort E.numText) (hs : Small k) (r : Rel (n + 2) k a b) {v1 v2 o1 o2 k1 k2} (hv : VRel k v1 v2) (ho : VRel k o1 o2)
    (hk : SRel k k1 k2) (op : Nat) : Does k (PO 0) (opAssign E a op v1 o1 k1) (opAssign E b op v2 o2 k2) := by
  unfold opAssign
  rw [ho.agree.object, hk.agree.string]
  split
  · refine (update_rel ht hs r ho hk hv op).map ?_
    rintro k' ⟨x1, x2, x3⟩ ⟨y1, y2, y3⟩ hl ⟨h1, h2, h3⟩
    exact ⟨h1.zero, .inr ⟨_, _, rfl, rfl, h2⟩⟩
  · exact .pure ⟨r.zero.err _ _, .inl ⟨rfl, rfl⟩⟩

theorem truthy_did (r : Rel n k a b) {v1 v2} (hv : VRel k v1 v2) : isTruthy a.heap.str v1 = isTruthy b.heap.str v2 := by
  obtain ⟨w, s1, s2⟩ := r.heap
  obtain ⟨x, x1, x2⟩ := hv
  rw [s1.truthy x1, s2.truthy x2]

theorem equal_did (r : Rel n k a b) {u1 u2 v1 v2} (hu : VRel k u1 u2) (hv : VRel k v1 v2) : checkEqual a.heap.str u1 v1 = checkEqual b.heap.str u2 v2 := by
  obtain ⟨w, s1, s2⟩ := r.heap
  obtain ⟨x, x1, x2⟩ := hu
  obtain ⟨y, y1, y2⟩ := hv
  rw [s1.equal x1 y1, s2.equal x2 y2]

theorem Agree.tilda {v1 v2 : Val} (h : Agree v1 v2) : mkNumber (ofIntD (-Exec.toI64 (getDouble v1) - 1)) = mkNumber (ofIntD (-Exec.toI64 (getDouble v2) - 1)) := by
  have := h.toI64
  unfold getDouble
  rw [this]

theorem typeName_short (t : Ty) : (typeName t).length ≤ 2 ^ 31 := by cases t <;> decide

theorem execExpr_rel (ht : TextShort E.numText) (hs : Small k) (r : Rel (n + 2) k a b) (op : Nat) :
    Does k (Rel 0) (execExpr E a op) (execExpr E b op) := by
  obtain ⟨v1, r1⟩ := r.pop
  obtain ⟨v2, r2⟩ := r1.pop
  obtain ⟨v3, r3⟩ := r2.pop
  unfold execExpr
  cases classify op with
  | skip => exact .pure r.zero
  | arith op => exact (doOp_rel r2 (v2.short hs) (v1.short hs) op).map fun _ _ _ _ q => (q.1.push q.2).zero
  | neg =>
    refine .pure (Rel.push r1.zero ?_)
    show VRel k (mkNumber (negD (pop a).1)) (mkNumber (negD (pop b).1))
    rw [v1.agree.neg]
    exact .imm (imm_number _)
  | not =>
    show Does k _ ((isTruthy (pop a).2.heap.str (pop a).1).map _) ((isTruthy (pop b).2.heap.str (pop b).1).map _)
    rw [truthy_did r1 v1]
    refine Did.does ((Did.refl _).map ?_)
    rintro x _ rfl
    exact r1.zero.push (.imm (imm_boolean _))
  | tilda =>
    refine .pure (Rel.push r1.zero ?_)
    show VRel k (mkNumber (ofIntD (-toI64 (getDouble (pop a).1) - 1))) (mkNumber (ofIntD (-toI64 (getDouble (pop b).1) - 1)))
    rw [v1.agree.tilda]
    exact .imm (imm_number _)
  | useTriple ne => exact .pure (r.zero.err _ _)
  | equal ne =>
    show Does k _ ((checkEqual (pop (pop a).2).2.heap.str (pop a).1 (pop (pop a).2).1).map _) ((checkEqual (pop (pop b).2).2.heap.str (pop b).1 (pop (pop b).2).1).map _)
    rw [equal_did r2 v1 v2]
    refine Did.does ((Did.refl _).map ?_)
    rintro x _ rfl
    exact r2.zero.push (.imm (imm_boolean _))
  | less swap eq =>
    have : ∀ c1 c2, c1 = c2 → Does k (Rel 0) (some (push (pop (pop a).2).2 (mkBoolean c1))) (some (push (pop (pop b).2).2 (mkBoolean c2))) := by
      rintro c _ rfl
      exact .pure (r2.zero.push (.imm (imm_boolean _)))
    have l1 := v1.agree.lt v2.agree
    have l2 := v2.agree.lt v1.agree
    have l3 := v1.agree.le v2.agree
    have l4 := v2.agree.le v1.agree
    cases swap <;> cases eq
    · exact this _ _ l2
    · exact this _ _ l4
    · exact this _ _ l1
    · exact this _ _ l3
  | assign => exact (assign_rel ht r3 v1 v2 (v3.short hs)).map fun _ _ _ _ q => q.1.push q.2
  | incr post op => exact (incr_rel ht hs r2 v1 (v2.short hs) post op).map fun _ _ _ _ q => q.push
  | opAssign op => exact (opAssign_rel ht hs r3 v1 v2 (v3.short hs) op).map fun _ _ _ _ q => q.push
  | typeof =>
    show Does k _ ((getType (pop a).1).bind _) ((getType (pop b).1).bind _)
    rw [v1.agree.getType]
    refine (Did.refl _).dbind ?_
    rintro t _ rfl
    exact (mkStr_rel r1 (typeName_short t)).map fun _ _ _ _ q => (q.1.push q.v).zero

/-! ### Property access -/

theorem builtinString_rel (r : Rel (n + 1) k a b) {v1 v2} (hv : VRel k v1 v2) (bs : List UInt8) (hst : isString v1 = true) :
    Does k (PO n) (builtinString E a v1 bs) (builtinString E b v2 bs) := by
  unfold builtinString
  obtain ⟨w, s1, s2⟩ := r.heap
  obtain ⟨x, x1, x2⟩ := hv
  have hx : ∃ t, x = .str t := by
    cases x with
    | str t => exact ⟨t, rfl⟩
    | imm u => rw [x1.1, x1.2.2.1] at hst; cases hst
    | obj t i => rw [(Client.object_not x1.1).1] at hst; cases hst
  obtain ⟨t, rfl⟩ := hx
  obtain ⟨p1, m1, e1, e2, rfl, e4, _⟩ := s1.readsZ x1
  obtain ⟨p2, m2, f1, f2, rfl, f4, _⟩ := s2.readsZ x2
  refine (Did.refl _).dbind ?_
  rintro ⟨num, isnum⟩ _ rfl
  simp only [e1, f1, Option.bind_eq_bind, Option.bind_some]
  have one : ∀ v, IsImm v → Does k (PO n) (some (a, some v)) (some (b, some v)) := fun v hi =>
    .pure ⟨r.less, .inr ⟨v, v, rfl, rfl, .imm hi⟩⟩
  split
  · exact one _ (imm_int _)
  · split
    · exact one _ (imm_foreign _)
    · split
      · exact one _ (imm_foreign _)
      · split
        · exact one _ (imm_foreign _)
        · split
          · split
            · rename_i hidx
              have hlt : (cInt num).toNat + 1 ≤ t.length := by
                have h2 := hidx.2
                have : cInt t.length ≤ t.length := by
                  unfold cInt
                  rw [BitVec.toInt_ofNat', Int.bmod_def]
                  split <;> omega
                omega
              have g1 := load_add e4 (cInt num).toNat 1 hlt
              have g2 := load_add f4 (cInt num).toNat 1 hlt
              have hl1 : ((t.drop (cInt num).toNat).take 1).length = 1 := by
                rw [List.length_take, List.length_drop]; omega
              generalize hone : (t.drop (cInt num).toNat).take 1 = one1 at g1 g2 hl1
              rw [← hl1] at g1 g2
              have := mkStrP_rel (p1 := p1.add (cInt num).toNat) (p2 := p2.add (cInt num).toNat) r (by rw [add_isNull]; exact e2) (by rw [add_isNull]; exact f2) g1 g2 (by rw [hl1]; decide)
              rw [hl1] at this
              exact this.map fun _ _ _ _ q => ⟨q.1, .inr ⟨_, _, rfl, rfl, q.v⟩⟩
            · exact one _ imm_undefined
          · exact .pure ⟨r.less, .inl ⟨rfl, rfl⟩⟩

theorem builtinArray_rel (r : Rel n k a b) {v1 v2} (hv : VRel k v1 v2) (bs : List UInt8) :
    Does k (PO n) (builtinArray E a v1 bs) (builtinArray E b v2 bs) := by
  unfold builtinArray
  have one : ∀ v, IsImm v → Does k (PO n) (some (a, some v)) (some (b, some v)) := fun v hi =>
    .pure ⟨r, .inr ⟨v, v, rfl, rfl, .imm hi⟩⟩
  split
  · exact one _ (imm_foreign _)
  · split
    · exact one _ (imm_foreign _)
    · split
      · obtain ⟨w, s1, s2⟩ := r.heap
        obtain ⟨x, x1, x2⟩ := hv
        rw [s1.length x1, s2.length x2]
        exact one _ (imm_int _)
      · exact .pure ⟨r, .inl ⟨rfl, rfl⟩⟩

theorem builtinForeign_rel (r : Rel n k a b) {v1 v2} (hv : VRel k v1 v2) (bs : List UInt8) :
    Does k (PO n) (builtinForeign a v1 bs) (builtinForeign b v2 bs) := by
  unfold builtinForeign
  refine (Did.refl _).dbind ?_
  rintro ⟨num, isnum⟩ _ rfl
  simp only [hv.agree.getPtr, r.cmem]
  split
  · exact .pure ⟨r.pre _ _, .inr ⟨_, _, rfl, rfl, .undef k⟩⟩
  · refine Did.does ((Did.refl _).map ?_)
    rintro x _ rfl
    exact ⟨r, .inr ⟨_, _, rfl, rfl, .imm (imm_int _)⟩⟩

theorem builtin_rel (r : Rel (n + 1) k a b) {v1 v2 k1 k2} (hv : VRel k v1 v2) (hk : VRel k k1 k2) :
    Does k (PO n) (builtin E a v1 k1) (builtin E b v2 k2) := by
  have va := hv.agree
  unfold builtin
  refine (keyErr_rel r hk).dbind ?_
  rintro a' b' ⟨r', _⟩
  obtain ⟨w, s1, s2⟩ := r'.heap
  obtain ⟨x, x1, x2⟩ := hk
  rcases s1.toStr E.numText x1 with ⟨e1, e2⟩ | ⟨bs, p, e1, e2, _, e4, _⟩ <;> rcases s2.toStr E.numText x2 with ⟨f1, f2⟩ | ⟨bs', p', f1, f2, _, f4, _⟩
  · rw [e2, f2]
    exact .pure ⟨r'.less, .inl ⟨rfl, rfl⟩⟩
  · rw [e1] at f1; cases f1
  · rw [e1] at f1; cases f1
  · rw [e1] at f1
    cases f1
    rw [e2, f2]
    simp only [Option.bind_eq_bind, Option.bind_some, e4, f4]
    by_cases hs : isString v1 = true
    · rw [if_pos hs, if_pos (va.string ▸ hs)]
      exact builtinString_rel r' hv bs hs
    · rw [if_neg hs, if_neg (show ¬ isString v2 = true from va.string ▸ hs), va.array, va.foreign]
      split
      · exact .pure ⟨r'.less, .inr ⟨_, _, rfl, rfl, .imm (imm_foreign _)⟩⟩
      · split
        · exact builtinArray_rel r'.less hv bs
        · split
          · exact builtinForeign_rel r'.less hv bs
          · exact .pure ⟨r'.less, .inl ⟨rfl, rfl⟩⟩

theorem protoName_eq (h : Heap) : protoName h = some (inlineVal [95, 95, 112]) := by
  unfold protoName
  have := mkShort_spec 0 h.str (.loc [95, 95, 112]) [95, 95, 112] (fun _ => none) (by decide) rfl (by simp [load])
  simp only [List.length_cons, List.length_nil] at this
  rw [this]; rfl

theorem inline_rel (bs : List UInt8) (h : bs.length ≤ 5) : SRel k (inlineVal bs) (inlineVal bs) := by
  refine ⟨.str bs, .inl ⟨h, rfl⟩, .inl ⟨h, rfl⟩, ?_⟩
  intro t e
  cases e
  omega

theorem getVProto_rel (ht : TextShort E.numText) (r : Rel n k a b) {o1 o2 k1 k2} (ho : VRel k o1 o2) (hk : SRel k k1 k2) :
    Did (VRel k) (getVProto E.numText a.heap o1 k1) (getVProto E.numText b.heap o2 k2) := by
  intro v hv
  refine getVProto.partial_correctness E.numText a.heap k1 (fun o v => ∀ o2, VRel k o o2 →
    ∃ v2, getVProto E.numText b.heap o2 k2 = some v2 ∧ VRel k v v2) ?_ o1 v hv o2 ho
  intro f ih o v hv o2 ho
  rw [protoName_eq] at hv
  simp only [Option.bind_eq_bind, Option.bind_some] at hv
  rw [getVProto, protoName_eq]
  simp only [Option.bind_eq_bind, Option.bind_some]
  obtain ⟨p1, p2, z1, z2, e1, f1, h0, e3, f3, e4⟩ := own_rel ht r ho hk
  rw [e1] at hv
  rw [f1]
  simp only [Option.bind_some] at hv ⊢
  by_cases hp : p1 = 0
  · rw [if_neg (by simp [hp])] at hv
    rw [if_neg (by simp [h0.1 hp])]
    obtain ⟨q1, q2, y1, y2, g1, g2, hq0, g3, g4, g5⟩ := own_rel ht r ho (inline_rel [95, 95, 112] (by decide))
    rw [g1] at hv
    rw [g2]
    simp only [Option.bind_some] at hv ⊢
    by_cases hq : q1 = 0
    · rw [if_pos hq] at hv
      rw [if_pos (hq0.1 hq)]
      cases hv
      exact ⟨_, rfl, .undef k⟩
    · rw [if_neg hq, g3] at hv
      rw [if_neg (fun h => hq (hq0.2 h)), g4]
      exact ih _ _ hv _ g5
  · rw [if_pos hp, e3] at hv
    rw [if_pos (fun h => hp (h0.2 h)), f3]
    cases hv
    exact ⟨_, rfl, e4⟩

theorem getProp_rel (ht : TextShort E.numText) (r : Rel (n + 1) k a b) {o1 o2 k1 k2} (ho : VRel k o1 o2) (hk : SRel k k1 k2) :
    Does k (PV n) (getProp E a o1 k1) (getProp E b o2 k2) := by
  unfold getProp
  refine (builtin_rel r ho hk.v).bind ?_
  rintro k' ⟨a', x⟩ ⟨b', y⟩ hl ⟨r', h⟩
  rcases h with ⟨e1, e2⟩ | ⟨u, v, e1, e2, huv⟩
  · simp only at e1 e2
    subst e1 e2
    simp only [ho.agree.object]
    split
    · exact Did.does ((getVProto_rel ht r' (ho.mono hl) (hk.mono hl)).map fun _ _ q => ⟨r', q⟩)
    · exact .pure ⟨r'.pre _ _, .undef k'⟩
  · simp only at e1 e2
    subst e1 e2
    exact .pure ⟨r', huv⟩

end Mjs.Spec.Invisible
