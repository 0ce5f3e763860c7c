import Verif.Lemmas.SimRun
import Verif.Props.Builtin

/-!
# Built-in functions in two engines that differ only in where things are in memory
-/

namespace Mjs.Spec.Invisible
open Mjs Mjs.Mbuf Mjs.Varint Mjs.Str Mjs.Arena Mjs.Obj Mjs.Spec Mjs.Spec.Gc Mjs.Gc Mjs.Core Mjs.Exec
open Mjs.Client (Pairs)

variable {n m : Nat} {k : Link} {a b : Vm}

/-- An engine that has only a heap. -/
def bare (h : Heap) (al : Nat → Allocs) : Vm := { heap := h, al := al }

theorem Supplied.even : ∀ (m : Nat) {h : Heap} {al : Nat → Allocs}, Supplied (2 * m) h al → Supplied m h fun k => al (2 * k)
  | 0, _, _, _ => trivial
  | m + 1, h, al, hs => by
    have hs : Supplied (2 * m + 1 + 1) h al := hs
    refine ⟨hs.1, fun h' hq => ?_⟩
    exact Supplied.even m ((hs.2 h' hq).2 h' .none)

theorem Supplied.le {h : Heap} {al : Nat → Allocs} {i : Nat} : ∀ {j : Nat}, i ≤ j → Supplied j h al → Supplied i h al := by
  intro j
  induction j with
  | zero => intro hj hs; cases Nat.le_zero.1 hj; exact hs
  | succ j ih =>
    intro hj hs
    by_cases e : i = j + 1
    · subst e; exact hs
    · exact ih (by omega) hs.less

theorem Rel.bare {al1 al2 : Nat → Allocs} (r : Rel n k a b) (h1 : Supplied m a.heap al1) (h2 : Supplied m b.heap al2) :
    Rel m k (bare a.heap al1) (Invisible.bare b.heap al2) :=
  ⟨r.heap, r.cmem, .nil, .nil, .nil, .nil, .undef k, .imm (show IsImm 0 by unfold IsImm; decide), rfl, rfl, rfl, rfl, rfl, h1, h2⟩

/-- What the work of a built-in function leaves. -/
structure DRel (k : Link) (x y : Builtin.Done) : Prop where
  heap : ∃ w, Held x.heap w k.L1 k.g1 ∧ Held y.heap w k.L2 k.g2
  cmem : x.heap.str.cmem = y.heap.str.cmem
  val : VRel k x.val y.val
  err : x.err = y.err

/-- The built-in function does not see where things are; it asks for memory at most `f (number of arguments)` times. -/
def BodyRel (f : Nat → Nat) (b : Builtin.Body) : Prop :=
  ∀ {k : Link} {t1 t2 : Val} {as1 as2 : List Val} {h1 h2 : Heap} {al1 al2 : Nat → Allocs},
    Rel (f as1.length) k (bare h1 al1) (bare h2 al2) → Small k → VRel k t1 t2 → Pairs (VRel k) as1 as2 →
    Does k DRel (b t1 as1 h1 al1) (b t2 as2 h2 al2)

theorem nargs_eq (r : Rel n k a b) : nargs a = nargs b := by
  unfold nargs
  rw [getretvalpos_eq r, r.stack.len]

theorem mapM_did {α : Type} {R : α → α → Prop} {f g : Nat → Option α} (h : ∀ i, Did R (f i) (g i)) :
    ∀ l : List Nat, Did (Pairs R) (l.mapM f) (l.mapM g) := by
  intro l
  induction l with
  | nil => exact .some rfl rfl .nil
  | cons i l ih =>
    simp only [List.mapM_cons]
    refine (h i).bind ?_
    intro x y hxy
    refine ih.bind ?_
    intro xs ys hs
    exact .some rfl rfl (.cons hxy hs)

theorem argsOf_did (r : Rel n k a b) : Did (Pairs (VRel k)) (Builtin.argsOf a) (Builtin.argsOf b) := by
  unfold Builtin.argsOf
  rw [nargs_eq r]
  refine (Did.refl _).bind ?_
  rintro j _ rfl
  exact mapM_did (fun i => arg_did r i) _

theorem mapM_length {α : Type} {f : Nat → Option α} : ∀ (l : List Nat) {xs}, l.mapM f = some xs → xs.length = l.length := by
  intro l
  induction l with
  | nil => intro xs h; cases h; rfl
  | cons i l ih =>
    intro xs h
    simp only [List.mapM_cons, Option.bind_eq_bind, Option.bind_eq_some_iff] at h
    obtain ⟨y, _, ys, h2, e⟩ := h
    cases e
    rw [List.length_cons, ih h2, List.length_cons]

theorem argsOf_length {as : List Val} (h : Builtin.argsOf a = some as) : as.length ≤ a.stack.length := by
  unfold Builtin.argsOf nargs at h
  simp only [Option.bind_eq_bind, Option.bind_eq_some_iff] at h
  obtain ⟨j, ⟨p, _, e⟩, hm⟩ := h
  rw [mapM_length _ hm, List.length_range]
  cases e
  split
  · rename_i hp
    have : cInt a.stack.length ≤ a.stack.length := by
      rw [cInt, BitVec.toInt_eq_toNat_cond, BitVec.toNat_ofNat]
      have := Nat.mod_le a.stack.length (2 ^ 32)
      split <;> omega
    omega
  · simp

theorem body_respects {f : Nat → Nat} {bd : Builtin.Body} (hb : BodyRel f bd) (hn : ∀ i, 2 * f i ≤ n + 2 * i) :
    Respects n (Builtin.cfunction bd) := by
  intro vm1 vm2 r1 ha hr1 hr2 h1
  obtain ⟨k, hk⟩ := ha.rel
  have r := hk 0 trivial trivial
  unfold Builtin.cfunction at h1 ⊢
  simp only [Option.bind_eq_bind, Option.bind_eq_some_iff] at h1
  obtain ⟨as1, e1, d1, e2, u1, e3, e4⟩ := h1
  obtain ⟨as2, f1, hp⟩ := argsOf_did r as1 e1
  have hlen := argsOf_length e1
  have hlen2 := argsOf_length f1
  have hs := r.small hr1.small
  have hq : 2 * f as1.length ≤ n + 2 * vm1.stack.length := by have := hn as1.length; omega
  have hq2 : 2 * f as1.length ≤ n + 2 * vm2.stack.length := by rw [← r.stack.len]; exact hq
  have rb := r.bare (Supplied.even _ (hr1.supply.le hq)) (Supplied.even _ (hr2.supply.le hq2))
  obtain ⟨d2, k', f2, hl, hd⟩ := hb rb hs r.this hp d1 e2
  have hu : ∃ u2, Builtin.leave vm2 d2 = some u2 ∧ Rel 0 k' u1 u2 := by
    have hr : Rel 0 k' { vm1 with heap := d1.heap, al := fun k => vm1.al (2 * k + 1) } { vm2 with heap := d2.heap, al := fun k => vm2.al (2 * k + 1) } :=
      ⟨hd.heap, hd.cmem, pairs_mono hl r.stack, pairs_mono hl r.callStack, pairs_mono hl r.argStack, pairs_mono hl r.scopes, r.this.mono hl, r.last.mono hl,
        r.loopAddrs, r.parts, r.bcodeLen, r.error, r.msg, trivial, trivial⟩
    unfold Builtin.leave at e3 ⊢
    rw [← hd.err]
    simp only at e3 ⊢
    cases he : d1.err with
    | none => rw [he] at e3; cases e3; exact ⟨_, rfl, hr⟩
    | some p =>
      obtain ⟨e, t⟩ := p
      rw [he] at e3
      simp only at e3 ⊢
      split at e3
      · cases e3
      · rename_i hne
        cases e3
        rw [if_neg hne]
        exact ⟨_, rfl, hr.pre _ _⟩
  obtain ⟨u2, f3, hu⟩ := hu
  unfold Core.ret at e4
  simp only [Option.bind_eq_bind, Option.bind_eq_some_iff] at e4
  obtain ⟨pos, e5, e6⟩ := e4
  split at e6
  · cases e6
  · rename_i hpos
    cases e6
    refine ⟨push { u2 with stack := u2.stack.take pos.toNat } d2.val, ?_, ?_⟩
    · simp only [f1, f2, f3, Option.bind_eq_bind, Option.bind_some]
      unfold Core.ret
      rw [← getretvalpos_eq hu, e5]
      simp only [Option.bind_eq_bind, Option.bind_some]
      rw [if_neg hpos]
    · have hu' : Rel 0 k' { u1 with stack := u1.stack.take pos.toNat } { u2 with stack := u2.stack.take pos.toNat } :=
        { hu with stack := hu.stack.take _ }
      exact (hu'.push hd.val).alike

/-! ### The built-in functions -/

theorem imm_zero_val : IsImm (0 : Val) := by unfold IsImm; decide

/-- An argument, in both. -/
theorem arg_at {as1 as2 : List Val} (hp : Pairs (VRel k) as1 as2) (i : Nat) :
    (as1[i]? = none ∧ as2[i]? = none) ∨ ∃ v1 v2, as1[i]? = some v1 ∧ as2[i]? = some v2 ∧ VRel k v1 v2 := hp.at i

theorem getD_rel {as1 as2 : List Val} (hp : Pairs (VRel k) as1 as2) (i : Nat) : VRel k (as1[i]?.getD mkUndefined) (as2[i]?.getD mkUndefined) := by
  rcases arg_at hp i with ⟨e1, e2⟩ | ⟨v1, v2, e1, e2, h⟩ <;> rw [e1, e2]
  · exact .undef k
  · exact h

/-- Two arguments that may be absent. -/
def ORel (k : Link) (o1 o2 : Option Val) : Prop := (o1 = none ∧ o2 = none) ∨ ∃ v1 v2, o1 = some v1 ∧ o2 = some v2 ∧ VRel k v1 v2

theorem check_did {o1 o2 : Option Val} (h : ORel k o1 o2) (t : Ty) :
    (checkArg o1 t = none ∧ checkArg o2 t = none) ∨ (checkArg o1 t = some none ∧ checkArg o2 t = some none) ∨
      ∃ v1 v2, checkArg o1 t = some (some v1) ∧ checkArg o2 t = some (some v2) ∧ VRel k v1 v2 ∧ o1 = some v1 ∧ o2 = some v2 ∧ getType v1 = some t := by
  rcases h with ⟨rfl, rfl⟩ | ⟨v1, v2, rfl, rfl, h⟩
  · exact .inr (.inl ⟨rfl, rfl⟩)
  · unfold checkArg
    simp only [h.agree.getType]
    cases ht : getType v2 with
    | none => exact .inl ⟨rfl, rfl⟩
    | some t' =>
      simp only
      by_cases e : t' = t
      · refine .inr (.inr ⟨v1, v2, ?_, ?_, h, rfl, rfl, by rw [h.agree.getType, ht, e]⟩) <;> rw [if_neg (by simp [e])]
      · refine .inr (.inl ⟨?_, ?_⟩) <;> rw [if_pos e]

theorem checkText_eq {o1 o2 : Option Val} (h : ORel k o1 o2) (name : String) (t : Ty) : Builtin.checkText name o1 t = Builtin.checkText name o2 t := by
  rcases h with ⟨rfl, rfl⟩ | ⟨v1, v2, rfl, rfl, h⟩
  · rfl
  · unfold Builtin.checkText
    simp only [h.agree.getType]

theorem firstText_eq {l l' : List (String × Option Val × Ty)}
    (h : l.map (fun c => Builtin.checkText c.1 c.2.1 c.2.2) = l'.map (fun c => Builtin.checkText c.1 c.2.1 c.2.2)) : Builtin.firstText l = Builtin.firstText l' := by
  have key : ∀ l : List (String × Option Val × Ty), l.findSome? (fun c => Builtin.checkText c.1 c.2.1 c.2.2) =
      (l.map fun c => Builtin.checkText c.1 c.2.1 c.2.2).findSome? _root_.id := by
    intro l
    rw [List.findSome?_map]
    rfl
  unfold Builtin.firstText
  rw [key, key, h]

theorem VRel.o {v1 v2} (h : VRel k v1 v2) : ORel k (some v1) (some v2) := .inr ⟨v1, v2, rfl, rfl, h⟩

/-- Nothing was allocated. -/
theorem done_same {h1 h2 : Heap} {al1 al2 : Nat → Allocs} (r : Rel n k (bare h1 al1) (bare h2 al2)) {v1 v2} (hv : VRel k v1 v2)
    (e : Option (Err × List UInt8)) : Does k DRel (some ⟨h1, v1, e⟩) (some ⟨h2, v2, e⟩) := .pure ⟨r.heap, r.cmem, hv, rfl⟩

theorem isNaN_rel : BodyRel (fun _ => 0) Builtin.isNaN := by
  intro k t1 t2 as1 as2 h1 h2 al1 al2 r hs ht hp
  have hv := getD_rel hp 0
  have e : opIsnan (as1[0]?.getD mkUndefined) = opIsnan (as2[0]?.getD mkUndefined) := by
    rcases hv.agree.same with e | ⟨b1, b2⟩
    · rw [e]
    · have key : ∀ v, Boxed v → (v == tagNan) = false := by
        intro v hb
        by_cases e : v = tagNan
        · have := hb.number
          rw [e] at this
          exact absurd this (by decide)
        · simpa using e
      unfold opIsnan
      rw [key _ b1, key _ b2]
  unfold Builtin.isNaN
  rw [e]
  exact done_same r (.imm (imm_boolean _)) none

theorem mk_done {h1 h2 : Heap} {al1 al2 : Nat → Allocs} (r : Rel (n + 1) k (bare h1 al1) (bare h2 al2)) {p1 p2 : Ptr} {bs : List UInt8}
    (hn1 : p1.isNull = false) (hn2 : p2.isNull = false) (hb1 : load h1.str.cmem h1.str.owned p1 bs.length = some bs)
    (hb2 : load h2.str.cmem h2.str.owned p2 bs.length = some bs) (hl : bs.length ≤ 2 ^ 31) :
    ∃ st1 v1 st2 v2 k', mkStringCopy (al1 0).hr h1.str p1 bs.length (al1 0).strs = some (st1, v1) ∧
      mkStringCopy (al2 0).hr h2.str p2 bs.length (al2 0).strs = some (st2, v2) ∧ k.Le k' ∧
      DRel k' ⟨{ h1 with str := st1 }, v1, none⟩ ⟨{ h2 with str := st2 }, v2, none⟩ := by
  obtain ⟨w, s1, s2⟩ := r.heap
  obtain ⟨h1', v1, L1, e1, t1, l1, q1, c1⟩ := s1.copy hn1 hb1 hl r.sup1.1
  obtain ⟨h2', v2, L2, e2, t2, l2, q2, c2⟩ := s2.copy hn2 hb2 hl r.sup2.1
  refine ⟨_, v1, _, v2, ⟨L1, L2, k.g1, k.g2⟩, e1, e2, ⟨l1, l2⟩, ⟨⟨w, t1, t2⟩, ?_, ⟨.str bs, q1, q2⟩, rfl⟩⟩
  exact c1.trans (r.cmem.trans c2.symm)

theorem chr_rel : BodyRel (fun _ => 1) Builtin.chr := by
  intro k t1 t2 as1 as2 h1 h2 al1 al2 r hs ht hp
  have hv := getD_rel hp 0
  unfold Builtin.chr
  simp only [hv.agree.number, hv.agree.getInt]
  split
  · obtain ⟨st1, v1, st2, v2, k', e1, e2, hl, hd⟩ := mk_done r (p1 := .loc _) (p2 := .loc _) rfl rfl
      (load_loc _ [UInt8.ofNat (getInt (as2[0]?.getD mkUndefined)).toNat]) (load_loc _ [UInt8.ofNat (getInt (as2[0]?.getD mkUndefined)).toNat]) (by simp)
    simp only [List.length_singleton] at e1 e2
    rw [e1, e2]
    exact .some rfl rfl hl hd
  · exact done_same r (.imm imm_null) none

theorem die_rel : BodyRel (fun _ => 0) Builtin.die := by
  intro k t1 t2 as1 as2 h1 h2 al1 al2 r hs ht hp
  unfold Builtin.die Builtin.firstText
  simp only [List.findSome?, checkText_eq (arg_at hp 0)]
  rcases check_did (arg_at hp 0) .string with ⟨e1, e2⟩ | ⟨e1, e2⟩ | ⟨v1, v2, e1, e2, hv, _⟩
  · rw [e1]; exact .none
  · rw [e1, e2]
    exact done_same r (.undef k) _
  · rw [e1, e2]
    obtain ⟨w, s1, s2⟩ := r.heap
    obtain ⟨x, x1, x2⟩ := hv
    simp only [Option.bind_eq_bind, Option.bind_some]
    rw [show strBytes h1.str v1 = some (abytes x) from s1.strBytes x1, show strBytes h2.str v2 = some (abytes x) from s2.strBytes x2]
    exact done_same r (.undef k) _

/-! #### Strings -/

theorem checked_string {v1 v2 : Val} (h : VRel k v1 v2) (ht : getType v1 = some .string) : ∃ bs, StrRep k.L1 v1 bs ∧ StrRep k.L2 v2 bs := by
  obtain ⟨x, x1, x2⟩ := h
  have hs : isString v1 = true := Props.getType_is_string ht
  cases x with
  | str bs => exact ⟨bs, x1, x2⟩
  | imm w => rw [x1.1, x1.2.2.1] at hs; cases hs
  | obj t i => rw [(Client.object_not x1.1).1] at hs; cases hs

theorem small_str (hs : Small k) {v1 v2 : Val} {bs : List UInt8} (x1 : StrRep k.L1 v1 bs) (_ : StrRep k.L2 v2 bs) : bs.length ≤ 2 ^ 30 := by
  rcases x1 with ⟨h5, _⟩ | ⟨pre, ⟨post, e⟩, _⟩
  · omega
  · exact hs bs (by rw [e]; simp)

theorem norm_le {i : Int} {n : Nat} : 0 ≤ normalizeIdx i n ∧ normalizeIdx i n ≤ n := by
  unfold normalizeIdx
  simp only
  split <;> split <;> (try split) <;> omega

theorem charCodeAt_rel : BodyRel (fun _ => 0) Builtin.charCodeAt := by
  intro k t1 t2 as1 as2 h1 h2 al1 al2 r hs ht hp
  unfold Builtin.charCodeAt Str.charCodeAt
  rw [firstText_eq (by simp [checkText_eq (arg_at hp 0), checkText_eq ht.o]) (l' := [("this", some t2, .string), ("index", as2[0]?, .number)])]
  generalize Builtin.firstText _ = text
  rcases check_did ht.o .string with ⟨e1, e2⟩ | ⟨e1, e2⟩ | ⟨v1, v2, e1, e2, hv, e3, e4, hty⟩
  · rw [e1]; exact .none
  · rw [e1, e2]
    exact done_same r (.undef k) _
  · rw [e1, e2]
    cases e3; cases e4
    obtain ⟨w, s1, s2⟩ := r.heap
    obtain ⟨bs, x1, x2⟩ := checked_string hv hty
    have hsm := small_str hs x1 x2
    obtain ⟨p1, n1, g1, _, rfl, b1, _⟩ := s1.readsZ x1
    obtain ⟨p2, n2, g2, _, rfl, b2, _⟩ := s2.readsZ x2
    rw [show getString h1.str t1 = some (p1, bs.length) from g1, show getString h2.str t2 = some (p2, bs.length) from g2]
    simp only
    rcases check_did (arg_at hp 0) .number with ⟨e1, e2⟩ | ⟨e1, e2⟩ | ⟨v1, v2, e1, e2, hv, _⟩
    · rw [e1]; exact .none
    · rw [e1, e2]
      exact done_same r (.undef k) _
    · rw [e1, e2]
      simp only [hv.agree.getInt]
      rw [cInt_eq (by omega)]
      have hb := norm_le (i := getInt v2) (n := bs.length)
      split
      · rw [show load h1.str.cmem h1.str.owned (p1.add (normalizeIdx (getInt v2) bs.length).toNat) 1 = _ from load_add b1 _ 1 (by omega),
          show load h2.str.cmem h2.str.owned (p2.add (normalizeIdx (getInt v2) bs.length).toNat) 1 = _ from load_add b2 _ 1 (by omega)]
        split
        · exact done_same r (.imm (imm_int _)) none
        · exact .none
      · exact done_same r (.undef k) none

theorem indexOf_rel : BodyRel (fun _ => 0) Builtin.indexOf := by
  intro k t1 t2 as1 as2 h1 h2 al1 al2 r hs ht hp
  unfold Builtin.indexOf Str.indexOf
  rw [firstText_eq (by simp [checkText_eq (arg_at hp 0), checkText_eq (arg_at hp 1), checkText_eq ht.o])
    (l' := [("this", some t2, .string), ("searchValue", as2[0]?, .string), ("fromIndex", as2[1]?, .number)])]
  generalize Builtin.firstText _ = text
  rcases check_did ht.o .string with ⟨e1, e2⟩ | ⟨e1, e2⟩ | ⟨v1, v2, e1, e2, hv, e3, e4, hty⟩
  · rw [e1]; exact .none
  · rw [e1, e2]
    exact done_same r (.imm (imm_int _)) _
  · rw [e1, e2]
    simp only
    rcases check_did (arg_at hp 0) .string with ⟨e1, e2⟩ | ⟨e1, e2⟩ | ⟨v1, v2, e1, e2, hu, _⟩
    · rw [e1]; exact .none
    · rw [e1, e2]
      exact done_same r (.imm (imm_int _)) _
    · rw [e1, e2]
      obtain ⟨w, s1, s2⟩ := r.heap
      obtain ⟨x, x1, x2⟩ := ht
      obtain ⟨y, y1, y2⟩ := hu
      simp only
      rw [show strBytes h1.str t1 = some (abytes x) from s1.strBytes x1, show strBytes h2.str t2 = some (abytes x) from s2.strBytes x2,
        show strBytes h1.str v1 = some (abytes y) from s1.strBytes y1, show strBytes h2.str v2 = some (abytes y) from s2.strBytes y2]
      simp only
      have hf : indexOfFrom as1 (abytes x).length = indexOfFrom as2 (abytes x).length := by
        unfold indexOfFrom
        rw [hp.len]
        split
        · rcases check_did (arg_at hp 1) .number with ⟨e1, e2⟩ | ⟨e1, e2⟩ | ⟨v1, v2, e1, e2, hu, _⟩ <;> rw [e1, e2]
          simp only [Option.map_some, hu.agree.getInt]
        · rfl
      rw [hf]
      split
      · exact .none
      · exact done_same r (.imm (imm_int _)) _
      · split <;> exact done_same r (.imm (imm_int _)) none

theorem slice_rel : BodyRel (fun _ => 1) Builtin.slice := by
  intro k t1 t2 as1 as2 h1 h2 al1 al2 r hs ht hp
  unfold Builtin.slice Str.slice
  rw [firstText_eq (by simp [checkText_eq (arg_at hp 0), checkText_eq (arg_at hp 1), checkText_eq ht.o])
    (l' := [("this", some t2, .string), ("beginSlice", as2[0]?, .number), ("endSlice", as2[1]?, .number)])]
  generalize Builtin.firstText _ = text
  rcases check_did ht.o .string with ⟨e1, e2⟩ | ⟨e1, e2⟩ | ⟨v1, v2, e1, e2, hv, e3, e4, hty⟩
  · rw [e1]; exact .none
  · rw [e1, e2]
    exact done_same r (.imm (imm_int _)) _
  · rw [e1, e2]
    cases e3; cases e4
    obtain ⟨w, s1, s2⟩ := r.heap
    obtain ⟨bs, x1, x2⟩ := checked_string hv hty
    have hsm := small_str hs x1 x2
    obtain ⟨p1, n1, g1, z1, rfl, b1, _⟩ := s1.readsZ x1
    obtain ⟨p2, n2, g2, z2, rfl, b2, _⟩ := s2.readsZ x2
    rw [show getString h1.str t1 = some (p1, bs.length) from g1, show getString h2.str t2 = some (p2, bs.length) from g2]
    simp only
    rcases check_did (arg_at hp 0) .number with ⟨e1, e2⟩ | ⟨e1, e2⟩ | ⟨v1, v2, e1, e2, hv, _⟩
    · rw [e1]; exact .none
    · rw [e1, e2]
      exact done_same r (.imm (imm_int _)) _
    · rw [e1, e2]
      simp only [hv.agree.getInt]
      rw [cInt_eq (by omega)]
      have hb := norm_le (i := getInt v2) (n := bs.length)
      have he : (if as1.length ≥ 2 then (checkArg as1[1]? .number).map fun o => o.map fun e => normalizeIdx (getInt e) bs.length
            else some (some (bs.length : Int))) =
          (if as2.length ≥ 2 then (checkArg as2[1]? .number).map fun o => o.map fun e => normalizeIdx (getInt e) bs.length
            else some (some (bs.length : Int))) := by
        rw [hp.len]
        split
        · rcases check_did (arg_at hp 1) .number with ⟨e1, e2⟩ | ⟨e1, e2⟩ | ⟨v1, v2, e1, e2, hu, _⟩ <;> rw [e1, e2]
          simp only [Option.map_some, hu.agree.getInt]
        · rfl
      have hle : ∀ e, (if as2.length ≥ 2 then (checkArg as2[1]? .number).map fun o => o.map fun e => normalizeIdx (getInt e) bs.length
            else some (some (bs.length : Int))) = some (some e) → e ≤ bs.length := by
        intro e he
        split at he
        · simp only [Option.map_eq_some_iff] at he
          obtain ⟨_, _, _, _, rfl⟩ := he
          exact norm_le.2
        · cases he; exact Int.le_refl _
      rw [he]
      split
      · exact .none
      · exact done_same r (.imm (imm_int _)) _
      · rename_i e he'
        have hee := hle e he'
        have hd : (normalizeIdx (getInt v2) bs.length).toNat + ((if e < normalizeIdx (getInt v2) bs.length then normalizeIdx (getInt v2) bs.length else e) -
            normalizeIdx (getInt v2) bs.length).toNat ≤ bs.length := by split <;> omega
        generalize ((if e < normalizeIdx (getInt v2) bs.length then normalizeIdx (getInt v2) bs.length else e) -
            normalizeIdx (getInt v2) bs.length).toNat = m at hd
        generalize (normalizeIdx (getInt v2) bs.length).toNat = i at hd
        have hlen : ((bs.drop i).take m).length = m := by simp; omega
        obtain ⟨st1, u1, st2, u2, k', f1, f2, hl, hd⟩ := mk_done r (p1 := p1.add i) (p2 := p2.add i) (bs := (bs.drop i).take m)
          (by rw [add_isNull]; exact z1) (by rw [add_isNull]; exact z2) (by rw [hlen]; exact load_add b1 i m hd) (by rw [hlen]; exact load_add b2 i m hd) (by omega)
        rw [hlen] at f1 f2
        rw [f1, f2]
        exact .some rfl rfl hl hd

/-! #### Objects -/

theorem rel_heap {h1 h2 h1' h2' : Heap} {al1 al2 : Nat → Allocs} {w : World} {k' : Link} (r : Rel (n + 1) k (bare h1 al1) (bare h2 al2)) (hl : k.Le k')
    (s1 : Held h1' w k'.L1 k'.g1) (s2 : Held h2' w k'.L2 k'.g2) (c1 : h1'.str.cmem = h1.str.cmem) (c2 : h2'.str.cmem = h2.str.cmem)
    (q1 : Request h1 (al1 0) h1') (q2 : Request h2 (al2 0) h2') :
    Rel n k' (bare h1' fun i => al1 (i + 1)) (bare h2' fun i => al2 (i + 1)) := r.step hl s1 s2 c1 c2 q1 q2

theorem pushAll_rel : ∀ {as1 as2 : List Val} {k : Link} {h1 h2 : Heap} {al1 al2 : Nat → Allocs} {t1 t2 : Val} {u : Val} {i : Nat},
    Rel as1.length k (bare h1 al1) (bare h2 al2) → Rep k.L1 k.g1 t1 (.obj u i) → Rep k.L2 k.g2 t2 (.obj u i) → Pairs (VRel k) as1 as2 →
    Does k (fun k' x y => Rel 0 k' (bare x.1 al1) (bare y.1 al2) ∧ x.2 = y.2) (Arr.pushAll h1 t1 al1 as1) (Arr.pushAll h2 t2 al2 as2) := by
  intro as1
  induction as1 with
  | nil =>
    intro as2 k h1 h2 al1 al2 t1 t2 u i r x1 x2 hp
    cases hp
    exact .pure ⟨r, rfl⟩
  | cons v1 vs1 ih =>
    intro as2 k h1 h2 al1 al2 t1 t2 u i r x1 x2 hp
    cases hp with
    | @cons _ v2 _ vs2 hv hvs =>
      unfold Arr.pushAll
      obtain ⟨w, s1, s2⟩ := r.heap
      obtain ⟨z, z1, z2⟩ := hv
      obtain ⟨h1', d1, L1, e1, u1, l1, c1, q1, o1⟩ := s1.push x1 z1 r.sup1.1
      obtain ⟨h2', d2, L2, e2, u2, l2, c2, q2, o2⟩ := s2.push x2 z2 r.sup2.1
      have r' := rel_heap (k' := ⟨L1, L2, k.g1, k.g2⟩) r ⟨l1, l2⟩ u1 u2 c1 c2 q1 q2
      have hle : k.Le ⟨L1, L2, k.g1, k.g2⟩ := ⟨l1, l2⟩
      rw [show Arr.push h1 t1 v1 (al1 0) = some (h1', d1) from e1, show Arr.push h2 t2 v2 (al2 0) = some (h2', d2) from e2]
      simp only [Option.bind_eq_bind, Option.bind_some]
      rw [if_neg (by simp [o1.2 ⟨u, i, rfl⟩]), if_neg (by simp [o2.2 ⟨u, i, rfl⟩])]
      intro z hz
      obtain ⟨z2, k'', e, hl', q⟩ := ih r' (x1.mono l1) (x2.mono l2) (pairs_mono hle hvs) z hz
      exact ⟨z2, k'', e, hle.trans hl', q.1.bare trivial trivial, q.2⟩

theorem getType_array {v : Val} (ht : getType v = some .objectArray) : isObject v = true := by
  simp only [getType] at ht
  repeat' split at ht
  all_goals first | (cases ht; done) | skip
  rename_i e
  rw [isObject, Props.tag_shift (by decide) e]
  decide

theorem checked_object {v1 v2 : Val} (h : VRel k v1 v2) (hs : isObject v1 = true) :
    ∃ t i, Rep k.L1 k.g1 v1 (.obj t i) ∧ Rep k.L2 k.g2 v2 (.obj t i) := by
  obtain ⟨x, x1, x2⟩ := h
  cases x with
  | obj t i => exact ⟨t, i, x1, x2⟩
  | imm w => rw [x1.1, x1.2.1] at hs; cases hs
  | str bs => rw [(Client.string_not_object (StrRep.string x1)).1] at hs; cases hs

theorem push_rel : BodyRel (fun j => j) Builtin.push := by
  intro k t1 t2 as1 as2 h1 h2 al1 al2 r hs ht hp
  unfold Builtin.push Arr.pushMethod Builtin.ofArr
  rw [firstText_eq (by simp [checkText_eq ht.o]) (l' := [("this", some t2, .objectArray)])]
  generalize Builtin.firstText _ = text
  rcases check_did ht.o .objectArray with ⟨e1, e2⟩ | ⟨e1, e2⟩ | ⟨v1, v2, e1, e2, hv, e3, e4, hty⟩
  · rw [e1]; exact .none
  · rw [e1, e2]
    exact done_same r (.undef k) _
  · rw [e1, e2]
    cases e3; cases e4
    obtain ⟨u, i, x1, x2⟩ := checked_object ht (getType_array hty)
    simp only [Option.bind_eq_bind, Option.bind_some]
    refine Does.map (P := fun k' x y => DRel k' ⟨x.heap, x.ret, none⟩ ⟨y.heap, y.ret, none⟩ ∧ x.err = y.err) ?_ fun k' x y _ hq => ?_
    · intro z hz
      obtain ⟨⟨h1', d1⟩, f1, f2⟩ := Option.bind_eq_some_iff.1 hz
      obtain ⟨⟨h2', d2⟩, k', f3, hl, r', hd⟩ := pushAll_rel r x1 x2 hp _ f1
      rw [f3]
      simp only at hd
      subst hd
      simp only [Option.bind_some] at f2 ⊢
      obtain ⟨w, s1, s2⟩ := r'.heap
      split at f2
      · rename_i hne
        rw [if_pos hne]
        cases f2
        exact ⟨_, k', rfl, hl, ⟨⟨w, s1, s2⟩, r'.cmem, .undef _, rfl⟩, rfl⟩
      · rename_i hne
        rw [if_neg hne]
        rw [show Arr.length h1' t1 = some (alen w (.obj u i)) from s1.length (x1.mono hl.one)] at f2
        rw [show Arr.length h2' t2 = some (alen w (.obj u i)) from s2.length (x2.mono hl.two)]
        cases f2
        exact ⟨_, k', rfl, hl, ⟨⟨w, s1, s2⟩, r'.cmem, .imm (imm_int _), rfl⟩, rfl⟩
    · obtain ⟨hq, he⟩ := hq
      exact ⟨hq.heap, hq.cmem, hq.val, by simp only [he]⟩

theorem objectCreate_rel (lit : Nat) : BodyRel (fun _ => 2) (whileLit lit (Builtin.objectCreate lit)) := by
  intro k t1 t2 as1 as2 h1 h2 al1 al2 r hs ht hp
  unfold whileLit
  have hc : h1.str.cmem = h2.str.cmem := r.cmem
  rw [hc]
  by_cases hlit : LitAt h2.str.cmem lit
  case neg => rw [if_neg hlit]; exact .none
  rw [if_pos hlit, if_pos hlit]
  unfold Builtin.objectCreate
  rw [firstText_eq (by simp [checkText_eq (arg_at hp 0)]) (l' := [("proto", as2[0]?, .objectGeneric)])]
  generalize Builtin.firstText _ = text
  rcases check_did (arg_at hp 0) .objectGeneric with ⟨e1, e2⟩ | ⟨e1, e2⟩ | ⟨v1, v2, e1, e2, hv, e3, e4, hty⟩
  · rw [e1]; exact .none
  · rw [e1, e2]
    exact done_same r (.undef k) _
  · rw [e1, e2]
    obtain ⟨x, x1, x2⟩ := hv
    obtain ⟨w, s1, s2⟩ := r.heap
    obtain ⟨h1', o1, g1, f1, u1, l1, p1, _, c1⟩ := s1.new r.sup1.1.obj
    obtain ⟨h2', o2, g2, f2, u2, l2, p2, _, c2⟩ := s2.new r.sup2.1.obj
    have r' := rel_heap (k' := ⟨k.L1, k.L2, g1, g2⟩) r ⟨l1, l2⟩ u1 u2 (by rw [c1]; rfl) (by rw [c2]; rfl) (.obj f1) (.obj f2)
    have k1 : h1'.str.cmem = h2.str.cmem := by rw [c1]; exact hc
    have k2 : h2'.str.cmem = h2.str.cmem := by rw [c2]; rfl
    have key : ∀ st : Store, st.cmem = h2.str.cmem → KeyPtr st (.ext lit) [95, 95, 112] ∧ strlen st.cmem lit = some 3 := by
      intro st hst
      obtain ⟨b0, b1, b2, b3⟩ := hlit
      have hr : readC st.cmem lit 3 = some [95, 95, 112] := by
        rw [hst]
        simp only [readC, b0, b1, b2, Option.bind_eq_bind, Option.bind_some, Nat.add_assoc, Nat.reduceAdd]
      exact ⟨⟨rfl, hr, by decide⟩, strlen_spec (bs := [95, 95, 112]) hr (by decide) (by rw [hst]; exact b3)⟩
    obtain ⟨h1'', L1, d1, y1, m1, n1⟩ := u1.set p1 (nameV := none) (key h1'.str k1).1 (fun _ hv => by cases hv) (by decide) (x1.mono l1) r'.sup1.1 true (by decide)
    obtain ⟨h2'', L2, d2, y2, m2, n2⟩ := u2.set p2 (nameV := none) (key h2'.str k2).1 (fun _ hv => by cases hv) (by decide) (x2.mono l2) r'.sup2.1 true (by decide)
    simp only [Option.bind_eq_bind, Option.bind_some]
    unfold createObject setZ
    rw [show mkObject h1 (al1 0) = some (h1', o1) from f1, show mkObject h2 (al2 0) = some (h2', o2) from f2]
    simp only [Option.bind_eq_bind, Option.bind_some]
    rw [(key h1'.str k1).2, (key h2'.str k2).2]
    simp only [Option.bind_some]
    rw [show setInternal h1' o1 none (.ext lit) 3 v1 (al1 1) true = some (h1'', .ok) from d1,
      show setInternal h2' o2 none (.ext lit) 3 v2 (al2 1) true = some (h2'', .ok) from d2]
    refine .some (k' := ⟨L1, L2, g1, g2⟩) rfl rfl ⟨l1.trans m1, l2.trans m2⟩ ⟨⟨_, y1, y2⟩, ?_, ⟨_, p1.mono m1, p2.mono m2⟩, rfl⟩
    exact n1.trans (k1.trans (k2.symm.trans n2.symm))

end Mjs.Spec.Invisible
