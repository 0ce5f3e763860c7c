import Verif.Lemmas.JsonText
import Verif.Spec.JsonValue
import Verif.Props.Array

/-!
# What the callback of the JSON parser builds
-/

namespace Mjs.Json
open Mjs Mjs.Str Mjs.Obj Mjs.Core Mjs.Exec Mjs.Spec Mjs.Spec.Json Mjs.Props Mjs.Arr

variable {cmem : Nat → Option UInt8} {numText : Val → List UInt8} {need : Nat}

theorem Supplied.granted {n : Nat} {h : Heap} {al : Nat → Allocs} (hs : Supplied need (n + 1) h al) {k : Nat} (hk : k ≤ need) :
    Granted h k (al 0) := ⟨hs.1.low, hs.1.grant, by have := hs.1.room; omega, hs.1.obj, hs.1.prop⟩

theorem Supplied.le {m n : Nat} {h : Heap} {al : Nat → Allocs} (hs : Supplied need n h al) (hm : m ≤ n) : Supplied need m h al := by
  induction m generalizing n h al with
  | zero => trivial
  | succ m ih =>
    cases n with
    | zero => omega
    | succ n => exact ⟨hs.1, fun h' hn => ih (hs.2 h' hn) (by omega)⟩

theorem created_append {ops : List ObjOp} {v : Val} (new : List ObjOp) (h : created ops v) : created (new ++ ops) v := by
  induction new with
  | nil => exact h
  | cons o new ih => cases o with
    | new w => exact .inr ih
    | set => exact ih
    | del => exact ih

theorem current_append {ops : List ObjOp} {v : Val} {k : Key} (new : List ObjOp) (h : ∀ o ∈ new, o.target ≠ v) :
    current (new ++ ops) v k = current ops v k := by
  induction new with
  | nil => rfl
  | cons o new ih =>
    have hn : v ≠ o.target := fun e => h o (by simp) e.symm
    have ih := ih fun o ho => h o (by simp [ho])
    cases o with
    | new w => exact (if_neg hn).trans ih
    | set w k' x => exact (if_neg fun h => hn h.1).trans ih
    | del w k' => exact (if_neg fun h => hn h.1).trans ih

theorem arrayOps_append {ops : List ObjOp} {v : Val} {f : Nat → Option Val} (new : List ObjOp) (h : ∀ o ∈ new, o.target ≠ v)
    (ha : ArrayOps v ops f) : ArrayOps v (new ++ ops) f := by
  induction new with
  | nil => exact ha
  | cons o new ih => exact .other (ih fun o ho => h o (by simp [ho])) (h o (by simp))

/-- Strings keep their bytes. -/
def Keeps (st st' : Store) : Prop := ∀ v bs, Reads st v bs → Reads st' v bs

theorem Keeps.refl (st : Store) : Keeps st st := fun _ _ h => h
theorem Keeps.trans {a b c : Store} (h1 : Keeps a b) (h2 : Keeps b c) : Keeps a c := fun v bs h => h2 v bs (h1 v bs h)

/-- `v` and all its parts were created since `base`, and are what `j` describes. -/
inductive Built (E : Env) (base ops : List ObjOp) (st : Store) : Val → J → Prop
  | null : Built E base ops st mkNull .null
  | bool {b} : Built E base ops st (mkBoolean b) (.bool b)
  | num {neg t} : Built E base ops st (mkNumber (if neg then negD (E.numVal t) else E.numVal t)) (.num neg t)
  | str {v bs} : isString v = true → Reads st v bs → Built E base ops st v (.str bs)
  | arr {v l} (xs : List Val) : ¬ created base v → created ops v → isArray v = true → ArrayOps v ops (elems xs) →
      xs.length < 2 ^ 32 → xs.length = l.length → (∀ (i : Nat) (x : Val) (j : J), xs[i]? = some x → l[i]? = some j → Built E base ops st x j) →
      Built E base ops st v (.arr l)
  | obj {v ms} (xs : List (Key × Val)) : ¬ created base v → created ops v → isArray v = false →
      (∀ k, current ops v k = lastOf xs k) → (∀ x ∈ xs, x.1.length < 2 ^ 32) → xs.map (·.1) = ms.map (·.1) →
      (∀ (i : Nat) (x : Key × Val) (j : Key × J), xs[i]? = some x → ms[i]? = some j → Built E base ops st x.2 j.2) →
      Built E base ops st v (.obj ms)

/-- Later operations on other objects do not matter. -/
theorem Built.mono {E : Env} {base base' ops : List ObjOp} {st st' : Store} {v : Val} {j : J} (h : Built E base ops st v j)
    (new : List ObjOp) (hn : ∀ o ∈ new, created ops o.target → created base o.target) (hk : Keeps st st')
    (hb : ∀ v, created base' v → created base v) : Built E base' (new ++ ops) st' v j := by
  induction h with
  | null => exact .null
  | bool => exact .bool
  | num => exact .num
  | str hs hr => exact .str hs (hk _ _ hr)
  | arr xs h1 h2 h3 h4 h5 h6 _ ih =>
    refine .arr xs (fun h => h1 (hb _ h)) (created_append _ h2) h3 (arrayOps_append new (fun o ho e => ?_) h4) h5 h6 ih
    subst e
    exact h1 (hn o ho h2)
  | obj xs h1 h2 h3 h4 h5 h6 _ ih =>
    refine .obj xs (fun h => h1 (hb _ h)) (created_append _ h2) h3 (fun k => ?_) h5 h6 ih
    rw [current_append new (fun o ho e => ?_), h4]
    subst e
    exact h1 (hn o ho h2)

theorem find_reverse {α : Type} (l : List α) (p : α → Bool) (a : α) :
    (l ++ [a]).reverse.find? p = if p a then some a else l.reverse.find? p := by
  rw [List.reverse_append, List.reverse_singleton, List.singleton_append, List.find?_cons]
  cases p a <;> rfl

theorem lastOf_snoc {α : Type} (ms : List (Key × α)) (k k' : Key) (x : α) :
    lastOf (ms ++ [(k', x)]) k = if k = k' then some x else lastOf ms k := by
  unfold lastOf
  rw [find_reverse]
  by_cases h : k = k'
  · simp [h]
  · have : (k' == k) = false := by simp [Ne.symm h]
    simp [this, h]

/-- The last member with a key, in lists with the same keys. -/
theorem lastOf_zip {α β : Type} {k : Key} : ∀ {xs : List (Key × α)} {ms : List (Key × β)}, xs.map (·.1) = ms.map (·.1) →
    (lastOf xs k = none ∧ lastOf ms k = none) ∨
      ∃ (i : Nat) (x : α) (j : β), xs[i]? = some (k, x) ∧ ms[i]? = some (k, j) ∧ lastOf xs k = some x ∧ lastOf ms k = some j := by
  intro xs
  generalize hn : xs.length = n
  induction n generalizing xs with
  | zero =>
    intro ms h
    cases xs with
    | nil => cases ms with
      | nil => exact .inl ⟨rfl, rfl⟩
      | cons => simp at h
    | cons => simp at hn
  | succ n ih =>
    intro ms h
    rcases List.eq_nil_or_concat xs with rfl | ⟨xs', a, rfl⟩
    · simp at hn
    rcases List.eq_nil_or_concat ms with rfl | ⟨ms', b, rfl⟩
    · simp at h
    obtain ⟨ka, va⟩ := a
    obtain ⟨kb, vb⟩ := b
    simp only [List.concat_eq_append, List.map_append, List.map_cons, List.map_nil] at h hn ⊢
    have hl : xs'.length = ms'.length := by
      have := congrArg List.length h; simp at this; exact this
    obtain ⟨h1, h2⟩ := List.append_inj h (by simp [hl])
    simp only [List.cons.injEq, and_true] at h2
    subst h2
    rw [lastOf_snoc, lastOf_snoc]
    by_cases hk : k = ka
    · subst hk
      rw [if_pos rfl, if_pos rfl]
      exact .inr ⟨xs'.length, va, vb, by simp, by simp [hl], rfl, rfl⟩
    · rw [if_neg hk, if_neg hk]
      rcases ih (by simp at hn; omega) h1 with h | ⟨i, x, j, h3, h4, h5, h6⟩
      · exact .inl h
      · refine .inr ⟨i, x, j, ?_, ?_, h5, h6⟩
        · rw [List.getElem?_append_left (by rw [List.getElem?_eq_some_iff] at h3; exact h3.1)]; exact h3
        · rw [List.getElem?_append_left (by rw [List.getElem?_eq_some_iff] at h4; exact h4.1)]; exact h4

/-- What was built can be seen. -/
theorem Built.shows {E : Env} {base ops : List ObjOp} {h : Heap} {v : Val} {j : J} (hh : History cmem numText h ops)
    (hn : ∀ o ∈ ops, o.noNul) (hb : Built E base ops h.str v j) : Shows E.numVal h v j := by
  induction hb with
  | null => exact .null
  | bool => exact .bool
  | num => exact .num
  | str hs hr => exact .str hs hr
  | @arr v l xs _ _ h3 h4 h5 h6 _ ih =>
    refine .arr (fun i => (xs[i]?).getD mkUndefined) h3 ?_ (fun i j hj => ?_) (fun i j hj => ?_)
    · rw [← h6]; exact length_step hh h4 (isLength_elems xs)
    · have hi : i < xs.length := by rw [h6]; exact (List.getElem?_eq_some_iff.1 hj).1
      exact (C18_get hh h4 (by omega)).1
    · have hi : i < xs.length := by rw [h6]; exact (List.getElem?_eq_some_iff.1 hj).1
      rw [List.getElem?_eq_getElem hi, Option.getD_some]
      exact ih i _ j (List.getElem?_eq_getElem hi) hj
  | @obj v ms xs _ h2 h3 h4 h5 h6 _ ih =>
    obtain ⟨A, fo, fp, hs⟩ := hh.sim
    obtain ⟨o, L, hv, _⟩ := hs.obj _ h2
    have get : ∀ k : Key, k.length < 2 ^ 32 → Obj.get h v (.loc k) k.length = some ((lastOf xs k).getD mkUndefined) := fun k hk => by
      rw [← h4]; exact C15_get_partial hh hn h2 ⟨rfl, loc_load _ _, hk⟩
    refine .obj (fun k => (lastOf xs k).getD mkUndefined) hv.1 h3 (fun k j hj => ?_) (fun k j hj => ?_) (fun k hk hl => ?_)
    · rcases lastOf_zip (k := k) h6 with ⟨_, h⟩ | ⟨i, x, j', h7, h8, h9, h10⟩
      · rw [h] at hj; cases hj
      · exact get k (h5 _ (List.mem_of_getElem? h7))
    · rcases lastOf_zip (k := k) h6 with ⟨_, h⟩ | ⟨i, x, j', h7, h8, h9, h10⟩
      · rw [h] at hj; cases hj
      · rw [h10] at hj; cases hj
        rw [h9]
        exact ih i _ _ h7 h8
    · rcases lastOf_zip (k := k) h6 with ⟨h, _⟩ | ⟨i, x, j', h7, h8, h9, h10⟩
      · rw [get k hl, h]; rfl
      · rw [h10] at hk; cases hk

/-! ### The callback -/

theorem isUndefined_mkNumber (d : Val) : isUndefined (mkNumber d) = false := by
  unfold isUndefined mkNumber
  split
  · decide
  · rename_i h
    rw [beq_eq_false_iff_ne]
    rintro rfl
    exact h (by decide)

theorem isUndefined_of_object {v : Val} (h : isObject v = true) : isUndefined v = false := by
  unfold isUndefined
  rw [beq_eq_false_iff_ne]
  rintro rfl
  revert h; decide

theorem isUndefined_of_string {v : Val} (h : isString v = true) : isUndefined v = false := by
  unfold isUndefined
  rw [beq_eq_false_iff_ne]
  rintro rfl
  revert h; decide

/-- The heap of the context and what was done so far. -/
structure Hst (cmem : Nat → Option UInt8) (numText : Val → List UInt8) (c : Ctx) (ops : List ObjOp) : Prop where
  hist : History cmem numText c.heap ops
  noNul : ∀ o ∈ ops, o.noNul

/-- Where a value goes: it is the result, or it goes under a key into the innermost container. -/
inductive Place (ops : List ObjOp) : Option (List UInt8) → List Val → Prop
  | root : Place ops none []
  | mem {f fs k} : created ops f → k ≠ [] → (0 : UInt8) ∉ k → k.length ≤ 255 → Place ops (some k) (f :: fs)

theorem Place.append {ops : List ObjOp} {nm : Option (List UInt8)} {fs : List Val} (h : Place ops nm fs) (new : List ObjOp) : Place (new ++ ops) nm fs := by
  cases h with
  | root => exact .root
  | mem h1 h2 h3 h4 => exact .mem (created_append _ h1) h2 h3 h4

/-- The operation that puts it there. -/
def linkOps : Option (List UInt8) → List Val → Val → List ObjOp
  | some k, f :: _, v => [.set f k v]
  | _, _, _ => []

/-- A step of the callback that leaves the frames as they are. -/
structure Adv (cmem : Nat → Option UInt8) (numText : Val → List UInt8) (c c' : Ctx) (ops' : List ObjOp) : Prop where
  st : Hst cmem numText c' ops'
  frames : c'.frames = c.frames
  error : c'.error = c.error
  keeps : Keeps c.heap.str c'.heap.str

theorem link_ok {c : Ctx} {ops : List ObjOp} {nm : Option (List UInt8)} (hc : Hst cmem numText c ops) (hp : Place ops nm c.frames)
    (hneed : 255 ≤ need) {m : Nat} (hs : Supplied need (m + 1) c.heap c.al) (v : Val) :
    ∃ c', link c nm v = some c' ∧ Adv cmem numText c c' (linkOps nm c.frames v ++ ops) ∧ Supplied need m c'.heap c'.al ∧
      (c.frames = [] → c'.result = v) ∧ (c.frames ≠ [] → c'.result = c.result) := by
  generalize hf : c.frames = fs at hp
  cases hp with
  | root =>
    refine ⟨{ c with result := v, al := c.al }, ?_, ⟨⟨hc.hist, hc.noNul⟩, rfl, rfl, .refl _⟩, ?_, fun _ => rfl, fun h => (h rfl).elim⟩
    · simp [link, hf]
    · exact Supplied.le hs (by omega)
  | @mem f fs k h1 h2 h3 h4 =>
    obtain ⟨A, fo, fp, hsim⟩ := hc.hist.sim
    obtain ⟨o, L, hv, hA, _⟩ := hsim.obj _ h1
    have hk : KeyPtr c.heap.str (.loc k) k := ⟨rfl, loc_load _ _, by omega⟩
    have hg := Supplied.granted hs (k := k.length) (by omega)
    obtain ⟨h', L', fp', e, _, hi, hex, _⟩ := setInternal_spec hsim.inv hA hv hk (goodName_none _ _) v hg false (by simp)
    have e' : Obj.set c.heap f (.loc k) k.length v (c.al 0) = some (h', .ok) := e
    refine ⟨{ c.used with heap := h' }, ?_, ⟨⟨.set hc.hist h1 hk hg e', ?_⟩, rfl, rfl, fun _ _ => reads_mono hsim.inv.str hi.str hex⟩,
      hs.2 h' (.set (by omega) e'), (fun h => by cases h), fun _ => rfl⟩
    · cases k with
      | nil => exact (h2 rfl).elim
      | cons a k =>
        simp only [link, hf, hv.1, if_true, e', Option.map_some]
    · intro o ho
      rcases List.mem_cons.1 ho with rfl | ho
      · exact h3
      · exact hc.noNul o ho

theorem tokenString_ok {E : Env} {c : Ctx} {ops : List ObjOp} {e : Event} {bs : List UInt8} (hc : Hst cmem numText c ops)
    (ht : e.type = .string) (hu : unescape (e.ptr.take e.len) = some bs) (hneed : bs.length ≤ need) {m : Nat}
    (hs : Supplied need (m + 1) c.heap c.al) :
    ∃ c' v, tokenValue E c e = some (c', v) ∧ Adv cmem numText c c' ops ∧ Supplied need m c'.heap c'.al ∧ c'.result = c.result ∧
      isString v = true ∧ Reads c'.heap.str v bs := by
  obtain ⟨A, fo, fp, hsim⟩ := hc.hist.sim
  have hg := Supplied.granted hs hneed
  obtain ⟨st', v, bs', e1, hi, hex, hl, hld, hrd, _, _, _, hcase⟩ :=
    mkStringCopy_core (c.al 0).hr c.heap.str hsim.inv.str (.loc bs) bs.length (c.al 0).strs (.inr ⟨bs, loc_load _ _⟩) hg.room hg.low hg.grant
  have hb := hld rfl
  rw [loc_load] at hb
  cases hb
  refine ⟨{ c.used with heap := { c.heap with str := st' } }, v, ?_, ⟨⟨.string hc.hist rfl (loc_load _ _) hg e1, hc.noNul⟩, rfl, rfl,
    fun _ _ => reads_mono hsim.inv.str hi hex⟩, hs.2 _ (.str hneed e1), rfl, ?_, hrd.reads⟩
  · simp only [tokenValue, ht, hu, e1, Option.map_some]
  · rcases hcase with ⟨_, _, h, _⟩ | ⟨_, _, h, _⟩ | ⟨_, h, _⟩
    · rw [h]; exact isString_tagged 6 (by decide) (mkTagged_tag _ 6)
    · rw [h]; exact isString_tagged 7 (by decide) (mkTagged_tag _ 7)
    · rw [h]; exact isString_tagged 8 (by decide) (mkTagged_tag _ 8)

theorem tokenObject_ok {E : Env} {c : Ctx} {ops : List ObjOp} {e : Event} (hc : Hst cmem numText c ops)
    (ht : e.type = .objectStart) {m : Nat} (hs : Supplied need (m + 1) c.heap c.al) :
    ∃ c' v, tokenValue E c e = some (c', v) ∧ Adv cmem numText c c' (.new v :: ops) ∧ Supplied need m c'.heap c'.al ∧ c'.result = c.result ∧
      ¬ created ops v ∧ isObject v = true ∧ isArray v = false := by
  obtain ⟨A, fo, fp, hsim⟩ := hc.hist.sim
  have hg := Supplied.granted hs (Nat.zero_le _)
  obtain ⟨h', v, o, fo', e1, hv, hA, hstr, _⟩ := mkObject_spec hsim.inv hg.obj
  refine ⟨{ c.used with heap := h' }, v, by simp only [tokenValue, ht, e1, Option.map_some], ⟨⟨.newObject hc.hist hg.obj e1, ?_⟩, rfl, rfl, ?_⟩,
    hs.2 _ (.obj e1), rfl, ?_, hv.1, ?_⟩
  · intro o ho
    rcases List.mem_cons.1 ho with rfl | ho
    · trivial
    · exact hc.noNul o ho
  · show Keeps c.heap.str h'.str
    rw [hstr]; exact .refl _
  · intro hcr
    obtain ⟨o', L, hv', hA', _⟩ := hsim.obj _ hcr
    have := hv.2.symm.trans hv'.2
    cases this
    rw [hA] at hA'
    cases hA'
  · simp only [mkObject, Option.bind_eq_bind, Option.bind_eq_some_iff] at e1
    obtain ⟨_, _, c, _, v', hv', e1⟩ := e1
    cases e1
    exact plain_of_objectToValue hv'

theorem tokenArray_ok {E : Env} {c : Ctx} {ops : List ObjOp} {e : Event} (hc : Hst cmem numText c ops)
    (ht : e.type = .arrayStart) {m : Nat} (hs : Supplied need (m + 1) c.heap c.al) :
    ∃ c' v, tokenValue E c e = some (c', v) ∧ Adv cmem numText c c' (.new v :: ops) ∧ Supplied need m c'.heap c'.al ∧ c'.result = c.result ∧
      ¬ created ops v ∧ isObject v = true ∧ isArray v = true := by
  obtain ⟨A, fo, fp, hsim⟩ := hc.hist.sim
  have hg := Supplied.granted hs (Nat.zero_le _)
  obtain ⟨h', v, e1, hh, hnc, hv⟩ := newArray_step hc.hist hg.obj
  refine ⟨{ c.used with heap := h' }, v, by simp only [tokenValue, ht, e1, Option.map_some], ⟨⟨hh, ?_⟩, rfl, rfl, ?_⟩,
    hs.2 _ (.arr e1), rfl, hnc, ?_, hv⟩
  · intro o ho
    rcases List.mem_cons.1 ho with rfl | ho
    · trivial
    · exact hc.noNul o ho
  · show Keeps c.heap.str h'.str
    obtain ⟨h1, v1, o, fo', e2, _, _, hstr, _⟩ := mkObject_spec hsim.inv hg.obj
    rw [mkArray, e2] at e1
    cases e1
    rw [hstr]; exact .refl _
  · obtain ⟨A, fo, fp, hs'⟩ := hh.sim
    obtain ⟨o, L, hv, _⟩ := hs'.obj v (.inl rfl)
    exact hv.1

/-- A scalar token. -/
theorem scalar_ok {E : Env} {c c1 : Ctx} {ops : List ObjOp} {nm : Option (List UInt8)} {t : TokT} {ptr pa : List UInt8} {len : Nat} {v : Val}
    (h1 : tokenValue E c ⟨nm, t, ptr, len, pa⟩ = some (c1, v)) (ht : t ≠ .objectStart ∧ t ≠ .arrayStart) (hu : isUndefined v = false)
    (ha : Adv cmem numText c c1 ops) (hr : c1.result = c.result) (hp : Place ops nm c.frames)
    (hneed : 255 ≤ need) {m : Nat} (hs : Supplied need (m + 1) c1.heap c1.al) :
    ∃ c', frozenCb E c ⟨nm, t, ptr, len, pa⟩ = some c' ∧ Adv cmem numText c c' (linkOps nm c.frames v ++ ops) ∧ Supplied need m c'.heap c'.al ∧
      (c.frames = [] → c'.result = v) ∧ (c.frames ≠ [] → c'.result = c.result) := by
  rw [← ha.frames] at hp ⊢
  obtain ⟨c', e, ha', hs', h3, h4⟩ := link_ok ha.st hp hneed hs v
  refine ⟨c', ?_, ⟨ha'.st, ha'.frames.trans ha.frames, ha'.error.trans ha.error, ha.keeps.trans ha'.keeps⟩, hs', h3, fun h => (h4 h).trans hr⟩
  simp only [frozenCb, h1, Option.bind_some, hu, Bool.false_eq_true, if_false, e]
  rw [if_neg (by simp [ht.1, ht.2])]

/-- The start of a container. -/
theorem start_ok {E : Env} {c c1 : Ctx} {ops : List ObjOp} {nm : Option (List UInt8)} {t : TokT} {ptr pa : List UInt8} {len : Nat} {v : Val}
    (h1 : tokenValue E c ⟨nm, t, ptr, len, pa⟩ = some (c1, v)) (ht : t = .objectStart ∨ t = .arrayStart) (hu : isObject v = true)
    (ha : Adv cmem numText c c1 ops) (hr : c1.result = c.result) (hp : Place ops nm c.frames)
    (hneed : 255 ≤ need) {m : Nat} (hs : Supplied need (m + 1) c1.heap c1.al) :
    ∃ c', frozenCb E c ⟨nm, t, ptr, len, pa⟩ = some c' ∧ Hst cmem numText c' (linkOps nm c.frames v ++ ops) ∧ c'.frames = v :: c.frames ∧
      c'.error = c.error ∧ Keeps c.heap.str c'.heap.str ∧ Supplied need m c'.heap c'.al ∧
      (c.frames = [] → c'.result = v) ∧ (c.frames ≠ [] → c'.result = c.result) := by
  rw [← ha.frames] at hp
  obtain ⟨c', e, ha', hs', h3, h4⟩ := link_ok ha.st hp hneed hs v
  rw [ha.frames] at ha' h3 h4
  refine ⟨{ c' with frames := v :: c'.frames }, ?_, ⟨ha'.st.hist, ha'.st.noNul⟩, ?_, ha'.error.trans ha.error, ha.keeps.trans ha'.keeps, hs', h3,
    fun h => (h4 h).trans hr⟩
  · simp only [frozenCb, h1, Option.bind_some, isUndefined_of_object hu, Bool.false_eq_true, if_false, e]
    rw [if_pos ht]
  · show v :: c'.frames = _
    rw [ha'.frames, ha.frames]

/-- The end of a container. -/
theorem end_ok {E : Env} {c : Ctx} {t : TokT} {nm : Option (List UInt8)} {ptr pa : List UInt8} {len : Nat} {v : Val} {fs : List Val}
    (ht : t = .objectEnd ∨ t = .arrayEnd) (hf : c.frames = v :: fs) : frozenCb E c ⟨nm, t, ptr, len, pa⟩ = some { c with frames := fs } := by
  rcases ht with rfl | rfl <;> simp only [frozenCb, tokenValue, hf, Option.bind_some] <;> rfl

end Mjs.Json
