import Verif.Lemmas.ClientOps
import Verif.Lemmas.Own
import Verif.Props.Object

/-!
# C63 (and C20): a C program that keeps its values in variables

The specification is `Verif/Spec/Client.lean`: a world without heap and without addresses of objects, in which a
collection changes nothing but the variables that are not registered.  Here a program calls the engine, and the theorems
say that its variables show what the world of the specification has in them, after any number of calls and collections.
-/

namespace Mjs.Props
open Mjs Mjs.Mbuf Mjs.Varint Mjs.Str Mjs.Arena Mjs.Obj Mjs.Spec Mjs.Spec.Gc Mjs.Gc Mjs.Spec.Client Mjs.Client

variable {σ : Type}

/-! ### C20: registering variables -/

/-- **C20.** `mjs_own` adds one registration of a variable (if the memory for it can be had), `mjs_disown` removes one if
there is one, says whether there was one, and leaves the other registrations as they were. -/
theorem C20_registered_partial :
    (∀ (o : Own.Owned) v b, (Own.own o v (some b)).ptrs.Perm (v :: o.ptrs)) ∧
    (∀ (o : Own.Owned) v, o.buf ≠ 0 → ∃ o' r, Own.disown o v = some (o', r) ∧ o'.ptrs.Perm (o.ptrs.erase v) ∧ (r = true ↔ v ∈ o.ptrs)) := by
  refine ⟨fun o v b => ?_, fun o v hb => ?_⟩
  · simp only [Own.own]
    exact List.perm_append_comm (l₂ := [v])
  · have hd : ∃ r, Own.disown o v = some r := by simp [Own.disown, hb]
    obtain ⟨r, hr⟩ := hd
    have := Own.disown_spec hr
    exact ⟨r.1, r.2, hr, this.1, this.2.1⟩

/-- **C20, where it fails.** On an engine on which nothing was ever registered, `mjs_disown` reads through a wild pointer,
whatever the variable; and a registration that gets no memory is dropped without a sign. -/
theorem C20_registered_disown_fails (v : Nat) : Own.disown ⟨0, []⟩ v = none ∧ (∀ o : Own.Owned, Own.own o v none = o) := ⟨rfl, fun _ => rfl⟩

example : Own.disown ⟨4096, [8, 16, 8, 24]⟩ 8 = some (⟨4096, [8, 16, 24]⟩, true) := rfl
example : Own.disown ⟨4096, [8, 16, 24]⟩ 16 = some (⟨4096, [8, 24]⟩, true) := rfl
example : Own.disown ⟨4096, [8, 16, 24]⟩ 32 = some (⟨4096, [8, 16, 24]⟩, false) := rfl

/-! ### The engine -/

/-- The memory of the engine, the variables it collects from, and the block of the registrations. -/
structure Engine (σ : Type) where
  mem : Mem σ
  roots : Roots
  buf : Nat

def Engine.write (E : Engine σ) (a : Nat) (v : Val) : Engine σ := { E with mem := { E.mem with vars := upd E.mem.vars a (some v) } }

def Engine.heap (E : Engine σ) (h : Heap) : Engine σ := { E with mem := { E.mem with heap := h } }

/-- A place for a variable: not NULL, 48 bits, outside the property cells. -/
def Place (m : Mem σ) (a : Nat) : Prop :=
  0 < a ∧ a < 2 ^ 48 ∧ m.heap.props.mem (a - 8) = none ∧ m.heap.props.mem (a - 16) = none

/-- The calls of the program.  Keys contain no NUL (what happens otherwise is C15); the C allocator grants what is asked
for, and does not return memory that holds a variable; a collection starts with fewer than 2^31 bytes of strings. -/
inductive Call [Inhabited σ] : Engine σ → Client.Op → Engine σ → Prop
  | declare {E a} : Place E.mem a → Call E (.declare a) (E.write a mkUndefined)
  | own {E a b} : b ≠ 0 →
      Call E (.own a) { E with buf := b, roots := { E.roots with owned := (Own.own ⟨E.buf, E.roots.owned⟩ a (some b)).ptrs } }
  | disown {E a o r} : Own.disown ⟨E.buf, E.roots.owned⟩ a = some (o, r) →
      Call E (.disown a) { E with buf := o.buf, roots := { E.roots with owned := o.ptrs } }
  | put {E a v} : Call E (.put a v) (E.write a v)
  | copy {E a b v} : E.mem.vars b = some v → Call E (.copy a b) (E.write a v)
  | newObj {E a al h v} : CallocOk E.mem.heap.objs al.obj → mkObject E.mem.heap al = some (h, v) →
      Call E (.newObj a) ((E.heap h).write a v)
  | newStr {E a bs p al st v} : p.isNull = false → load E.mem.heap.str.cmem E.mem.heap.str.owned p bs.length = some bs →
      Granted E.mem.heap bs.length al → mkStringCopy al.hr E.mem.heap.str p bs.length al.strs = some (st, v) →
      Call E (.newStr a bs) ((E.heap { E.mem.heap with str := st }).write a v)
  | set {E a k b va vb name al h e} : E.mem.vars a = some va → E.mem.vars b = some vb → KeyPtr E.mem.heap.str name k →
      (0 : UInt8) ∉ k → Granted E.mem.heap k.length al → Clear E.mem al →
      Obj.set E.mem.heap va name k.length vb al = some (h, e) → Call E (.set a k b) (E.heap h)
  | get {E c a k va name y} : E.mem.vars a = some va → KeyPtr E.mem.heap.str name k → (0 : UInt8) ∉ k →
      Obj.get E.mem.heap va name k.length = some y → Call E (.get c a k) (E.write c y)
  | del {E a k va name h b} : E.mem.vars a = some va → KeyPtr E.mem.heap.str name k → (0 : UInt8) ∉ k →
      Obj.del E.mem.heap va name k.length = some (h, b) → Call E (.del a k) (E.heap h)
  | gc {E N full al m'} : E.mem.heap.str.owned.len < 2 ^ 31 → AllocLow al →
      (∀ n, N ≤ n → mjsGc n E.mem E.roots full al = some m') → Call E .gc { E with mem := m' }

/-- A program that starts with a new engine, together with the world of the specification.  The engine's own variables
(`vals`, the scopes, …) are in `r`; they may be used like the others. -/
inductive Run [Inhabited σ] (cmem : Nat → Option UInt8) : Engine σ → World → Prop
  | create {hr al1 al2 bo bp bs h sz sg} {r : Roots} : AllocLow al1 → AllocLow al2 → al1 ≠ none →
      (∀ b, bo = some b → 0 < b ∧ b % 8 = 0 ∧ b + 20 * 8 < 2 ^ 47) → (∀ b, bp = some b → 0 < b ∧ b % 8 = 0 ∧ b + 20 * 24 < 2 ^ 47) →
      0 < sz → sz % 8 = 0 → 0 < bs → bs % 8 = 0 → bs + 20 * sz < 2 ^ 47 → createHeap hr cmem al1 al2 bo bp = some h →
      Arena.init sz 20 10 (some bs) = some sg → r.owned = [] →
      (∀ a ∈ r.all, Place (σ := σ) ⟨h, sg, fun _ => none⟩ a) →
      Run cmem ⟨⟨h, sg, fun a => if a ∈ r.all then some mkUndefined else none⟩, r, 0⟩
        ⟨fun a => if a ∈ r.all then some (.prim mkUndefined) else none, fun _ => [], 0, r.all, []⟩
  | step {E w op E' w'} : Run cmem E w → Call E op E' → Means w op w' → Run cmem E' w'

/-! ### The representation -/

/-- The engine holds the world. -/
def Good (E : Engine σ) (w : World) : Prop :=
  (∃ L A g fo fp fs, Holds E.mem w L A g fo fp fs) ∧ E.roots.owned.Perm w.owned ∧
  (∀ a, (a ∈ E.roots.vals ∨ a ∈ E.roots.scopes ∨ a ∈ E.roots.stack ∨ a ∈ E.roots.callStack ∨ a ∈ E.roots.cbArgs) ↔ a ∈ w.fixed) ∧
  ∀ a, a ∈ w.fixed ∨ a ∈ w.owned → w.vars a ≠ none

theorem roots_all (r : Roots) (a : Nat) : a ∈ r.all ↔
    (a ∈ r.vals ∨ a ∈ r.scopes ∨ a ∈ r.stack ∨ a ∈ r.callStack ∨ a ∈ r.cbArgs) ∨ a ∈ r.owned := by
  simp only [Roots.all, List.mem_append]
  constructor
  · rintro (((((h | h) | h) | h) | h) | h) <;> simp [h]
  · rintro ((h | h | h | h | h) | h) <;> simp [h]

theorem Good.roots {E : Engine σ} {w} (h : Good E w) (a : Nat) : a ∈ E.roots.all ↔ a ∈ w.fixed ∨ a ∈ w.owned := by
  rw [roots_all, h.2.2.1, h.2.1.mem_iff]

theorem Good.rootVars {E : Engine σ} {w} (h : Good E w) (a : Nat) (ha : a ∈ E.roots.all) : w.vars a ≠ none :=
  h.2.2.2 a ((h.roots a).1 ha)

theorem good_create [Inhabited σ] {cmem hr al1 al2 bo bp bs h sz sg} {r : Roots} (h1 : AllocLow al1) (h2 : AllocLow al2) (h3 : al1 ≠ none)
    (ho : ∀ b, bo = some b → 0 < b ∧ b % 8 = 0 ∧ b + 20 * 8 < 2 ^ 47) (hp : ∀ b, bp = some b → 0 < b ∧ b % 8 = 0 ∧ b + 20 * 24 < 2 ^ 47)
    (hs : 0 < sz) (hs8 : sz % 8 = 0) (hb : 0 < bs) (hb8 : bs % 8 = 0) (hbm : bs + 20 * sz < 2 ^ 47)
    (hc : createHeap hr cmem al1 al2 bo bp = some h) (hg : Arena.init sz 20 10 (some bs) = some sg) (hr0 : r.owned = [])
    (hpl : ∀ a ∈ r.all, Place (σ := σ) ⟨h, sg, fun _ => none⟩ a) :
    Good (⟨⟨h, sg, fun a => if a ∈ r.all then some mkUndefined else none⟩, r, 0⟩ : Engine σ)
      ⟨fun a => if a ∈ r.all then some (.prim mkUndefined) else none, fun _ => [], 0, r.all, []⟩ := by
  obtain ⟨fo, fp, hi⟩ := createHeap_inv h1 h2 ho hp hc
  simp only [createHeap, Option.bind_eq_bind, Option.bind_eq_some_iff] at hc
  obtain ⟨st, hst, ao, hao, ap, hap, hc⟩ := hc
  cases hc
  obtain ⟨bo, rfl⟩ : ∃ b, bo = some b := by
    cases bo with
    | none => simp [Arena.init, newBlock] at hao
    | some b => exact ⟨b, rfl⟩
  obtain ⟨bp, rfl⟩ : ∃ b, bp = some b := by
    cases bp with
    | none => simp [Arena.init, newBlock] at hap
    | some b => exact ⟨b, rfl⟩
  obtain ⟨a1, e1, ok1, c1, _, u1⟩ := init_spec (α := Unit) 8 20 10 bo (by decide) (by decide) (by decide) (ho _ rfl).1 (ho _ rfl).2.1 (ho _ rfl).2.2
  obtain ⟨a2, e2, ok2, c2, _, u2⟩ := init_spec (α := Val × Val) 24 20 10 bp (by decide) (by decide) (by decide) (hp _ rfl).1 (hp _ rfl).2.1
    (hp _ rfl).2.2
  obtain ⟨a3, e3, ok3, c3, _, u3⟩ := init_spec (α := σ) sz 20 10 bs hs hs8 (by decide) hb hb8 hbm
  rw [hao] at e1; cases e1
  rw [hap] at e2; cases e2
  rw [hg] at e3; cases e3
  have ev : ∀ {α : Type} [Inhabited α] {a : Arena α} {fl}, Ok a fl → (∀ x, ¬ Used a fl x) → ∀ x c, a.mem x = some c → c.head % 2 = 0 := by
    intro α _ a fl hok hu x c hx
    by_cases hf : x ∈ fl
    · exact ok_even hok hf hx
    · exact absurd ⟨by simp [hx], hf⟩ (hu x)
  have hcont : st.owned.content = stringBytes [] := by
    simp only [createStore, Option.bind_eq_bind, Option.bind_eq_some_iff] at hst
    obtain ⟨⟨mb, q⟩, hq, hh⟩ := hst
    cases hh
    have hi0 : Mbuf.Inv (Mbuf.init 0 none) := by simp [Mbuf.init, resize, Mbuf.Inv, Mbuf.size]
    obtain ⟨m', r', he, _, hcase⟩ := insert_spec hr (Mbuf.init 0 none) hi0 _ [0] al1 al2 (Nat.le_refl _)
      (by simp [Mbuf.init, resize, Mbuf.size]) h1.ok h2.ok
    have : some (mb, q) = some (m', r') := by rw [← hq, ← he]; rfl
    cases this
    rcases hcase with ⟨_, hcc⟩ | ⟨_, _, hbad | ⟨_, hbad⟩⟩
    · rw [hcc]; rfl
    · exfalso
      have : (Mbuf.init 0 none).addr = 0 := rfl
      rw [this] at hbad
      simp at hbad
    · exact absurd hbad h3
  refine ⟨⟨[], fun _ => none, fun _ => none, fo, fp, (cells sz bs 20).reverse, ?_⟩, ?_, ?_, ?_⟩
  · refine ⟨hi, hcont, by simp, ok3, ev ok3 u3, c2, ev ok1 u1, ev ok2 u2, ?_, by simp, by simp, by simp, by simp, by simp, ?_⟩
    · intro a ha
      simp only at ha
      split at ha
      · exact hpl a ‹_›
      · exact absurd rfl ha
    · intro a x hx
      simp only at hx
      split at hx
      · next hm =>
        cases hx
        exact ⟨mkUndefined, by simp [hm], rfl, by decide, by decide, by decide⟩
      · cases hx
  · simp only [hr0]
    exact List.Perm.refl _
  · intro a
    simp only [roots_all, hr0, List.not_mem_nil, or_false]
  · intro a ha
    simp only [List.not_mem_nil, or_false] at ha
    simp [ha]

theorem assign_vars {w : World} {a x b} (h : w.vars b ≠ none) : (w.assign a x).vars b ≠ none := by
  simp only [World.assign]
  split <;> simp_all

/-- Every call keeps the representation. -/
theorem good_step [Inhabited σ] {E E' : Engine σ} {w w' op} (h : Good E w) (hc : Call E op E') (hm : Means w op w') : Good E' w' := by
  obtain ⟨⟨L, A, g, fo, fp, fs, hh⟩, h2, h3, h4⟩ := h
  cases hc with
  | declare hp =>
    cases hm
    exact ⟨⟨L, A, g, fo, fp, fs, hh.write hp ⟨rfl, by decide, by decide, by decide⟩⟩, h2, h3, fun b hb => assign_vars (h4 b hb)⟩
  | @own a b hb =>
    cases hm with
    | own hv =>
      refine ⟨⟨L, A, g, fo, fp, fs, hh.reg _⟩, ?_, h3, ?_⟩
      · simp only [Own.own]
        exact (List.perm_append_comm (l₂ := [a])).trans (h2.cons a)
      · intro x hx
        rcases hx with hx | hx
        · exact h4 x (.inl hx)
        · rcases List.mem_cons.1 hx with rfl | hx
          · exact hv
          · exact h4 x (.inr hx)
  | disown hd =>
    cases hm
    refine ⟨⟨L, A, g, fo, fp, fs, hh.reg _⟩, (Own.disown_spec hd).1.trans (h2.erase _), h3, ?_⟩
    intro x hx
    exact h4 x (hx.imp_right List.mem_of_mem_erase)
  | put =>
    cases hm with
    | put hv hp => exact ⟨⟨L, A, g, fo, fp, fs, hh.write (hh.place hv) ⟨rfl, hp⟩⟩, h2, h3, fun b hb => assign_vars (h4 b hb)⟩
  | copy hv =>
    cases hm with
    | copy ha hb =>
      obtain ⟨v, hv', hr⟩ := hh.vars _ _ hb
      rw [hv] at hv'
      cases hv'
      exact ⟨⟨L, A, g, fo, fp, fs, hh.write (hh.place ha) hr⟩, h2, h3, fun b hb => assign_vars (h4 b hb)⟩
  | newObj hg he =>
    cases hm with
    | newObj ha =>
      obtain ⟨o, fo', hh', hr⟩ := hh.newObj hg he
      have hw := hh'.write (hh'.place (a := _) ha) hr
      exact ⟨⟨L, _, _, fo', fp, fs, hw⟩, h2, h3, fun b hb => assign_vars (h4 b hb)⟩
  | newStr hp hl hg he =>
    cases hm with
    | newStr ha =>
      obtain ⟨hi, hex, hz, L', hL, hcont, hlong, hgood⟩ :=
        copy_good hh.inv.str hh.content hh.long hp hl hg.room hg.low hg.grant he
      have hh' := hh.store hi hex hL hcont hlong
      have hw := hh'.write (hh'.place (a := _) ha) (x := .str _) ⟨reads_isString hz.reads, hz.reads, hgood⟩
      exact ⟨⟨L', _, _, fo, fp, fs, hw⟩, h2, h3, fun b hb => assign_vars (h4 b hb)⟩
  | set hva hvb hk h0 hg hcl he =>
    cases hm with
    | set ha hb =>
      obtain ⟨v1, hv1, hr1⟩ := hh.vars _ _ ha
      rw [hva] at hv1; cases hv1
      obtain ⟨v2, hv2, hr2⟩ := hh.vars _ _ hb
      rw [hvb] at hv2; cases hv2
      obtain ⟨_, L', A', fp', hh'⟩ := hh.set hr1 hk h0 hr2 hg hcl he
      exact ⟨⟨L', A', g, fo, fp', fs, hh'⟩, h2, h3, h4⟩
  | get hva hk h0 he =>
    cases hm with
    | get hcv ha =>
      obtain ⟨v1, hv1, hr1⟩ := hh.vars _ _ ha
      rw [hva] at hv1; cases hv1
      have hr := hh.get hr1 hk h0 he
      exact ⟨⟨L, A, g, fo, fp, fs, hh.write (hh.place hcv) hr⟩, h2, h3, fun b hb => assign_vars (h4 b hb)⟩
  | del hva hk h0 he =>
    cases hm with
    | del ha =>
      obtain ⟨v1, hv1, hr1⟩ := hh.vars _ _ ha
      rw [hva] at hv1; cases hv1
      obtain ⟨_, A', hh'⟩ := hh.del hr1 hk h0 he
      exact ⟨⟨L, A', g, fo, fp, fs, hh'⟩, h2, h3, h4⟩
  | gc hsz hal hgc =>
    cases hm with
    | gc =>
      have hroots : ∀ a, a ∈ E.roots.all ↔ a ∈ w.fixed ∨ a ∈ w.owned := fun a => by rw [roots_all, h3, h2.mem_iff]
      have hrv : ∀ a ∈ E.roots.all, w.vars a ≠ none := fun a ha => h4 a ((hroots a).1 ha)
      have hs := hh.sound hrv hsz
      obtain ⟨N', m1, L', fo', fp', fs', hrun, hcol⟩ := gc_spec E.roots hs _ _ hal
      have e : some m1 = some _ := (hrun (max N' _) (Nat.le_max_left _ _)).symm.trans (hgc (max N' _) (Nat.le_max_right _ _))
      cases e
      refine ⟨⟨L', _, _, fo', fp', fs', hh.gc hrv hs hcol (fun a => a ∈ w.fixed ∨ a ∈ w.owned) fun a ha => (hroots a).2 ha⟩, h2, h3, ?_⟩
      intro a ha
      have := h4 a ha
      simp only
      split
      · simp
      · rw [if_pos ha]; exact this

theorem run_good [Inhabited σ] {cmem} {E : Engine σ} {w} (h : Run cmem E w) : Good E w := by
  induction h with
  | create h1 h2 h3 ho hp hs hs8 hb hb8 hbm hc hg hr0 hpl => exact good_create h1 h2 h3 ho hp hs hs8 hb hb8 hbm hc hg hr0 hpl
  | step _ hc hm ih => exact good_step ih hc hm

/-! ### C63 -/

/-- What the program sees of a value: primitive values as such, strings by `mjs_get_string`, objects as objects. -/
def Sees (E : Engine σ) (v : Val) : AVal → Prop
  | .prim u => v = u
  | .str bs => isString v = true ∧ Reads E.mem.heap.str v bs
  | .obj _ => isObject v = true ∧ isArray v = false

theorem rep_sees {E : Engine σ} {L g v x} (h : Rep E.mem.heap.str L g v x) : Sees E v x := by
  cases x with
  | prim u => exact h.1
  | str bs => exact ⟨h.1, h.2.1⟩
  | obj i =>
    refine ⟨isObject_tag h.1, ?_⟩
    rw [isArray, h.1]
    decide

/-- **C63.** After any history of calls and collections every variable of the program that has a value in the
specification has that value: the primitive value itself, a string with the same bytes, an object. -/
theorem C63_variables [Inhabited σ] {cmem} {E : Engine σ} {w} (h : Run cmem E w) {a x} (hx : w.vars a = some x) :
    ∃ v, E.mem.vars a = some v ∧ Sees E v x := by
  obtain ⟨⟨L, A, g, fo, fp, fs, hh⟩, _⟩ := run_good h
  obtain ⟨v, hv, hr⟩ := hh.vars a x hx
  exact ⟨v, hv, rep_sees hr⟩

/-- **C63.** Two variables hold the same object value exactly if they hold the same object. -/
theorem C63_identity [Inhabited σ] {cmem} {E : Engine σ} {w} (h : Run cmem E w) {a b i j v u} (ha : w.vars a = some (.obj i))
    (hb : w.vars b = some (.obj j)) (hv : E.mem.vars a = some v) (hu : E.mem.vars b = some u) : v = u ↔ i = j := by
  obtain ⟨⟨L, A, g, fo, fp, fs, hh⟩, _⟩ := run_good h
  obtain ⟨v', hv', hr⟩ := hh.vars a _ ha
  obtain ⟨u', hu', hr'⟩ := hh.vars b _ hb
  rw [hv] at hv'; cases hv'
  rw [hu] at hu'; cases hu'
  constructor
  · rintro rfl
    have := hr.2.symm.trans hr'.2
    exact Option.some.inj this
  · rintro rfl
    exact val_ext (hr.1.trans hr'.1.symm) (by rw [valToOffset, valToOffset, BitVec.eq_of_toNat_eq (hh.inj _ _ _ hr.2 hr'.2)])

/-- **C63.** `mjs_get` on a variable that holds an object succeeds and gives the value the specification has for the key:
also an object of which only this one refers to. -/
theorem C63_get [Inhabited σ] {cmem} {E : Engine σ} {w} (h : Run cmem E w) {a i v} (ha : w.vars a = some (.obj i))
    (hv : E.mem.vars a = some v) {name k} (hk : KeyPtr E.mem.heap.str name k) (h0 : (0 : UInt8) ∉ k) :
    ∃ y, Obj.get E.mem.heap v name k.length = some y ∧ Sees E y (valueOf (w.objs i) k) := by
  obtain ⟨⟨L, A, g, fo, fp, fs, hh⟩, _⟩ := run_good h
  obtain ⟨v', hv', hr⟩ := hh.vars a _ ha
  rw [hv] at hv'; cases hv'
  have hio : IsObj v (getPtrRaw v).toNat := ⟨isObject_tag hr.1, rfl⟩
  cases hA : A (getPtrRaw v).toNat with
  | none => have := (hh.dom _).1 hA; rw [hr.2] at this; cases this
  | some Ls =>
    have he := get_spec hh.inv hA hio hk
    exact ⟨_, he, rep_sees (hh.get hr hk h0 he)⟩

/-- **C63.** A collection does not fail, whatever the program did before: no `abort`, no read outside a block, and an end;
and the next one can follow. -/
theorem C63_collect [Inhabited σ] {cmem} {E : Engine σ} {w} (h : Run cmem E w) (hs : E.mem.heap.str.owned.len < 2 ^ 31) (full : Bool) {al}
    (hal : AllocLow al) : ∃ N m', (∀ n, N ≤ n → mjsGc n E.mem E.roots full al = some m') ∧ m'.heap.str.owned.len < 2 ^ 31 := by
  have hg := run_good h
  obtain ⟨L, A, g, fo, fp, fs, hh⟩ := hg.1
  obtain ⟨N, m', _, _, _, _, hrun, hcol⟩ := gc_spec E.roots (hh.sound (fun a ha => hg.rootVars a ha) hs) full al hal
  exact ⟨N, m', hrun, hcol.sound.small⟩

/-- **C63.** The states of such a program are states a collection starts from, so that C24, C25 and C27 apply. -/
theorem C63_sound [Inhabited σ] {cmem} {E : Engine σ} {w} (h : Run cmem E w) (hs : E.mem.heap.str.owned.len < 2 ^ 31) :
    ∃ L fo fp fs, Sound E.mem E.roots.all L fo fp fs := by
  have hg := run_good h
  obtain ⟨L, A, g, fo, fp, fs, hh⟩ := hg.1
  exact ⟨L, fo, fp, fs, hh.sound (fun a ha => hg.rootVars a ha) hs⟩

/-- **C63.** The calls succeed when the allocator grants what they ask for: assigning and deleting properties of an
object in a variable. -/
theorem C63_set_del [Inhabited σ] {cmem} {E : Engine σ} {w} (h : Run cmem E w) {a i v} (ha : w.vars a = some (.obj i))
    (hv : E.mem.vars a = some v) {name k} (hk : KeyPtr E.mem.heap.str name k) (h0 : (0 : UInt8) ∉ k) :
    (∀ u al, Granted E.mem.heap k.length al → ∃ h', Obj.set E.mem.heap v name k.length u al = some (h', .ok) ∧
      h'.str.owned.len ≤ E.mem.heap.str.owned.len + k.length + 11) ∧
    ∃ h', Obj.del E.mem.heap v name k.length = some (h', (w.objs i).any fun q => q.1 == k) := by
  obtain ⟨⟨L, A, g, fo, fp, fs, hh⟩, _⟩ := run_good h
  obtain ⟨v', hv', hr⟩ := hh.vars a _ ha
  rw [hv] at hv'; cases hv'
  have hio : IsObj v (getPtrRaw v).toNat := ⟨isObject_tag hr.1, rfl⟩
  cases hA : A (getPtrRaw v).toNat with
  | none => have := (hh.dom _).1 hA; rw [hr.2] at this; cases this
  | some Ls =>
    constructor
    · intro u al hg
      obtain ⟨h', _, _, e, _, _, _, _, hl⟩ := setInternal_spec hh.inv hA hio hk (goodName_none _ _) u hg false (by simp)
      exact ⟨h', e, hl⟩
    · obtain ⟨h', b, e, _⟩ := del_spec hh.inv hA hio hk
      rw [e]
      exact ⟨h', by rw [(hh.del hr hk h0 e).1]⟩

/-! ### A concrete program -/

/-- `o = mjs_mk_object(mjs); s = mjs_mk_string(mjs, "abcdefg", 7, 1);` on a new engine. -/
def demoProg : Option (Heap × Heap × Val × Store × Val) := do
  let h ← createHeap 0 demoMem (some (4096, fun _ => 0)) (some (4096, fun _ => 0)) (some 8192) (some 16384)
  let (h1, o) ← mkObject h demoAl
  let (st, s) ← mkStringCopy 0 h1.str (.loc [97, 98, 99, 100, 101, 102, 103]) 7 demoAl.strs
  pure (h, h1, o, st, s)

/-- The hypotheses of the theorems above are met: a program that registers the variable at 32768 for an object, puts a
string into the property `ab` of that object from a variable that is not registered, and then collects. -/
theorem demo_run : ∃ (E : Engine Unit) (w : World), Run demoMem E w ∧ E.roots.all = [40000, 32768] ∧ w.vars 32768 = some (.obj 0) ∧
    w.vars 32776 = none ∧ w.objs 0 = [([97, 98], .str [97, 98, 99, 100, 101, 102, 103])] ∧ E.mem.heap.str.owned.len < 2 ^ 31 := by
  have hlow : AllocLow (some (4096, fun _ => 0)) := by intro r hr; cases hr; exact ⟨by decide, by decide⟩
  have hd : demoProg.map (fun x => (x.1.objs.free, x.2.1.objs.free, x.2.1.props.free, x.2.1.str.owned.len, x.2.2.2.1.owned.len)) =
      some (8344, 8336, 16840, 1, 10) := by decide +kernel
  have hpl : demoProg.map (fun x => [40000, 32768, 32776].all fun a => (x.1.props.mem (a - 8)).isNone && (x.1.props.mem (a - 16)).isNone) =
      some true := by decide +kernel
  cases hdp : demoProg with
  | none => rw [hdp] at hd; cases hd
  | some x =>
    obtain ⟨h, h1, o, st, s⟩ := x
    rw [hdp] at hd hpl
    simp only [Option.map_some, Option.some.injEq, Prod.mk.injEq] at hd hpl
    obtain ⟨d1, d2, d3, d4, d5⟩ := hd
    have hp : ∀ a ∈ [40000, 32768, 32776], h.props.mem (a - 8) = none ∧ h.props.mem (a - 16) = none := by
      intro a ha
      have := List.all_eq_true.1 hpl a ha
      simpa using this
    simp only [demoProg, Option.bind_eq_bind, Option.bind_eq_some_iff] at hdp
    obtain ⟨h', hc, ⟨h1', o'⟩, hm, ⟨st', s'⟩, hs, e⟩ := hdp
    simp only [Option.pure_def, Option.some.injEq, Prod.mk.injEq] at e hs
    obtain ⟨rfl, rfl, rfl, rfl, rfl⟩ := e
    have n1 : h'.objs.free ≠ 0 := by rw [d1]; decide
    have n2 : h1'.objs.free ≠ 0 := by rw [d2]; decide
    have n3 : h1'.props.free ≠ 0 := by rw [d3]; decide
    obtain ⟨sg, hsg⟩ : ∃ sg : Arena Unit, Arena.init 8 20 10 (some 65536) = some sg := ⟨_, rfl⟩
    have r0 := Run.create (σ := Unit) (cmem := demoMem) (r := ⟨[40000], [], [], [], [], []⟩) hlow hlow (by simp) (by simp) (by simp)
      (by decide) (by decide) (by decide) (by decide) (by decide) hc hsg rfl (by
        intro a ha
        simp only [Roots.all, List.append_nil, List.mem_singleton] at ha
        subst ha
        exact ⟨by decide, by decide, hp 40000 (by simp)⟩)
    have r1 := Run.step r0 (.declare (a := 32768) ⟨by decide, by decide, hp 32768 (by simp)⟩) .declare
    have r2 := Run.step r1 (.declare (a := 32776) ⟨by decide, by decide, hp 32776 (by simp)⟩) .declare
    have r3 := Run.step r2 (.own (a := 32768) (b := 4096) (by decide)) (.own (by simp [World.assign]))
    have r4 := Run.step r3 (.newObj (a := 32768) (al := demoAl) (fun hf => absurd hf n1) hm)
      (.newObj (by simp [World.assign]))
    have gr : Granted h1' 7 demoAl := ⟨fun i => hlow, by simp [demoAl], by rw [d4]; decide, fun hf => absurd hf n2, fun hf => absurd hf n3⟩
    have r5 := Run.step r4 (.newStr (a := 32776) (bs := [97, 98, 99, 100, 101, 102, 103]) (al := demoAl) rfl rfl gr hs)
      (.newStr (by simp [World.assign, World.setObj]))
    have hk : KeyPtr st' (.loc [97, 98]) [97, 98] := ⟨rfl, rfl, by decide⟩
    have gr' : Granted { h1' with str := st' } 2 demoAl :=
      ⟨fun i => hlow, by simp [demoAl], by simp only [d5]; decide, fun hf => absurd hf n2, fun hf => absurd hf n3⟩
    obtain ⟨h2, e2, hlen⟩ := (C63_set_del r5 (a := 32768) (i := 0) (by rfl) (by rfl) hk (by decide)).1 s' demoAl gr'
    have r6 := Run.step r5 (.set (a := 32768) (b := 32776) (by rfl) (by rfl) hk (by decide) gr' (by intro b hb; cases hb) e2)
      (.set (i := 0) (x := .str [97, 98, 99, 100, 101, 102, 103]) (by rfl) (by rfl))
    have hl : h2.str.owned.len < 2 ^ 31 := by
      have : h2.str.owned.len ≤ st'.owned.len + 2 + 11 := hlen
      omega
    obtain ⟨N, m', hgc, hl'⟩ := C63_collect r6 hl true hlow
    have r7 := Run.step r6 (.gc hl hlow hgc) .gc
    exact ⟨_, _, r7, rfl, rfl, rfl, rfl, hl'⟩

/-- So `mjs_get` finds the string after the collection, and the object is still one. -/
example : ∃ (E : Engine Unit) (w : World) (v y : Val), Run demoMem E w ∧ E.mem.vars 32768 = some v ∧ isObject v = true ∧
    Obj.get E.mem.heap v (.loc [97, 98]) 2 = some y ∧ Reads E.mem.heap.str y [97, 98, 99, 100, 101, 102, 103] := by
  obtain ⟨E, w, hr, _, ha, _, ho, _⟩ := demo_run
  obtain ⟨v, hv, hs⟩ := C63_variables hr ha
  obtain ⟨y, hy, hys⟩ := C63_get hr ha hv (name := .loc [97, 98]) (k := [97, 98]) ⟨rfl, rfl, by decide⟩ (by decide)
  rw [ho] at hys
  exact ⟨E, w, v, y, hr, hv, hs.1, hy, hys.2⟩

end Mjs.Props
