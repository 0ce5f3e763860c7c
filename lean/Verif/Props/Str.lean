import Verif.Lemmas.StrForeign
import Verif.Props.Value

/-!
# C07-C10: strings

`Reads st v bs` (Model/Str.lean) is what a C user observes: `mjs_get_string` on `v` returns a non-NULL pointer and a size,
and the bytes at that pointer are `bs`.  `ReadsZ` says in addition that a NUL byte follows.
-/

namespace Mjs.Props
open Mjs Mjs.Mbuf Mjs.Str

/-- **C07, one copy.** In any well-formed store, making a string by copying the `len` bytes `bs` at any readable place
`p` (C memory, another engine string, a local value), whatever the allocator does to place the blocks (it grants the
request), gives a string that reads back as `bs`, NUL-terminated; every string that could be read before reads the
same afterwards. -/
theorem C07_copy_reads_back (hr : Nat) (st : Store) (hi : InvS st) (p : Ptr) (bs : List UInt8) (als : Nat → Alloc)
    (hp : p.isNull = false) (hsrc : load st.cmem st.owned p bs.length = some bs)
    (hsz : st.owned.len + bs.length + 11 < 2 ^ 48) (hal : ∀ i, AllocLow (als i)) (hgrant : als 1 ≠ none) :
    ∃ st' v, mkStringCopy hr st p bs.length als = some (st', v) ∧ InvS st' ∧ ReadsZ st' v bs ∧
      (∀ w ws, Reads st w ws → Reads st' w ws) ∧ (∀ w ws, ReadsZ st w ws → ReadsZ st' w ws) := by
  obtain ⟨st', v, bs', e, i, x, _, h, r, _⟩ := mkStringCopy_core hr st hi p bs.length als (Or.inr ⟨bs, hsrc⟩) hsz hal hgrant
  have := h hp
  rw [hsrc] at this
  cases this
  exact ⟨st', v, e, i, r, fun _ _ => reads_mono hi i x, fun _ _ => readsZ_mono hi i x⟩

/-- **C07, strings without copy.** A string that refers to C memory reads as that memory, and the other strings keep
their bytes. -/
theorem C07_foreign_reads_back (hr : Nat) (st : Store) (hi : InvS st) (a : Nat) (bs : List UInt8) (als : Nat → Alloc)
    (hsrc : readC st.cmem a bs.length = some bs) (ha : a < 2 ^ 64) (hlen : bs.length < 2 ^ 64)
    (hsz : st.foreign.len + 18 < 2 ^ 48) (hsz' : st.owned.len + 11 < 2 ^ 48)
    (hal : ∀ i, AllocLow (als i)) (h0 : als 0 ≠ none) (h1 : als 1 ≠ none) :
    ∃ st' v, mkStringForeign hr st a bs.length als = some (st', v) ∧ InvS st' ∧ Reads st' v bs ∧
      (∀ w ws, Reads st w ws → Reads st' w ws) := by
  obtain ⟨st', v, e, i, x, r⟩ := mkStringForeign_core hr st hi a bs.length als bs hsrc ha hlen hsz hsz' hal h0 h1
  exact ⟨st', v, e, i, r, fun _ _ => reads_mono hi i x⟩

/-- Histories of string creation from a fresh engine, with the list of all strings made and the bytes each was meant to
hold.  Allocation requests are granted, at any address in the lower half; the stores stay below 2^48 bytes. -/
inductive Made (hr : Nat) (cmem : Nat → Option UInt8) : Store → List (Val × List UInt8) → Prop
  | create {al1 al2 st} : AllocLow al1 → AllocLow al2 → al1 ≠ none → createStore hr cmem al1 al2 = some st →
      Made hr cmem st []
  | copy {st L p bs als st' v} : Made hr cmem st L → p.isNull = false → load st.cmem st.owned p bs.length = some bs →
      st.owned.len + bs.length + 11 < 2 ^ 48 → (∀ i, AllocLow (als i)) → als 1 ≠ none →
      mkStringCopy hr st p bs.length als = some (st', v) → Made hr cmem st' ((v, bs) :: L)
  | nocopy {st L a bs als st' v} : Made hr cmem st L → readC st.cmem a bs.length = some bs → a < 2 ^ 64 →
      bs.length < 2 ^ 64 → st.foreign.len + 18 < 2 ^ 48 → st.owned.len + 11 < 2 ^ 48 → (∀ i, AllocLow (als i)) →
      als 0 ≠ none → als 1 ≠ none →
      mkStringForeign hr st a bs.length als = some (st', v) → Made hr cmem st' ((v, bs) :: L)
  | concat {st L a b x y als st' v} : Made hr cmem st L → (a, x) ∈ L → (b, y) ∈ L →
      st.owned.len + (x.length + y.length) + 11 < 2 ^ 48 → (∀ i, AllocLow (als i)) → als 1 ≠ none →
      sConcat hr st a b als = some (st', v) → Made hr cmem st' ((v, x ++ y) :: L)

theorem create_inv {hr cmem al1 al2 st} (h1 : AllocLow al1) (h2 : AllocLow al2) (h : createStore hr cmem al1 al2 = some st) :
    InvS st := by
  simp only [createStore, Option.bind_eq_bind, Option.bind_eq_some_iff] at h
  obtain ⟨⟨m, r⟩, h, hh⟩ := h
  cases hh
  have hi0 : InvL (Mbuf.init 0 none) := by
    constructor
    · simp [Mbuf.init, resize, Mbuf.Inv, Mbuf.size]
    · simp [Mbuf.init, resize, Mbuf.size]
  refine ⟨?_, hi0⟩
  obtain ⟨m', r', he, hi, _⟩ := insert_spec hr (Mbuf.init 0 none) hi0.1 _ [0] al1 al2 (Nat.le_refl _)
    (by simp [Mbuf.init, resize, Mbuf.size]) h1.ok h2.ok
  have : some (m, r) = some (m', r') := by rw [← h, ← he]; rfl
  cases this
  exact ⟨hi, insert_addr he hi0.2 h1 h2⟩

theorem made_inv {hr cmem st L} (h : Made hr cmem st L) : InvS st ∧ ∀ v bs, (v, bs) ∈ L → Reads st v bs := by
  induction h with
  | create h1 h2 _ h => exact ⟨create_inv h1 h2 h, by simp⟩
  | copy _ hp hsrc hsz hal hg he ih =>
    obtain ⟨st1, v1, e, i, r, k, _⟩ := C07_copy_reads_back hr _ ih.1 _ _ _ hp hsrc hsz hal hg
    rw [he] at e
    cases e
    refine ⟨i, fun w ws hw => ?_⟩
    rcases List.mem_cons.1 hw with h | h
    · cases h; exact r.reads
    · exact k _ _ (ih.2 _ _ h)
  | nocopy _ hsrc ha hl hsz hsz' hal h0 h1 he ih =>
    obtain ⟨st1, v1, e, i, r, k⟩ := C07_foreign_reads_back hr _ ih.1 _ _ _ hsrc ha hl hsz hsz' hal h0 h1
    rw [he] at e
    cases e
    refine ⟨i, fun w ws hw => ?_⟩
    rcases List.mem_cons.1 hw with h | h
    · cases h; exact r
    · exact k _ _ (ih.2 _ _ h)
  | concat _ ha hb hsz hal hg he ih =>
    obtain ⟨st1, v1, e, i, x, r, _⟩ := sConcat_core hr _ ih.1 _ _ _ _ _ (ih.2 _ _ ha) (ih.2 _ _ hb) hsz hal hg
    rw [he] at e
    cases e
    refine ⟨i, fun w ws hw => ?_⟩
    rcases List.mem_cons.1 hw with h | h
    · cases h; exact r.reads
    · exact reads_mono ih.1 i x (ih.2 _ _ h)

/-- **C07, histories.** After any history of string creations (with copy, without copy, by concatenation) from a fresh
engine, every string made so far reads back as the bytes it was made from. -/
theorem C07_strings_last (hr : Nat) (cmem : Nat → Option UInt8) (st : Store) (L : List (Val × List UInt8))
    (h : Made hr cmem st L) : ∀ v bs, (v, bs) ∈ L → Reads st v bs :=
  (made_inv h).2

/-- **C07, when memory runs out.** `mjs_mk_string` ignores that the buffer could not grow: with every allocation refused
and less room than the string needs, it writes outside the block (outcome `none`), for every string of at least 6 bytes. -/
theorem C07_copy_without_memory_overruns (hr : Nat) (st : Store) (hi : InvS st) (p : Ptr) (len : Nat) (hl : 5 < len)
    (hsz : st.owned.len + len + 11 < 2 ^ 52) (hfull : st.owned.size < st.owned.len + (Varint.llen len + len + 1)) :
    mkStringCopy hr st p len (fun _ => none) = none := by
  have hm : ∀ n, n ≠ 0 → resize st.owned n none = st.owned := by
    intro n hn
    unfold resize
    split
    · simp only [realloc]
    · rfl
  simp only [mkStringCopy, if_neg (show ¬ len ≤ 4 by omega), if_neg (show ¬ len = 5 by omega)]
  rw [hm _ (by simp [bufReserve])]
  split
  · simp only [Option.bind_eq_bind]
    rw [embed_oom hr st.cmem st.owned hi.1.1 _ len hsz hfull]
    rfl
  · simp only [Option.bind_eq_bind]
    rw [embed_oom hr st.cmem st.owned hi.1.1 _ len hsz hfull]
    rfl

/-- **C08.** Two strings of at most 5 bytes made by copying, in any states of the engine, are the same value exactly if
their bytes are equal. -/
theorem C08_short_strings_canonical (hr hr' : Nat) (st st1 st' st1' : Store) (hi : InvS st) (hi' : InvS st')
    (p p' : Ptr) (bs bs' : List UInt8) (als als' : Nat → Alloc) (v v' : Val)
    (hp : p.isNull = false) (hp' : p'.isNull = false)
    (hsrc : load st.cmem st.owned p bs.length = some bs) (hsrc' : load st'.cmem st'.owned p' bs'.length = some bs')
    (hl : bs.length ≤ 5) (hl' : bs'.length ≤ 5)
    (h : mkStringCopy hr st p bs.length als = some (st1, v))
    (h' : mkStringCopy hr' st' p' bs'.length als' = some (st1', v')) :
    v = v' ↔ bs = bs' := by
  have key : ∀ (hr : Nat) (st st1 : Store) (_ : InvS st) (p : Ptr) (bs : List UInt8) (als : Nat → Alloc) (v : Val),
      p.isNull = false → load st.cmem st.owned p bs.length = some bs → bs.length ≤ 5 →
      mkStringCopy hr st p bs.length als = some (st1, v) →
      (bs.length ≤ 4 ∧ v = mkTagged (packLE (UInt8.ofNat bs.length :: bs)) tagStringI) ∨
      (bs.length = 5 ∧ v = mkTagged (packLE bs) tagString5) := by
    intro hr st st1 hi p bs als v hp hsrc hl h
    have hin : inlineBytes st.cmem st.owned p bs.length = some bs := by rw [inlineBytes, if_neg (by simp [hp]), hsrc]
    by_cases h4 : bs.length ≤ 4
    · simp only [mkStringCopy, if_pos h4, hin, Option.bind_eq_bind, Option.bind_some, Option.some.injEq, Prod.mk.injEq] at h
      exact Or.inl ⟨h4, h.2.symm⟩
    · have h5 : bs.length = 5 := by omega
      simp only [mkStringCopy, if_neg h4, if_pos h5, hin, Option.bind_eq_bind, Option.bind_some, Option.some.injEq, Prod.mk.injEq] at h
      exact Or.inr ⟨h5, h.2.symm⟩
  have small : ∀ l : List UInt8, l.length ≤ 5 → packLE l < 2 ^ 48 := fun l hl =>
    Nat.lt_of_lt_of_le (packLE_lt l) (by
      rw [show (2 : Nat) ^ 48 = 256 ^ 6 from rfl]; exact Nat.pow_le_pow_right (by decide) (by omega))
  have inj : ∀ (a b : Nat) (k : Fin 16), a < 2 ^ 48 → b < 2 ^ 48 → mkTagged a (makeTag 1 k) = mkTagged b (makeTag 1 k) →
      a = b := by
    intro a b k ha hb h
    have := congrArg BitVec.toNat h
    rw [mkTagged_toNat a ha, mkTagged_toNat b hb] at this
    omega
  rcases key hr st st1 hi p bs als v hp hsrc hl h with ⟨l1, e1⟩ | ⟨l1, e1⟩ <;>
    rcases key hr' st' st1' hi' p' bs' als' v' hp' hsrc' hl' h' with ⟨l2, e2⟩ | ⟨l2, e2⟩
  · constructor
    · intro e
      rw [e1, e2] at e
      have := inj _ _ 6 (small _ (by simp; omega)) (small _ (by simp; omega)) e
      have hb : UInt8.ofNat bs.length = UInt8.ofNat bs'.length := by
        have h2 := congrArg (· % 256) this
        simp only [packLE] at h2
        apply UInt8.toNat.inj
        have := (UInt8.ofNat bs.length).toNat_lt
        have := (UInt8.ofNat bs'.length).toNat_lt
        omega
      have hlen : bs.length = bs'.length := by
        have := congrArg UInt8.toNat hb
        rw [UInt8.toNat_ofNat', UInt8.toNat_ofNat'] at this
        omega
      have := packLE_inj _ _ (by simp [hlen]) this
      exact (List.cons.inj this).2
    · intro e; subst e; rw [e1, e2]
  · constructor
    · intro e
      have h1 : v &&& tagMask = tagStringI := by rw [e1]; exact mkTagged_tag _ 6
      have h2 : v' &&& tagMask = tagString5 := by rw [e2]; exact mkTagged_tag _ 7
      rw [e, h2] at h1
      exact absurd h1 (by decide)
    · intro e; subst e; omega
  · constructor
    · intro e
      have h1 : v &&& tagMask = tagString5 := by rw [e1]; exact mkTagged_tag _ 7
      have h2 : v' &&& tagMask = tagStringI := by rw [e2]; exact mkTagged_tag _ 6
      rw [e, h2] at h1
      exact absurd h1 (by decide)
    · intro e; subst e; omega
  · constructor
    · intro e
      rw [e1, e2] at e
      exact packLE_inj _ _ (by omega) (inj _ _ 7 (small _ (by omega)) (small _ (by omega)) e)
    · intro e; subst e; rw [e1, e2]

/-- **C08.** A string of at most 5 bytes never shares its value with a longer one, nor with one made without copy from a
non-empty range. -/
theorem C08_short_long_distinct (hr hr' : Nat) (st st1 st' st1' : Store) (p p' : Ptr) (len len' a : Nat)
    (als als' : Nat → Alloc) (v v' : Val) (hl : len ≤ 5)
    (h : mkStringCopy hr st p len als = some (st1, v))
    (h' : (5 < len' ∧ mkStringCopy hr' st' p' len' als' = some (st1', v')) ∨
          (0 < len' ∧ mkStringForeign hr' st' a len' als' = some (st1', v'))) :
    v ≠ v' := by
  have hv : v &&& tagMask = tagStringI ∨ v &&& tagMask = tagString5 := by
    unfold mkStringCopy at h
    simp only at h
    split at h
    · simp only [Option.bind_eq_bind, Option.bind_eq_some_iff, Option.some.injEq, Prod.mk.injEq] at h
      obtain ⟨bs, _, _, rfl⟩ := h
      exact Or.inl (mkTagged_tag _ 6)
    · split at h
      · simp only [Option.bind_eq_bind, Option.bind_eq_some_iff, Option.some.injEq, Prod.mk.injEq] at h
        obtain ⟨bs, _, _, rfl⟩ := h
        exact Or.inr (mkTagged_tag _ 7)
      · omega
  have hv' : v' &&& tagMask = tagStringO ∨ v' &&& tagMask = tagStringF := by
    rcases h' with ⟨hl', h'⟩ | ⟨hl', h'⟩
    · unfold mkStringCopy at h'
      simp only [if_neg (show ¬ len' ≤ 4 by omega), if_neg (show ¬ len' = 5 by omega)] at h'
      simp only [Option.bind_eq_bind, Option.bind_eq_some_iff, Option.some.injEq, Prod.mk.injEq] at h'
      obtain ⟨bs, _, _, rfl⟩ := h'
      exact Or.inl (mkTagged_tag _ 8)
    · unfold mkStringForeign at h'
      simp only [if_neg (show ¬ len' = 0 by omega)] at h'
      simp only [Option.bind_eq_bind, Option.bind_eq_some_iff, Option.some.injEq, Prod.mk.injEq] at h'
      obtain ⟨_, _, _, _, _, _, _, rfl⟩ := h'
      exact Or.inr (mkTagged_tag _ 9)
  rintro rfl
  rcases hv with e | e <;> rcases hv' with e' | e' <;> rw [e] at e' <;> exact absurd e' (by decide)

theorem reads_isString {st v bs} (h : Reads st v bs) : isString v = true := by
  obtain ⟨p, n, h1, h2, _⟩ := h
  unfold getString at h1
  simp only at h1
  split at h1
  · cases h1; exact absurd h2 (by simp [Ptr.isNull])
  · rename_i h; simpa using h

/-- **C09.** For any two strings in any representation, `===` (and the comparison function) says "equal" exactly if
their bytes are equal. -/
theorem C09_equality_is_byte_equality (st : Store) (hi : InvS st) (a b : Val) (x y : List UInt8)
    (ha : Reads st a x) (hb : Reads st b y) :
    (∃ r, sCmp st a b = some r ∧ (r = 0 ↔ x = y)) ∧ checkEqual st a b = some (decide (x = y)) := by
  obtain ⟨r, hr, hiff⟩ := sCmp_core st hi a b x y ha hb
  refine ⟨⟨r, hr, hiff⟩, ?_⟩
  have hsa := reads_isString ha
  have hsb := reads_isString hb
  have hna : a ≠ tagNan := by rintro rfl; exact absurd hsa (by decide)
  have hnum : isNumber a = false := by
    cases hc : isNumber a with
    | false => rfl
    | true => exact absurd (C04_one_kind a .string .number hsa hc) (by decide)
  unfold checkEqual
  rw [if_neg (by simp [hna])]
  by_cases hab : a = b
  · subst hab
    obtain ⟨p, n, g, _, l⟩ := ha
    obtain ⟨p', n', g', _, l'⟩ := hb
    rw [g] at g'; cases g'
    rw [l] at l'; cases l'
    simp
  · rw [if_neg hab, if_neg (by simp [hnum]), if_pos ⟨hsa, hsb⟩, hr]
    simp only [Option.map_some, Option.some.injEq]
    by_cases h0 : r = 0
    · simp [h0, hiff.1 h0]
    · have : x ≠ y := fun h => h0 (hiff.2 h)
      simp [h0, this]

/-- **C10.** `a + b` reads back as the bytes of `a` followed by those of `b`, NUL-terminated, and `a`, `b` and every other
string read back unchanged, wherever the allocator moves the string storage. -/
theorem C10_concat (hr : Nat) (st : Store) (hi : InvS st) (a b : Val) (x y : List UInt8) (als : Nat → Alloc)
    (ha : Reads st a x) (hb : Reads st b y) (hsz : st.owned.len + (x.length + y.length) + 11 < 2 ^ 48)
    (hal : ∀ i, AllocLow (als i)) (hgrant : als 1 ≠ none) :
    ∃ st' v, sConcat hr st a b als = some (st', v) ∧ InvS st' ∧ ReadsZ st' v (x ++ y) ∧ Reads st' a x ∧ Reads st' b y ∧
      (∀ w ws, Reads st w ws → Reads st' w ws) := by
  obtain ⟨st', v, e, i, xx, r, _⟩ := sConcat_core hr st hi a b x y als ha hb hsz hal hgrant
  exact ⟨st', v, e, i, r, reads_mono hi i xx ha, reads_mono hi i xx hb, fun _ _ => reads_mono hi i xx⟩

/-! ### Concrete cases that meet the hypotheses -/

/-- A store after `mjs_create`, with C memory of readable letters. -/
def exStore : Store :=
  { owned := { addr := 4096, mem := [0], len := 1 }, foreign := { addr := 0, mem := [], len := 0 },
    cmem := fun a => if 100 ≤ a ∧ a < 200 then some (UInt8.ofNat (a - 35)) else none }

theorem exStore_inv : InvS exStore := by
  refine ⟨⟨⟨?_, ?_⟩, ?_⟩, ⟨⟨?_, ?_⟩, ?_⟩⟩ <;> simp [exStore]

/-- An allocator that grants every request. -/
def exAls : Nat → Alloc := fun _ => some (8192, fun _ => 0xAA)

theorem exAls_low (i : Nat) : AllocLow (exAls i) := by
  intro r hr
  simp only [exAls, Option.some.injEq] at hr
  rw [← hr]
  constructor <;> simp

/-- "ABCDEFGHIJ" -/
def exBytes : List UInt8 := [65, 66, 67, 68, 69, 70, 71, 72, 73, 74]

/-- A long string can be made and read back. -/
example : ∃ st v, mkStringCopy 1024 exStore (.ext 100) 10 exAls = some (st, v) ∧ ReadsZ st v exBytes := by
  obtain ⟨st, v, h1, _, h2, _⟩ := C07_copy_reads_back 1024 exStore exStore_inv (.ext 100) exBytes exAls rfl (by decide)
    (by decide) exAls_low (by simp [exAls])
  exact ⟨st, v, h1, h2⟩

example : ∃ st v, mkStringForeign 1024 exStore 100 10 exAls = some (st, v) ∧ Reads st v exBytes := by
  obtain ⟨st, v, h1, _, h2, _⟩ := C07_foreign_reads_back 1024 exStore exStore_inv 100 exBytes exAls (by decide) (by decide)
    (by decide) (by decide) (by decide) exAls_low (by simp [exAls]) (by simp [exAls])
  exact ⟨st, v, h1, h2⟩

/-- A history with a long copy, a short copy and their concatenation. -/
example : ∃ st v, Made 1024 exStore.cmem st ((v, exBytes ++ [65, 66]) :: [(mkTagged 0x424102 tagStringI, [65, 66]),
    (mkTagged 1 tagStringO, exBytes)]) := by
  have h0 : Made 1024 exStore.cmem { exStore with owned := { addr := 8192, mem := [0], len := 1 } } [] :=
    .create (exAls_low 0) (exAls_low 0) (by simp [exAls]) rfl
  obtain ⟨st1, v1, _, h1, _, _, _, _, _, _, hc1, hl1, hv⟩ := mkStringCopy_core 1024 _ (made_inv h0).1 (.ext 100)
    exBytes.length exAls (Or.inr ⟨exBytes, by decide⟩) (by decide) exAls_low (by simp [exAls])
  have hv1 : v1 = mkTagged 1 tagStringO := by
    rcases hv with ⟨h, _⟩ | ⟨h, _⟩ | ⟨_, h, _⟩
    · exact absurd h (by decide)
    · exact absurd h (by decide)
    · exact h
  replace hl1 : st1.owned.len ≤ 22 := hl1
  have m1 := Made.copy h0 (p := .ext 100) (bs := exBytes) rfl (by decide) (by decide) exAls_low (by simp [exAls]) h1
  have m2 := Made.copy m1 (p := .ext 100) (bs := [65, 66]) (als := exAls) (st' := st1) (v := mkTagged 0x424102 tagStringI) rfl
    (by simp only [load]; rw [hc1]; decide) (by simp only [List.length_cons, List.length_nil]; omega) exAls_low (by simp [exAls])
    (by
      simp only [mkStringCopy, List.length_cons, List.length_nil]
      rw [if_pos (by decide), inlineBytes, hc1]
      rfl)
  have r := (made_inv m2).2
  obtain ⟨st3, v3, h3, _⟩ := C10_concat 1024 st1 (made_inv m2).1 v1 (mkTagged 0x424102 tagStringI) exBytes [65, 66] exAls
    (r _ _ (by simp)) (r _ _ (by simp)) (by simp only [exBytes, List.length_cons, List.length_nil]; omega) exAls_low (by simp [exAls])
  subst hv1
  exact ⟨st3, v3, .concat m2 (a := mkTagged 1 tagStringO) (b := mkTagged 0x424102 tagStringI) (by simp) (by simp)
    (by simp only [exBytes, List.length_cons, List.length_nil]; omega) exAls_low (by simp [exAls]) h3⟩

/-- The out-of-memory overrun happens already for the first 6-byte string of a fresh engine. -/
example : mkStringCopy 1024 exStore (.ext 100) 6 (fun _ => none) = none :=
  C07_copy_without_memory_overruns 1024 exStore exStore_inv (.ext 100) 6 (by decide) (by decide) (by decide)

/-- "AB" made twice is one value, "AB" and "ABC" are two. -/
example : mkStringCopy 1024 exStore (.ext 100) 2 exAls = some (exStore, mkTagged 0x424102 tagStringI) ∧
    mkStringCopy 1024 exStore (.ext 100) 3 exAls = some (exStore, mkTagged 0x43424103 tagStringI) := ⟨rfl, rfl⟩

end Mjs.Props
