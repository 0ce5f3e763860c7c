import Verif.Lemmas.SimRun
import Verif.Props.ObjectDemo

/-!
# There are allocators that grant everything
-/

namespace Mjs.Spec.Invisible
open Mjs Mjs.Mbuf Mjs.Varint Mjs.Str Mjs.Arena Mjs.Obj Mjs.Spec Mjs.Spec.Gc Mjs.Gc Mjs.Core Mjs.Exec
open Mjs.Client (Pairs)

/-! ### How long the string buffer can get -/

theorem resize_len (m : Mbuf) (n : Nat) (al : Alloc) : (resize m n al).len = m.len := by
  unfold resize
  split
  · split
    · split <;> rfl
    · rfl
  · rfl

theorem insert_len {hr m off d n a1 a2 m' r} (h : Mbuf.insert hr m off d n a1 a2 = some (m', r)) : m'.len ≤ m.len + n := by
  unfold Mbuf.insert at h
  split at h
  · cases h
  · split at h
    · cases h; omega
    · simp only at h
      split at h
      · simp only [Option.bind_eq_bind, Option.bind_eq_some_iff] at h
        obtain ⟨_, _, e⟩ := h
        cases e
        exact Nat.mod_le _ _
      · split at h
        · cases h; omega
        · simp only [Option.bind_eq_bind, Option.bind_eq_some_iff] at h
          obtain ⟨_, _, e⟩ := h
          cases e
          exact Nat.mod_le _ _

theorem store_len {m off bs m'} (h : Str.store m off bs = some m') : m'.len = m.len := by
  simp only [Str.store, Option.map_eq_some_iff] at h
  obtain ⟨_, _, rfl⟩ := h
  rfl

theorem copySource_len {cm m off p n m'} (h : copySource cm m off p n = some m') : m'.len = m.len := by
  unfold copySource at h
  split at h
  · cases h; rfl
  · simp only [Option.bind_eq_some_iff] at h
    obtain ⟨_, _, h⟩ := h
    exact store_len h

theorem embed_len {hr cm m off p n a1 a2 m'} (hn : n < 2 ^ 64) (h : embedString hr cm m off p n true a1 a2 = some m') : m'.len ≤ m.len + n + 11 := by
  simp only [embedString, Option.bind_eq_bind, Option.bind_eq_some_iff, if_true] at h
  obtain ⟨⟨m1, r⟩, h1, m2, h2, m3, h3, h4⟩ := h
  have := insert_len h1
  have := llen_le_ten n hn
  rw [store_len h4, copySource_len h3, store_len h2]
  simp only at *
  omega

theorem copy_len {hr st p n als st' v} (hn : n < 2 ^ 64) (h : mkStringCopy hr st p n als = some (st', v)) : st'.owned.len ≤ st.owned.len + n + 11 := by
  unfold mkStringCopy at h
  simp only at h
  split at h
  · simp only [Option.bind_eq_bind, Option.bind_eq_some_iff] at h
    obtain ⟨_, _, e⟩ := h
    cases e; omega
  · split at h
    · simp only [Option.bind_eq_bind, Option.bind_eq_some_iff] at h
      obtain ⟨_, _, e⟩ := h
      cases e; omega
    · simp only [Option.bind_eq_bind, Option.bind_eq_some_iff] at h
      obtain ⟨m2, h, e⟩ := h
      cases e
      have := embed_len hn h
      simp only
      split at this
      · rw [resize_len] at this; exact this
      · exact this

theorem concat_len {hr st a b als st' v pa na pb nb} (ha : getString st a = some (pa, na)) (hb : getString st b = some (pb, nb)) (hn : na + nb < 2 ^ 64)
    (h : sConcat hr st a b als = some (st', v)) : st'.owned.len ≤ st.owned.len + (na + nb) + 11 := by
  simp only [sConcat, ha, hb, Option.bind_eq_bind, Option.bind_some, Option.bind_eq_some_iff] at h
  obtain ⟨⟨st1, res⟩, h1, ⟨pa', na'⟩, h2, ⟨pb', nb'⟩, h3, xa, h4, xb, h5, h6⟩ := h
  have := copy_len hn h1
  simp only at h6
  split at h6
  · simp only [Option.bind_eq_some_iff] at h6
    obtain ⟨_, _, _, _, e⟩ := h6
    cases e
    exact this
  · split at h6
    · simp only [Option.bind_eq_some_iff] at h6
      obtain ⟨_, _, _, _, e⟩ := h6
      cases e
      exact this
    · simp only [Option.bind_eq_some_iff] at h6
      obtain ⟨⟨pr, _⟩, _, h6⟩ := h6
      simp only at h6
      split at h6
      · split at h6
        · cases h6
        · simp only [Option.bind_eq_some_iff] at h6
          obtain ⟨m1, e1, m2, e2, e⟩ := h6
          cases e
          show m2.len ≤ _
          rw [store_len e2, store_len e1]
          exact this
      · cases h6

/-! ### Memory beyond everything in use -/

/-- Everything is below the address `k`. -/
structure Spaced (h : Heap) (k : Nat) : Prop where
  al8 : k % 8 = 0
  low : 16 ≤ k
  ocs : h.objs.cellSize = 8
  oinc : h.objs.inc = 10
  oblk : ∀ b ∈ h.objs.blocks, b.1 + b.2 * 8 ≤ k
  pcs : h.props.cellSize = 24
  pinc : h.props.inc = 10
  pblk : ∀ b ∈ h.props.blocks, b.1 + b.2 * 24 ≤ k
  str : h.str.owned.len ≤ k

/-- The answers of an allocator that has memory from `k` on. -/
def wideFor (k : Nat) : Allocs := ⟨0, fun _ => some (4096, fun _ => 0), some k, some (k + 1024)⟩

/-- An allocator that always goes on behind what it gave. -/
def wide (k : Nat) : Nat → Allocs
  | 0 => wideFor k
  | n + 1 => wide (k + 4294967296) n

theorem Spaced.granted {h k} (hr : Spaced h k) (hk : k < 2 ^ 46) : Granted h (2 ^ 31) (wideFor k) := by
  refine ⟨?_, by simp [wideFor], ?_, ?_, ?_⟩
  · intro i r hr
    cases hr
    exact ⟨by decide, by decide⟩
  · have := hr.str; omega
  · intro _
    refine ⟨_, rfl, by have := hr.low; omega, by have := hr.al8; omega, by rw [hr.ocs, hr.oinc]; omega, fun c hc => ?_⟩
    have := hr.oblk c hc
    rw [hr.ocs]; omega
  · intro _
    refine ⟨_, rfl, by have := hr.low; omega, by have := hr.al8; omega, by rw [hr.pcs, hr.pinc]; omega, fun c hc => ?_⟩
    have := hr.pblk c hc
    rw [hr.pcs]; omega

theorem Spaced.up {h k} (hr : Spaced h k) {k'} (hk : k ≤ k') (h8 : k' % 8 = 0) : Spaced h k' :=
  ⟨h8, Nat.le_trans hr.low hk, hr.ocs, hr.oinc, fun b hb => Nat.le_trans (hr.oblk b hb) hk, hr.pcs, hr.pinc,
    fun b hb => Nat.le_trans (hr.pblk b hb) hk, Nat.le_trans hr.str hk⟩

theorem Spaced.withStr {h k} (hr : Spaced h k) {st : Store} {k'} (hk : k ≤ k') (h8 : k' % 8 = 0) (hs : st.owned.len ≤ k') : Spaced { h with str := st } k' :=
  ⟨h8, Nat.le_trans hr.low hk, hr.ocs, hr.oinc, fun b hb => Nat.le_trans (hr.oblk b hb) hk, hr.pcs, hr.pinc,
    fun b hb => Nat.le_trans (hr.pblk b hb) hk, hs⟩

theorem Spaced.value {h k p x h'} (hr : Spaced h k) (he : setValue h p x = some h') : Spaced h' k := by
  simp only [setValue, Option.map_eq_some_iff] at he
  obtain ⟨c, _, rfl⟩ := he
  exact ⟨hr.al8, hr.low, hr.ocs, hr.oinc, hr.oblk, hr.pcs, hr.pinc, hr.pblk, hr.str⟩

theorem request_spaced {h k h'} (hr : Spaced h k) (hq : Request h (wideFor k) h') : Spaced h' (k + 4294967296) := by
  have h8 := hr.al8
  cases hq with
  | none => exact hr.up (by omega) (by omega)
  | obj e =>
    simp only [mkObject, Option.bind_eq_bind, Option.bind_eq_some_iff] at e
    obtain ⟨⟨a, r, g⟩, ha, c, _, v', _, e⟩ := e
    cases e
    obtain ⟨s1, s2, s3⟩ := Props.allocCell_shape ha
    have ho := hr.oblk
    have hu := hr.up (k' := k + 4294967296) (by omega) (by omega)
    refine ⟨hu.al8, hu.low, by simp only [s1, hr.ocs], by simp only [s2, hr.oinc], ?_, hr.pcs, hr.pinc, hu.pblk, hu.str⟩
    intro b hb
    rcases s3 with s3 | ⟨x, hx, s3⟩
    · simp only [s3] at hb
      have := ho b hb; omega
    · simp only [s3] at hb
      rcases List.mem_cons.1 hb with rfl | hb
      · cases hx
        simp only [hr.oinc]; omega
      · have := ho b hb; omega
  | str hn e =>
    have := copy_len (by omega) e
    have := hr.str
    exact hr.withStr (by omega) (by omega) (by omega)
  | concat ha hb hn e =>
    have := concat_len ha hb (by omega) e
    have := hr.str
    exact hr.withStr (by omega) (by omega) (by omega)
  | @set obj nameV p n x h' e long hn es =>
    have hstr := hr.str
    simp only [setInternal, Option.bind_eq_bind, Option.bind_eq_some_iff] at es
    obtain ⟨q, _, es⟩ := es
    split at es
    · split at es
      · cases es
        exact hr.up (by omega) (by omega)
      · simp only [Option.bind_eq_some_iff] at es
        obtain ⟨⟨h1, nv⟩, hp, o, _, ⟨h2, q2⟩, hadd, h3, hset, e3⟩ := es
        cases e3
        refine Spaced.value ?_ hset
        have h1s : ∃ st : Store, h1 = { h with str := st } ∧ st.owned.len ≤ k + 4294967296 := by
          have hcopy : ∀ r, mkStringCopy (wideFor k).hr h.str p n (wideFor k).strs = some r → r.1.owned.len ≤ k + 4294967296 := by
            intro r hr'
            have := copy_len (by omega) (st' := r.1) (v := r.2) hr'
            omega
          unfold propName at hp
          split at hp
          · split at hp
            · cases hp; exact ⟨h.str, rfl, by omega⟩
            · simp only [Option.map_eq_some_iff] at hp
              obtain ⟨r, hr', e⟩ := hp
              cases e
              exact ⟨_, rfl, hcopy r hr'⟩
          · simp only [Option.map_eq_some_iff] at hp
            obtain ⟨r, hr', e⟩ := hp
            cases e
            exact ⟨_, rfl, hcopy r hr'⟩
        obtain ⟨st, rfl, hst⟩ := h1s
        simp only [addProperty, Option.bind_eq_bind, Option.bind_eq_some_iff] at hadd
        obtain ⟨⟨a, q3, gc⟩, hal, c1, _, co, _, e2⟩ := hadd
        cases e2
        obtain ⟨s1, s2, s3⟩ := Props.allocCell_shape hal
        have hpb := hr.pblk
        have hu := hr.up (k' := k + 4294967296) (by omega) (by omega)
        refine ⟨hu.al8, hu.low, hr.ocs, hr.oinc, hu.oblk, by simp only [s1, hr.pcs], by simp only [s2, hr.pinc], ?_, hst⟩
        intro b hb
        rcases s3 with s3 | ⟨x, hx, s3⟩
        · simp only [s3] at hb
          have := hpb b hb; omega
        · simp only [s3] at hb
          rcases List.mem_cons.1 hb with rfl | hb
          · cases hx
            simp only [hr.pinc]; omega
          · have := hpb b hb; omega
    · simp only [Option.bind_eq_some_iff] at es
      obtain ⟨h1, hset, e1⟩ := es
      cases e1
      exact (hr.value hset).up (by omega) (by omega)

/-- How much the buffer of strings grows when a property is set. -/
theorem set_len {h h' : Heap} {al obj nameV p n x long e} (hn : n < 2 ^ 64) (es : setInternal h obj nameV p n x al long = some (h', e)) :
    h'.str.owned.len ≤ h.str.owned.len + n + 11 := by
  have hval : ∀ {h h' : Heap} {p x}, setValue h p x = some h' → h'.str = h.str := by
    intro h h' p x hs
    simp only [setValue, Option.map_eq_some_iff] at hs
    obtain ⟨c, _, rfl⟩ := hs
    rfl
  simp only [setInternal, Option.bind_eq_bind, Option.bind_eq_some_iff] at es
  obtain ⟨q, _, es⟩ := es
  split at es
  · split at es
    · cases es; omega
    · simp only [Option.bind_eq_some_iff] at es
      obtain ⟨⟨h1, nv⟩, hp, o, _, ⟨h2, q2⟩, hadd, h3, hset, e3⟩ := es
      cases e3
      rw [hval hset]
      have h1s : h1.str.owned.len ≤ h.str.owned.len + n + 11 := by
        have hcopy : ∀ r, mkStringCopy al.hr h.str p n al.strs = some r → r.1.owned.len ≤ h.str.owned.len + n + 11 :=
          fun r hr' => copy_len hn (st' := r.1) (v := r.2) hr'
        unfold propName at hp
        split at hp
        · split at hp
          · cases hp; omega
          · simp only [Option.map_eq_some_iff] at hp
            obtain ⟨r, hr', e⟩ := hp
            cases e
            exact hcopy r hr'
        · simp only [Option.map_eq_some_iff] at hp
          obtain ⟨r, hr', e⟩ := hp
          cases e
          exact hcopy r hr'
      simp only [addProperty, Option.bind_eq_bind, Option.bind_eq_some_iff] at hadd
      obtain ⟨⟨a, q3, gc⟩, hal, c1, _, co, _, e2⟩ := hadd
      cases e2
      exact h1s
  · simp only [Option.bind_eq_some_iff] at es
    obtain ⟨h1, hset, e1⟩ := es
    cases e1
    rw [hval hset]
    omega

theorem supplied_spaced (n : Nat) : ∀ {h k}, Spaced h k → k + n * 4294967296 < 2 ^ 46 → Supplied n h (wide k) := by
  induction n with
  | zero => intro h k _ _; trivial
  | succ n ih =>
    intro h k hr hk
    refine ⟨hr.granted (by omega), fun h' hq => ?_⟩
    exact ih (request_spaced hr hq) (by omega)

end Mjs.Spec.Invisible
