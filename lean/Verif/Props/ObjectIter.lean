import Verif.Props.ObjectDemo

namespace Mjs.Props
open Mjs Mjs.Mbuf Mjs.Str Mjs.Arena Mjs.Obj Mjs.Spec

/-- The loop a user writes over `mjs_next`: call it with the iterator (undefined at first) until the key is undefined;
`ks` are the keys met. -/
inductive Iterates (h : Heap) (v : Val) : Val → List Val → Prop
  | done {it it'} : next h v it = some (mkUndefined, it') → Iterates h v it []
  | more {it k it' ks} : next h v it = some (k, it') → k ≠ mkUndefined → Iterates h v it' ks → Iterates h v it (k :: ks)

theorem Iterates.det {h v it a b} (ha : Iterates h v it a) (hb : Iterates h v it b) : a = b := by
  induction ha generalizing b with
  | done hn => cases hb with
    | done _ => rfl
    | more hn' hk _ => rw [hn] at hn'; cases hn'; exact absurd rfl hk
  | more hn hk _ ih => cases hb with
    | done hn' => rw [hn] at hn'; cases hn'; exact absurd rfl hk
    | more hn' _ hr => rw [hn] at hn'; cases hn'; rw [ih hr]

theorem named_ne_undefined {st v bs} (h : Named st v bs) : v ≠ mkUndefined := by
  rintro rfl
  obtain ⟨⟨p, n, hg, hn, _⟩, _⟩ := h
  have : isString mkUndefined = false := by decide
  simp only [getString, this] at hg
  cases hg
  simp [Ptr.isNull] at hn

theorem iterates_from {h A fo fp} (hi : HInv h A fo fp) {o L} (ho : A o = some L) (v : Val) :
    ∀ pre e post, L = pre ++ e :: post → Iterates h v (mkForeign (BitVec.ofNat 64 e.addr)).1 (post.map Ent.name) := by
  intro pre e post
  induction post generalizing pre e with
  | nil =>
    intro hL; subst hL
    exact .done (next_step hi ho v)
  | cons e' post ih =>
    intro hL
    refine .more (it' := (mkForeign (BitVec.ofNat 64 e'.addr)).1) ?_ ?_ (ih (pre ++ [e]) e' (by simp [hL]))
    · subst hL; exact next_step hi ho v
    · exact named_ne_undefined (hi.names o L ho e' (by simp [hL]))

theorem iterates_all {h A fo fp} (hi : HInv h A fo fp) {o L v} (ho : A o = some L) (hv : IsObj v o) :
    Iterates h v mkUndefined (L.map Ent.name) := by
  have hs := next_start hi ho hv
  cases L with
  | nil => exact .done hs
  | cons e L => exact .more hs (named_ne_undefined (hi.names o _ ho e (by simp))) (iterates_from hi ho v [] e L rfl)

/-- Two lists agree in length and place by place: `ks` are string values with the texts `bs`. -/
inductive ReadAll (st : Store) : List Val → List Key → Prop
  | nil : ReadAll st [] []
  | cons {k ks b bs} : Reads st k b → ReadAll st ks bs → ReadAll st (k :: ks) (b :: bs)

theorem readAll_map {st : Store} {L : List Ent} (h : ∀ e ∈ L, Named st e.name e.key) :
    ReadAll st (L.map Ent.name) (L.map Ent.key) := by
  induction L with
  | nil => exact .nil
  | cons e L ih => exact .cons (h e (by simp)).1 (ih fun e he => h e (by simp [he]))

/-- **C16, every key.** In every history, iterating over an object ends and yields, each once, exactly the keys the
engine has for the object, the most recently created first; there are no duplicates among them. -/
theorem C16_iteration {cmem numText h ops} (hh : History cmem numText h ops) {v} (hc : created ops v) :
    (engineOrder ops v).Nodup ∧ (∃ ks, Iterates h v mkUndefined ks) ∧
      ∀ ks, Iterates h v mkUndefined ks → ReadAll h.str ks (engineOrder ops v) := by
  obtain ⟨A, fo, fp, hs⟩ := hh.sim
  obtain ⟨o, L, hv, hA, h1, _⟩ := hs.obj _ hc
  have hi := iterates_all hs.inv hA hv
  refine ⟨h1 ▸ hs.inv.nodupKeys hA, ⟨_, hi⟩, ?_⟩
  intro ks hks
  rw [hks.det hi, ← h1]
  exact readAll_map (hs.inv.names _ _ hA)

/-- **C16 (partial).** In every history whose keys contain no NUL byte, iteration ends and yields the keys that have a
value, each once, the most recently created first (`order`: overwriting does not move a key).  Missing: with NUL bytes
the engine confuses keys (see C15); then `C16_iteration` holds. -/
theorem C16_iteration_partial {cmem numText h ops} (hh : History cmem numText h ops) (hn : ∀ o ∈ ops, o.noNul) {v}
    (hc : created ops v) :
    (∃ ks, Iterates h v mkUndefined ks) ∧ (∀ ks, Iterates h v mkUndefined ks → ReadAll h.str ks (order ops v)) ∧
      (order ops v).Nodup ∧ ∀ k, k ∈ order ops v ↔ (current ops v k).isSome = true := by
  obtain ⟨_, h1, h2⟩ := C16_iteration hh hc
  rw [engineOrder_eq hn] at h2
  exact ⟨h1, h2, order_nodup ops v, fun k => mem_order_iff⟩

/-- A real history with two keys, iterated in the order of creation. -/
example (numText : Val → List UInt8) : ∃ h v ks, History demoMem numText h
      [.set v [97] mkUndefined, .set v [98, 98] mkNull, .set v [97] mkNull, .new v] ∧
    Iterates h v mkUndefined ks ∧ ReadAll h.str ks [[98, 98], [97]] := by
  obtain ⟨h, hh, hr⟩ := demo_start numText
  obtain ⟨h, v, hh, hr, _⟩ := grow_new hh hr (by decide)
  obtain ⟨h, hh, hr⟩ := grow_set hh hr (by decide) (.inl rfl) [97] (by decide) mkNull
  obtain ⟨h, hh, hr⟩ := grow_set hh hr (by decide) (.inl rfl) [98, 98] (by decide) mkNull
  obtain ⟨h, hh, hr⟩ := grow_set hh hr (by decide) (.inl rfl) [97] (by decide) mkUndefined
  obtain ⟨⟨ks, hk⟩, h2, _⟩ := C16_iteration_partial hh (by simp [ObjOp.noNul]) (.inl rfl)
  refine ⟨h, v, ks, hh, hk, ?_⟩
  have := h2 ks hk
  simpa [order] using this

end Mjs.Props
