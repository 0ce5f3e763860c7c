import Verif.Props.ObjectDemo

/-!
# C17: prototype chains
-/

namespace Mjs.Props
open Mjs Mjs.Mbuf Mjs.Str Mjs.Arena Mjs.Obj Mjs.Spec

theorem getOwnPropertyV_spec {h A fo fp} (hi : HInv h A fo fp) {o L v} (ho : A o = some L) (hv : IsObj v o) {numText key name bs}
    (ht : toStr numText h.str key = some (some (name, bs.length))) (hk : KeyPtr h.str name bs) :
    getOwnPropertyV numText h v key = some (locate L bs) := by
  rw [getOwnPropertyV, ht, Option.bind_some]
  exact getOwnProperty_spec hi ho hv hk false (by simp)

theorem History.notCreated {cmem numText h ops} (hh : History cmem numText h ops) {v} (hc : ¬ created ops v) (k : Key) :
    engineCurrent ops v k = none := by
  induction hh with
  | create => rfl
  | newObject _ _ _ ih | newArray _ _ _ ih =>
    have : ¬ (v = _ ∨ created _ v) := hc
    rw [not_or] at this
    simp only [engineCurrent]
    rw [if_neg this.1]
    exact ih this.2
  | set _ hc' _ _ _ ih | setZ _ hc' _ _ _ _ _ ih | setV _ hc' _ _ _ _ _ _ ih =>
    have hne : v ≠ _ := fun e => hc (e ▸ hc')
    simp only [engineCurrent]
    rw [if_neg (fun h => hne h.1)]
    exact ih hc
  | del _ hc' _ _ ih =>
    have hne : v ≠ _ := fun e => hc (e ▸ hc')
    simp only [engineCurrent]
    rw [if_neg (fun h => hne h.1)]
    exact ih hc
  | string _ _ _ _ _ ih => exact ih hc
  | foreign _ _ _ _ _ _ _ _ ih => exact ih hc
  | concat _ _ _ _ _ ih => exact ih hc

/-- The name of the prototype property, `"__p"`. -/
def protoKey : Key := [95, 95, 112]

theorem protoName_spec (h : Heap) : protoName h = some (inlineVal protoKey) := by
  rw [protoName]
  have := mkShort_spec 0 h.str (.loc protoKey) protoKey (fun _ => none) (by decide) rfl (loc_load _ _)
  simp only [protoKey, List.length_cons, List.length_nil] at this
  rw [this]
  rfl

theorem protoKey_text (numText : Val → List UInt8) {st : Store} (hi : InvS st) :
    ∃ name, toStr numText st (inlineVal protoKey) = some (some (name, protoKey.length)) ∧ KeyPtr st name protoKey := by
  obtain ⟨p, n, h1, h2, h4⟩ := (inlineVal_reads st protoKey (by decide)).reads
  have h3 := (load_length hi.1.1 h4).symm
  subst h3
  refine ⟨p, ?_, h2, h4, by decide⟩
  have : isString (inlineVal protoKey) = true := by decide
  rw [toStr, if_pos this, h1]; rfl

/-- **C17, every key.** Along every prototype chain (of any length) of objects of the history, possibly ending in a value
that is not an object, lookup gives the value of the first object that has the key, undefined if none has. -/
theorem C17_proto_lookup_engine {cmem numText h ops} (hh : History cmem numText h ops) {v chain}
    (hp : ProtoChain (engineCurrent ops) protoKey v chain) (hw : ∀ w ∈ chain, created ops w ∨ isObject w = false)
    {key name bs} (ht : toStr numText h.str key = some (some (name, bs.length))) (hk : KeyPtr h.str name bs) :
    getVProto numText h v key = some ((nearest (engineCurrent ops) chain bs).getD mkUndefined) := by
  obtain ⟨A, fo, fp, hs⟩ := hh.sim
  obtain ⟨pn, hpt, hpk⟩ := protoKey_text numText hs.inv.str
  -- one object of the chain
  have own : ∀ w, created ops w ∨ isObject w = false → ∀ key name bs,
      toStr numText h.str key = some (some (name, bs.length)) → KeyPtr h.str name bs →
      ∃ p, getOwnPropertyV numText h w key = some p ∧
        (engineCurrent ops w bs = none → p = 0) ∧ (∀ x, engineCurrent ops w bs = some x → p ≠ 0 ∧ valueAt h p = some x) := by
    intro w hw key name bs ht hk
    by_cases hc : created ops w
    · obtain ⟨o, L, hv, hA, _, h2⟩ := hs.obj _ hc
      obtain ⟨_, c, _, hch⟩ := hs.inv.obj o L hA
      refine ⟨_, getOwnPropertyV_spec hs.inv hA hv ht hk, ?_, ?_⟩
      · intro hn
        rw [← h2 bs, lookup, Option.map_eq_none_iff] at hn
        simp [locate, hn]
      · intro x hx
        rw [← h2 bs] at hx
        refine ⟨?_, by rw [valueAt_locate hs.inv hA, hx]; rfl⟩
        rw [lookup, Option.map_eq_some_iff] at hx
        obtain ⟨e, he, _⟩ := hx
        simp only [locate, he, Option.map_some, Option.getD_some]
        exact (hch.at (List.mem_of_find?_eq_some he)).1
    · have ho := hw.resolve_left hc
      refine ⟨0, by rw [getOwnPropertyV, ht, Option.bind_some]; simp [getOwnProperty, ho], fun _ => rfl, ?_⟩
      intro x hx
      rw [hh.notCreated hc] at hx
      cases hx
  induction hp with
  | @last v hl =>
    obtain ⟨p, h1, h2, h3⟩ := own v (hw v (by simp)) _ _ _ ht hk
    obtain ⟨q, h4, h5, _⟩ := own v (hw v (by simp)) _ _ _ hpt hpk
    rw [getVProto, protoName_spec]
    simp only [Option.bind_eq_bind, Option.bind_some, h1, nearest, List.findSome?_cons, List.findSome?_nil]
    cases hx : engineCurrent ops v bs with
    | some x => rw [if_pos (h3 x hx).1]; exact (h3 x hx).2
    | none =>
      rw [if_neg (by simp [h2 hx]), h4, Option.bind_some, if_pos (h5 hl)]
      rfl
  | @step v w l hl _ ih =>
    obtain ⟨p, h1, h2, h3⟩ := own v (hw v (by simp)) _ _ _ ht hk
    obtain ⟨q, h4, _, h6⟩ := own v (hw v (by simp)) _ _ _ hpt hpk
    have ih := ih fun w hw' => hw w (by simp [hw'])
    rw [getVProto, protoName_spec]
    simp only [Option.bind_eq_bind, Option.bind_some, h1, nearest, List.findSome?_cons]
    cases hx : engineCurrent ops v bs with
    | some x => rw [if_pos (h3 x hx).1]; exact (h3 x hx).2
    | none =>
      rw [if_neg (by simp [h2 hx]), h4, Option.bind_some, if_neg (h6 w hl).1, (h6 w hl).2, Option.bind_some, ih]
      rfl

/-- **C17 (partial).** The same in terms of what was last written, for histories whose keys contain no NUL byte.  Missing:
keys with NUL bytes, see C15; for them `C17_proto_lookup_engine` holds. -/
theorem C17_proto_lookup_partial {cmem numText h ops} (hh : History cmem numText h ops) (hn : ∀ o ∈ ops, o.noNul) {v chain}
    (hp : ProtoChain (current ops) protoKey v chain) (hw : ∀ w ∈ chain, created ops w ∨ isObject w = false)
    {key name bs} (ht : toStr numText h.str key = some (some (name, bs.length))) (hk : KeyPtr h.str name bs) :
    getVProto numText h v key = some ((nearest (current ops) chain bs).getD mkUndefined) := by
  have he : engineCurrent ops = current ops := by funext v k; exact engineCurrent_eq hn v k
  rw [← he] at hp ⊢
  exact C17_proto_lookup_engine hh hp hw ht hk

/-- **C17, `Object.create`.** The new object's prototype is the argument, and it has no other property. -/
theorem C17_create_object {cmem numText h ops} (hh : History cmem numText h ops) {lit proto al1 al2}
    (hl : readC cmem lit 4 = some (protoKey ++ [0])) (hcm : h.str.cmem = cmem) (h1 : CallocOk h.objs al1.obj)
    (h2 : ∀ h1 v, mkObject h al1 = some (h1, v) → Granted h1 3 al2) :
    ∃ h' v, createObject h lit proto al1 al2 = some (h', v) ∧
      History cmem numText h' (.set v protoKey proto :: .new v :: ops) := by
  obtain ⟨A, fo, fp, hs⟩ := hh.sim
  obtain ⟨h', v, o, fo', e, hv, ha, hst, hi⟩ := mkObject_spec hs.inv h1
  have hh1 := History.newObject hh h1 e
  have hl' : readC h'.str.cmem lit (protoKey.length + 1) = some (protoKey ++ [0]) := by rw [hst, hcm]; exact hl
  obtain ⟨hk, hsl⟩ := keyPtr_z hl' (by decide) (by decide)
  have hs1 := hs.new hv ha hi
  obtain ⟨h2', L', fp', e2, _⟩ :=
    setInternal_spec hs1.inv (put_same _ _ _) hv hk (goodName_none _ _) proto (h2 _ _ e) true (fun _ => by decide)
  have e3 : setZ h' v lit proto al2 = some (h2', .ok) := by rw [setZ, hsl, Option.bind_some, e2]
  refine ⟨h2', v, ?_, .setZ hh1 (.inl rfl) hl' (by decide) (by decide) (h2 _ _ e) e3⟩
  simp [createObject, e, e3]

/-- A real history with a chain of two objects, where the second has the key. -/
example (numText : Val → List UInt8) : ∃ h ops v w, History demoMem numText h ops ∧
    ProtoChain (current ops) protoKey v [v, w] ∧ created ops v ∧ created ops w ∧ v ≠ w ∧
    nearest (current ops) [v, w] [97] = some mkNull := by
  obtain ⟨h, hh, hr⟩ := demo_start numText
  obtain ⟨h, w, hh, hr, _⟩ := grow_new hh hr (by decide)
  obtain ⟨h, hh, hr⟩ := grow_set hh hr (by decide) (.inl rfl) [97] (by decide) mkNull
  obtain ⟨h1, v, hh, hr, hnc, _⟩ := grow_new hh hr (by decide)
  have hne : v ≠ w := by
    rintro rfl
    exact hnc (.inl rfl)
  obtain ⟨h, hh, hr⟩ := grow_set hh hr (by decide) (.inl rfl) protoKey (by decide) w
  refine ⟨h, _, v, w, hh, .step (w := w) ?_ (.last ?_), .inl rfl, .inr (.inl rfl), hne, ?_⟩
  · simp [current]
  · simp [current, Ne.symm hne, protoKey]
  · simp [nearest, current, Ne.symm hne, protoKey]

end Mjs.Props
