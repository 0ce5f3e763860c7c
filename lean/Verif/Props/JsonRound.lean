import Verif.Lemmas.JsonRound

/-!
# C65: `JSON.stringify` writes the value, and `JSON.parse` reads it back

`Denotes` (`Spec/JsonTree.lean`) says what the JSON value of a tree of objects and arrays is, in terms of the history of the objects.
-/

namespace Mjs.Props
open Mjs Mjs.Str Mjs.Obj Mjs.Exec Mjs.Spec Mjs.Json Mjs.Spec.Json Mjs.JsonOut

variable {cmem : Nat → Option UInt8} {numText : Val → List UInt8}

/-- **C65**, writing, partial: at any moment in the life of an engine, whatever tree `v` is, `JSON.stringify` gives a JSON text for the value of `v` and
a NUL: in the buffer of the caller, of which no byte outside is changed, or in a new block of exactly that size.  As much of the C stack
as the text has bytes is enough.

What is missing: keys with quotes, backslashes or control characters, for which `C65_key_quote` shows that the text is no JSON; numbers that are not
printed as numerals; values with cycles, for which there is no JSON text (`C45_stringify` says what happens). -/
theorem C65_text_partial (hT : TextOk numText) {h : Heap} {ops : List ObjOp} (hh : History cmem numText h ops) (hn : ∀ o ∈ ops, o.noNul)
    {v : Val} {j : J} (hd : Denotes numText ops h.str v j) :
    ∃ t, Writes PlainKey j t ∧ ∀ d, t.length < d → ∀ {fresh : Nat → List UInt8}, (∀ n, (fresh n).length = n) → ∀ mem off size, (size = 0 ∨ off + size ≤ mem.length) →
      (∃ mem', t.length < size ∧ stringify numText h d v mem off size fresh = some (.given mem' t.length) ∧ OnlyAt off size mem mem' ∧ Holds mem' off (t ++ [0])) ∨
      (size ≤ t.length ∧ stringify numText h d v mem off size fresh = some (.block (t ++ [0]) t.length)) := by
  obtain ⟨t, hw, ht⟩ := denotes_text hT hh hn hd
  exact ⟨t, hw, fun d hlt _ hfr => text_stringified hT (ht d [] hlt (by simp)) hfr⟩

/-- **C65**, partial: what `JSON.stringify` writes of a tree, `JSON.parse` — in the same engine or another, at any moment of its life — makes into a
value that shows the same data: each member, each element, to any depth.  A number that is the whole text must be followed by a
blank, a comma or a bracket (`C47_root_number`).

What is missing, besides that of `C65_text_partial`: values whose path is too long for the parser (`C46_deep_array`). -/
theorem C65_partial (hT : TextOk numText) {h : Heap} {ops : List ObjOp} (hh : History cmem numText h ops) (hn : ∀ o ∈ ops, o.noNul)
    {v : Val} {j : J} (hd : Denotes numText ops h.str v j) (hf : Fits 0 j) :
    ∃ t, (∀ d, t.length < d → ∀ {fresh : Nat → List UInt8}, (∀ n, (fresh n).length = n) → stringify numText h d v [] 0 0 fresh = some (.block (t ++ [0]) t.length)) ∧
      ∀ {cmem' : Nat → Option UInt8} {numText' : Val → List UInt8} {E : Env} {h' : Heap} {ops' : List ObjOp}, History cmem' numText' h' ops' → (∀ o ∈ ops', o.noNul) →
        ∀ (tail : List UInt8), (∀ neg n, j = .num neg n → ∃ c r, tail = c :: r ∧ (c = 32 ∨ c = 9 ∨ c = 10 ∨ c = 13 ∨ c = 44 ∨ c = 93 ∨ c = 125)) →
        ∀ {d : Nat}, t.length < d → t.length < 2 ^ 31 → ∀ {al : Nat → Allocs}, Supplied (t.length + 255) (2 * t.length) h' al →
        ∃ v' c, parse E d h' al (t ++ tail) = .done .ok v' c ∧ Shows E.numVal c.heap v' j := by
  obtain ⟨t, hw, ht⟩ := C65_text_partial hT hh hn hd
  refine ⟨t, fun d hlt _ hfr => ?_, fun hh' hn' tail htail d hlt h31 al hs => ?_⟩
  · exact ((ht d hlt hfr [] 0 0 (.inl rfl)).resolve_left fun ⟨_, h, _⟩ => by omega).2
  · obtain ⟨v', c, _, e, _, hsh, _⟩ := C46_partial hh' hn' (w := []) (tail := tail) (by simp [Blank]) hw hf htail hlt h31 hs
    exact ⟨v', c, e, hsh⟩

/-- Non-vacuity: `{x: true}` in `{a: …, b: undefined}`. -/
theorem demo_tree (numText : Val → List UInt8) : ∃ h ops v, History demoMem numText h ops ∧ (∀ o ∈ ops, o.noNul) ∧
    Denotes numText ops h.str v (.obj [([97], .obj [([120], .bool true)])]) := by
  have k : ∀ c : UInt8, Plain c → c ≠ 46 → PlainKey [c] [c] := fun c h h' =>
    ⟨rfl, .plain h .nil, by simpa using fun e => h.2.2.2 e.symm, by simp, by simpa using h'⟩
  obtain ⟨h0, hh0, hr0⟩ := demo_start numText
  obtain ⟨h1, w, hh1, hr1, _, hw⟩ := grow_new hh0 hr0 (by decide)
  obtain ⟨h2, hh2, hr2⟩ := grow_set hh1 hr1 (by decide) (.inl rfl) [120] (by decide) (mkBoolean true)
  obtain ⟨h3, v, hh3, hr3, hnew, hv⟩ := grow_new hh2 hr2 (by decide)
  obtain ⟨h4, hh4, hr4⟩ := grow_set hh3 hr3 (by decide) (.inl rfl) [97] (by decide) w
  obtain ⟨h5, hh5, _⟩ := grow_set hh4 hr4 (by decide) (.inl rfl) [98] (by decide) mkUndefined
  have hne : w ≠ v := fun e => hnew (.inl e.symm)
  have how : omitted w = false := by
    obtain ⟨t, e, hk⟩ := (C04_getType w).2 .object (created_object hh1 (.inl rfl)) (by decide)
    cases ho : omitted w with
    | false => rfl
    | true =>
      obtain ⟨t', e', hs⟩ := omitted_type ho
      rw [e] at e'
      cases e'
      cases t <;> simp_all [kindOfTy, skipped]
  have hou : omitted mkUndefined = true := by decide
  have hot : omitted (mkBoolean true) = false := by decide
  refine ⟨h5, _, v, hh5, by simp [ObjOp.noNul], .obj (.inl rfl) hv ?_ ?_ ?_⟩
  · simp [order, current, how, hou]
  · intro key j hm
    simp only [List.mem_singleton, Prod.mk.injEq] at hm
    obtain ⟨rfl, rfl⟩ := hm
    exact ⟨k 97 ⟨by decide, by decide, by decide, by decide⟩ (by decide), by decide⟩
  · intro key j x hm hx
    simp only [List.mem_singleton, Prod.mk.injEq] at hm
    obtain ⟨rfl, rfl⟩ := hm
    simp [current] at hx
    subst hx
    refine .obj (.inr (.inl rfl)) hw ?_ ?_ ?_
    · simp [order, current, hne, hot]
    · intro key j hm
      simp only [List.mem_singleton, Prod.mk.injEq] at hm
      obtain ⟨rfl, rfl⟩ := hm
      exact ⟨k 120 ⟨by decide, by decide, by decide, by decide⟩ (by decide), by decide⟩
    · intro key j y hm hy
      simp only [List.mem_singleton, Prod.mk.injEq] at hm
      obtain ⟨rfl, rfl⟩ := hm
      simp [current, hne] at hy
      subst hy
      exact .bool

/-- Non-vacuity: the theorem applies to this tree. -/
example (hT : TextOk numText) : ∃ h ops v t, History demoMem numText h ops ∧ Writes PlainKey (.obj [([97], .obj [([120], .bool true)])]) t ∧
    stringify numText h (t.length + 1) v [] 0 0 (List.replicate · 7) = some (.block (t ++ [0]) t.length) := by
  obtain ⟨h, ops, v, hh, hn, hd⟩ := demo_tree numText
  obtain ⟨t, hw, ht⟩ := C65_text_partial hT hh hn hd
  exact ⟨h, ops, v, t, hh, hw, ((ht _ (Nat.lt_succ_self _) (by simp) [] 0 0 (.inl rfl)).resolve_left fun ⟨_, h, _⟩ => by omega).2⟩

/-- **C65, violation.** Keys are not escaped: the text of `{"\"": null}` is `{""":null}`, which the parser rejects. -/
theorem C65_key_quote (hT : TextOk numText) : ∃ h ops v c, History demoMem numText h ops ∧ current ops v [34] = some mkNull ∧
    stringify numText h 10 v [] 0 0 (List.replicate · 7) = some (.block [123, 34, 34, 34, 58, 110, 117, 108, 108, 125, 0] 10) ∧
    walk counting 20 [123, 34, 34, 34, 58, 110, 117, 108, 108, 125] 0 = .err .invalid c := by
  obtain ⟨h0, hh0, hr0⟩ := demo_start numText
  obtain ⟨h1, v, hh1, hr1, _, hv⟩ := grow_new hh0 hr0 (by decide)
  obtain ⟨h2, hh2, hr2⟩ := grow_set hh1 hr1 (by decide) (.inl rfl) [34] (by decide) mkNull
  obtain ⟨A, fo, fp, hs⟩ := hh2.sim
  obtain ⟨o, L, hio, hA, hord, hlook⟩ := hs.obj v (.inl rfl)
  obtain ⟨_, c, hcell, hch⟩ := hs.inv.obj o L hA
  have hL : L.map Ent.key = [[34]] := by rw [hord]; simp [engineOrder]
  have hval : ∀ e ∈ L, e.key = [34] ∧ e.val = mkNull := by
    intro e he
    have hk : e.key ∈ L.map Ent.key := List.mem_map.2 ⟨e, he, rfl⟩
    rw [hL, List.mem_singleton] at hk
    have := lookup_self (hs.inv.keys o L hA) he
    rw [hlook, hk] at this
    simp [engineCurrent, sameKey_refl] at this
    exact ⟨hk, this.symm⟩
  have hnull : valText numText h2 9 [v] mkNull = some (.done [110, 117, 108, 108] false) := by
    have hnv : mkNull ≠ v := fun e => by
      have := hio.1
      rw [← e] at this
      revert this; decide
    have hld : Str.load h2.str.cmem h2.str.owned (.loc [110, 117, 108, 108]) ([110, 117, 108, 108] : List UInt8).length = some [110, 117, 108, 108] := loc_load _ _
    have hts : toStr numText h2.str mkNull = some (some (.loc [110, 117, 108, 108], ([110, 117, 108, 108] : List UInt8).length)) := rfl
    have ht : getType mkNull = some .null := by decide
    rw [valText]
    simp only [ht, Option.bind_eq_bind, Option.bind_some, show skipped .null = false from rfl, Bool.false_eq_true, if_false, List.mem_singleton, hnv,
      hts, strArgs_eq (s := ([110, 117, 108, 108] : List UInt8)) hld (by decide) (by decide),
      text_str ([110, 117, 108, 108] : List UInt8) (by decide) (by decide), Option.map_some]
  have hloop := propText_members (rec := valText numText h2 9 [v]) (T := fun _ => [110, 117, 108, 108]) (keep := fun _ => true) (ms := [([34], .null)]) hs.inv.str hch
    (hs.inv.names o L hA) (fun e he => ⟨.null, by rw [(hval e he).2]; decide, rfl⟩) (by rw [hL]; rfl) (by simp)
    (fun e he j _ => by rw [(hval e he).2]; exact hnull) [123] (by simp)
  have htext : valText numText h2 10 [] v = some (.done [123, 34, 34, 34, 58, 110, 117, 108, 108, 125] false) := by
    rw [valText]
    simp only [getType_generic hio.1 hv, Option.bind_eq_bind, Option.bind_some, show skipped .objectGeneric = false from rfl, Bool.false_eq_true, if_false,
      List.not_mem_nil, getObjectStruct_of hio, hcell, hloop]
    simp [memberTexts, memberText]
  refine ⟨h2, _, v, _, hh2, by simp [current], ?_, rfl⟩
  exact ((text_stringified hT htext (by simp) [] 0 0 (.inl rfl)).resolve_left fun ⟨_, h, _⟩ => by omega).2

/-- **C65, violation.** The type of a function made by `ffi` is none of those that `mjs_get_type` knows: to write it, alone or in an
array or object, ends the process. -/
theorem C65_ffi_aborts (p v : Val) (hp : p ≠ 0#64) (hv : ffiSigToValue p = some v) (h : Heap) (d : Nat) (fresh : Nat → List UInt8) :
    stringify numText h (d + 1) v [] 0 0 fresh = none := by
  simp [stringify, toJson, C04_getType_aborts_on_ffi p v hp hv]

end Mjs.Props
