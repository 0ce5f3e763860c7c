import Verif.Lemmas.StrConcat
import Verif.Lemmas.ObjectHist
import Verif.Lemmas.StrApi

/-!
# C15-C17: objects

The specification (what a history of operations means) is `Verif/Spec/ObjMap.lean`.  `KeyPtr st name bs` says that the
pointer `name` leads to the bytes `bs` in store `st`; `Granted h n al` that the C allocator grants what one operation asks
for.
-/

namespace Mjs.Props
open Mjs Mjs.Mbuf Mjs.Str Mjs.Arena Mjs.Obj Mjs.Spec

/-- Histories of object and string operations on a fresh engine, with the record of the operations.  Keys are byte
strings given by pointer and length, C strings, or values converted to text (`numText` is the text of numbers); a string
value of at most 5 bytes used as key is one that was made by copying, and one that may be a number is NUL-terminated. -/
inductive History (cmem : Nat → Option UInt8) (numText : Val → List UInt8) : Heap → List ObjOp → Prop
  | create {hr al1 al2 bo bp h} : AllocLow al1 → AllocLow al2 →
      (∀ b, bo = some b → 0 < b ∧ b % 8 = 0 ∧ b + 20 * 8 < 2 ^ 47) →
      (∀ b, bp = some b → 0 < b ∧ b % 8 = 0 ∧ b + 20 * 24 < 2 ^ 47) →
      createHeap hr cmem al1 al2 bo bp = some h → History cmem numText h []
  | newObject {h ops al h' v} : History cmem numText h ops → CallocOk h.objs al.obj → mkObject h al = some (h', v) →
      History cmem numText h' (.new v :: ops)
  | newArray {h ops al h' v} : History cmem numText h ops → CallocOk h.objs al.obj → mkArray h al = some (h', v) →
      History cmem numText h' (.new v :: ops)
  | set {h ops v name bs x al h' e} : History cmem numText h ops → created ops v → KeyPtr h.str name bs →
      Granted h bs.length al → set h v name bs.length x al = some (h', e) → History cmem numText h' (.set v bs x :: ops)
  | setZ {h ops v a bs x al h' e} : History cmem numText h ops → created ops v →
      readC h.str.cmem a (bs.length + 1) = some (bs ++ [0]) → (0 : UInt8) ∉ bs → bs.length < 2 ^ 32 →
      Granted h bs.length al → setZ h v a x al = some (h', e) → History cmem numText h' (.set v bs x :: ops)
  | setV {h ops v key name bs x al h' e} : History cmem numText h ops → created ops v →
      toStr numText h.str key = some (some (name, bs.length)) → KeyPtr h.str name bs →
      (isString key = true → bs.length ≤ 5 →
        mkStringCopy 0 h.str (.loc bs) bs.length (fun _ => none) = some (h.str, key)) →
      (isString key = true → numberish bs = true → ReadsZ h.str key bs) →
      Granted h bs.length al → setV numText h v key x al = some (h', e) → History cmem numText h' (.set v bs x :: ops)
  | del {h ops v name bs h' b} : History cmem numText h ops → created ops v → KeyPtr h.str name bs →
      del h v name bs.length = some (h', b) → History cmem numText h' (.del v bs :: ops)
  | string {h ops p bs al st' s} : History cmem numText h ops → p.isNull = false →
      load h.str.cmem h.str.owned p bs.length = some bs → Granted h bs.length al →
      mkStringCopy al.hr h.str p bs.length al.strs = some (st', s) → History cmem numText { h with str := st' } ops
  | foreign {h ops a bs al st' s} : History cmem numText h ops → readC h.str.cmem a bs.length = some bs → a < 2 ^ 64 →
      bs.length < 2 ^ 64 → h.str.foreign.len + 18 < 2 ^ 48 → al.strs 0 ≠ none → Granted h 0 al →
      mkStringForeign al.hr h.str a bs.length al.strs = some (st', s) → History cmem numText { h with str := st' } ops
  | concat {h ops a b x y al st' s} : History cmem numText h ops → Reads h.str a x → Reads h.str b y →
      Granted h (x.length + y.length) al → sConcat al.hr h.str a b al.strs = some (st', s) →
      History cmem numText { h with str := st' } ops

theorem loc_load (st : Store) (bs : List UInt8) : load st.cmem st.owned (.loc bs) bs.length = some bs := by
  simp [load]

theorem goodName_of {h : Heap} {numText key name bs} (ht : toStr numText h.str key = some (some (name, bs.length)))
    (hk : KeyPtr h.str name bs) (hs : isString key = true → bs.length ≤ 5 →
        mkStringCopy 0 h.str (.loc bs) bs.length (fun _ => none) = some (h.str, key))
    (hz : isString key = true → numberish bs = true → ReadsZ h.str key bs) :
    GoodName h (some key) bs := by
  intro v hv hv'
  cases hv
  refine ⟨?_, ?_, hk.len, hz hv'⟩
  · rw [toStr, if_pos hv', Option.map_eq_some_iff] at ht
    obtain ⟨r, hr, he⟩ := ht
    cases he
    exact ⟨_, _, hr, hk.notNull, hk.bytes⟩
  · intro h5
    have := hs hv' h5
    rw [mkShort_spec 0 h.str (.loc bs) bs _ h5 rfl (loc_load _ _)] at this
    injection this with this
    injection this with _ this
    exact this.symm

theorem goodName_none (h : Heap) (bs : List UInt8) : GoodName h none bs := by intro v hv; cases hv

theorem keyPtr_z {st : Store} {a bs} (h : readC st.cmem a (bs.length + 1) = some (bs ++ [0]))
    (hn : (0 : UInt8) ∉ bs) (hl : bs.length < 2 ^ 32) : KeyPtr st (.ext a) bs ∧ strlen st.cmem a = some bs.length := by
  obtain ⟨h1, h2⟩ : readC st.cmem a bs.length = some bs ∧ st.cmem (a + bs.length) = some 0 := by
    have h1 := readC_take h 0 bs.length (by omega)
    have h2 := readC_take h bs.length 1 (by omega)
    simp only [List.drop_zero, List.take_left', Nat.add_zero] at h1
    simp only [List.drop_left', List.take_succ_cons, List.take_zero, readC, Option.bind_eq_bind, Option.bind_eq_some_iff] at h2
    obtain ⟨x, hx, y, hy, e⟩ := h2
    cases hy; cases e
    exact ⟨h1, hx⟩
  exact ⟨⟨rfl, h1, hl⟩, strlen_spec h1 (fun c hc e => hn (e ▸ hc)) h2⟩

/-- Every history is represented faithfully. -/
theorem History.sim {cmem numText h ops} (hh : History cmem numText h ops) : ∃ A fo fp, Sim h ops A fo fp := by
  induction hh with
  | create h1 h2 ho hp hc =>
    obtain ⟨fo, fp, hi⟩ := createHeap_inv h1 h2 ho hp hc
    exact ⟨_, fo, fp, hi, by simp [created], by simp [created]⟩
  | newObject _ hg he ih =>
    obtain ⟨A, fo, fp, hs⟩ := ih
    obtain ⟨h', v, o, fo', e, hv, ha, _, hi⟩ := mkObject_spec hs.inv hg
    rw [he] at e; cases e
    exact ⟨_, _, _, hs.new hv ha hi⟩
  | newArray _ hg he ih =>
    obtain ⟨A, fo, fp, hs⟩ := ih
    obtain ⟨h', v, o, fo', e, hv, ha, _, hi⟩ := mkObject_spec hs.inv hg
    rw [mkArray, e] at he; cases he
    exact ⟨_, _, _, hs.new (toArrayTag_isObj hv) ha hi⟩
  | set _ hc hk hg he ih =>
    obtain ⟨A, fo, fp, hs⟩ := ih
    obtain ⟨o, L, hv, hA, _⟩ := hs.obj _ hc
    obtain ⟨h', L', fp', e, ha, hi, _⟩ := setInternal_spec hs.inv hA hv hk (goodName_none _ _) _ hg false (by simp)
    rw [Obj.set, e] at he; cases he
    exact ⟨_, _, _, hs.assign hc hv hA ha hi⟩
  | setZ _ hc hr hn hl hg he ih =>
    obtain ⟨A, fo, fp, hs⟩ := ih
    obtain ⟨o, L, hv, hA, _⟩ := hs.obj _ hc
    obtain ⟨hk, hsl⟩ := keyPtr_z hr hn hl
    obtain ⟨h', L', fp', e, ha, hi, _⟩ := setInternal_spec hs.inv hA hv hk (goodName_none _ _) _ hg true (fun _ => hn)
    rw [Obj.setZ, hsl, Option.bind_some, e] at he; cases he
    exact ⟨_, _, _, hs.assign hc hv hA ha hi⟩
  | setV _ hc ht hk hsh hz hg he ih =>
    obtain ⟨A, fo, fp, hs⟩ := ih
    obtain ⟨o, L, hv, hA, _⟩ := hs.obj _ hc
    obtain ⟨h', L', fp', e, ha, hi, _⟩ := setInternal_spec hs.inv hA hv hk (goodName_of ht hk hsh hz) _ hg false (by simp)
    rw [Obj.setV, ht, Option.bind_some] at he
    simp only at he
    rw [e] at he; cases he
    exact ⟨_, _, _, hs.assign hc hv hA ha hi⟩
  | del _ hc hk he ih =>
    obtain ⟨A, fo, fp, hs⟩ := ih
    obtain ⟨o, L, hv, hA, _⟩ := hs.obj _ hc
    obtain ⟨h', b, e, _, _, hi⟩ := del_spec hs.inv hA hv hk
    rw [he] at e; cases e
    exact ⟨_, _, _, hs.remove hc hv hA hi⟩
  | @string h ops p bs al st' s _ hp hl hg he ih =>
    obtain ⟨A, fo, fp, hs⟩ := ih
    obtain ⟨st1, v, bs', e, i', ex, _⟩ :=
      mkStringCopy_core al.hr h.str hs.inv.str p bs.length al.strs (.inr ⟨bs, hl⟩) hg.room hg.low hg.grant
    rw [he] at e; cases e
    exact ⟨_, _, _, hs.store i' ex⟩
  | @foreign h ops a bs al st' s _ hr ha hl hf h0 hg he ih =>
    obtain ⟨A, fo, fp, hs⟩ := ih
    obtain ⟨st1, v, e, i', ex, _⟩ :=
      mkStringForeign_core al.hr h.str hs.inv.str a bs.length al.strs bs hr ha hl hf hg.room hg.low h0 hg.grant
    rw [he] at e; cases e
    exact ⟨_, _, _, hs.store i' ex⟩
  | @concat h ops a b x y al st' s _ ha hb hg he ih =>
    obtain ⟨A, fo, fp, hs⟩ := ih
    obtain ⟨st1, v, e, i', ex, _⟩ := sConcat_core al.hr h.str hs.inv.str a b x y al.strs ha hb hg.room hg.low hg.grant
    rw [he] at e; cases e
    exact ⟨_, _, _, hs.store i' ex⟩

/-- **C15, every key.** In every history, reading a key gives the value the engine has for it. -/
theorem C15_get_engine {cmem numText h ops} (hh : History cmem numText h ops) {v} (hc : created ops v)
    {name bs} (hk : KeyPtr h.str name bs) : get h v name bs.length = some ((engineCurrent ops v bs).getD mkUndefined) := by
  obtain ⟨A, fo, fp, hs⟩ := hh.sim
  obtain ⟨o, L, hv, hA, _, h2⟩ := hs.obj _ hc
  rw [get_spec hs.inv hA hv hk, h2]

/-- **C15 (partial).** In every history whose keys contain no NUL byte, reading a key gives the value last written to it
and not deleted since, undefined if there is none; other keys and objects do not matter (see `current`).  Missing: keys
with NUL bytes, for which it fails (`C15_nul_keys_collide`, `C15_nul_delete`), and string values of at most 5 bytes made
without copying as keys (`C15_foreign_key_lost`). -/
theorem C15_get_partial {cmem numText h ops} (hh : History cmem numText h ops) (hn : ∀ o ∈ ops, o.noNul) {v}
    (hc : created ops v) {name bs} (hk : KeyPtr h.str name bs) :
    get h v name bs.length = some ((current ops v bs).getD mkUndefined) := by
  rw [C15_get_engine hh hc hk, engineCurrent_eq hn]

/-- **C15, reading by C string and by value (partial).** -/
theorem C15_getZ_getV_partial {cmem numText h ops} (hh : History cmem numText h ops) (hn : ∀ o ∈ ops, o.noNul) {v}
    (hc : created ops v) :
    (∀ a bs, readC h.str.cmem a (bs.length + 1) = some (bs ++ [0]) → (0 : UInt8) ∉ bs → bs.length < 2 ^ 32 →
      getZ h v a = some ((current ops v bs).getD mkUndefined)) ∧
    (∀ key name bs, toStr numText h.str key = some (some (name, bs.length)) → KeyPtr h.str name bs →
      getV numText h v key = some ((current ops v bs).getD mkUndefined)) := by
  refine ⟨?_, ?_⟩
  · intro a bs hr h0 hl
    obtain ⟨hk, hsl⟩ := keyPtr_z hr h0 hl
    rw [getZ, hsl, Option.bind_some, C15_get_partial hh hn hc hk]
  · intro key name bs ht hk
    rw [getV, ht, Option.bind_some]
    exact C15_get_partial hh hn hc hk

/-- **C15, writing succeeds.** On an object of the history, writing any key reports no error when the allocator grants
memory. -/
theorem C15_set_ok {cmem numText h ops} (hh : History cmem numText h ops) {v} (hc : created ops v)
    {name bs} (hk : KeyPtr h.str name bs) (x : Val) {al} (hg : Granted h bs.length al) :
    ∃ h', set h v name bs.length x al = some (h', .ok) ∧ History cmem numText h' (.set v bs x :: ops) := by
  obtain ⟨A, fo, fp, hs⟩ := hh.sim
  obtain ⟨o, L, hv, hA, _⟩ := hs.obj _ hc
  obtain ⟨h', L', fp', e, _⟩ := setInternal_spec hs.inv hA hv hk (goodName_none _ _) x hg false (by simp)
  exact ⟨h', e, .set hh hc hk hg e⟩

/-- **C15, deleting (partial).** In a history whose keys contain no NUL byte, deletion reports success exactly when the
key has a value. -/
theorem C15_del_partial {cmem numText h ops} (hh : History cmem numText h ops) (hn : ∀ o ∈ ops, o.noNul) {v}
    (hc : created ops v) {name bs} (hk : KeyPtr h.str name bs) (h0 : (0 : UInt8) ∉ bs) :
    ∃ h' b, del h v name bs.length = some (h', b) ∧ (b = true ↔ (current ops v bs).isSome = true) ∧
      History cmem numText h' (.del v bs :: ops) := by
  obtain ⟨A, fo, fp, hs⟩ := hh.sim
  obtain ⟨o, L, hv, hA, h1, _⟩ := hs.obj _ hc
  obtain ⟨h', b, e, hb, _⟩ := del_spec hs.inv hA hv hk
  refine ⟨h', b, e, ?_, .del hh hc hk e⟩
  rw [hb, ← mem_order_iff, ← engineOrder_eq hn, ← h1]
  simp only [cSame_noNul h0, beq_iff_eq, List.mem_map]

/-- **C15, values that are not objects.** Reading gives undefined, writing reports an error and changes nothing,
deleting reports failure. -/
theorem C15_not_object (h : Heap) (v : Val) (hv : isObject v = false) (name : Ptr) (len : Nat) (x : Val) (al : Allocs) :
    get h v name len = some mkUndefined ∧ set h v name len x al = some (h, .reference) ∧
      del h v name len = some (h, false) := by
  have hg : ∀ l, getOwnProperty h v name len l = some 0 := fun l => by simp [getOwnProperty, hv]
  refine ⟨by simp [Obj.get, hg, valueAt], by simp [Obj.set, setInternal, hg, hv], by simp [Obj.del, hv]⟩

example : isObject (mkNumber 0x3ff0000000000000#64) = false := by decide

/-! ### A concrete history -/

/-- Allocator answers for one operation: string buffers at address 4096, no new blocks. -/
def demoAl : Allocs := ⟨0, fun _ => some (4096, fun _ => 0), none, none⟩

/-- C memory with the text `"ab"` at address 100. -/
def demoMem (a : Nat) : Option UInt8 := if a = 100 then some 97 else if a = 101 then some 98 else none

/-- An engine with its first blocks at fixed places, and an object in it. -/
def demo : Option (Heap × Val) :=
  (createHeap 0 demoMem (some (4096, fun _ => 0)) (some (4096, fun _ => 0)) (some 8192) (some 16384)).bind fun h =>
    mkObject h demoAl

theorem demo_object (numText : Val → List UInt8) :
    ∃ h v, History demoMem numText h [.new v] ∧ Granted h 64 demoAl ∧ h.str.cmem = demoMem ∧ h.str.foreign.len = 0 := by
  have hlow : AllocLow (some (4096, fun _ => 0)) := by intro r hr; cases hr; exact ⟨by decide, by decide⟩
  have hd : demo.map (fun r => (r.1.objs.free, r.1.props.free, r.1.str.owned.len, r.1.str.foreign.len)) =
      some (8336, 16840, 1, 0) := by decide +kernel
  unfold demo at hd
  simp only [Option.map_eq_some_iff, Option.bind_eq_some_iff] at hd
  obtain ⟨⟨h1, v⟩, ⟨h0, hc, hm⟩, hp⟩ := hd
  simp only [Prod.mk.injEq] at hp
  have hd0 : (createHeap 0 demoMem (some (4096, fun _ => 0)) (some (4096, fun _ => 0)) (some 8192) (some 16384)).map
      (fun h => h.objs.free) = some 8344 := by decide +kernel
  rw [hc] at hd0
  have hh0 : History demoMem numText h0 [] := .create hlow hlow (by simp) (by simp) hc
  have hh1 : History demoMem numText h1 [.new v] := .newObject hh0 (by
    intro hf
    simp only [Option.map_some, Option.some.injEq] at hd0
    rw [hf] at hd0
    cases hd0) hm
  refine ⟨h1, v, hh1, ⟨fun i => hlow, by simp [demoAl], by omega, ?_, ?_⟩, ?_, hp.2.2.2⟩
  · intro hf; rw [hf] at hp; cases hp.1
  · intro hf; rw [hf] at hp; cases hp.2.1
  · simp only [createHeap, createStore, Option.bind_eq_bind, Option.bind_eq_some_iff] at hc
    obtain ⟨st, ⟨m, _, hst⟩, ao, _, ap, _, hc⟩ := hc
    cases hst; cases hc
    simp only [mkObject, Option.bind_eq_bind, Option.bind_eq_some_iff] at hm
    obtain ⟨_, _, _, _, _, _, hm⟩ := hm
    cases hm
    rfl

/-- The hypotheses of the theorems above are met: an object with a key in a real history. -/
example (numText : Val → List UInt8) : ∃ h v, History demoMem numText h [.set v [97, 98] mkNull, .new v] ∧
    get h v (.loc [97, 98]) 2 = some mkNull ∧ get h v (.loc [97, 99]) 2 = some mkUndefined := by
  obtain ⟨h, v, hh, hg, _⟩ := demo_object numText
  have hc : created [.new v] v := .inl rfl
  obtain ⟨h', _, hh'⟩ := C15_set_ok hh hc (name := .loc [97, 98]) (bs := [97, 98]) ⟨rfl, rfl, by decide⟩ mkNull
    (al := demoAl) ⟨hg.low, hg.grant, by have := hg.room; simp; omega, hg.obj, hg.prop⟩
  have hn : ∀ o ∈ [ObjOp.set v [97, 98] mkNull, .new v], o.noNul := by simp [ObjOp.noNul]
  refine ⟨h', v, hh', ?_, ?_⟩
  · refine (C15_get_partial hh' hn (.inl rfl) (name := .loc [97, 98]) (bs := [97, 98]) ⟨rfl, rfl, by decide⟩).trans ?_
    simp [current]
  · refine (C15_get_partial hh' hn (.inl rfl) (name := .loc [97, 99]) (bs := [97, 99]) ⟨rfl, rfl, by decide⟩).trans ?_
    simp [current]

/-- **C15, violation.** Long keys that agree up to a NUL byte are taken for the same key: after writing `"aaaaaa\0b"`
alone, reading `"aaaaaa\0c"`, which was never written, gives the value. -/
theorem C15_nul_keys_collide (numText : Val → List UInt8) : ∃ h ops v, History demoMem numText h ops ∧
    created ops v ∧ current ops v [97, 97, 97, 97, 97, 97, 0, 99] = none ∧
    get h v (.loc [97, 97, 97, 97, 97, 97, 0, 99]) 8 = some mkNull := by
  obtain ⟨h, v, hh, hg, _⟩ := demo_object numText
  have hc : created [.new v] v := .inl rfl
  obtain ⟨h', _, hh'⟩ := C15_set_ok hh hc (name := .loc [97, 97, 97, 97, 97, 97, 0, 98])
    (bs := [97, 97, 97, 97, 97, 97, 0, 98]) ⟨rfl, rfl, by decide⟩ mkNull
    (al := demoAl) ⟨hg.low, hg.grant, by have := hg.room; simp; omega, hg.obj, hg.prop⟩
  refine ⟨h', _, v, hh', .inl rfl, by simp [current], ?_⟩
  refine (C15_get_engine hh' (.inl rfl) (name := .loc [97, 97, 97, 97, 97, 97, 0, 99])
    (bs := [97, 97, 97, 97, 97, 97, 0, 99]) ⟨rfl, rfl, by decide⟩).trans ?_
  have : sameKey [97, 97, 97, 97, 97, 97, 0, 99] [97, 97, 97, 97, 97, 97, 0, 98] = true := by decide
  simp [engineCurrent, this]

/-- **C15, violation.** Deletion compares all keys up to a NUL byte: deleting `"a\0c"`, which was never written, removes
`"a\0b"`. -/
theorem C15_nul_delete (numText : Val → List UInt8) : ∃ h ops v, History demoMem numText h ops ∧
    created ops v ∧ current ops v [97, 0, 98] = some mkNull ∧
    get h v (.loc [97, 0, 98]) 3 = some mkUndefined := by
  obtain ⟨h, v, hh, hg, _⟩ := demo_object numText
  have hc : created [.new v] v := .inl rfl
  obtain ⟨h', _, hh'⟩ := C15_set_ok hh hc (name := .loc [97, 0, 98])
    (bs := [97, 0, 98]) ⟨rfl, rfl, by decide⟩ mkNull
    (al := demoAl) ⟨hg.low, hg.grant, by have := hg.room; simp; omega, hg.obj, hg.prop⟩
  have hc' : created [.set v [97, 0, 98] mkNull, .new v] v := .inl rfl
  obtain ⟨A, fo, fp, hs⟩ := hh'.sim
  obtain ⟨o, L, hv, hA, h1, _⟩ := hs.obj _ hc'
  have hkp : KeyPtr h'.str (.loc [97, 0, 99]) [97, 0, 99] := ⟨rfl, rfl, by decide⟩
  obtain ⟨h2, b, e, _⟩ := del_spec hs.inv hA hv hkp
  have hh2 := History.del hh' hc' hkp e
  refine ⟨h2, _, v, hh2, .inl rfl, by simp [current], ?_⟩
  refine (C15_get_engine hh2 (.inl rfl) (name := .loc [97, 0, 98]) (bs := [97, 0, 98]) ⟨rfl, rfl, by decide⟩).trans ?_
  have h1 : cSame [97, 0, 98] [97, 0, 99] = true := by decide
  have h2 : sameKey [97, 0, 98] [97, 0, 98] = true := by decide
  simp [engineCurrent, engineOrder, victim, h1, h2]

theorem inlineVal_not_foreign (bs : List UInt8) : inlineVal bs &&& tagMask ≠ tagStringF := by
  have h1 : ∀ o, mkTagged o tagStringI &&& tagMask = tagStringI := fun o => tag_mk _ _ (by decide)
  have h2 : ∀ o, mkTagged o tagString5 &&& tagMask = tagString5 := fun o => tag_mk _ _ (by decide)
  unfold inlineVal
  split
  · rw [h1]; decide
  · rw [h2]; decide

/-- **C15, violation.** For every object and every key of at most 5 bytes that the object does not have, writing it with a
string value made without copying (`mjs_mk_string(..., 0)`) as key reports success, but reading the key, with that very
value or by pointer, still gives undefined. -/
theorem C15_foreign_key_lost {cmem numText h ops} (hh : History cmem numText h ops) {v} (hc : created ops v)
    {key name bs} (hf : key &&& tagMask = tagStringF) (ht : toStr numText h.str key = some (some (name, bs.length)))
    (hk : KeyPtr h.str name bs) (h5 : bs.length ≤ 5) (hno : engineCurrent ops v bs = none) (x : Val) {al}
    (hg : Granted h bs.length al) :
    ∃ h', setV numText h v key x al = some (h', .ok) ∧ get h' v name bs.length = some mkUndefined := by
  obtain ⟨A, fo, fp, hs⟩ := hh.sim
  obtain ⟨o, L, hv, hA, _, h2⟩ := hs.obj _ hc
  obtain ⟨hu, c0, hc0, hch⟩ := hs.inv.obj o L hA
  have hgp := getOwnProperty_spec hs.inv hA hv hk false (by simp)
  have hlk : ∀ e ∈ L, sameKey e.key bs = false := by
    rcases find_key (L := L) (bs := bs) with ⟨e, _, _, hfe⟩ | ⟨hno', _⟩
    · have := h2 bs
      rw [hno, lookup, hfe] at this
      cases this
    · exact hno'
  have hloc : locate L bs = 0 := by
    rw [locate, List.find?_eq_none.2 (fun e he => by simp [hlk e he])]; rfl
  rw [hloc] at hgp
  obtain ⟨a', p, g, fp', e, _, _, ok, nu, up, mp, old, _⟩ :=
    allocCell_spec h.props fp al.prop hs.inv.props (fun e => hg.prop.fresh hs.inv.props e)
  have hp0 : p ≠ 0 := by have := ok.cellAddr up.1; omega
  have hstr : isString key = true := by simp [isString, hf]
  let h2 : Heap := { h with
    props := { a' with mem := upd a'.mem p (some ⟨c0.head, (key, x)⟩) }
    objs := { h.objs with mem := upd h.objs.mem o (some ⟨p, c0.body⟩) } }
  let h3 : Heap := { h2 with props := { h2.props with mem := upd h2.props.mem p (some ⟨c0.head, (key, x)⟩) } }
  have hadd : addProperty h o key x al = some (h2, p) := by simp [addProperty, e, mp, hc0, h2]
  have hset : setValue h2 p x = some h3 := by simp [setValue, h2, h3, upd_same]
  refine ⟨h3, ?_, ?_⟩
  · rw [setV, ht, Option.bind_some]
    simp only [setInternal, hgp, Option.bind_eq_bind, Option.bind_some, if_true]
    rw [if_neg (by simp [hv.1])]
    simp only [propName, hstr, if_true, Option.bind_some, getObjectStruct_of hv, hadd, hset]
  · have hch3 : Chain h3.props.mem p (⟨p, key, bs, x⟩ :: L) := by
      refine Chain.cons (c := ⟨c0.head, (key, x)⟩) hp0 (upd_same _ _ _) (hch.congr fun y hy => ?_)
      have hny : y.addr ≠ p := fun eq => nu (eq ▸ hs.inv.used o L hA y hy)
      simp only [h3, h2]
      rw [upd_other _ _ _ _ hny, upd_other _ _ _ _ hny]
      exact (old _ (hs.inv.used o L hA y hy)).2
    have hfind : ((⟨p, key, bs, x⟩ :: L : List Ent).find? fun e => e.name == inlineVal bs) = none := by
      rw [List.find?_eq_none]
      intro y hy
      rcases List.mem_cons.1 hy with rfl | hy
      · simp only [beq_iff_eq]
        intro eq
        rw [eq] at hf
        exact absurd hf (inlineVal_not_foreign bs)
      · have hsk := hlk y hy
        rw [named_eq_inline (hs.inv.names o L hA y hy) h5]
        rw [sameKey, if_pos h5] at hsk
        simp [hsk]
    have hgo : getOwnProperty h3 v name bs.length = some 0 := by
      rw [getOwnProperty, if_neg (by simp [hv.1]), getObjectStruct_of hv]
      simp only [Option.bind_eq_bind, Option.bind_some]
      have : h3.objs.mem o = some ⟨p, c0.body⟩ := upd_same _ _ _
      rw [this]
      simp only [Option.bind_some, h5, true_and, if_true]
      have hst : h3.str = h.str := rfl
      rw [hst, mkShort_spec 0 h.str name bs _ h5 hk.notNull hk.bytes]
      simp only [Option.bind_some]
      rw [findShort_spec h3 _ _ _ hch3, hfind]
      rfl
    simp [Obj.get, hgo, valueAt]

/-- A real history that meets the hypotheses of `C15_foreign_key_lost`: the key `"ab"` in C memory. -/
example (numText : Val → List UInt8) : ∃ cmem h ops v key name, History cmem numText h ops ∧ created ops v ∧
    key &&& tagMask = tagStringF ∧ toStr numText h.str key = some (some (name, 2)) ∧ KeyPtr h.str name [97, 98] ∧
    engineCurrent ops v [97, 98] = none ∧ Granted h 2 demoAl := by
  obtain ⟨h, v, hh, hg, hcm, hfl⟩ :=
    demo_object numText
  have hr : readC h.str.cmem 100 2 = some [97, 98] := by rw [hcm]; rfl
  obtain ⟨A, fo, fp, hs⟩ := hh.sim
  have hroom := hg.room
  obtain ⟨st', key, e, i', ex, ⟨name, n, hgs, hnn, hld⟩⟩ :=
    mkStringForeign_core 0 h.str hs.inv.str 100 2 demoAl.strs [97, 98] hr (by decide) (by decide) (by rw [hfl]; decide)
      (by omega) hg.low (by simp [demoAl]) hg.grant
  have hn : n = 2 := (load_length i'.1.1 hld).symm
  subst hn
  have hh' := History.foreign (bs := [97, 98]) (al := demoAl) hh hr (by decide) (by decide) (by rw [hfl]; decide)
    (by simp [demoAl]) ⟨hg.low, hg.grant, by omega, hg.obj, hg.prop⟩ e
  have htag : key &&& tagMask = tagStringF ∧ st'.owned = h.str.owned := by
    simp only [mkStringForeign, if_neg (show ¬ (2 : Nat) = 0 by decide), Option.bind_eq_bind, Option.bind_eq_some_iff] at e
    obtain ⟨_, _, _, _, _, _, e⟩ := e
    cases e
    exact ⟨tag_mk _ _ (by decide), rfl⟩
  refine ⟨_, _, _, v, key, name, hh', .inl rfl, htag.1, ?_, ⟨hnn, hld, by decide⟩, by simp [engineCurrent], hg.low, hg.grant,
    ?_, hg.obj, hg.prop⟩
  · have : isString key = true := by simp [isString, htag.1]
    rw [toStr, if_pos this, hgs]; rfl
  · simp only [htag.2]; omega

end Mjs.Props
