import Verif.Lemmas.JsonValue
import Verif.Props.Json

/-!
# C46: `JSON.parse` builds the value that the text describes

`Writes PlainKey j t` (`Spec/Json.lean`) says that `t` is a JSON text for `j` in which keys contain no escapes, are not empty and
do not end in a dot; `Fits 0 j` that the path to every part of `j` fits the 255 bytes that the parser has for it; `Shows`
(`Spec/JsonValue.lean`) what a program sees of a value; `Supplied` that the allocator grants what is asked for.
-/

namespace Mjs.Props
open Mjs Mjs.Str Mjs.Obj Mjs.Exec Mjs.Spec Mjs.Json Mjs.Spec.Json

variable {cmem : Nat → Option UInt8} {numText : Val → List UInt8}

/-- **C46**, partial: at any moment in the life of an engine, with any history of its objects, `JSON.parse` of a JSON text for `j`,
with blanks before it and anything behind it, succeeds and returns a value that shows `j`: each member is a property with its
key, each element is the element at its index, to any depth.  No object that existed before is changed, and no string
either.

A number that is the whole text must be followed by a blank, a comma or a bracket.  What is missing: keys with escapes, empty keys, keys
that end in a dot, and values whose path is too long: `C46_key_escape`, `C46_empty_key`, `C46_dot_key`, `C46_empty_key_flattens`,
`C46_deep_array` and `C46_long_key` show that the code is wrong there.  Also `\u` escapes from 0x80 on (`Chars`). -/
theorem C46_partial {E : Env} {h : Heap} {ops : List ObjOp} (hh : History cmem numText h ops) (hn : ∀ o ∈ ops, o.noNul)
    {j : J} {w t tail : List UInt8} (hw : Blank w) (ht : Writes PlainKey j t) (hf : Fits 0 j)
    (htail : ∀ neg n, j = .num neg n → ∃ c r, tail = c :: r ∧ (c = 32 ∨ c = 9 ∨ c = 10 ∨ c = 13 ∨ c = 44 ∨ c = 93 ∨ c = 125))
    {d : Nat} (hd : t.length < d) (h31 : t.length < 2 ^ 31) {al : Nat → Allocs} (hs : Supplied (t.length + 255) (2 * t.length) h al) :
    ∃ v c new, parse E d h al (w ++ t ++ tail) = .done .ok v c ∧ c.error = .ok ∧ Shows E.numVal c.heap v j ∧
      History cmem numText c.heap (new ++ ops) ∧ (∀ o ∈ new, o.noNul) ∧ (∀ o ∈ new, ¬ created ops o.target) ∧
      ∀ s bs, Reads h.str s bs → Reads c.heap.str s bs := by
  obtain ⟨s', v, inner, pre, e, hr, hp, ho, _⟩ := value_ok (cmem := cmem) (numText := numText) (E := E) (need := t.length + 255) (t.length + 1) j t ht (by omega)
    d 0 ⟨w ++ (t ++ tail), [], none, ⟨h, al, [], mkUndefined, .ok⟩⟩ w tail ops rfl hw htail hd h31 (Nat.le_refl _) (by simp) (by simp) hf ⟨hh, hn⟩ .root
    (by simpa using hs)
  have hops : inner ++ (linkOps none [] v ++ (pre ++ ops)) = (inner ++ pre) ++ ops := by simp [linkOps]
  have ha := ho.adv
  have hb := ho.built
  simp only [hops] at ha hb
  have hfr : s'.ctx.frames = [] := ha.frames
  refine ⟨v, s'.ctx, inner ++ pre, ?_, ha.error, hb.shows ha.st.hist ha.st.noNul, ha.st.hist,
    fun o hm => ha.st.noNul o (List.mem_append_left _ hm), fun o hm => ?_, fun s bs hrd => ha.keeps s bs hrd⟩
  · unfold parse walk
    obtain ⟨c0, u0, h0, _⟩ := writes_head ht
    rw [if_neg (by rw [h0]; simp), List.append_assoc, e]
    simp only [hfr, if_true]
    rw [ho.root rfl]
  · rcases List.mem_append.1 hm with h | h
    · exact ho.innerNew o h
    · exact ho.preNew o h

/-- **C46**: a text that begins with a string in which a control character stands for itself is rejected with a TypeError. -/
theorem C46_control_rejected (E : Env) (h : Heap) (al : Nat → Allocs) {d : Nat} {w body bs tail : List UInt8} {c : UInt8} (hw : Blank w)
    (hb : Chars body bs) (hc : c.toNat < 32) (hd : 0 < d) :
    ∃ x, parse E d h al (w ++ 34 :: body ++ c :: tail) = .done .type mkUndefined x := by
  obtain ⟨d, rfl⟩ := Nat.exists_eq_add_of_le' hd
  have e : ∀ x : Ctx, parseValue (frozenCb E) (d + 1) ⟨w ++ 34 :: body ++ c :: tail, [], none, x⟩ = .err .invalid x := by
    intro x
    simp only [parseValue]
    rw [show w ++ 34 :: body ++ c :: tail = w ++ 34 :: (body ++ c :: tail) by simp, skip_blank (w := w) rfl hw (by rfl)]
    simp only [List.head?_cons]
    rw [if_pos (by trivial)]
    unfold parseString
    rw [testAndSkip_blank (w := []) rfl blank_nil (by rfl)]
    simp only [Res.bind]
    rw [scanStr_control hb _ _ _ _ hc (Nat.lt_succ_self _)]
  unfold parse walk
  rw [if_neg (by simp), e]
  exact ⟨_, rfl⟩

/-- A newline inside a string is rejected. -/
example (E : Env) (h : Heap) (al : Nat → Allocs) : ∃ x, parse E 1 h al [34, 97, 10, 34] = .done .type mkUndefined x :=
  C46_control_rejected E h al (w := []) (body := [97]) (bs := [97]) blank_nil (.plain ⟨by decide, by decide, by decide, by decide⟩ .nil)
    (by decide) (by decide)

/-! ### The hypotheses are met -/

theorem set_room {h k h'} (hr : Room h k) (hi : InvS h.str) (hk : k < 1099511627776) {v : Val} {p : Ptr} {key : List UInt8} {x : Val} {e : Err}
    {long : Bool} (hkl : key.length < 262144) (hld : load h.str.cmem h.str.owned p key.length = some key)
    (es : setInternal h v none p key.length x (alFor k) long = some (h', e)) : Room h' (k + 1048576) ∧ InvS h'.str := by
  have hg := hr.granted hk (n := key.length) (by omega)
  obtain ⟨st', v', bs', ec, hi', _, _, _, _, hf, _, hl, _⟩ :=
    mkStringCopy_core (alFor k).hr h.str hi p key.length (alFor k).strs (.inr ⟨key, hld⟩) hg.room hg.low hg.grant
  obtain ⟨s1, s2, s3, s4, s5, s6, s7⟩ := setInternal_shape es (st' := st') (nv := v') (by simp [propName, ec])
  have hp := hr.pblk
  have hstr := hr.str
  have hfor := hr.forn
  refine ⟨⟨by have := hr.al8; omega, by have := hr.low; omega, s1.trans hr.ocs, s2.trans hr.oinc,
    fun b hb => Nat.le_trans (hr.oblk b (s3 ▸ hb)) (by omega), s4.trans hr.pcs, s5.trans hr.pinc, ?_, ?_, ?_⟩, ?_⟩
  · intro b hb
    rcases s6 with s6 | ⟨y, hy, s6⟩
    · rw [s6] at hb
      have := hp b hb; omega
    · rw [s6] at hb
      rcases List.mem_cons.1 hb with rfl | hb
      · cases hy
        simp only [hr.pinc]; omega
      · have := hp b hb; omega
  · rcases s7 with s7 | s7 <;> rw [s7] <;> omega
  · rcases s7 with s7 | s7
    · rw [s7]; omega
    · rw [s7, hf]; omega
  · rcases s7 with s7 | s7 <;> rw [s7]
    · exact hi
    · exact hi'

theorem request_room {need : Nat} {h k h'} (hr : Room h k) (hi : InvS h.str) (hk : k < 1099511627776) (hn : need < 262144)
    (hq : Request need h (alFor k) h') : Room h' (k + 1048576) ∧ InvS h'.str := by
  cases hq with
  | @set v key x h' e hkl es => exact set_room hr hi hk (by omega) (loc_load _ _) es
  | @setZ v a key x h' e hkl hk32 hz hrd es =>
    obtain ⟨hkp, hsl⟩ := keyPtr_z hrd hz hk32
    rw [setZ, hsl, Option.bind_some] at es
    exact set_room hr hi hk (by omega) hkp.bytes es
  | @obj v _ e =>
    exact next_room hr hi hk (.new (v := toArrayTag v) (by rw [mkArray, e]; rfl))
  | arr e => exact next_room hr hi hk (.new e)
  | @str bs st' v hl e =>
    have hg := hr.granted hk (n := bs.length) (by omega)
    obtain ⟨st2, v', bs', ec, hi', _, _, _, _, hf, _, hlen, _⟩ :=
      mkStringCopy_core (alFor k).hr h.str hi (.loc bs) bs.length (alFor k).strs (.inr ⟨bs, loc_load _ _⟩) hg.room hg.low hg.grant
    rw [e] at ec
    cases ec
    have hstr := hr.str
    have hfor := hr.forn
    exact ⟨⟨by have := hr.al8; omega, by have := hr.low; omega, hr.ocs, hr.oinc, fun b hb => Nat.le_trans (hr.oblk b hb) (by omega),
      hr.pcs, hr.pinc, fun b hb => Nat.le_trans (hr.pblk b hb) (by omega), by simp only; omega, by simp only [hf]; omega⟩, hi'⟩
  | none => exact next_room hr hi hk .skip

theorem supplied_room {need : Nat} (hn : need < 262144) (n : Nat) : ∀ {h k}, Room h k → InvS h.str → k + n * 1048576 < 1099511627776 →
    Supplied need n h (supplyFrom k) := by
  induction n with
  | zero => intro h k _ _ _; trivial
  | succ n ih =>
    intro h k hr hi hk
    refine ⟨hr.granted (by omega) (by omega), fun h' hq => ?_⟩
    obtain ⟨r, i⟩ := request_room hr hi (by omega) hn hq
    exact ih r i (by omega)

/-- What `{"a":[1,"x\n"],"b":{}}` describes. -/
def demoJ : J := .obj [([97], .arr [.num false [49], .str [120, 10]]), ([98], .obj [])]

/-- `{"a":[1,"x\n"],"b":{}}`. -/
def demoJText : List UInt8 := [123, 34, 97, 34, 58, 91, 49, 44, 34, 120, 92, 110, 34, 93, 44, 34, 98, 34, 58, 123, 125, 125]

theorem demoJ_writes : Writes PlainKey demoJ demoJText := by
  have k : ∀ c : UInt8, Plain c → c ≠ 46 → PlainKey [c] [c] := fun c h h' =>
    ⟨rfl, .plain h .nil, by simpa using fun e => h.2.2.2 e.symm, by simp, by simpa using h'⟩
  have one : Writes PlainKey (.num false [49]) [49] :=
    .num (neg := false) ⟨[49], [], [], rfl, ⟨by simp, by simp [Digit]⟩, by simp, .inl rfl, .inl rfl⟩
  have two : Writes PlainKey (.str [120, 10]) [34, 120, 92, 110, 34] := .str (body := [120, 92, 110]) (.plain ⟨by decide, by decide, by decide, by decide⟩ (.esc .n .nil))
  have arr : Writes PlainKey (.arr [.num false [49], .str [120, 10]]) [91, 49, 44, 34, 120, 92, 110, 34, 93] :=
    .arr (w := []) (t := [49, 44, 34, 120, 92, 110, 34]) blank_nil
      (.more (t := [49]) (w := []) (w' := []) one blank_nil blank_nil (.last (w := []) two blank_nil))
  have emp : Writes PlainKey (.obj []) [123, 125] := .obj (w := []) (t := []) blank_nil .none
  exact .obj (w := []) (t := demoJText.tail.dropLast) blank_nil
    (.more (t := [34, 97, 34, 58, 91, 49, 44, 34, 120, 92, 110, 34, 93]) (w := []) (w' := [])
      (.mk (body := [97]) (w := []) (w' := []) (k 97 ⟨by decide, by decide, by decide, by decide⟩ (by decide)) blank_nil blank_nil arr) blank_nil blank_nil
      (.last (t := [34, 98, 34, 58, 123, 125]) (w := [])
        (.mk (body := [98]) (w := []) (w' := []) (k 98 ⟨by decide, by decide, by decide, by decide⟩ (by decide)) blank_nil blank_nil emp) blank_nil))

theorem demoJ_fits : Fits 0 demoJ := by
  have hnum : ∀ (i : Nat) (t : List UInt8), i < 2 → Numeral.Nat 10 i t → t.length ≤ 1 := fun i t hi ht => by
    rw [Arr.numeral_unique ht (dec_numeral i)]
    rcases i with _ | _ | i
    · decide
    · decide
    · omega
  refine .obj (by decide) (fun k j hm => ?_) (fun k j hm => ?_) <;> simp only [List.mem_cons, List.not_mem_nil, or_false, Prod.mk.injEq] at hm <;>
    rcases hm with ⟨rfl, rfl⟩ | ⟨rfl, rfl⟩
  · decide
  · decide
  · refine .arr (fun i j t hj ht => ?_) (fun i j t hj ht => ?_)
    · have hi := (List.getElem?_eq_some_iff.1 hj).1
      have := hnum i t hi ht
      simp only [List.length_cons, List.length_nil]
      omega
    · have hi := (List.getElem?_eq_some_iff.1 hj).1
      rcases i with _ | _ | i
      · cases hj; exact .num
      · cases hj; exact .str
      · simp only [List.length_cons, List.length_nil] at hi; omega
  · exact .obj (by decide) (by simp) (by simp)

theorem _root_.Mjs.Spec.Json.Shows.obj_inv {nv h v ms} (hs : Shows nv h v (.obj ms)) : ∃ x : Key → Val,
    (∀ k j, lastOf ms k = some j → Obj.get h v (.loc k) k.length = some (x k)) ∧ ∀ k j, lastOf ms k = some j → Shows nv h (x k) j := by
  generalize hj : J.obj ms = j at hs
  cases hs <;> cases hj
  exact ⟨_, by assumption, by assumption⟩

theorem _root_.Mjs.Spec.Json.Shows.arr_inv {nv h v l} (hs : Shows nv h v (.arr l)) : ∃ x : Nat → Val, Arr.length h v = some l.length ∧
    (∀ i j, l[i]? = some j → Arr.get h v i = some (x i)) ∧ ∀ i j, l[i]? = some j → Shows nv h (x i) j := by
  generalize hj : J.arr l = j at hs
  cases hs <;> cases hj
  exact ⟨_, by assumption, by assumption, by assumption⟩

theorem _root_.Mjs.Spec.Json.Shows.str_inv {nv h v bs} (hs : Shows nv h v (.str bs)) : Reads h.str v bs := by
  generalize hj : J.str bs = j at hs
  cases hs <;> cases hj
  assumption

/-- Non-vacuity: a fresh engine with 1000 allocations meets the hypotheses for this text: the theorem applies, and the second
element of `a` is `"x\n"`. -/
example (E : Env) (numText : Val → List UInt8) : ∃ h al v c a x, parse E 30 h al ([32] ++ demoJText ++ [32, 120]) = .done .ok v c ∧
    Obj.get c.heap v (.loc [97]) 1 = some a ∧ Arr.length c.heap a = some 2 ∧ Arr.get c.heap a 1 = some x ∧ Reads c.heap.str x [120, 10] := by
  obtain ⟨h, hh, hr⟩ := demo_start numText
  obtain ⟨A, fo, fp, hs⟩ := hh.sim
  have hsup := supplied_room (need := demoJText.length + 255) (by decide) (2 * demoJText.length) hr hs.inv.str (by decide)
  obtain ⟨v, c, new, e, _, hsh, _⟩ := C46_partial (E := E) hh (by simp) (w := [32]) (tail := [32, 120]) (by simp [Blank]) demoJ_writes demoJ_fits
    (by intro _ _ h; cases h) (d := 30) (by decide) (by decide) hsup
  obtain ⟨x, hg, hx⟩ := hsh.obj_inv
  obtain ⟨y, hl, hy, hys⟩ := (hx [97] _ rfl).arr_inv
  exact ⟨h, _, v, c, x [97], y 1, e, hg [97] _ rfl, hl, hy 1 _ rfl, (hys 1 _ rfl).str_inv⟩

/-! ### Where the code violates C46

The names and tokens that the callback receives are what the value is made of. -/

/-- A callback that notes the names and tokens, the last one first. -/
def noting (l : List (Option (List UInt8) × TokT)) (e : Event) : Option (List (Option (List UInt8) × TokT)) := some ((e.name, e.type) :: l)

/-- What was noted. -/
def noted (text : List UInt8) : List (Option (List UInt8) × TokT) :=
  match walk noting 1000 text [] with
  | .ok s => s.ctx.reverse
  | _ => []

/-- Keys are not unescaped: of `{"\n":1}` the key is a backslash and an `n`. -/
theorem C46_key_escape : noted [123, 34, 92, 110, 34, 58, 49, 125] = [(none, .objectStart), (some [92, 110], .number), (none, .objectEnd)] := by decide +kernel

/-- A member with an empty key is dropped: of `{"":1}` the callback sees no number. -/
theorem C46_empty_key : noted [123, 34, 34, 58, 49, 125] = [(none, .objectStart), (some [], .objectEnd)] := by decide +kernel

/-- A member whose key ends in a dot is dropped: `{"a.":1}`. -/
theorem C46_dot_key : noted [123, 34, 97, 46, 34, 58, 49, 125] = [(none, .objectStart), (some [97, 46], .objectEnd)] := by decide +kernel

/-- Of a member with an empty key whose value is an object, the members go into the object around it: `{"":{"a":1}}` is read
like `{"a":1}`. -/
theorem C46_empty_key_flattens : noted [123, 34, 34, 58, 123, 34, 97, 34, 58, 49, 125, 125] = noted [123, 34, 97, 34, 58, 49, 125] := by decide +kernel

/-- In the 86th array inside each other the elements have the same name, so that the second replaces the first: `[[…[1,2]…]]`. -/
theorem C46_deep_array : (noted (List.replicate 86 91 ++ [49, 44, 50] ++ List.replicate 86 93)).filter (fun e => e.2 = .number) =
    [(some [48], .number), (some [48], .number)] := by decide +kernel

/-- Of a member with a key of 254 bytes whose value is an object, the keys of the inner object are seen as strings; the first
of them, without name, is taken for the whole result. -/
theorem C46_long_key : noted ([123, 34] ++ List.replicate 254 107 ++ [34, 58, 123, 34, 97, 34, 58, 49, 125, 125]) =
    [(none, .objectStart), (some (List.replicate 254 107), .objectStart), (none, .string), (some [97], .number), (none, .objectEnd),
      (none, .objectEnd)] := by decide +kernel

end Mjs.Props
