import Verif.Props.JsonOut

/-!
# The text of a tree
-/

namespace Mjs.JsonOut
open Mjs Mjs.Str Mjs.Obj Mjs.Exec Mjs.Spec Mjs.Spec.Json Mjs.Props Mjs.Arr

variable {cmem : Nat → Option UInt8} {numText : Val → List UInt8}

/-! ### Types -/

theorem omitted_type {x : Val} (h : omitted x = true) : ∃ t, getType x = some t ∧ skipped t = true := by
  simp only [omitted, Bool.or_eq_true] at h
  rcases h with (h | h) | h
  · obtain ⟨t, e, k⟩ := (C04_getType x).2 .undefined h (by decide)
    exact ⟨t, e, by cases t <;> simp_all [kindOfTy, skipped]⟩
  · obtain ⟨t, e, k⟩ := (C04_getType x).2 .function h (by decide)
    exact ⟨t, e, by cases t <;> simp_all [kindOfTy, skipped]⟩
  · obtain ⟨t, e, k⟩ := (C04_getType x).2 .foreign h (by decide)
    exact ⟨t, e, by cases t <;> simp_all [kindOfTy, skipped]⟩

theorem getType_generic {v : Val} (h : isObject v = true) (ha : isArray v = false) : getType v = some .objectGeneric := by
  obtain ⟨t, e, k⟩ := (C04_getType v).2 .object h (by decide)
  have := getType_not_array e ha
  cases t <;> simp_all [kindOfTy]

theorem created_object {h : Heap} {ops : List ObjOp} (hh : History cmem numText h ops) {v : Val} (hc : created ops v) : isObject v = true := by
  obtain ⟨A, fo, fp, hs⟩ := hh.sim
  obtain ⟨o, L, hio, _⟩ := hs.obj v hc
  exact hio.1

/-- Denoted values have a type that is written. -/
theorem Denotes.type {h : Heap} {ops : List ObjOp} (hh : History cmem numText h ops) {v : Val} {j : J} (hd : Denotes numText ops h.str v j) :
    ∃ t, getType v = some t ∧ skipped t = false := by
  cases hd with
  | null => exact ⟨.null, by decide, rfl⟩
  | @bool b => exact ⟨.boolean, by cases b <;> decide, rfl⟩
  | num hx => exact ⟨_, Str.getType_number hx, rfl⟩
  | str hs => exact ⟨_, getType_string hs, rfl⟩
  | arr ha => exact ⟨_, getType_array ha, rfl⟩
  | obj hc ha => exact ⟨_, getType_generic (created_object hh hc) ha, rfl⟩

/-! ### Trees have no cycles -/

/-- `w` is a part of `v` that is written. -/
def Part (ops : List ObjOp) (w v : Val) : Prop := created ops v ∧ ∃ k, engineCurrent ops v k = some w ∧ omitted w = false

theorem Part.acc {h : Heap} {ops : List ObjOp} (hh : History cmem numText h ops) (hn : ∀ o ∈ ops, o.noNul) {v : Val} {j : J}
    (hd : Denotes numText ops h.str v j) : Acc (Part ops) v := by
  have leaf : ∀ v t, getType v = some t → kindOfTy t ≠ .object → Acc (Part ops) v := fun v t ht hk => by
    refine ⟨_, fun w hw => ?_⟩
    obtain ⟨t', e, k⟩ := (C04_getType v).2 .object (created_object hh hw.1) (by decide)
    rw [ht] at e
    cases e
    exact (hk k).elim
  induction hd with
  | null => exact leaf _ .null (by decide) (by decide)
  | @bool b => exact leaf _ .boolean (by cases b <;> decide) (by decide)
  | num hx => exact leaf _ _ (Str.getType_number hx) (by decide)
  | str hs => exact leaf _ _ (getType_string hs) (by decide)
  | @arr v l f ha hf hl h1 h2 h3 ih =>
    refine ⟨_, fun w ⟨_, k, hk, ho⟩ => ?_⟩
    have hv := view_of hf
    have hm : k ∈ engineOrder ops v := by
      rw [engineOrder_eq hn, mem_order_iff, ← engineCurrent_eq hn, hk]; rfl
    obtain ⟨i, _, hi⟩ := hv.key k hm
    have hfi : f i = some w := by rw [← hv.cur i k hi, hk]
    have hil : i < l.length := hl.1 i (by rw [hfi]; simp)
    exact ih i l[i] w (List.getElem?_eq_getElem hil) hfi ho
  | @obj v ms hc ha hm hk h3 ih =>
    refine ⟨_, fun w ⟨_, k, hk, ho⟩ => ?_⟩
    rw [engineCurrent_eq hn] at hk
    have : k ∈ ms.map (·.1) := by
      rw [hm, List.mem_filter, mem_order_iff, hk]
      simp [ho]
    obtain ⟨⟨k', j⟩, hj, rfl⟩ := List.mem_map.1 this
    exact ih k' j w hj hk

theorem Acc.irrefl' {α : Type} {r : α → α → Prop} {a : α} (h : Acc r a) : ¬ Relation.TransGen r a a := by
  have := h.transGen
  induction this with
  | intro a _ ih => exact fun hr => ih a hr (h := by assumption) hr

/-! ### Keys -/

theorem chars_noNul {t b : List UInt8} (h : Chars t b) : (0 : UInt8) ∉ t := by
  have cont : ∀ {x : UInt8}, Cont x → (0 : UInt8) ≠ x := fun hx e => by
    subst e; exact absurd hx.1 (by decide)
  have ge : ∀ {x : UInt8} {n : Nat}, n ≤ x.toNat → 0 < n → (0 : UInt8) ≠ x := fun h h0 e => by
    subst e; simp at h; omega
  have hex : ∀ {x : UInt8} {n : Nat}, Hex x n → (0 : UInt8) ≠ x := fun h => by
    cases h with
    | dec h _ => exact ge h (by decide)
    | small h _ => exact ge h (by decide)
    | capital h _ => exact ge h (by decide)
  induction h with
  | nil => simp
  | plain hc _ ih => simp only [List.mem_cons, not_or]; exact ⟨ge hc.1 (by decide), ih⟩
  | two h _ hx _ ih => simp only [List.mem_cons, not_or]; exact ⟨ge h (by decide), cont hx, ih⟩
  | three h _ hx hy _ ih => simp only [List.mem_cons, not_or]; exact ⟨ge h (by decide), cont hx, cont hy, ih⟩
  | four h hx hy hz _ ih => simp only [List.mem_cons, not_or]; exact ⟨ge h (by decide), cont hx, cont hy, cont hz, ih⟩
  | esc he _ ih => simp only [List.mem_cons, not_or]; exact ⟨by decide, by cases he <;> decide, ih⟩
  | ascii hx hy _ _ ih => simp only [List.mem_cons, not_or]; exact ⟨by decide, by decide, by decide, by decide, hex hx, hex hy, ih⟩

theorem lookup_self {L : List Ent} (hp : L.Pairwise fun a b => sameKey a.key b.key = false) {e : Ent} (he : e ∈ L) : lookup L e.key = some e.val := by
  induction L with
  | nil => simp at he
  | cons a L ih =>
    rw [lookup_cons]
    rw [List.pairwise_cons] at hp
    rcases List.mem_cons.1 he with rfl | he
    · rw [if_pos (sameKey_refl _)]
    · rw [if_neg (by rw [hp.1 e he]; simp), ih hp.2 he]

/-! ### Arrays -/

/-- The elements from `i` on, with commas. -/
def joined (T : Nat → List UInt8) : Nat → Nat → List UInt8
  | _, 0 => []
  | i, n + 1 => T i ++ (if n ≠ 0 then 44 :: joined T (i + 1) n else [])

theorem joined_le (T : Nat → List UInt8) (n : Nat) : ∀ i k, k < n → (T (i + k)).length ≤ (joined T i n).length := by
  induction n with
  | zero => intro i k h; omega
  | succ n ih =>
    intro i k h
    rw [joined, List.length_append]
    cases k with
    | zero => exact Nat.le_add_right _ _
    | succ k =>
      have := ih (i + 1) k (by omega)
      rw [if_pos (by omega), List.length_cons, show i + (k + 1) = i + 1 + k by omega]
      omega

theorem joined_sep {W : J → List UInt8 → Prop} {l : List J} {T : Nat → List UInt8} (hT : ∀ i j, l[i]? = some j → W j (T i)) (n : Nat) : ∀ i,
    i + n = l.length → Sep W (l.drop i) (joined T i n) := by
  induction n with
  | zero => intro i h; rw [List.drop_of_length_le (by omega)]; exact .none
  | succ n ih =>
    intro i h
    have hi : i < l.length := by omega
    rw [List.drop_eq_getElem_cons hi, joined]
    have hw := hT i l[i] (List.getElem?_eq_getElem hi)
    cases n with
    | zero =>
      rw [if_neg (by simp), List.drop_of_length_le (by omega)]
      exact .last (w := []) hw (by simp [Blank])
    | succ n =>
      have := ih (i + 1) (by omega)
      rw [if_pos (by simp)]
      have hi' : i + 1 < l.length := by omega
      rw [List.drop_eq_getElem_cons hi'] at this ⊢
      exact .more (w := []) (w' := []) hw (by simp [Blank]) (by simp [Blank]) this

theorem elemText_joined {rec : Val → Option TOut} {h : Heap} {v : Val} {T : Nat → List UInt8} (n : Nat) : ∀ (i : Nat) (acc : List UInt8),
    (∀ k, i ≤ k → k < i + n → ∃ el has, get2 h v k = some (el, has) ∧
      ((has = false ∧ T k = [110, 117, 108, 108]) ∨
        ∃ t, has = true ∧ getType el = some t ∧ ((skipped t = true ∧ T k = [110, 117, 108, 108]) ∨ (skipped t = false ∧ rec el = some (.done (T k) false))))) →
    elemText rec h v i (acc, false) n = some (some (acc ++ joined T i n, false)) := by
  induction n with
  | zero => intro i acc _; rw [elemText, joined, List.append_nil]
  | succ n ih =>
    intro i acc hr
    obtain ⟨el, has, hg, hc⟩ := hr i (Nat.le_refl _) (by omega)
    have next : elemText rec h v (i + 1) (if n ≠ 0 then acc ++ T i ++ [44] else acc ++ T i, false) n = some (some (acc ++ joined T i (n + 1), false)) := by
      rw [ih (i + 1) _ (fun k h1 h2 => hr k (by omega) (by omega)), joined]
      by_cases hn : n ≠ 0
      · rw [if_pos hn, if_pos hn]; simp
      · rw [if_neg hn, if_neg hn]
        have : n = 0 := by omega
        subst this
        simp [joined]
    rw [elemText, hg]
    rcases hc with ⟨rfl, e⟩ | ⟨t, rfl, ht, ⟨hs, e⟩ | ⟨hs, e⟩⟩
    · rw [e] at next
      simpa using next
    · rw [e] at next
      simp only [Option.bind_eq_bind, Option.bind_some, if_true, ht, hs]
      simpa using next
    · simp only [Option.bind_eq_bind, Option.bind_some, if_true, ht, hs, Bool.false_eq_true, if_false, e]
      simpa using next

/-! ### Objects -/

/-- One member. -/
def memberText (T : Key × J → List UInt8) (m : Key × J) : List UInt8 := 34 :: (m.1 ++ [34, 58]) ++ T m

/-- The members, with commas. -/
def memberTexts (T : Key × J → List UInt8) : List (Key × J) → List UInt8
  | [] => []
  | m :: ms => memberText T m ++ ms.flatMap fun m => 44 :: memberText T m

theorem memberTexts_le (T : Key × J → List UInt8) {ms : List (Key × J)} {m : Key × J} (h : m ∈ ms) : (T m).length ≤ (memberTexts T ms).length := by
  have one : (T m).length ≤ (memberText T m).length := by simp [memberText]; omega
  cases ms with
  | nil => simp at h
  | cons a ms =>
    rw [memberTexts, List.length_append]
    rcases List.mem_cons.1 h with rfl | h
    · omega
    · obtain ⟨s, t, rfl⟩ := List.append_of_mem h
      simp only [List.flatMap_append, List.flatMap_cons, List.length_append, List.length_cons]
      omega

theorem memberTexts_sep {K : List UInt8 → Key → Prop} {W : J → List UInt8 → Prop} {T : Key × J → List UInt8} : ∀ {ms : List (Key × J)},
    (∀ m ∈ ms, K m.1 m.1 ∧ W m.2 (T m)) → Sep (Member K W) ms (memberTexts T ms)
  | [], _ => .none
  | [m], h => by
    have hm := h m (by simp)
    have : Member K W m (memberText T m) := by
      have := Member.mk (K := K) (W := W) (w := []) (w' := []) hm.1 (by simp [Blank]) (by simp [Blank]) hm.2
      simpa [memberText] using this
    have := Sep.last (w := []) this (by simp [Blank])
    simpa [memberTexts] using this
  | m :: m' :: ms, h => by
    have hm := h m (by simp)
    have h1 : Member K W m (memberText T m) := by
      have := Member.mk (K := K) (W := W) (w := []) (w' := []) hm.1 (by simp [Blank]) (by simp [Blank]) hm.2
      simpa [memberText] using this
    have ih := memberTexts_sep (ms := m' :: ms) fun m hm => h m (List.mem_cons_of_mem _ hm)
    have := Sep.more (w := []) (w' := []) h1 (by simp [Blank]) (by simp [Blank]) ih
    simpa [memberTexts] using this

theorem propText_members {rec : Val → Option TOut} {h : Heap} {T : Key × J → List UInt8} {keep : Key → Bool} (hi : InvS h.str) {L : List Ent} : ∀ {p : Nat} {ms : List (Key × J)},
    Chain h.props.mem p L → (∀ e ∈ L, Named h.str e.name e.key) → (∀ e ∈ L, ∃ t, getType e.val = some t ∧ skipped t = !keep e.key) →
    ms.map (·.1) = (L.map Ent.key).filter keep → (∀ k j, (k, j) ∈ ms → (0 : UInt8) ∉ k ∧ k ≠ [] ∧ k.length < 2 ^ 31) →
    (∀ e ∈ L, ∀ j, (e.key, j) ∈ ms → rec e.val = some (.done (T (e.key, j)) false)) → ∀ acc : List UInt8, acc ≠ [] →
    propText rec h p (acc, false) = some (some (acc ++ (if acc.length = 1 then memberTexts T ms else ms.flatMap fun m => 44 :: memberText T m), false)) := by
  induction L with
  | nil =>
    intro p ms hch _ _ hm _ _ acc _
    cases hch
    have : ms = [] := by simpa using hm
    subst this
    rw [propText_eq, if_pos rfl]
    simp [memberTexts]
  | cons e L ih =>
    intro p ms hch hnm hty hm hk hr acc h0
    cases hch with
    | @cons _ c key _ hp hc hch =>
    have hnm' := fun e' (he : e' ∈ L) => hnm e' (List.mem_cons_of_mem _ he)
    have hty' := fun e' (he : e' ∈ L) => hty e' (List.mem_cons_of_mem _ he)
    have hne := hnm _ (List.mem_cons_self ..)
    obtain ⟨t, ht, hs⟩ := hty _ (List.mem_cons_self ..)
    dsimp only at hne ht hs
    rw [propText_eq, if_neg hp, hc, Option.bind_some, ht, Option.bind_some]
    rw [List.map_cons, List.filter_cons] at hm
    dsimp only at hm
    cases hkp : keep key with
    | false =>
      rw [hkp] at hs hm
      rw [if_pos (by simpa using hs)]
      rw [if_neg (by simp)] at hm
      exact ih hch hnm' hty' hm hk (fun e' he j hj => hr e' (List.mem_cons_of_mem _ he) j hj) acc h0
    | true =>
      rw [hkp] at hs hm
      rw [if_neg (by simp [hs])]
      rw [if_pos rfl] at hm
      cases ms with
      | nil => simp at hm
      | cons m ms =>
      obtain ⟨k, j⟩ := m
      simp only [List.map_cons, List.cons.injEq] at hm
      obtain ⟨rfl, hm⟩ := hm
      obtain ⟨hk0, hk1, hk2⟩ := hk k j (List.mem_cons_self ..)
      obtain ⟨⟨q, n, hg, _, hl⟩, _⟩ := hne
      have hlen : k.length = n := (load_some_length hi hg hl).symm
      subst hlen
      rw [hg, Option.bind_some, strArgs_eq hl hk1 hk2, Option.bind_some, text_key k hk0 hk1, Option.bind_some, hr _ (List.mem_cons_self ..) j (List.mem_cons_self ..), Option.bind_some]
      dsimp only
      rw [Bool.or_false, ih hch hnm' hty' hm (fun k j hj => hk k j (List.mem_cons_of_mem _ hj)) (fun e' he j hj => hr e' (List.mem_cons_of_mem _ he) j (List.mem_cons_of_mem _ hj)) _ (by simp)]
      congr 3
      by_cases h1 : acc.length = 1
      · simp only [h1, ne_eq, not_true, if_false, if_true]
        rw [if_neg (by simp only [List.length_append, List.length_cons]; omega)]
        simp [memberTexts, memberText]
      · simp only [h1, ne_eq, not_false_eq_true, if_false, if_true]
        rw [if_neg (by simp only [List.length_append, List.length_cons]; omega)]
        simp [memberText]

/-! ### Trees -/

/-- The text of a tree is a JSON text, whatever has been visited before, as long as it is not a part of the tree. -/
theorem denotes_text (hT : TextOk numText) {h : Heap} {ops : List ObjOp} (hh : History cmem numText h ops) (hn : ∀ o ∈ ops, o.noNul) {v : Val} {j : J}
    (hd : Denotes numText ops h.str v j) : ∃ t, Writes PlainKey j t ∧ ∀ d visited, t.length < d →
      (∀ u ∈ visited, Relation.TransGen (Part ops) v u) → valText numText h d visited v = some (.done t false) := by
  have seen : ∀ {v j}, Denotes numText ops h.str v j → ∀ {visited : List Val}, (∀ u ∈ visited, Relation.TransGen (Part ops) v u) → v ∉ visited :=
    fun hd _ hv hm => Acc.irrefl' (Part.acc hh hn hd) (hv _ hm)
  have printed : ∀ {v j t ty s}, Denotes numText ops h.str v j → getType v = some ty → ty ≠ .string → ty ≠ .objectGeneric → ty ≠ .objectArray →
      toStr numText h.str v = some (some (.loc s, s.length)) → t = s → s ≠ [] → (0 : UInt8) ∉ s → s.length < 2 ^ 31 → ∀ d visited, t.length < d →
      (∀ u ∈ visited, Relation.TransGen (Part ops) v u) → valText numText h d visited v = some (.done t false) := by
    intro v j t ty s hd ht n1 n2 n3 hs e h0 hz hl d visited hlt hv
    subst e
    cases d with
    | zero => omega
    | succ d =>
      obtain ⟨ty', ht', hsk⟩ := Denotes.type hh hd
      rw [ht] at ht'
      cases ht'
      rw [valText]
      have hld : load h.str.cmem h.str.owned (.loc t) t.length = some t := loc_load _ _
      simp only [ht, Option.bind_eq_bind, Option.bind_some, hsk, Bool.false_eq_true, if_false, if_neg (seen hd hv)]
      cases ty <;> first | contradiction | (simp only [hs, Option.bind_some, strArgs_eq hld h0 hl, text_str t hz h0, Option.map_some])
  induction hd with
  | null => exact ⟨_, .null, printed .null (ty := .null) (by decide) (by decide) (by decide) (by decide) rfl rfl (by decide) (by decide) (by decide)⟩
  | @bool b =>
    cases b with
    | true => exact ⟨_, .true, printed .bool (ty := .boolean) (by decide) (by decide) (by decide) (by decide) rfl rfl (by decide) (by decide) (by decide)⟩
    | false => exact ⟨_, .false, printed .bool (ty := .boolean) (by decide) (by decide) (by decide) (by decide) rfl rfl (by decide) (by decide) (by decide)⟩
  | @num x neg t hx ht e =>
    refine ⟨_, .num (neg := neg) ht, ?_⟩
    have hns : isString x = false := by
      cases hs : isString x with
      | false => rfl
      | true =>
        have h1 := Str.getType_number hx
        rw [getType_string hs] at h1
        cases h1
    refine printed (.num hx ht e) (Str.getType_number hx) (by decide) (by decide) (by decide) (s := numText x) ?_ e.symm ?_ (hT x).1 (hT x).2
    · unfold toStr
      rw [if_neg (by simp [hns]), if_pos hx]
    · rw [e]
      obtain ⟨i, f, e', rfl, hi, _⟩ := ht
      intro h
      simp at h
      exact hi.1 h.2.1
  | @str v bs hs hr hq =>
    refine ⟨quoted bs, .str (quoted_chars hq), fun d visited hlt hv => ?_⟩
    cases d with
    | zero => omega
    | succ d =>
      obtain ⟨p, n, hg, _, hl⟩ := hr
      rw [valText]
      have hnv := seen (.str hs ⟨p, n, hg, ‹_›, hl⟩ hq) hv
      simp [getType_string hs, skipped, hnv, hg, hl]
  | @arr v l f ha hf hl h1 h2 h3 ih =>
    have hd : Denotes numText ops h.str v (.arr l) := .arr ha hf hl h1 h2 h3
    have hvw := view_of hf
    -- the texts of the elements
    have hex : ∀ i, ∃ t, ∀ j, l[i]? = some j → Writes PlainKey j t ∧
        ((∀ x, f i = some x → omitted x = true) → t = [110, 117, 108, 108]) ∧
        (∀ x, f i = some x → omitted x = false → ∀ d visited, t.length < d →
          (∀ u ∈ visited, Relation.TransGen (Part ops) x u) → valText numText h d visited x = some (.done t false)) := by
      intro i
      cases hj : l[i]? with
      | none => exact ⟨[], fun j h => by cases h⟩
      | some j =>
        cases hfi : f i with
        | none =>
          refine ⟨[110, 117, 108, 108], fun j' e => ?_⟩
          cases e
          rw [h1 i j hj hfi]
          exact ⟨.null, fun _ => rfl, fun x h => by cases h⟩
        | some x =>
          cases ho : omitted x with
          | true =>
            refine ⟨[110, 117, 108, 108], fun j' e => ?_⟩
            cases e
            rw [h2 i j x hj hfi ho]
            exact ⟨.null, fun _ => rfl, fun y h h' => by cases h; rw [ho] at h'; cases h'⟩
          | false =>
            obtain ⟨t, hw, ht⟩ := ih i j x hj hfi ho
            refine ⟨t, fun j' e => ?_⟩
            cases e
            refine ⟨hw, fun h => ?_, fun y h _ => ?_⟩
            · have := h x rfl; rw [ho] at this; cases this
            · cases h; exact ht
    obtain ⟨T, hTx⟩ := Classical.axiomOfChoice hex
    have hlen : Arr.length h v = some l.length := by
      obtain ⟨n, e, hn'⟩ := C18_length hh hf
      rw [e, isLength_unique hn' hl]
    have hsmall : l.length < 2 ^ 63 := by
      rcases hl.2 with h0 | h0
      · omega
      · have := hvw.idx _ h0
        unfold IsIndex at this
        omega
    refine ⟨91 :: ([] ++ (joined T 0 l.length ++ [93])), .arr (w := []) (by simp [Blank]) ?_, fun d visited hlt hv => ?_⟩
    · have := joined_sep (W := Writes PlainKey) (fun i j hj => (hTx i j hj).1) l.length 0 (Nat.zero_add _)
      simpa using this
    cases d with
    | zero => omega
    | succ d =>
      rw [valText]
      have hloop := elemText_joined (rec := valText numText h d (v :: visited)) (h := h) (v := v) (T := T) l.length 0 [91] (by
        intro i _ hi
        rw [Nat.zero_add] at hi
        obtain ⟨_, hg⟩ := C18_get hh hf (i := i) (by omega)
        refine ⟨_, _, hg, ?_⟩
        obtain ⟨_, hnull, hval⟩ := hTx i l[i] (List.getElem?_eq_getElem hi)
        cases hfi : f i with
        | none => exact .inl ⟨rfl, hnull fun x h => by rw [hfi] at h; cases h⟩
        | some x =>
          cases ho : omitted x with
          | true =>
            obtain ⟨ty, e, hs⟩ := omitted_type ho
            exact .inr ⟨ty, rfl, e, .inl ⟨hs, hnull fun y h => by rw [hfi] at h; cases h; exact ho⟩⟩
          | false =>
            obtain ⟨ty, e, hs⟩ := Denotes.type hh (h3 i _ x (List.getElem?_eq_getElem hi) hfi ho)
            refine .inr ⟨ty, rfl, e, .inr ⟨hs, hval x hfi ho d _ ?_ ?_⟩⟩
            · have := joined_le T l.length 0 i hi
              rw [Nat.zero_add] at this
              simp only [List.nil_append, List.length_cons, List.length_append, List.length_nil] at hlt
              omega
            · have hp : Part ops x v := ⟨hvw.cr, Json.dec i, by rw [hvw.cur i _ (Json.dec_numeral i), hfi], ho⟩
              intro u hu
              rcases List.mem_cons.1 hu with rfl | hu
              · exact .single hp
              · exact .trans (.single hp) (hv u hu))
      simp only [getType_array ha, Option.bind_eq_bind, Option.bind_some, show skipped .objectArray = false from rfl, Bool.false_eq_true, if_false,
        if_neg (seen hd hv), hlen, hloop]
      simp
  | @obj v ms hc ha hm hk h3 ih =>
    have hd : Denotes numText ops h.str v (.obj ms) := .obj hc ha hm hk h3
    have hex : ∀ m : Key × J, ∃ t, m ∈ ms → Writes PlainKey m.2 t ∧ ∀ x, current ops v m.1 = some x → ∀ d visited, t.length < d →
        (∀ u ∈ visited, Relation.TransGen (Part ops) x u) → valText numText h d visited x = some (.done t false) := by
      rintro ⟨k, j⟩
      by_cases hmem : (k, j) ∈ ms
      · have : k ∈ ms.map (·.1) := List.mem_map.2 ⟨_, hmem, rfl⟩
        rw [hm, List.mem_filter] at this
        cases hcur : current ops v k with
        | none => rw [hcur] at this; simp at this
        | some x =>
          obtain ⟨t, hw, ht⟩ := ih k j x hmem hcur
          refine ⟨t, fun _ => ⟨hw, fun y hy => ?_⟩⟩
          cases hy
          exact ht
      · exact ⟨[], fun h => (hmem h).elim⟩
    obtain ⟨T, hTx⟩ := Classical.axiomOfChoice hex
    refine ⟨123 :: ([] ++ (memberTexts T ms ++ [125])), .obj (w := []) (by simp [Blank]) (memberTexts_sep fun m hm' => ⟨(hk m.1 m.2 hm').1, (hTx m hm').1⟩),
      fun d visited hlt hv => ?_⟩
    obtain ⟨A, fo, fp, hs⟩ := hh.sim
    obtain ⟨o, L, hio, hA, hord, hlook⟩ := hs.obj v hc
    obtain ⟨_, c, hcell, hch⟩ := hs.inv.obj o L hA
    rw [engineOrder_eq hn] at hord
    have hcur : ∀ e ∈ L, current ops v e.key = some e.val := by
      intro e he
      rw [← engineCurrent_eq hn, ← hlook]
      exact lookup_self (hs.inv.keys o L hA) he
    cases d with
    | zero => omega
    | succ d =>
      rw [valText]
      have hloop := propText_members (rec := valText numText h d (v :: visited)) (T := T) (keep := fun k => (current ops v k).any fun x => !omitted x) hs.inv.str hch
        (hs.inv.names o L hA) (fun e he => by
          rw [hcur e he]
          simp only [Option.any_some, Bool.not_not]
          cases ho : omitted e.val with
          | true => exact omitted_type ho
          | false =>
            have : e.key ∈ ms.map (·.1) := by
              rw [hm, List.mem_filter]
              exact ⟨hord ▸ List.mem_map.2 ⟨e, he, rfl⟩, by rw [hcur e he]; simp [ho]⟩
            obtain ⟨⟨k, j⟩, hj, hkj⟩ := List.mem_map.1 this
            dsimp only at hkj
            subst hkj
            exact Denotes.type hh (h3 _ j _ hj (hcur e he)))
        (by rw [hord, hm])
        (fun k j hj => ⟨chars_noNul (hk k j hj).1.2.1, (hk k j hj).1.2.2.2.1, (hk k j hj).2⟩)
        (fun e he j hj => (hTx _ hj).2 _ (hcur e he) d _ (by
            have := memberTexts_le T hj
            simp only [List.nil_append, List.length_cons, List.length_append, List.length_nil] at hlt
            omega) (by
            have hp : Part ops e.val v := ⟨hc, e.key, by rw [engineCurrent_eq hn]; exact hcur e he, by
              have : e.key ∈ ms.map (·.1) := List.mem_map.2 ⟨_, hj, rfl⟩
              rw [hm, List.mem_filter, hcur e he] at this
              simpa using this.2⟩
            intro u hu
            rcases List.mem_cons.1 hu with rfl | hu
            · exact .single hp
            · exact .trans (.single hp) (hv u hu)))
        [123] (by simp)
      simp only [getType_generic hio.1 ha, Option.bind_eq_bind, Option.bind_some, show skipped .objectGeneric = false from rfl, Bool.false_eq_true, if_false,
        if_neg (seen hd hv), getObjectStruct_of hio, hcell, hloop]
      simp

end Mjs.JsonOut
