import Verif.Lemmas.GcSlot

namespace Mjs.Gc
open Mjs Mjs.Mbuf Mjs.Varint Mjs.Str Mjs.Arena Mjs.Obj Mjs.Spec.Gc

variable {σ : Type}

/-! ### Values -/

theorem or_tag (n : Nat) (hn : n < 2 ^ 48) (t : Val) : BitVec.ofNat 64 n ||| t = mkTagged n t := by
  have hN : (BitVec.ofNat 64 n).toNat = n := by rw [BitVec.toNat_ofNat, Nat.mod_eq_of_lt (by omega)]
  rw [mkTagged, and_compl_of_zero _ (small_and_mask _ (by rw [hN]; exact hn))]

theorem or_tag_tag (n : Nat) (hn : n < 2 ^ 48) (k : Fin 16) :
    (BitVec.ofNat 64 n ||| makeTag 1 k) &&& tagMask = makeTag 1 k := by
  rw [or_tag n hn]; exact mkTagged_tag n k

theorem or_tag_low (n : Nat) (hn : n < 2 ^ 48) (k : Fin 16) :
    (BitVec.ofNat 64 n ||| makeTag 1 k) &&& ~~~tagMask = BitVec.ofNat 64 n := by
  have hN : (BitVec.ofNat 64 n).toNat = n := by rw [BitVec.toNat_ofNat, Nat.mod_eq_of_lt (by omega)]
  have h0 := small_and_mask (BitVec.ofNat 64 n) (by rw [hN]; exact hn)
  exact payload_mk (BitVec.ofNat 64 n) (makeTag 1 k) (tags_in_mask k) h0

theorem ofNat_low (n : Nat) (hn : n < 2 ^ 48) : BitVec.ofNat 64 n &&& ~~~tagMask = BitVec.ofNat 64 n ∧
    BitVec.ofNat 64 n &&& tagMask = 0#64 ∧ (BitVec.ofNat 64 n).toNat = n := by
  have hN : (BitVec.ofNat 64 n).toNat = n := by rw [BitVec.toNat_ofNat, Nat.mod_eq_of_lt (by omega)]
  have h0 := small_and_mask (BitVec.ofNat 64 n) (by rw [hN]; exact hn)
  exact ⟨and_compl_of_zero _ h0, h0, hN⟩

theorem fromOffset_eq (n : Nat) (hn : n < 2 ^ 48) : fromOffset n = mkTagged n tagStringO := or_tag n hn _

theorem low6_length (n : Nat) : (low6 n).length = 6 := by simp [low6]

theorem packLE_low6 (n : Nat) (hn : n < 2 ^ 48) : packLE (low6 n) = n := by
  simp only [low6, show List.range 6 = [0, 1, 2, 3, 4, 5] from rfl, List.map_cons, List.map_nil, packLE,
    UInt8.toNat_ofNat']
  omega

theorem low6_packLE (bs : List UInt8) (h : bs.length = 6) : low6 (packLE bs) = bs := by
  apply packLE_inj _ _ (by rw [low6_length, h])
  rw [packLE_low6]
  have := packLE_lt bs
  rw [h] at this
  exact this

theorem pack6_lt (bs : List UInt8) (h : bs.length = 6) : packLE bs < 2 ^ 48 := by
  have := packLE_lt bs
  rw [h] at this
  exact this

/-! ### Buffer -/

theorem store_at {b : Mbuf} {A X B bs : List UInt8} (hm : b.mem = A ++ (X ++ B)) (hx : X.length = bs.length) :
    store b A.length bs = some { b with mem := A ++ (bs ++ B) } := by
  have hl : A.length + bs.length ≤ b.mem.length := by rw [hm]; simp; omega
  rw [store, memcpyFrom, if_pos ⟨hl, Nat.le_refl _⟩, Option.map_some, hm]
  congr 2
  rw [take_len_append, List.take_of_length_le (Nat.le_refl _), List.append_assoc]
  congr 2
  have : A.length + bs.length = (A ++ X).length := by simp [hx]
  rw [this, ← List.append_assoc, drop_len_append]

theorem load6_at {b : Mbuf} {A X B : List UInt8} (hm : b.mem = A ++ (X ++ B)) (hx : X.length = 6) :
    load6 b A.length = some (packLE X) := by
  rw [load6, if_pos (by rw [hm]; simp; omega), hm, drop_len_append, ← hx, take_len_append]

theorem byte_at {b : Mbuf} {A B : List UInt8} {x} (hm : b.mem = A ++ (x :: B)) : b.mem[A.length]? = some x := by
  rw [hm, List.getElem?_append_right (Nat.le_refl _)]; simp

/-- What marking a string does to the memory. -/
theorem markString_at {m : Mem σ} (hl : Lay m) {a v P mk X R} (hr : readSlot m a = some v)
    (hm : m.heap.str.owned.mem = P ++ (mk :: (X ++ R))) (hx : X.length = 6) (ho : valToOffset v = P.length + 1)
    (hlen : P.length + 1 < m.heap.str.owned.len) :
    ∃ m', markString m a = some m' ∧ Same m m' ∧
      m'.heap.str = { m.heap.str with owned := { m.heap.str.owned with mem := P ++ (1 :: (low6 a ++ R)) } } ∧
      readSlot m' a = some (BitVec.ofNat 64 (packLE X) ||| (if mk = 0 then tagStringC else tagForeign)) ∧
      ∀ b, b ≠ a → readSlot m' b = readSlot m b := by
  have e1 : m.heap.str.owned.mem[P.length + 1 - 1]? = some mk := by rw [Nat.add_sub_cancel]; exact byte_at hm
  have hm2 : m.heap.str.owned.mem = (P ++ [mk]) ++ (X ++ R) := by rw [hm]; simp
  have e2 : load6 m.heap.str.owned (P.length + 1) = some (packLE X) := by
    have := load6_at hm2 hx
    simpa using this
  have e3 : store m.heap.str.owned (P.length + 1 - 1) [1] =
      some { m.heap.str.owned with mem := P ++ ([1] ++ (X ++ R)) } := by
    rw [Nat.add_sub_cancel]
    exact store_at (X := [mk]) (B := X ++ R) (by rw [hm]; rfl) rfl
  have e4 : store { m.heap.str.owned with mem := P ++ ([1] ++ (X ++ R)) } (P.length + 1) (low6 a) =
      some { m.heap.str.owned with mem := P ++ (1 :: (low6 a ++ R)) } := by
    have := store_at (b := { m.heap.str.owned with mem := P ++ ([1] ++ (X ++ R)) }) (A := P ++ [1]) (X := X) (B := R)
      (bs := low6 a) (by simp) (by rw [hx, low6_length])
    simp only [List.length_append, List.length_cons, List.length_nil, Nat.zero_add] at this
    rw [this]
    simp
  let m1 : Mem σ := setOwned m { m.heap.str.owned with mem := P ++ (1 :: (low6 a ++ R)) }
  have hl1 : Lay m1 := hl.congr (fun _ => .rfl) fun _ => .rfl
  have hr1 : readSlot m1 a = some v := hr
  obtain ⟨m', w, s, hstr, hw, hother⟩ := write_slot hl1 hr1
    (BitVec.ofNat 64 (packLE X) ||| (if mk = 0 then tagStringC else tagForeign))
  refine ⟨m', ?_, ⟨s.objs, s.sigs, s.cs, s.inc, s.blocks, s.free, s.heads, s.vars⟩, hstr, hw, hother⟩
  simp only [markString, Option.bind_eq_bind, hr, Option.bind_some, ho]
  rw [if_pos ⟨hlen, by omega⟩, e1, Option.bind_some, e2, Option.bind_some, e3, Option.bind_some, e4, Option.bind_some]
  exact w

/-! ### The buffer during marking -/

/-- A string of the buffer without its NUL. -/
def enc0 (bs : List UInt8) : List UInt8 := encodeBytes bs.length ++ bs

/-- A string with the variables that were made to refer to it through its first 6 bytes, the latest first. -/
abbrev Item := List UInt8 × List Nat

/-- The bytes of a string during marking, with the NUL before it, which serves as its mark. -/
def piece (it : Item) : List UInt8 :=
  match it.2 with
  | [] => 0 :: ((enc0 it.1).take 6 ++ (enc0 it.1).drop 6)
  | a :: _ => 1 :: (low6 a ++ (enc0 it.1).drop 6)

theorem enc0_length (bs : List UInt8) : (enc0 bs).length = llen bs.length + bs.length := by
  simp [enc0, length_encodeBytes]

theorem piece_length {it : Item} (h : 5 < it.1.length) : (piece it).length = (enc0 it.1).length + 1 := by
  have := enc0_length it.1
  unfold piece
  split
  · simp
  · simp [low6_length]; omega

theorem piece_pos (it : Item) : 0 < (piece it).length := by
  unfold piece; split <;> simp

theorem stringBytes_eq (L : List (List UInt8)) : stringBytes L = (L.map fun bs => ((bs, []) : Item)).flatMap piece ++ [0] := by
  have key : ∀ L : List (List UInt8), (0 : UInt8) :: (L.flatMap fun bs => encodeBytes bs.length ++ bs ++ [0]) =
      (L.flatMap fun bs => 0 :: enc0 bs) ++ [0] := by
    intro L
    induction L with
    | nil => rfl
    | cons bs L ih =>
      simp only [List.flatMap_cons, enc0, List.append_assoc, List.cons_append, List.nil_append] at ih ⊢
      rw [ih]
  rw [stringBytes, key, List.flatMap_map]
  congr 2
  funext bs
  simp [piece]

/-- The list of variables that refer to a string, during marking. -/
def Thread (rd : Nat → Option Val) (bs : List UInt8) : List Nat → Prop
  | [] => True
  | [a] => rd a = some (BitVec.ofNat 64 (packLE ((enc0 bs).take 6)) ||| tagStringC)
  | a :: b :: l => rd a = some (BitVec.ofNat 64 b ||| tagForeign) ∧ Thread rd bs (b :: l)

theorem Thread.congr {rd rd' : Nat → Option Val} {bs l} (h : Thread rd bs l) (he : ∀ a ∈ l, rd' a = rd a) :
    Thread rd' bs l := by
  induction l with
  | nil => trivial
  | cons a l ih =>
    cases l with
    | nil => exact (he a (by simp)).trans h
    | cons b l => exact ⟨(he a (by simp)).trans h.1, ih h.2 fun x hx => he x (by simp [hx])⟩

theorem Thread.get {rd : Nat → Option Val} {bs l a} (h : Thread rd bs l) (ha : a ∈ l) (hlt : ∀ b ∈ l, b < 2 ^ 48)
    (hlen : 5 < bs.length) :
    ∃ w, rd a = some w ∧ (w &&& tagMask = tagStringC ∨ w &&& tagMask = tagForeign) := by
  induction l with
  | nil => simp at ha
  | cons x l ih =>
    cases l with
    | nil =>
      have : a = x := by simpa using ha
      subst this
      refine ⟨_, h, .inl ?_⟩
      exact or_tag_tag _ (pack6_lt _ (by have := enc0_length bs; simp; omega)) 10
    | cons b l =>
      rcases List.mem_cons.1 ha with e | ha
      · subst e
        exact ⟨_, h.1, .inr (or_tag_tag _ (hlt b (by simp)) 2)⟩
      · exact ih h.2 ha fun y hy => hlt y (by simp [hy])

/-- The state of the strings and of the variables that refer to them, during marking; `m0` is the state before, `R` the
variables that are to be visited. -/
structure Items (m0 : Mem σ) (R : Nat → Prop) (L : List (List UInt8)) (m : Mem σ) (items : List Item) : Prop where
  names : items.map Prod.fst = L
  str : ∃ tail, m0.heap.str.owned.mem.length = (items.flatMap piece).length + 1 + tail.length ∧ m.heap.str =
    { m0.heap.str with owned := { m0.heap.str.owned with mem := items.flatMap piece ++ 0 :: tail } }
  slots : ∀ a, (∀ it ∈ items, a ∉ it.2) → readSlot m a = readSlot m0 a
  thread : ∀ it ∈ items, Thread (readSlot m) it.1 it.2
  owner : ∀ pre it post, items = pre ++ it :: post → ∀ a ∈ it.2, R a ∧ ∃ v, readSlot m0 a = some v ∧
    v &&& tagMask = tagStringO ∧ valToOffset v = (pre.flatMap piece).length + 1
  nodup : ∀ it ∈ items, it.2.Nodup

/-- Two places with the same offset are the same. -/
theorem split_unique {pre pre' post post' : List Item} {it it' : Item} (h : pre ++ it :: post = pre' ++ it' :: post')
    (ho : (pre.flatMap piece).length = (pre'.flatMap piece).length) : pre = pre' ∧ it = it' ∧ post = post' := by
  induction pre generalizing pre' with
  | nil =>
    cases pre' with
    | nil => simp at h; exact ⟨rfl, h.1, h.2⟩
    | cons x pre' => simp at ho; have := piece_pos x; omega
  | cons y pre ih =>
    cases pre' with
    | nil =>
      rw [List.flatMap_cons, List.length_append] at ho
      simp only [List.flatMap_nil, List.length_nil] at ho
      have := piece_pos y; omega
    | cons x pre' =>
      simp only [List.cons_append, List.cons.injEq] at h
      obtain ⟨e, h⟩ := h
      subst e
      simp only [List.flatMap_cons, List.length_append] at ho
      obtain ⟨h1, h2⟩ := ih h (by omega)
      exact ⟨by rw [h1], h2⟩

theorem flatMap_length_congr {items items' : List Item} (h : items.map Prod.fst = items'.map Prod.fst)
    (hl : ∀ it ∈ items, 5 < it.1.length) : (items.flatMap piece).length = (items'.flatMap piece).length := by
  induction items generalizing items' with
  | nil =>
    cases items' with
    | nil => rfl
    | cons _ _ => simp at h
  | cons x l ih =>
    cases items' with
    | nil => simp at h
    | cons y l' =>
      simp only [List.map_cons, List.cons.injEq] at h
      have h1 := piece_length (hl x (by simp))
      have h2 : (piece y).length = (enc0 y.1).length + 1 := piece_length (by rw [← h.1]; exact hl x (by simp))
      have := ih h.2 fun it hi => hl it (by simp [hi])
      rw [List.flatMap_cons, List.flatMap_cons, List.length_append, List.length_append, this, h1, h2, h.1]

/-- Marking a string variable that was not visited. -/
theorem Items.mark {m0 m : Mem σ} {R L items} (hi : Items m0 R L m items) (hl : Lay m) (hlong : ∀ bs ∈ L, 5 < bs.length)
    (hlen : m0.heap.str.owned.len = (items.flatMap piece).length + 1) {a v pre it post} (he : items = pre ++ it :: post)
    (hr : readSlot m0 a = some v) (ht : v &&& tagMask = tagStringO) (ho : valToOffset v = (pre.flatMap piece).length + 1)
    (ha : ∀ it ∈ items, a ∉ it.2) (hR : R a) :
    ∃ m', markString m a = some m' ∧ Same m m' ∧ Items m0 R L m' (pre ++ (it.1, a :: it.2) :: post) := by
  obtain ⟨tail, htl, hstr⟩ := hi.str
  have hlongi : ∀ x ∈ items, 5 < x.1.length := fun x hx => hlong _ (by rw [← hi.names]; exact List.mem_map_of_mem hx)
  have hit : it ∈ items := by rw [he]; simp
  have hlit := hlongi it hit
  have hE := enc0_length it.1
  obtain ⟨mk, X, hp, hX, hmk⟩ : ∃ mk X, piece it = mk :: (X ++ (enc0 it.1).drop 6) ∧ X.length = 6 ∧
      (BitVec.ofNat 64 (packLE X) ||| (if mk = 0 then tagStringC else tagForeign) =
        match it.2 with
        | [] => BitVec.ofNat 64 (packLE ((enc0 it.1).take 6)) ||| tagStringC
        | b :: _ => BitVec.ofNat 64 b ||| tagForeign) := by
    unfold piece
    split
    · exact ⟨_, _, rfl, by simp; omega, rfl⟩
    · rename_i b l hb
      refine ⟨_, _, rfl, low6_length _, ?_⟩
      obtain ⟨_, w, hw, _⟩ := hi.owner _ _ _ he b (by rw [hb]; simp)
      have hl0 : b < 2 ^ 48 := by
        obtain ⟨w, hw, _⟩ := (hi.thread it hit : Thread _ _ _) |> fun h => by
          rw [hb] at h
          exact show ∃ w, readSlot m b = some w ∧ True by
            cases l with
            | nil => exact ⟨_, h, trivial⟩
            | cons _ _ => exact ⟨_, h.1, trivial⟩
        exact (slot_addr hl hw).2
      rw [packLE_low6 _ hl0]
      rfl
  have hr' : readSlot m a = some v := by rw [hi.slots a ha]; exact hr
  have hmem : m.heap.str.owned.mem = pre.flatMap piece ++ (mk :: (X ++ ((enc0 it.1).drop 6 ++ (post.flatMap piece ++ 0 :: tail)))) := by
    rw [hstr, he]
    simp only [List.flatMap_append, List.flatMap_cons, hp]
    simp
  have hlen' : m.heap.str.owned.len = (items.flatMap piece).length + 1 := by rw [hstr]; exact hlen
  obtain ⟨m', e, s, hs, hw, hoth⟩ := markString_at hl hr' hmem hX ho (by
    rw [hlen', he]
    simp only [List.flatMap_append, List.flatMap_cons, List.length_append]
    have := piece_pos it
    omega)
  refine ⟨m', e, s, ?_⟩
  have hnames : (pre ++ (it.1, a :: it.2) :: post).map Prod.fst = items.map Prod.fst := by rw [he]; simp
  have hfl := flatMap_length_congr hnames.symm hlongi
  refine ⟨hnames.trans hi.names, ⟨tail, by rw [htl, hfl], ?_⟩, ?_, ?_, ?_, ?_⟩
  · rw [hs, hstr]
    simp only [List.flatMap_append, List.flatMap_cons, piece]
    simp
  · intro b hb
    have hba : b ≠ a := by
      intro e; subst e
      exact hb (it.1, b :: it.2) (by simp) (by simp)
    rw [hoth b hba]
    apply hi.slots b
    intro x hx hbx
    rw [he] at hx
    rcases List.mem_append.1 hx with hx | hx
    · exact hb x (by simp [hx]) hbx
    · rcases List.mem_cons.1 hx with rfl | hx
      · exact hb (x.1, a :: x.2) (by simp) (by simp [hbx])
      · exact hb x (by simp [hx]) hbx
  · intro x hx
    have hold : ∀ y ∈ items, Thread (readSlot m') y.1 y.2 := fun y hy =>
      (hi.thread y hy).congr fun b hb => hoth b fun e => ha y hy (e ▸ hb)
    have : x = (it.1, a :: it.2) ∨ x ∈ items := by
      rw [he]
      rcases List.mem_append.1 hx with hx | hx
      · exact .inr (by simp [hx])
      · rcases List.mem_cons.1 hx with h | hx
        · exact .inl h
        · exact .inr (by simp [hx])
    rcases this with rfl | hx
    · have h1 := hold it hit
      rw [hmk] at hw
      show Thread _ it.1 (a :: it.2)
      revert h1 hw
      cases it.2 with
      | nil => intro hw _; exact hw
      | cons b l => intro hw h1; exact ⟨hw, h1⟩
    · exact hold x hx
  · intro pre' x post' hx b hb
    rcases List.append_eq_append_iff.1 hx with ⟨z, h1, h2⟩ | ⟨z, h1, h2⟩
    · cases z with
      | nil =>
        simp at h2 h1
        obtain ⟨e1, e2⟩ := h2
        subst e1
        subst h1
        rcases List.mem_cons.1 hb with rfl | hb
        · exact ⟨hR, v, hr, ht, ho⟩
        · exact hi.owner pre' it post he b hb
      | cons y z =>
        simp at h2
        obtain ⟨e1, e2⟩ := h2
        subst e1
        obtain ⟨q1, q2⟩ := hi.owner (pre ++ it :: z) x post' (by rw [he, e2]; simp) b hb
        refine ⟨q1, ?_⟩
        have hfl2 := flatMap_length_congr (items := pre ++ it :: z) (items' := pre') (by rw [h1]; simp)
          (fun y hy => hlongi y (by
            rw [he, e2]
            rcases List.mem_append.1 hy with h | h
            · simp [h]
            · rcases List.mem_cons.1 h with h | h <;> simp [h]))
        rw [← hfl2]
        exact q2
    · cases z with
      | nil =>
        simp at h2 h1
        obtain ⟨e1, e2⟩ := h2
        subst e1
        subst h1
        rcases List.mem_cons.1 hb with rfl | hb
        · exact ⟨hR, v, hr, ht, ho⟩
        · exact hi.owner _ it post he b hb
      | cons y z =>
        simp at h2
        obtain ⟨e1, e2⟩ := h2
        subst e1
        exact hi.owner pre' x (z ++ it :: post) (by rw [he, h1]; simp) b hb
  · intro x hx
    have : x = (it.1, a :: it.2) ∨ x ∈ items := by
      rw [he]
      rcases List.mem_append.1 hx with hx | hx
      · exact .inr (by simp [hx])
      · rcases List.mem_cons.1 hx with h | hx
        · exact .inl h
        · exact .inr (by simp [hx])
    rcases this with rfl | hx
    · exact List.nodup_cons.2 ⟨ha it hit, hi.nodup it hit⟩
    · exact hi.nodup x hx

end Mjs.Gc
