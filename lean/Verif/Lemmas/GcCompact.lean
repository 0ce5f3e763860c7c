import Verif.Lemmas.GcMark

namespace Mjs.Gc
open Mjs Mjs.Mbuf Mjs.Varint Mjs.Str Mjs.Arena Mjs.Obj Mjs.Spec.Gc

variable {σ : Type}

/-! ### Sizes of chunks -/

theorem chunkSize_enc (n : Nat) (rest : List UInt8) (h : n + llen n + 1 < 2 ^ 31) :
    chunkSize (encodeBytes n ++ rest) = some (n + llen n + 1) := by
  have hd := decode_encode n (by omega) rest (2 ^ 64 - 1) (by omega)
  unfold chunkSize decodeUnsafe
  rw [hd]
  exact if_pos h

theorem bytesFrom_ofNat (six : List UInt8) (h : six.length = 6) : bytesFrom (BitVec.ofNat 64 (packLE six)) 0 = six ++ [0, 0] := by
  have hlt := pack6_lt six h
  apply packLE_inj
  · rw [bytesFrom_length]; simp [h]
  · rw [packLE_bytesFrom, packLE_append, (ofNat_low _ hlt).2.2]
    simp [packLE]

theorem chunkSize_six (bs : List UInt8) (h : bs.length + llen bs.length + 1 < 2 ^ 31) (hl : 5 < bs.length) :
    chunkSize (bytesFrom (BitVec.ofNat 64 (packLE ((enc0 bs).take 6))) 0) = some (bs.length + llen bs.length + 1) := by
  have hlen := enc0_length bs
  have hk : llen bs.length ≤ 5 := llen_le _ 4 (by omega)
  rw [bytesFrom_ofNat _ (by simp; omega)]
  have : (enc0 bs).take 6 = encodeBytes bs.length ++ bs.take (6 - llen bs.length) := by
    rw [enc0, List.take_append, length_encodeBytes, List.take_of_length_le (by rw [length_encodeBytes]; omega)]
  rw [this, List.append_assoc]
  exact chunkSize_enc _ _ h

/-! ### Following the list of a string -/

theorem relink_spec (bs : List UInt8) (hbs : 5 < bs.length) (head : Nat) : ∀ (l : List Nat) (m : Mem σ) (h : Val) (a : Nat), Lay m →
    Thread (readSlot m) bs (a :: l) → (a :: l).Nodup → h &&& ~~~tagMask = BitVec.ofNat 64 a → h &&& tagMask ≠ tagStringC →
    ∃ m', (∀ n, l.length + 2 ≤ n → relink n m h head =
        some (m', BitVec.ofNat 64 (packLE ((enc0 bs).take 6)) ||| tagStringC)) ∧
      Same m m' ∧ m'.heap.str = m.heap.str ∧ (∀ b ∈ a :: l, readSlot m' b = some (fromOffset head)) ∧
      ∀ b, b ∉ a :: l → readSlot m' b = readSlot m b := by
  intro l
  induction l with
  | nil =>
    intro m h a hl ht hnd h1 h2
    have hr : readSlot m a = some (BitVec.ofNat 64 (packLE ((enc0 bs).take 6)) ||| tagStringC) := ht
    have ha := (slot_addr hl hr).2
    obtain ⟨m', w, s, hstr, hw, ho⟩ := write_slot hl hr (fromOffset head)
    refine ⟨m', fun n hn => ?_, s, hstr, ?_, ?_⟩
    · obtain ⟨k, rfl⟩ : ∃ k, n = k + 2 := ⟨n - 2, by simp at hn; omega⟩
      rw [relink, if_neg h2]
      simp only [h1, (ofNat_low a ha).2.2, hr, Option.bind_eq_bind, Option.bind_some, w]
      rw [relink, if_pos]
      exact or_tag_tag _ (pack6_lt _ (by have := enc0_length bs; simp; omega)) 10
    · intro b hb
      have : b = a := by simpa using hb
      rw [this]; exact hw
    · intro b hb
      exact ho b (by simpa using hb)
  | cons b l ih =>
    intro m h a hl ht hnd h1 h2
    have hr : readSlot m a = some (BitVec.ofNat 64 b ||| tagForeign) := ht.1
    have ha := (slot_addr hl hr).2
    have hnd' := List.nodup_cons.1 hnd
    obtain ⟨m1, w, s, hstr, hw, ho⟩ := write_slot hl hr (fromOffset head)
    have hb : b < 2 ^ 48 := by
      have : ∃ w, readSlot m b = some w := by
        cases l with
        | nil => exact ⟨_, ht.2⟩
        | cons _ _ => exact ⟨_, ht.2.1⟩
      obtain ⟨w, hw⟩ := this
      exact (slot_addr hl hw).2
    obtain ⟨m', e, s', hstr', hw', ho'⟩ := ih m1 (BitVec.ofNat 64 b ||| tagForeign) b (s.lay hl)
      (ht.2.congr fun x hx => ho x fun e => hnd'.1 (e ▸ hx)) hnd'.2 (or_tag_low b hb 2)
      (by have : (BitVec.ofNat 64 b ||| tagForeign) &&& tagMask = tagForeign := or_tag_tag b hb 2
          rw [this]; decide)
    refine ⟨m', fun n hn => ?_, s.trans s', hstr'.trans hstr, ?_, ?_⟩
    · obtain ⟨k, rfl⟩ : ∃ k, n = k + 1 := ⟨n - 1, by omega⟩
      rw [relink, if_neg h2]
      simp only [h1, (ofNat_low a ha).2.2, hr, Option.bind_eq_bind, Option.bind_some, w]
      exact e k (by simp at hn ⊢; omega)
    · intro x hx
      rcases List.mem_cons.1 hx with rfl | hx
      · rw [ho' x hnd'.1, hw]
      · exact hw' x hx
    · intro x hx
      rw [ho' x fun h => hx (List.mem_cons_of_mem _ h)]
      exact ho x fun h => hx (by simp [h])

/-! ### The loop -/

/-- The strings that are kept. -/
def keep (T : List Item) : List (List UInt8) := (T.filter fun it => !it.2.isEmpty).map Prod.fst

/-- Their bytes, each with the NUL before it. -/
def keepBytes (T : List Item) : List UInt8 := (keep T).flatMap fun bs => 0 :: enc0 bs

theorem keepBytes_nil : keepBytes [] = [] := rfl

theorem keepBytes_drop (it : Item) (T : List Item) (h : it.2 = []) : keepBytes (it :: T) = keepBytes T := by
  simp [keepBytes, keep, h]

theorem keepBytes_cons (it : Item) (T : List Item) (h : it.2 ≠ []) : keepBytes (it :: T) = 0 :: (enc0 it.1 ++ keepBytes T) := by
  simp [keepBytes, keep, h]

theorem keep_append (S T : List Item) : keep (S ++ T) = keep S ++ keep T := by simp [keep]

theorem stringBytes_keep (L : List (List UInt8)) : stringBytes L = (L.flatMap fun bs => 0 :: enc0 bs) ++ [0] := by
  rw [stringBytes_eq, List.flatMap_map]
  congr 2
  funext bs
  simp [piece]

theorem compactLoop_spec : ∀ (T : List Item) (m : Mem σ) (A G tail : List UInt8), Lay m →
    m.heap.str.owned.mem = A ++ (G ++ (T.flatMap piece ++ 0 :: tail)) →
    m.heap.str.owned.len = A.length + G.length + (T.flatMap piece).length + 1 → m.heap.str.owned.len < 2 ^ 31 →
    ((T.flatMap piece ++ 0 :: tail).head? = some 0 → G = [] ∨ G.head? = some 0) →
    (∀ it ∈ T, 5 < it.1.length) → (∀ it ∈ T, Thread (readSlot m) it.1 it.2) → (∀ it ∈ T, it.2.Nodup) →
    T.Pairwise (fun x y => ∀ a ∈ x.2, a ∉ y.2) →
    ∃ N m' tail', (∀ n, N ≤ n → compactLoop n m (A.length + G.length + 1) (A.length + 1) = some m') ∧ Same m m' ∧
      m'.heap.str = { m.heap.str with owned := { m.heap.str.owned with mem := A ++ (keepBytes T ++ 0 :: tail'), len := (A ++ keepBytes T).length + 1 } } ∧
      (A ++ (keepBytes T ++ 0 :: tail')).length = m.heap.str.owned.mem.length ∧
      (∀ pre it post, T = pre ++ it :: post → ∀ a ∈ it.2, readSlot m' a = some (fromOffset ((A ++ keepBytes pre).length + 1))) ∧
      ∀ a, (∀ it ∈ T, a ∉ it.2) → readSlot m' a = readSlot m a := by
  intro T
  induction T with
  | nil =>
    intro m A G tail hl hm hlen _ hG _ _ _ _
    simp only [List.flatMap_nil, List.nil_append, List.length_nil, Nat.add_zero] at hm hlen hG
    obtain ⟨tail', ht⟩ : ∃ t, G ++ 0 :: tail = 0 :: t := by
      rcases hG rfl with rfl | h
      · exact ⟨tail, rfl⟩
      · cases G with
        | nil => exact ⟨tail, rfl⟩
        | cons x G => simp at h; subst h; exact ⟨G ++ 0 :: tail, rfl⟩
    refine ⟨1, setOwned m { m.heap.str.owned with len := A.length + 1 }, tail', fun n hn => ?_,
      ⟨rfl, rfl, rfl, rfl, rfl, rfl, fun _ => rfl, fun _ => .rfl⟩, ?_, ?_, ?_, fun a _ => rfl⟩
    · obtain ⟨k, rfl⟩ : ∃ k, n = k + 1 := ⟨n - 1, by omega⟩
      rw [compactLoop]
      simp only
      rw [if_neg (by omega)]
    · simp only [setOwned, keepBytes_nil, List.append_nil, List.nil_append]
      rw [hm, ht]
    · rw [hm, ht]; rfl
    · intro pre it post h; simp at h
  | cons it T ih =>
    intro m A G tail hl hm hlen h31 hG hlong hth hnd hpw
    have hit := hlong it (by simp)
    have hE := enc0_length it.1
    have hpl := piece_length hit
    rw [List.flatMap_cons, List.length_append, hpl] at hlen
    rw [List.flatMap_cons] at hm hG
    have hpw' := List.pairwise_cons.1 hpw
    cases hi2 : it.2 with
    | nil =>
      have hp : piece it = 0 :: enc0 it.1 := by rw [piece, hi2]; simp
      have hmem : m.heap.str.owned.mem = A ++ ((G ++ piece it) ++ (T.flatMap piece ++ 0 :: tail)) := by rw [hm]; simp
      have hG' : G ++ piece it = [] ∨ (G ++ piece it).head? = some 0 := by
        right
        rcases hG (by rw [hp]; rfl) with rfl | h
        · rw [hp]; rfl
        · cases G with
          | nil => simp at h
          | cons x G => simpa using h
      obtain ⟨N, m', tail', e, s, hs, hln, hin, hout⟩ := ih m A (G ++ piece it) tail hl hmem
        (by rw [hlen, List.length_append, hpl]; omega) h31 (fun _ => hG') (fun x hx => hlong x (by simp [hx]))
        (fun x hx => hth x (by simp [hx])) (fun x hx => hnd x (by simp [hx])) hpw'.2
      refine ⟨N + 1, m', tail', fun n hn => ?_, s, by rw [keepBytes_drop _ _ hi2]; exact hs,
        by rw [keepBytes_drop _ _ hi2]; exact hln, ?_, fun a ha => hout a fun x hx => ha x (by simp [hx])⟩
      · obtain ⟨k, rfl⟩ : ∃ k, n = k + 1 := ⟨n - 1, by omega⟩
        have e1 : m.heap.str.owned.mem[A.length + G.length + 1 - 1]? = some 0 := by
          have hm2 : m.heap.str.owned.mem = (A ++ G) ++ (0 :: (enc0 it.1 ++ (T.flatMap piece ++ 0 :: tail))) := by
            rw [hm, hp]; simp
          have := byte_at hm2
          rwa [List.length_append] at this
        have e2 : m.heap.str.owned.mem.drop (A.length + G.length + 1) =
            encodeBytes it.1.length ++ (it.1 ++ (T.flatMap piece ++ 0 :: tail)) := by
          have hm2 : m.heap.str.owned.mem = (A ++ (G ++ [0])) ++ (enc0 it.1 ++ (T.flatMap piece ++ 0 :: tail)) := by
            rw [hm, hp]; simp
          have : A.length + G.length + 1 = (A ++ (G ++ [0])).length := by simp; omega
          rw [hm2, this, drop_len_append, enc0, List.append_assoc]
        have e3 : chunkSize (m.heap.str.owned.mem.drop (A.length + G.length + 1)) = some (it.1.length + llen it.1.length + 1) := by
          rw [e2]; exact chunkSize_enc _ _ (by omega)
        rw [compactLoop]
        simp only
        rw [if_pos (by omega), e1]
        simp only [Option.bind_eq_bind, Option.bind_some]
        rw [if_neg (by decide), e3, Option.bind_some]
        have := e k (by omega)
        rw [List.length_append, hpl] at this
        rw [← this]
        congr 1
        omega
      · intro pre x post hx a ha
        cases pre with
        | nil => simp at hx; rw [← hx.1, hi2] at ha; simp at ha
        | cons y pre =>
          simp only [List.cons_append, List.cons.injEq] at hx
          rw [← hx.1, keepBytes_drop _ _ hi2]
          exact hin pre x post hx.2 a ha
    | cons a l =>
      have hne : it.2 ≠ [] := by rw [hi2]; simp
      have hp : piece it = 1 :: (low6 a ++ (enc0 it.1).drop 6) := by rw [piece, hi2]
      have hth0 := hth it (by simp)
      have hnd0 := hnd it (by simp)
      rw [hi2] at hth0 hnd0
      have haddr : a < 2 ^ 48 := by
        have : ∃ w, readSlot m a = some w := by
          cases l with
          | nil => exact ⟨_, hth0⟩
          | cons _ _ => exact ⟨_, hth0.1⟩
        obtain ⟨w, hw⟩ := this
        exact (slot_addr hl hw).2
      obtain ⟨m1, er, s1, hs1, hw1, ho1⟩ := relink_spec it.1 hit (A.length + 1) l m (BitVec.ofNat 64 a) a hl hth0 hnd0
        (ofNat_low a haddr).1 (by rw [(ofNat_low a haddr).2.1]; decide)
      have h6 : ((enc0 it.1).take 6).length = 6 := by simp; omega
      -- the rest of the buffer
      obtain ⟨nx, rest, hrest⟩ : ∃ nx rest, T.flatMap piece ++ 0 :: tail = nx :: rest := by
        cases T with
        | nil => exact ⟨0, tail, rfl⟩
        | cons y T =>
          rw [List.flatMap_cons]
          unfold piece
          split
          · exact ⟨_, _, rfl⟩
          · exact ⟨_, _, rfl⟩
      -- steps of the loop body on the buffer
      let b := m.heap.str.owned
      have hbm : b.mem = A ++ (G ++ (1 :: (low6 a ++ ((enc0 it.1).drop 6 ++ (nx :: rest))))) := by
        show m.heap.str.owned.mem = _
        rw [hm, hp, ← hrest]; simp
      have e1 : b.mem[A.length + G.length + 1 - 1]? = some 1 := by
        have hm2 : b.mem = (A ++ G) ++ (1 :: (low6 a ++ ((enc0 it.1).drop 6 ++ (nx :: rest)))) := by rw [hbm]; simp
        have := byte_at hm2
        rwa [List.length_append] at this
      have hm3 : b.mem = (A ++ (G ++ [1])) ++ (low6 a ++ ((enc0 it.1).drop 6 ++ (nx :: rest))) := by rw [hbm]; simp
      have hp3 : A.length + G.length + 1 = (A ++ (G ++ [1])).length := by simp; omega
      have e2 : load6 b (A.length + G.length + 1) = some a := by
        rw [hp3, load6_at hm3 (low6_length a), packLE_low6 a haddr]
      have e4 : store b (A.length + G.length + 1) (low6 (packLE ((enc0 it.1).take 6))) =
          some { b with mem := A ++ (G ++ (1 :: (enc0 it.1 ++ (nx :: rest)))) } := by
        rw [hp3, store_at hm3 (by simp [low6_length]), low6_packLE _ h6]
        congr 2
        rw [← List.append_assoc ((enc0 it.1).take 6), List.take_append_drop]
        simp
      -- what is between the strings kept and those to do
      have e5 : ∃ G', G'.length = G.length ∧ (G' = [] ∨ G'.head? = some nx) ∧
          (memmove (A ++ (G ++ (1 :: (enc0 it.1 ++ (nx :: rest))))) (A.length + 1) (A.length + G.length + 1)
            (it.1.length + llen it.1.length + 1)).bind (fun mem2 => store { b with mem := mem2 } (A.length + 1 - 1) [0]) =
          some { b with mem := A ++ (0 :: (enc0 it.1 ++ (G' ++ (nx :: rest)))) } := by
        have hn : it.1.length + llen it.1.length + 1 = (enc0 it.1).length + 1 := by omega
        rw [hn, memmove_eq (by simp; omega) (by simp; omega), Option.bind_some]
        -- the bytes moved
        have m1 : ((A ++ (G ++ (1 :: (enc0 it.1 ++ (nx :: rest))))).drop (A.length + G.length + 1)).take ((enc0 it.1).length + 1) =
            enc0 it.1 ++ [nx] := by
          have q1 : A ++ (G ++ (1 :: (enc0 it.1 ++ (nx :: rest)))) = (A ++ (G ++ [1])) ++ ((enc0 it.1 ++ [nx]) ++ rest) := by simp
          have q2 : A.length + G.length + 1 = (A ++ (G ++ [1])).length := by simp; omega
          have q3 : (enc0 it.1).length + 1 = (enc0 it.1 ++ [nx]).length := by simp
          rw [q1, q2, drop_len_append, q3, take_len_append]
        -- the byte before
        obtain ⟨x, Z, hxZ⟩ : ∃ x Z, G ++ (1 :: (enc0 it.1 ++ (nx :: rest))) = x :: Z := by
          cases G with
          | nil => exact ⟨_, _, rfl⟩
          | cons y G => exact ⟨_, _, rfl⟩
        have m2 : (A ++ (G ++ (1 :: (enc0 it.1 ++ (nx :: rest))))).take (A.length + 1) = A ++ [x] := by
          rw [hxZ, show A ++ x :: Z = (A ++ [x]) ++ Z by simp, show A.length + 1 = (A ++ [x]).length by simp, take_len_append]
        -- the bytes after
        have m3 : (A ++ (G ++ (1 :: (enc0 it.1 ++ (nx :: rest))))).drop (A.length + 1 + ((enc0 it.1).length + 1)) =
            (G ++ (1 :: (enc0 it.1 ++ [nx]))).drop ((enc0 it.1).length + 2) ++ rest := by
          rw [show A.length + 1 + ((enc0 it.1).length + 1) = A.length + ((enc0 it.1).length + 2) by omega,
            ← List.drop_drop, drop_len_append,
            show G ++ (1 :: (enc0 it.1 ++ (nx :: rest))) = (G ++ (1 :: (enc0 it.1 ++ [nx]))) ++ rest by simp,
            List.drop_append_of_le_length (by simp)]
        obtain ⟨G', g1, g2, g3⟩ : ∃ G', G'.length = G.length ∧ (G' = [] ∨ G'.head? = some nx) ∧
            nx :: (G ++ (1 :: (enc0 it.1 ++ [nx]))).drop ((enc0 it.1).length + 2) = G' ++ [nx] := by
          cases G with
          | nil =>
            refine ⟨[], rfl, .inl rfl, ?_⟩
            rw [List.nil_append, List.drop_of_length_le (by simp)]
            rfl
          | cons y G0 =>
            refine ⟨nx :: (y :: G0 ++ 1 :: enc0 it.1).drop ((enc0 it.1).length + 2), ?_, .inr rfl, ?_⟩
            · simp
            · rw [show y :: G0 ++ (1 :: (enc0 it.1 ++ [nx])) = (y :: G0 ++ 1 :: enc0 it.1) ++ [nx] by simp,
                List.drop_append_of_le_length (by simp)]
              rfl
        refine ⟨G', g1, g2, ?_⟩
        rw [m1, m2, m3, Nat.add_sub_cancel]
        rw [store_at (b := { b with mem := A ++ [x] ++ (enc0 it.1 ++ [nx]) ++
            ((G ++ (1 :: (enc0 it.1 ++ [nx]))).drop ((enc0 it.1).length + 2) ++ rest) }) (A := A) (X := [x]) (bs := [0])
          (B := enc0 it.1 ++ ([nx] ++ ((G ++ (1 :: (enc0 it.1 ++ [nx]))).drop ((enc0 it.1).length + 2) ++ rest))) (by simp) rfl]
        congr 2
        have : [nx] ++ ((G ++ (1 :: (enc0 it.1 ++ [nx]))).drop ((enc0 it.1).length + 2) ++ rest) = G' ++ (nx :: rest) := by
          rw [List.singleton_append, ← List.cons_append, g3]; simp
        rw [this]
        rfl
      obtain ⟨G', g1, g2, e5⟩ := e5
      let A' := A ++ (0 :: enc0 it.1)
      let m2 : Mem σ := setOwned m1 { b with mem := A ++ (0 :: (enc0 it.1 ++ (G' ++ (nx :: rest)))) }
      have s12 : Same m m2 := ⟨s1.objs, s1.sigs, s1.cs, s1.inc, s1.blocks, s1.free, s1.heads, s1.vars⟩
      have hA' : A'.length = A.length + 1 + (enc0 it.1).length := by simp [A']; omega
      have hm2 : m2.heap.str.owned.mem = A' ++ (G' ++ (T.flatMap piece ++ 0 :: tail)) := by
        rw [hrest]; simp [m2, setOwned, A']
      have hrd : ∀ x, readSlot m2 x = readSlot m1 x := fun x => rfl
      obtain ⟨N, m', tail', e, s, hs, hln, hin, hout⟩ := ih m2 A' G' tail (s12.lay hl) hm2
        (by show b.len = _; show m.heap.str.owned.len = _; rw [hA', g1]; omega) h31
        (by
          intro h0
          rw [hrest] at h0
          simp at h0
          rw [h0] at g2
          exact g2)
        (fun x hx => hlong x (by simp [hx]))
        (fun x hx => (hth x (by simp [hx])).congr fun c hc => by
          rw [hrd]
          exact ho1 c fun h => hpw'.1 x hx c (by rw [hi2]; exact h) hc)
        (fun x hx => hnd x (by simp [hx])) hpw'.2
      have hkb : A' ++ keepBytes T = A ++ keepBytes (it :: T) := by rw [keepBytes_cons _ _ hne]; simp [A']
      have hkb' : A' ++ (keepBytes T ++ 0 :: tail') = A ++ (keepBytes (it :: T) ++ 0 :: tail') := by
        rw [← List.append_assoc, hkb, List.append_assoc]
      refine ⟨N + l.length + 3, m', tail', fun n hn => ?_, s12.trans s, ?_, ?_, ?_, ?_⟩
      · obtain ⟨k, rfl⟩ : ∃ k, n = k + 1 := ⟨n - 1, by omega⟩
        rw [compactLoop]
        simp only
        rw [if_pos (by omega), show m.heap.str.owned = b from rfl, e1]
        simp only [Option.bind_eq_bind, Option.bind_some]
        rw [if_pos trivial, e2, Option.bind_some, er k (by omega), Option.bind_some]
        simp only
        have hlo : (BitVec.ofNat 64 (packLE ((enc0 it.1).take 6)) ||| tagStringC) &&& ~~~tagMask =
          BitVec.ofNat 64 (packLE ((enc0 it.1).take 6)) := or_tag_low _ (pack6_lt _ h6) 10
        rw [hlo, chunkSize_six it.1 (by omega) hit, Option.bind_some,
          (ofNat_low _ (pack6_lt _ h6)).2.2, e4, Option.bind_some]
        rw [← Option.bind_assoc, e5, Option.bind_some]
        have := e k (by omega)
        rw [hA', g1] at this
        rw [← this]
        show compactLoop k m2 _ _ = _
        congr 1 <;> omega
      · have h2 : m2.heap.str = { m.heap.str with owned := { b with mem := A ++ (0 :: (enc0 it.1 ++ (G' ++ (nx :: rest)))) } } := by
          rw [← hs1]; rfl
        rw [hs, hkb, hkb', h2]
      · rw [← hkb', hln]
        show (A ++ (0 :: (enc0 it.1 ++ (G' ++ (nx :: rest))))).length = b.mem.length
        rw [hbm]
        simp [g1, low6_length]
        omega
      · intro pre x post hx c hc
        cases pre with
        | nil =>
          simp at hx
          rw [hout c (fun y hy => hpw'.1 y hy c (by rw [hx.1]; exact hc)), hrd, hw1 c (by rw [← hi2, hx.1]; exact hc)]
          simp [keepBytes_nil]
        | cons y pre =>
          simp only [List.cons_append, List.cons.injEq] at hx
          rw [hin pre x post hx.2 c hc, ← hx.1, keepBytes_cons _ _ hne]
          simp [A']
      · intro c hc
        rw [hout c fun x hx => hc x (by simp [hx]), hrd]
        exact ho1 c fun h => hc it (by simp) (by rw [hi2]; exact h)

end Mjs.Gc
