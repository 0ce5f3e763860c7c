import Verif.Lemmas.Mbuf

/-!
# C03: growable buffers behave like byte sequences
-/

namespace Mjs.Props
open Mjs.Mbuf Mjs.Spec.Bytes

/-- The request a call makes, in terms of the specification. -/
def reqOf : Op → Req
  | .insert off d _ _ => .insert off d
  | .insertGap off n _ _ => .insertGap off n
  | .append d _ _ => .append d
  | .appendAndFree _ d _ _ => .append d
  | .remove n => .remove n
  | .resize _ _ => .keep
  | .trim _ => .keep
  | .clear => .clear
  | .free => .clear

/-- Non-NULL blocks have non-NULL addresses. -/
def OpOk : Op → Prop
  | .insert _ _ a b | .insertGap _ _ a b | .append _ a b => AllocOk a ∧ AllocOk b
  | .appendAndFree da _ a b => da ≠ 0 ∧ AllocOk a ∧ AllocOk b
  | .resize _ a | .trim a => AllocOk a
  | _ => True

/-- **C03, one call.** From any well-formed buffer, every legal call, with any allocator behaviour, stays inside the
block (the result is not `none`), keeps the buffer well formed, and acts as the byte sequence specification says. -/
theorem C03_mbuf_step (hr : Nat) (m : Mbuf) (hm : Inv m) (op : Op) (hop : OpOk op)
    (hlegal : (reqOf op).Legal m.content) :
    ∃ m' r, step hr m op = some (m', r) ∧ Inv m' ∧ Step m.content (reqOf op) r m'.content := by
  have hcl := content_length hm
  cases op with
  | insert off d a b =>
    simp only [reqOf, Req.Legal, hcl] at hlegal
    obtain ⟨m', r, he, hi, h⟩ := insert_spec hr m hm off d a b hlegal.1 hlegal.2 hop.1 hop.2
    refine ⟨m', r, he, hi, ?_⟩
    rcases h with h | ⟨h1, h2, _⟩
    · exact Or.inl h
    · exact Or.inr ⟨h1, by rw [h2]⟩
  | insertGap off n a b =>
    simp only [reqOf, Req.Legal, hcl] at hlegal
    obtain ⟨m', r, he, hi, h⟩ := insertGap_spec hr m hm off n a b hlegal.1 hlegal.2 hop.1 hop.2
    refine ⟨m', r, he, hi, ?_⟩
    rcases h with h | ⟨h1, h2, _⟩
    · exact Or.inl h
    · exact Or.inr ⟨h1, by rw [h2]⟩
  | append d a b =>
    simp only [reqOf, Req.Legal, hcl] at hlegal
    obtain ⟨m', r, he, hi, h⟩ := insert_spec hr m hm m.len d a b (Nat.le_refl _) hlegal hop.1 hop.2
    refine ⟨m', r, he, hi, ?_⟩
    rcases h with ⟨h1, h2⟩ | ⟨h1, h2, _⟩
    · refine Or.inl ⟨h1, ?_⟩
      rw [h2, insertAt, List.take_of_length_le (by omega), List.drop_of_length_le (by omega), List.append_nil]
    · exact Or.inr ⟨h1, by rw [h2]⟩
  | appendAndFree da d a b =>
    simp only [reqOf, Req.Legal, hcl] at hlegal
    simp only [step, appendAndFree]
    split
    · rename_i h0
      refine ⟨_, _, rfl, ⟨by simp, fun h => absurd h hop.1⟩, Or.inl ⟨rfl, ?_⟩⟩
      simp [Mbuf.content, h0]
    · obtain ⟨m', r, he, hi, h⟩ := insert_spec hr m hm m.len d a b (Nat.le_refl _) hlegal hop.2.1 hop.2.2
      refine ⟨m', r, he, hi, ?_⟩
      rcases h with ⟨h1, h2⟩ | ⟨h1, h2, _⟩
      · refine Or.inl ⟨h1, ?_⟩
        rw [h2, insertAt, List.take_of_length_le (by omega), List.drop_of_length_le (by omega), List.append_nil]
      · exact Or.inr ⟨h1, by rw [h2]⟩
  | remove n =>
    obtain ⟨m', he, hi, h⟩ := remove_spec m hm n
    refine ⟨m', 0, by simp [step, he], hi, ?_⟩
    simp only [reqOf, Step, hcl]
    exact h
  | resize n a =>
    obtain ⟨h1, h2⟩ := resize_spec m hm n a hop
    exact ⟨_, _, rfl, h1, h2⟩
  | trim a =>
    obtain ⟨h1, h2⟩ := resize_spec m hm m.len a hop
    exact ⟨_, _, rfl, h1, h2⟩
  | clear => exact ⟨_, _, rfl, ⟨Nat.zero_le _, hm.2⟩, rfl⟩
  | free =>
    refine ⟨_, _, rfl, ?_, ?_⟩
    · unfold free; split
      · simp [init, resize, Mbuf.Inv, Mbuf.size]
      · exact hm
    · simp only [reqOf, Step]
      unfold free; split
      · simp [init, resize, Mbuf.content, Mbuf.size]
      · rename_i h
        have := hm.2 (by omega)
        simp [Mbuf.content, this]

/-- A history of calls on the buffer: `none` if one of them leaves the block. -/
def runMbuf (hr : Nat) (m : Mbuf) : List Op → Option (Mbuf × List Nat)
  | [] => some (m, [])
  | op :: ops =>
    match step hr m op with
    | none => none
    | some (m', r) => (runMbuf hr m' ops).map fun p => (p.1, r :: p.2)

/-- A history of the specification, with the returned numbers. -/
inductive SpecRun : List UInt8 → List Req → List Nat → List UInt8 → Prop
  | nil (bs) : SpecRun bs [] [] bs
  | cons {bs q r bs' qs rs bs''} : Step bs q r bs' → SpecRun bs' qs rs bs'' →
      SpecRun bs (q :: qs) (r :: rs) bs''

/-- All requests of the history are legal, whatever the allocator answers to earlier ones. -/
def AllLegal : List UInt8 → List Req → Prop
  | _, [] => True
  | bs, q :: qs => q.Legal bs ∧ ∀ r bs', Step bs q r bs' → AllLegal bs' qs

/-- **C03, histories.** Every history of legal calls on a fresh buffer, of any initial capacity and with any pattern of
allocation failures, never leaves the allocated block and yields returned numbers and a content that the byte sequence
specification allows. -/
theorem C03_mbuf_history (hr : Nat) (initial : Nat) (al : Alloc) (hal : AllocOk al) (ops : List Op)
    (hops : ∀ op ∈ ops, OpOk op) (hlegal : AllLegal [] (ops.map reqOf)) :
    ∃ m' rs, runMbuf hr (init initial al) ops = some (m', rs) ∧ Inv m' ∧
      SpecRun [] (ops.map reqOf) rs m'.content := by
  have h0 : Inv ({ addr := 0, mem := [], len := 0 } : Mbuf) := ⟨by simp, by simp⟩
  obtain ⟨hi, hc⟩ := resize_spec _ h0 initial al hal
  have hc' : (init initial al).content = [] := hc
  change Inv (init initial al) at hi
  rw [← hc'] at hlegal ⊢
  clear hc hc'
  generalize init initial al = m at hi hlegal ⊢
  induction ops generalizing m with
  | nil => exact ⟨m, [], rfl, hi, .nil _⟩
  | cons op ops ih =>
    obtain ⟨hl1, hl2⟩ := hlegal
    obtain ⟨m1, r, e1, hi1, hs1⟩ := C03_mbuf_step hr m hi op (hops op (by simp)) hl1
    obtain ⟨m2, rs, e2, hi2, hs2⟩ := ih (fun o ho => hops o (List.mem_cons_of_mem _ ho)) m1 hi1 (hl2 r _ hs1)
    exact ⟨m2, r :: rs, by simp [runMbuf, e1, e2], hi2, .cons hs1 hs2⟩

/-- **C03, failures are only the allocator's.** An insertion returns less than asked only if the allocator refused the
first request for more room, or the block sits at the very end of the address space. -/
theorem C03_mbuf_insert_succeeds (hr : Nat) (m : Mbuf) (hm : Inv m) (off : Nat) (d : List UInt8) (al1 al2 : Alloc)
    (hoff : off ≤ m.len) (hsz : m.len + d.length < 2 ^ 52) (h1 : AllocOk al1) (h2 : AllocOk al2)
    (haddr : m.addr + d.length < 2 ^ 64) (hal : m.len + d.length ≤ m.size ∨ al1 ≠ none) :
    ∃ m', insert hr m off (some d) d.length al1 al2 = some (m', d.length) ∧
      m'.content = m.content.take off ++ d ++ m.content.drop off := by
  obtain ⟨m', r, he, _, h⟩ := insert_spec hr m hm off d al1 al2 hoff hsz h1 h2
  rcases h with ⟨e1, e2⟩ | ⟨_, _, e | ⟨e, e'⟩⟩
  · subst e1; exact ⟨m', he, e2⟩
  · omega
  · rcases hal with h | h
    · omega
    · exact absurd e' h

/-- Moving a buffer moves the content and leaves an empty buffer. -/
theorem C03_mbuf_move (m : Mbuf) : (move m).1.content = [] ∧ (move m).2.content = m.content := ⟨rfl, rfl⟩

/-- The size hypothesis is needed: with a length near 2^64 the addition of lengths wraps around and `mbuf_insert`
accesses memory outside the block. -/
theorem C03_mbuf_insert_huge_overruns :
    ∃ m off len, Inv m ∧ off ≤ m.len ∧ len < 2 ^ 64 ∧ insert 8192 m off none len none none = none := by
  refine ⟨{ addr := 1, mem := [1, 2, 3, 4], len := 3 }, 0, 2 ^ 64 - 2, ⟨by decide, by decide⟩, ?_, ?_, ?_⟩ <;> decide +kernel

/-- Non-vacuity: a history with growth, a refused allocation, insertion in the middle and removal. -/
example : let al : Alloc := some (4096, fun _ => 0xcc)
    (runMbuf 8192 (init 2 al)
      [.append [1, 2, 3] al none, .insert 1 [9, 9] none none, .append [4, 5, 6, 7] none al, .insert 1 [8] none none,
        .remove 2, .trim al]).map (fun p => (p.1.content, p.2)) =
    some ([3, 4, 5, 6, 7], [3, 0, 4, 0, 0, 0]) := by decide +kernel

example : AllLegal [] ([Op.append [1, 2, 3] none none, .insert 0 [4] none none].map reqOf) := by
  refine ⟨by simp [reqOf, Req.Legal], ?_⟩
  intro r bs' h
  refine ⟨?_, fun _ _ _ => trivial⟩
  simp only [reqOf, Step] at h
  rcases h with ⟨_, h⟩ | ⟨_, h⟩ <;> subst h <;> simp [reqOf, Req.Legal]

end Mjs.Props
