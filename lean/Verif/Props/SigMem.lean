import Verif.Model.SigMem
import Verif.Props.Ffi

/-!
# C98: the memory of FFI signatures is given back
-/

namespace Mjs.Props
open Mjs.Ffi Mjs.FfiSpec Mjs.Spec Mjs.SigMem

/-- The blocks that hang on a signature: its callback's signature, the callback's callback's, and so on. -/
inductive Hangs : Sig → Nat → Prop
  | none {s} : s.cb = none → Hangs s 0
  | some {s c k} : s.cb = some c → Hangs c k → Hangs s (k + 1)

/-- The blocks of a list of registrations: one for each, and what hangs on its signature. -/
inductive HangsAll : List Node → Nat → Prop
  | nil : HangsAll [] 0
  | cons {n l k m} : Hangs n.sig k → HangsAll l m → HangsAll (n :: l) (m + (k + 1))

/-- No parameter comes behind a `void`. -/
def VoidLast (s : Sig) : Prop := ∀ t ∈ (s.vals.drop 1).dropWhile (· ≠ .none), t = CType.none

/-- A callback was noted in the list of types. -/
def Noted (s : Sig) (i : Nat) : Prop := s.cb ≠ none → ∃ j, 1 ≤ j ∧ j < i ∧ s.vals[j]? = some .callback

theorem argsLoop_noted {sub : List UInt8 → List UInt8 → Except Stop Sig} (stop : Nat) : ∀ fuel sig i tmpE cur sig', 1 ≤ i → sig.vals.length = 7 → Noted sig i →
    argsLoop sub stop fuel sig i tmpE cur = .ok sig' → ∃ k, Noted sig' k := by
  intro fuel
  induction fuel with
  | zero => intro _ _ _ _ _ _ _ _ h; simp [argsLoop] at h
  | succ fuel ih =>
    intro sig i tmpE cur sig' hi hl hn h
    have done : ∀ {s}, (Except.ok sig : Except Stop Sig) = .ok s → ∃ k, Noted s k := by
      intro s e; simp only [Except.ok.injEq] at e; subst e; exact ⟨i, hn⟩
    rw [argsLoop] at h
    split at h
    · split at h
      · simp at h
      · split at h
        · exact done h
        · split at h
          · simp at h
          · rename_i s1 vt ho
            split at h
            · simp at h
            · rename_i s2 hset
              have key : s2.vals.length = 7 ∧ Noted s2 (i + 1) := by
                have h1 : s1.vals = sig.vals ∧ (s1.cb ≠ none → sig.cb ≠ none ∨ vt = .callback) := by
                  unfold oneArg at ho
                  split at ho
                  · split at ho
                    · simp at ho
                    · split at ho
                      · simp at ho
                      · simp only [Except.ok.injEq, Prod.mk.injEq] at ho
                        obtain ⟨rfl, rfl⟩ := ho
                        exact ⟨rfl, fun _ => .inr rfl⟩
                  · split at ho
                    · simp at ho
                    · simp only [Except.ok.injEq, Prod.mk.injEq] at ho
                      obtain ⟨rfl, rfl⟩ := ho
                      exact ⟨rfl, .inl⟩
                unfold setValType at hset
                split at hset
                · rename_i h7
                  have h7 : i < 7 := h7
                  simp only [Option.some.injEq] at hset
                  subst hset
                  refine ⟨by rw [List.length_set, h1.1, hl], fun hc => ?_⟩
                  rcases h1.2 hc with hc | rfl
                  · obtain ⟨j, j1, j2, j3⟩ := hn hc
                    refine ⟨j, j1, by omega, ?_⟩
                    show (s1.vals.set i vt)[j]? = _
                    rw [List.getElem?_set_ne (by omega), h1.1, j3]
                  · refine ⟨i, hi, by omega, ?_⟩
                    show (s1.vals.set i _)[i]? = _
                    rw [List.getElem?_set_self (by rw [h1.1]; omega)]
                · simp at hset
              split at h
              · simp at h
              · split at h
                · split at h
                  · simp at h
                  · exact ih _ _ _ _ _ (by omega) key.1 key.2 h
                · simp only [Except.ok.injEq] at h; subst h; exact ⟨_, key.2⟩
    · exact done h

/-- In a signature that has been read the callback is noted, and so it is in that of the callback. -/
theorem parse_noted (res : Resolver) : ∀ fuel kind body beyond sig, parseSig res fuel kind body beyond = .ok sig →
    (∃ k, Noted sig k) ∧ ∀ c, sig.cb = some c → ∃ k, Noted c k := by
  intro fuel
  induction fuel with
  | zero => intro _ _ _ _ h; simp [parseSig] at h
  | succ fuel ih =>
    intro kind body beyond sig h
    rw [parseSig] at h
    split at h
    · simp at h
    · split at h
      · simp at h
      · split at h
        · simp at h
        · split at h
          · simp at h
          · rename_i s1 hl
            split at h
            · simp at h
            · rename_i s2 hv
              have hn := argsLoop_noted _ _ _ _ _ _ _ (Nat.le_refl 1) rfl (fun h => absurd rfl h) hl
              obtain ⟨inv, _, _, a1⟩ := argsLoop_inv (Q := fun c => ∃ k, Noted c k) (fun a t c hc => (ih _ _ _ _ hc).1) _ _ _ _ _ _ _ (Nat.le_refl 1) (startSig_inv _ _ _ _) hl
              obtain ⟨_, e1, e2, _, _⟩ := validate_ok (a1.trans rfl) hv
              have last : ∀ s : Sig, s.vals = s2.vals → s.cb = s2.cb → (∃ k, Noted s k) ∧ ∀ c, s.cb = some c → ∃ k, Noted c k := by
                intro s h1 h2
                refine ⟨?_, fun c hc => inv.sub c (by rw [← e2, ← h2, hc])⟩
                obtain ⟨k, hk⟩ := hn
                refine ⟨k, fun hc => ?_⟩
                rw [h1, e1]
                exact hk (by rw [← e2, ← h2]; exact hc)
              split at h
              · split at h
                · simp at h
                · simp at h
                · simp only [Except.ok.injEq] at h
                  subst h
                  exact last _ rfl rfl
              · simp only [Except.ok.injEq] at h
                subst h
                exact last _ rfl rfl

/-- A callback without parameters behind a `void` has no callback. -/
theorem callback_flat {res : Resolver} {s : List UInt8} {sig c : Sig} (h : ffi res s = .ok sig) (hc : sig.cb = some c) (hv : VoidLast c) : c.cb = none := by
  refine Classical.byContradiction fun hne => ?_
  obtain ⟨k, hk⟩ := (parse_noted _ _ _ _ _ _ h).2 c hc
  obtain ⟨j, j1, _, j3⟩ := hk hne
  have hf := (parse_valid _ _ _ _ _ _ h).2.2.2.2 c hc
  have hnot := hf.2.2.2
  have hm : CType.callback ∈ c.vals.drop 1 := by
    refine List.mem_of_getElem? (i := j - 1) ?_
    rw [List.getElem?_drop, show 1 + (j - 1) = j by omega, j3]
  rw [← List.takeWhile_append_dropWhile (p := (· ≠ CType.none)) (l := c.vals.drop 1), List.mem_append] at hm
  rcases hm with hm | hm
  · exact hnot hm
  · exact absurd (hv _ hm) (by decide)

/-- **C98, collection.** Whatever text a function is made of, if its callback has no parameters behind a `void`, collecting it frees all its blocks.  Missing: such callbacks, for which it is
false (`C98_violation_collected`). -/
theorem C98_collected_partial {res : Resolver} {s : List UInt8} {sig : Sig} (h : ffi res s = .ok sig) (hv : ∀ c, sig.cb = some c → VoidLast c) :
    Hangs sig (sigFree sig).2 ∧ Hangs (sigFree sig).1 0 := by
  unfold sigFree
  cases hc : sig.cb with
  | none => exact ⟨.none hc, .none hc⟩
  | some c => exact ⟨.some hc (.none (callback_flat h hc (hv c hc))), .none rfl⟩

/-- **C98, declarations.** All the blocks of a function made of a C declaration are freed when it is collected. -/
theorem C98_declaration {res : Resolver} {d : Decl} {s : List UInt8} {sig : Sig} (hd : DeclText d s) (h : ffi res s = .ok sig) : Hangs sig (sigFree sig).2 ∧ Hangs (sigFree sig).1 0 := by
  rw [C48_exact res d s hd] at h
  split at h
  · simp at h
  · split at h
    · simp only [Except.ok.injEq] at h
      subst h
      unfold sigFree
      cases hc : (sigOf _ d).cb with
      | none => exact ⟨.none hc, .none hc⟩
      | some c =>
        refine ⟨.some hc (.none ?_), .none rfl⟩
        have hc : cbOf d.params = some c := hc
        unfold cbOf at hc
        obtain ⟨p, _, hp⟩ := List.exists_of_findSome?_eq_some hc
        cases p with
        | plain t => simp at hp
        | fn r as => simp only [Option.some.injEq] at hp; subst hp; rfl
    · simp at h

/-- Copying allocates a block for each that hangs on the signature. -/
theorem C98_copy {s : Sig} {k : Nat} (h : Hangs s k) : Hangs (sigCopy s).1 k ∧ (sigCopy s).2 = k := by
  induction h with
  | @none s h =>
    obtain ⟨cb, _, _, _, _, _⟩ := s
    simp only at h
    subst h
    rw [sigCopy]
    exact ⟨.none rfl, rfl⟩
  | @some s c k h _ ih =>
    obtain ⟨cb, _, _, _, _, _⟩ := s
    simp only at h
    subst h
    rw [sigCopy]
    exact ⟨.some rfl ih.1, by rw [ih.2]⟩

/-- **C98, registrations.** When an engine is destroyed, and when a registration is given up, all blocks of the registrations of such callbacks are freed. -/
theorem C98_destroyed_partial {l : List Node} (h : ∀ n ∈ l, ∃ res s sig c, ffi res s = .ok sig ∧ sig.cb = some c ∧ VoidLast c ∧ n.sig = (sigCopy c).1) :
    HangsAll l (argsFreeList l) ∧ ∀ n ∈ l, HangsAll [n] (nodeFree n) := by
  have h0 : ∀ n ∈ l, n.sig.cb = none := fun n hn => by
    obtain ⟨res, s, sig, c, h1, h2, h3, h4⟩ := h n hn
    have := (C98_copy (.none (callback_flat h1 h2 h3))).1
    rw [← h4] at this
    cases this
    assumption
  constructor
  · clear h
    induction l with
    | nil => exact .nil
    | cons n l ih => exact .cons (k := 0) (.none (h0 n List.mem_cons_self)) (ih fun x hx => h0 x (List.mem_cons_of_mem _ hx))
  · intro n hn
    have e : nodeFree n = 0 + (0 + 1) := by
      unfold nodeFree sigFree
      rw [h0 n hn]
    rw [e]
    exact .cons (.none (h0 n hn)) .nil

/-- A declaration with a callback that takes a callback, behind a `void`. -/
def nested : List UInt8 := ascii "void f(void (*)(userdata, void, void (*)(userdata)), userdata)"

/-- **C98 is violated**: `nested` is accepted, and two blocks hang on the function, but only one is freed when it is collected; a copy of the callback has a block of its own, which
is not freed with the engine. -/
theorem C98_violation_collected (a : Nat) : ∃ sig c, ffi (some fun _ => some a) nested = .ok sig ∧ Hangs sig 2 ∧ (sigFree sig).2 = 1 ∧ sig.cb = some c ∧
    ∀ (id : Nat) (f u : Val), HangsAll [⟨id, (sigCopy c).1, f, u⟩] 2 ∧ argsFreeList [⟨id, (sigCopy c).1, f, u⟩] = 1 := by
  have h : ∃ sig c e, ffi (some fun _ => some a) nested = .ok sig ∧ sig.cb = some c ∧ c.cb = some e ∧ e.cb = none := ⟨_, _, _, rfl, rfl, rfl, rfl⟩
  obtain ⟨sig, c, e, h1, h2, h3, h4⟩ := h
  refine ⟨sig, c, h1, .some h2 (.some h3 (.none h4)), by unfold sigFree; rw [h2], h2, fun id f u => ⟨?_, rfl⟩⟩
  exact .cons (m := 0) (k := 1) (C98_copy (.some h3 (.none h4))).1 .nil

/-- Non-vacuity: a function with a callback. -/
example (a : Nat) : ∃ sig c, ffi (some fun _ => some a) (ascii "int f(int (*)(int, userdata), userdata)") = .ok sig ∧ sig.cb = some c ∧ VoidLast c := by
  refine ⟨_, _, rfl, rfl, ?_⟩
  unfold VoidLast
  decide

end Mjs.Props
