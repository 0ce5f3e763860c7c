import Verif.Lemmas.FfiSig

/-!
# The parser stays inside the string, and what it accepts
-/

namespace Mjs.Ffi
open Mjs.FfiSpec Mjs.Spec

theorem findClosing_append {k : Nat} {r a post : List UInt8} (h : findClosing k r = some (a, post)) (b : List UInt8) :
    findClosing k (r ++ b) = some (a, post ++ b) := by
  induction r generalizing k a with
  | nil => simp [findClosing] at h
  | cons x r ih =>
    simp only [List.cons_append, findClosing] at h ⊢
    split at h
    · rename_i hx
      simp only [Option.map_eq_some_iff, Prod.mk.injEq] at h
      obtain ⟨⟨p, q⟩, e, rfl, rfl⟩ := h
      simp [hx, ih e]
    · rename_i hx
      split at h
      · rename_i hx'
        split at h
        · rename_i hk
          simp at h; obtain ⟨rfl, rfl⟩ := h; simp [hx', hk]
        · rename_i hk
          simp only [Option.map_eq_some_iff, Prod.mk.injEq] at h
          obtain ⟨⟨p, q⟩, e, rfl, rfl⟩ := h
          simp [hx', hk, ih e]
      · rename_i hx'
        simp only [Option.map_eq_some_iff, Prod.mk.injEq] at h
        obtain ⟨⟨p, q⟩, e, rfl, rfl⟩ := h
        simp [hx, hx', ih e]

theorem scan_safe {r : List UInt8} {l : Nat} {fp : Bool} {cur post : List UInt8} (h : findClosing (l + 1) r = some (cur, post)) :
    ∃ a f t, scanArg l fp r = .ok (a, f, t) ∧ r = a ++ t ∧ t ≠ [] ∧ a.length ≤ cur.length ∧
      ∀ rr, t = 44 :: rr → ∃ cur', findClosing 1 rr = some (cur', post) ∧ cur'.length < cur.length := by
  induction r generalizing l fp cur with
  | nil => simp [findClosing] at h
  | cons c r ih =>
    simp only [scanArg]
    by_cases hc : c ≠ 0 ∧ (l > 0 ∨ (c ≠ 44 ∧ c ≠ 41))
    · rw [if_pos hc]
      -- one step of the search for the closing parenthesis
      have step : ∃ cur', findClosing ((if c = 40 then l + 1 else if c = 41 then l - 1 else l) + 1) r = some (cur', post) ∧
          cur = c :: cur' := by
        simp only [findClosing] at h
        by_cases h40 : c = 40
        · simp only [h40, if_true, Option.map_eq_some_iff, Prod.mk.injEq] at h ⊢
          obtain ⟨⟨p, q⟩, e, rfl, rfl⟩ := h
          exact ⟨p, e, rfl⟩
        · by_cases h41 : c = 41
          · have hl : l > 0 := by
              rcases hc.2 with h | h
              · exact h
              · exact absurd h41 h.2
            simp only [h41, if_true, (by decide : (41 : UInt8) ≠ 40), if_false] at h ⊢
            rw [if_neg (by omega)] at h
            simp only [Option.map_eq_some_iff, Prod.mk.injEq] at h
            obtain ⟨⟨p, q⟩, e, rfl, rfl⟩ := h
            refine ⟨p, ?_, rfl⟩
            rw [show l - 1 + 1 = l + 1 - 1 by omega]
            exact e
          · simp only [h40, h41, if_false, Option.map_eq_some_iff, Prod.mk.injEq] at h ⊢
            obtain ⟨⟨p, q⟩, e, rfl, rfl⟩ := h
            exact ⟨p, e, rfl⟩
      obtain ⟨cur', e, rfl⟩ := step
      obtain ⟨a, f, t, h1, h2, h3, h4, h5⟩ := ih (fp := if c = 40 then true else fp) e
      refine ⟨c :: a, f, t, ?_, by simp [h2], h3, by simpa using h4, ?_⟩
      · rw [h1]
      · intro rr hr
        obtain ⟨cur'', h6, h7⟩ := h5 rr hr
        exact ⟨cur'', h6, by simp; omega⟩
    · rw [if_neg hc]
      refine ⟨[], fp, c :: r, rfl, rfl, by simp, by simp, ?_⟩
      intro rr hr
      simp only [List.cons.injEq] at hr
      obtain ⟨rfl, rfl⟩ := hr
      have hl : l = 0 := by
        have : ¬ l > 0 := fun hl => hc ⟨by decide, Or.inl hl⟩
        omega
      subst hl
      simp [findClosing] at h
      obtain ⟨p, e, rfl⟩ := h
      exact ⟨p, e, by simp⟩

theorem skipBlank_safe {r cur post : List UInt8} (h : findClosing 1 r = some (cur, post)) :
    ∃ r' cur', skipBlank r = .ok r' ∧ findClosing 1 r' = some (cur', post) ∧ r'.length ≤ r.length ∧ cur'.length ≤ cur.length := by
  induction r generalizing cur with
  | nil => simp [findClosing] at h
  | cons c r ih =>
    simp only [skipBlank]
    by_cases hc : c = 32
    · subst hc
      simp [findClosing] at h
      obtain ⟨p, e, rfl⟩ := h
      obtain ⟨r', cur', h1, h2, h3, h4⟩ := ih e
      exact ⟨r', cur', by simp [h1], h2, by simp; omega, by simp; omega⟩
    · exact ⟨c :: r, cur, by simp [hc], h, Nat.le_refl _, Nat.le_refl _⟩

theorem argsLoop_safe {sub : List UInt8 → List UInt8 → Except Stop Sig} {n : Nat}
    (hsub : ∀ a t, a.length ≤ n → sub a t ≠ .error .ub) (stop : Nat) {fuel : Nat} {cur c post : List UInt8}
    (h : findClosing 1 cur = some (c, post)) (hn : c.length ≤ n) (hf : cur.length < fuel) (sig : Sig) (i : Nat)
    (te : List UInt8) : argsLoop sub stop fuel sig i te cur ≠ .error .ub := by
  induction fuel generalizing cur c sig i te with
  | zero => omega
  | succ fuel ih =>
    rw [argsLoop]
    split
    · obtain ⟨a, f, t, h1, h2, h3, h4, h5⟩ := scan_safe (fp := false) h
      rw [h1]
      simp only
      split
      · simp
      · have hone : ∀ e, oneArg sub sig a f t = .error e → e ≠ .ub := by
          intro e he hu
          subst hu
          unfold oneArg at he
          split at he
          · split at he
            · simp at he
            · split at he
              · rename_i he'
                simp at he; subst he
                exact hsub a t (by omega) he'
              · simp at he
          · split at he <;> simp at he
        split
        · rename_i e he
          intro hu
          simp only [Except.error.injEq] at hu
          exact hone e he hu
        · split
          · simp
          · cases t with
            | nil => exact absurd rfl h3
            | cons c r =>
              simp only
              split
              · rename_i hc
                subst hc
                obtain ⟨cur', h6, h7⟩ := h5 r rfl
                obtain ⟨r', cur'', h8, h9, h10, h11⟩ := skipBlank_safe h6
                rw [h8]
                refine ih h9 (by omega) ?_ _ _ _
                rw [h2] at hf; simp at hf; omega
              · simp
    · simp

theorem split_ok {body beyond : List UInt8} {h : Head} (hs : split body beyond = .ok h) :
    (∃ post, findClosing 1 h.mem = some (h.args, post)) ∧ h.args.length < body.length ∧ 41 ∈ h.paren := by
  unfold split at hs
  simp only at hs
  split at hs
  · simp at hs
  · rename_i head r1 hp
    have ⟨e1, _⟩ := findParen_some hp
    have hbl : (body.dropWhile isspace).length ≤ body.length := (List.dropWhile_sublist _).length_le
    rw [e1] at hbl
    simp at hbl
    split at hs
    · simp at hs
    · split at hs
      · simp at hs
      · rename_i inner post hcl
        have e2 := findClosing_some hcl
        split at hs
        · simp only [Except.ok.injEq] at hs
          subst hs
          refine ⟨⟨_, findClosing_append hcl beyond⟩, ?_, ?_⟩
          · rw [e2] at hbl; simp at hbl ⊢; omega
          · rw [e2]; simp
        · rename_i r2 hp2
          have ⟨e3, _⟩ := findParen_some hp2
          split at hs
          · simp at hs
          · rename_i args post2 hcl2
            have e4 := findClosing_some hcl2
            simp only [Except.ok.injEq] at hs
            subst hs
            refine ⟨⟨_, findClosing_append hcl2 beyond⟩, ?_, ?_⟩
            · rw [e2, e3, e4] at hbl; simp at hbl ⊢; omega
            · rw [e2]; simp

theorem split_no_ub (body beyond : List UInt8) : split body beyond ≠ .error .ub := by
  unfold split
  simp only
  split
  · simp
  · split
    · simp
    · split
      · simp
      · split
        · simp
        · split <;> simp

theorem strchrClose_safe {l : List UInt8} (h : 41 ∈ l) : ∃ b, strchrClose l = .ok b := by
  induction l with
  | nil => simp at h
  | cons c l ih =>
    simp only [strchrClose]
    split
    · exact ⟨_, rfl⟩
    · rename_i hc
      split
      · exact ⟨_, rfl⟩
      · exact ih (by simpa [Ne.symm hc] using h)

theorem validateArgs_no_ub (kind : SigKind) (ts : List CType) (i cb ud cnt : Nat) {e : Stop}
    (h : validateArgs kind ts i cb ud cnt = .error e) : e = .error := by
  induction ts generalizing i cb ud cnt with
  | nil => simp [validateArgs] at h
  | cons t ts ih =>
    cases t <;> simp only [validateArgs] at h
    case userdata => split at h
                     · simp at h; exact h.symm
                     · exact ih _ _ _ _ h
    case callback => cases kind
                     · exact ih _ _ _ _ h
                     · simp at h; exact h.symm
    case mgStr => simp at h; exact h.symm
    case none => simp at h
    all_goals exact ih _ _ _ _ h

theorem validate_error {kind : SigKind} {sig : Sig} {e : Stop} (h : validate kind sig = .error e) : e = .error := by
  unfold validate at h
  split at h
  · split at h
    · rename_i he
      simp at h; subst h
      exact validateArgs_no_ub _ _ _ _ _ _ he
    · split at h
      · simp at h
      · simp at h; exact h.symm
  · simp at h; exact h.symm

theorem countTypes_error {ts : List CType} {i d f ud : Nat} {e : Stop} (h : countTypes ts i d f ud = .error e) : e = .abort := by
  induction ts generalizing i d f ud with
  | nil => simp [countTypes] at h
  | cons t ts ih =>
    cases t <;> simp only [countTypes] at h
    case userdata => split at h
                     · exact ih h
                     · simp at h; exact h.symm
    all_goals exact ih h

theorem getCbImpl_error {sig : Sig} {e : Stop} (h : getCbImpl sig = .error e) : e = .abort := by
  unfold getCbImpl at h
  split at h
  · split at h
    · rename_i he; simp at h; subst h; exact countTypes_error he
    · repeat' split at h
      all_goals first | (simp at h; done) | (simp at h; exact h.symm)
  · simp at h

/-- The parser reads nothing outside the string (and its loops end). -/
theorem parse_safe (res : Resolver) {fuel : Nat} (kind : SigKind) {body : List UInt8} (h : body.length < fuel)
    (beyond : List UInt8) : parseSig res fuel kind body beyond ≠ .error .ub := by
  induction fuel generalizing kind body beyond with
  | zero => omega
  | succ fuel ih =>
    rw [parseSig]
    split
    · rename_i e he
      intro hu; simp at hu; subst hu
      exact split_no_ub _ _ he
    · rename_i hd hs
      obtain ⟨⟨post, hcl⟩, hlt, hmem⟩ := split_ok hs
      split
      · simp
      · split
        · rename_i e he
          intro hu; simp at hu; subst hu
          unfold resolve at he
          split at he
          · obtain ⟨b, hb⟩ := strchrClose_safe hmem
            rw [hb] at he
            cases b <;> simp at he
          · split at he
            · simp at he
            · split at he <;> simp at he
        · split
          · rename_i e he
            intro hu; simp at hu; subst hu
            exact argsLoop_safe (n := hd.args.length) (fun a t ha => ih .callback (by omega) t) _ hcl (Nat.le_refl _) (by omega) _ _ _ he
          · split
            · rename_i e he
              intro hu; simp at hu; subst hu
              cases validate_error he
            · split
              · split
                · rename_i e he
                  intro hu; simp at hu; subst hu
                  cases getCbImpl_error he
                · simp
                · simp
              · simp

/-! ## What is accepted -/

theorem validateArgs_take (kind : SigKind) (ts : List CType) (i cb ud cnt : Nat) :
    validateArgs kind ts i cb ud cnt = validateArgs kind (ts.takeWhile (· ≠ .none)) i cb ud cnt := by
  induction ts generalizing i cb ud cnt with
  | nil => rfl
  | cons t ts ih =>
    by_cases ht : t = .none
    · subst ht; simp [validateArgs]
    · have : (t :: ts).takeWhile (· ≠ .none) = t :: ts.takeWhile (· ≠ .none) := by simp [ht]
      rw [this]
      clear this
      cases t <;> simp only [validateArgs]
      case callback => cases kind <;> simp only; exact ih _ _ _ _
      case userdata => split
                       · rfl
                       · exact ih _ _ _ _
      all_goals exact ih _ _ _ _

/-- What a validated signature satisfies. -/
structure Valid (kind : SigKind) (sig : Sig) : Prop where
  ret : returnOk kind (sig.vals.headD .none) = true
  cnt : sig.argsCnt = (params sig).length
  good : ArgsGood kind (params sig) 0
  func : kind = .func → (CType.callback ∈ params sig ↔ CType.userdata ∈ params sig)
  cb : kind = .callback → CType.userdata ∈ params sig
  valid : sig.isValid = true

theorem validate_ok {kind : SigKind} {sig sig' : Sig} (hc : sig.argsCnt = 0) (h : validate kind sig = .ok sig') :
    Valid kind sig' ∧ sig'.vals = sig.vals ∧ sig'.cb = sig.cb ∧ sig'.fn = sig.fn ∧ sig'.isCallback = sig.isCallback := by
  unfold validate at h
  split at h
  · rename_i hr
    have hn : CType.none ∉ sig.vals.tail.takeWhile (· ≠ .none) := by
      intro hm
      have := List.all_eq_true.1 (List.all_takeWhile (l := sig.vals.tail) (p := (· ≠ .none))) _ hm
      simp at this
    have hva := validateArgs_eq kind hn 0 1 0 0 0 (by omega)
    simp only [List.replicate_zero, List.append_nil, Nat.zero_add] at hva
    rw [validateArgs_take, hc] at h
    have hp : ∀ n b, params { sig with argsCnt := n, isValid := b } = sig.vals.tail.takeWhile (· ≠ .none) := by
      intro n b; unfold params; rw [List.drop_one]
    split at hva
    · rename_i hg
      obtain ⟨cb', ud', he, hcb, hud⟩ := hva
      rw [he] at h
      simp only at h
      have e1 : 0 < cb' ↔ CType.callback ∈ sig.vals.tail.takeWhile (· ≠ .none) := by rw [hcb]; simp
      have e2 : 0 < ud' ↔ CType.userdata ∈ sig.vals.tail.takeWhile (· ≠ .none) := by rw [hud]; simp
      split at h
      · rename_i hk
        simp only [Except.ok.injEq] at h
        subst h
        refine ⟨⟨hr, by rw [hp], by rw [hp]; exact hg, ?_, ?_, rfl⟩, rfl, rfl, rfl, rfl⟩
        · rintro rfl
          rw [hp, ← e1, ← e2]
          simp [pairOk] at hk
          omega
        · rintro rfl
          rw [hp, ← e2]
          simp [pairOk] at hk
          omega
      · simp at h
    · rw [hva] at h; simp at h
  · simp at h

/-- What the loop over the arguments keeps. -/
structure Inv (Q : Sig → Prop) (sig : Sig) : Prop where
  len : sig.vals.length = 7
  cbs : sig.vals.tail.count .callback ≤ if sig.cb.isSome then 1 else 0
  sub : ∀ c, sig.cb = some c → Q c

theorem count_set (l : List CType) (i : Nat) (t x : CType) :
    (l.set i t).count x ≤ l.count x + if t = x then 1 else 0 := by
  induction l generalizing i with
  | nil => simp
  | cons a l ih =>
    cases i with
    | zero => simp only [List.set_cons_zero, List.count_cons, beq_iff_eq]; split <;> split <;> omega
    | succ i => simp only [List.set_cons_succ, List.count_cons]; have := ih i; omega

theorem setValType_inv {Q : Sig → Prop} {sig sig' : Sig} {i : Nat} {t : CType} (hi : 1 ≤ i)
    (hl : sig.vals.length = 7) (hs : ∀ c, sig.cb = some c → Q c)
    (hc : sig.vals.tail.count .callback + (if t = .callback then 1 else 0) ≤ if sig.cb.isSome then 1 else 0)
    (h : setValType sig i t = some sig') :
    Inv Q sig' ∧ sig'.fn = sig.fn ∧ sig'.isCallback = sig.isCallback ∧ sig'.argsCnt = sig.argsCnt := by
  unfold setValType at h
  split at h
  · simp only [Option.some.injEq] at h
    subst h
    refine ⟨⟨by simpa using hl, ?_, hs⟩, rfl, rfl, rfl⟩
    obtain ⟨j, rfl⟩ := Nat.exists_eq_add_of_le' hi
    cases hv : sig.vals with
    | nil => rw [hv] at hl; simp at hl
    | cons a l =>
      rw [hv] at hc
      have := count_set l j t .callback
      simp only [List.set_cons_succ, List.tail_cons] at *
      omega
  · simp at h

theorem parseCval_ne {a : List UInt8} {t : CType} (h : parseCval a = some t) : t ≠ .callback := by
  unfold parseCval at h
  simp only at h
  repeat' split at h
  all_goals first | (simp only [Option.some.injEq] at h; subst h; decide) | simp at h

theorem argsLoop_inv {Q : Sig → Prop} {sub : List UInt8 → List UInt8 → Except Stop Sig}
    (hsub : ∀ a t c, sub a t = .ok c → Q c) (stop : Nat) :
    ∀ fuel sig i tmpE cur sig', 1 ≤ i → Inv Q sig → argsLoop sub stop fuel sig i tmpE cur = .ok sig' →
      Inv Q sig' ∧ sig'.fn = sig.fn ∧ sig'.isCallback = sig.isCallback ∧ sig'.argsCnt = sig.argsCnt := by
  intro fuel
  induction fuel with
  | zero => intro _ _ _ _ _ _ _ h; simp [argsLoop] at h
  | succ fuel ih =>
    intro sig i tmpE cur sig' hi inv h
    have done : ∀ {s}, (Except.ok sig : Except Stop Sig) = .ok s →
        Inv Q s ∧ s.fn = sig.fn ∧ s.isCallback = sig.isCallback ∧ s.argsCnt = sig.argsCnt := by
      intro s e; simp only [Except.ok.injEq] at e; subst e; exact ⟨inv, rfl, rfl, rfl⟩
    rw [argsLoop] at h
    split at h
    · split at h
      · simp at h
      · rename_i a fp t _
        split at h
        · exact done h
        · split at h
          · simp at h
          · rename_i s1 vt ho
            split at h
            · simp at h
            · rename_i s2 hset
              have key : Inv Q s2 ∧ s2.fn = sig.fn ∧ s2.isCallback = sig.isCallback ∧ s2.argsCnt = sig.argsCnt := by
                unfold oneArg at ho
                split at ho
                · split at ho
                  · simp at ho
                  · rename_i hcb
                    split at ho
                    · simp at ho
                    · rename_i c hc
                      simp only [Except.ok.injEq, Prod.mk.injEq] at ho
                      obtain ⟨rfl, rfl⟩ := ho
                      refine setValType_inv (sig := { sig with cb := some c }) hi inv.len ?_ ?_ hset
                      · intro c' e; simp only [Option.some.injEq] at e; subst e; exact hsub _ _ _ hc
                      · have := inv.cbs
                        simp [hcb] at this
                        simp [this]
                · split at ho
                  · simp at ho
                  · rename_i vt' hp
                    simp only [Except.ok.injEq, Prod.mk.injEq] at ho
                    obtain ⟨rfl, rfl⟩ := ho
                    refine setValType_inv hi inv.len inv.sub ?_ hset
                    rw [if_neg (parseCval_ne hp)]
                    exact inv.cbs
              split at h
              · simp at h
              · split at h
                · split at h
                  · simp at h
                  · obtain ⟨k1, k2, k3, k4⟩ := key
                    obtain ⟨r1, r2, r3, r4⟩ := ih _ _ _ _ _ (by omega) k1 h
                    exact ⟨r1, r2.trans k2, r3.trans k3, r4.trans k4⟩
                · simp only [Except.ok.injEq] at h; subst h; exact key
    · exact done h

theorem startSig_inv (Q : Sig → Prop) (rt : CType) (fn : Option Fn) (b : Bool) : Inv Q (startSig rt fn b) :=
  ⟨rfl, Nat.le_refl 0, by simp [startSig, sigInit]⟩

theorem resolve_ok {res : Resolver} {h : Head} {fn : Option Fn} (hr : resolve res h = .ok fn) :
    h.isCallback = false → fn.isSome := by
  intro hc
  unfold resolve at hr
  rw [hc] at hr
  simp only [Bool.false_eq_true, if_false] at hr
  split at hr
  · simp at hr
  · split at hr
    · simp at hr
    · simp only [Except.ok.injEq] at hr; subst hr; rfl

/-- What a parsed signature satisfies. -/
theorem parse_valid (res : Resolver) : ∀ fuel kind body beyond sig, parseSig res fuel kind body beyond = .ok sig →
    Valid kind sig ∧ sig.fn.isSome ∧ sig.vals.length = 7 ∧ sig.vals.tail.count .callback ≤ (if sig.cb.isSome then 1 else 0) ∧
    ∀ c, sig.cb = some c → CallbackFormed c := by
  intro fuel
  induction fuel with
  | zero => intro _ _ _ _ h; simp [parseSig] at h
  | succ fuel ih =>
    intro kind body beyond sig h
    rw [parseSig] at h
    split at h
    · simp at h
    · split at h
      · simp at h
      · split at h
        · simp at h
        · rename_i fn hres
          split at h
          · simp at h
          · rename_i s1 hl
            split at h
            · simp at h
            · rename_i s2 hv
              have hsub : ∀ a t c, parseSig res fuel .callback a t = .ok c → CallbackFormed c := by
                intro a t c hc
                obtain ⟨v, f, len, _, _⟩ := ih _ _ _ _ hc
                have hl6 : (params c).length ≤ 6 := by
                  unfold params
                  refine Nat.le_trans (List.takeWhile_sublist _).length_le ?_
                  simp [len]
                refine ⟨⟨f, v.valid, v.cnt, hl6, v.good.1, ?_⟩, ?_, v.cb rfl, v.good.2.1 rfl⟩
                · have := v.good.2.2; omega
                · have := v.ret; simp only [returnOk] at this; revert this; cases c.vals.headD .none <;> decide
              obtain ⟨inv, f1, c1, a1⟩ := argsLoop_inv hsub _ _ _ _ _ _ _ (Nat.le_refl 1) (startSig_inv _ _ _ _) hl
              obtain ⟨v, e1, e2, e3, e4⟩ := validate_ok (a1.trans rfl) hv
              have fin : ∀ s : Sig, s.vals = s2.vals → s.cb = s2.cb → s.argsCnt = s2.argsCnt → s.isValid = s2.isValid →
                  s.fn.isSome → Valid kind s ∧ s.fn.isSome ∧ s.vals.length = 7 ∧
                    s.vals.tail.count .callback ≤ (if s.cb.isSome then 1 else 0) ∧ ∀ c, s.cb = some c → CallbackFormed c := by
                intro s h1 h2 h3 h4 h5
                have hp : params s = params s2 := by unfold params; rw [h1]
                refine ⟨⟨by rw [h1]; exact v.ret, by rw [h3, hp]; exact v.cnt, by rw [hp]; exact v.good,
                  by rw [hp]; exact v.func, by rw [hp]; exact v.cb, h4.trans v.valid⟩, h5, ?_, ?_, ?_⟩
                · rw [h1, e1]; exact inv.len
                · rw [h1, h2, e1, e2]; exact inv.cbs
                · rw [h2, e2]; exact inv.sub
              split at h
              · split at h
                · simp at h
                · simp at h
                · simp only [Except.ok.injEq] at h
                  subst h
                  exact fin _ rfl rfl rfl rfl rfl
              · rename_i hcb
                simp only [Except.ok.injEq] at h
                subst h
                refine fin _ rfl rfl rfl rfl ?_
                rw [e3, f1]
                refine resolve_ok hres ?_
                have : s2.isCallback = false := by simpa using hcb
                rw [e4, c1] at this
                exact this

/-- A function accepted by `ffi` is formed. -/
theorem ffi_formed (res : Resolver) (s : List UInt8) (sig : Sig) (h : ffi res s = .ok sig) : FunctionFormed sig := by
  obtain ⟨v, f, len, cbs, sub⟩ := parse_valid _ _ _ _ _ _ h
  have hsl : (params sig).Sublist sig.vals.tail := by
    unfold params; rw [List.drop_one]; exact List.takeWhile_sublist _
  have hl6 : (params sig).length ≤ 6 := by
    refine Nat.le_trans hsl.length_le ?_
    simp [len]
  have hle := hsl.count_le .callback
  refine ⟨⟨f, v.valid, v.cnt, hl6, v.good.1, by have := v.good.2.2; omega⟩, ?_, ?_, v.func rfl, ?_⟩
  · have := v.ret; simp only [returnOk] at this; revert this; cases sig.vals.headD .none <;> decide
  · split at cbs <;> omega
  · intro hm
    have : 0 < (params sig).count .callback := List.count_pos_iff.2 hm
    cases hc : sig.cb with
    | none => rw [hc] at cbs; simp at cbs; omega
    | some c => exact ⟨c, rfl, sub c hc⟩

end Mjs.Ffi
