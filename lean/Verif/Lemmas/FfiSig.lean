import Verif.Lemmas.FfiText

/-!
# What the parser makes of a declaration
-/

namespace Mjs.Ffi
open Mjs.FfiSpec Mjs.Spec

/-- The arguments filled in one after the other. -/
def fill (cbp : CType → List CType → Except Stop Sig) : Sig → Nat → List Param → Except Stop Sig
  | sig, _, [] => .ok sig
  | sig, i, .plain t :: ps =>
    match setValType sig i t with
    | none => .error .error
    | some sig => fill cbp sig (i + 1) ps
  | sig, i, .fn r as :: ps =>
    match sig.cb with
    | some _ => .error .error
    | none =>
      match cbp r as with
      | .error e => .error e
      | .ok c =>
        match setValType { sig with cb := some c } i .callback with
        | none => .error .error
        | some sig => fill cbp sig (i + 1) ps

theorem loop_fill {cbp : CType → List CType → Except Stop Sig} {sub : List UInt8 → List UInt8 → Except Stop Sig}
    {bound : Nat} {ps : List Param} (hsub : ∀ r as text beyond, .fn r as ∈ ps → ParamText (.fn r as) text → text.length ≤ bound →
      sub text beyond = cbp r as) (post : List UInt8) {s : List UInt8} (h : Joined ParamText ps s) (hb : s.length ≤ bound)
    {fuel : Nat} (hf : s.length < fuel) (sig : Sig) (i : Nat) {te : List UInt8} (hte : te.length > post.length + 1) :
    argsLoop sub (post.length + 1) fuel sig i te (s ++ 41 :: post) = fill cbp sig i ps := by
  induction ps generalizing s fuel sig i te with
  | nil => cases h
  | cons p ps ih =>
    cases fuel with
    | zero => omega
    | succ fuel =>
    rw [argsLoop, if_pos hte]
    have key : ∀ (c : UInt8) (r ptext : List UInt8), ParamText p ptext → ptext.length ≤ bound → (c = 44 ∨ c = 41) →
        (∀ sig', (if c = 44 then
            match skipBlank r with
            | .error e => .error e
            | .ok cur => argsLoop sub (post.length + 1) fuel sig' (i + 1) (c :: r) cur
          else .ok sig') = fill cbp sig' (i + 1) ps) →
        (match scanArg 0 false (ptext ++ c :: r) with
        | .error e => .error e
        | .ok (a, fp, t) =>
          if a = [] then .ok sig
          else
            match oneArg sub sig a fp t with
            | .error e => .error e
            | .ok (sig, vt) =>
              match setValType sig i vt with
              | none => .error .error
              | some sig =>
                match t with
                | [] => .error .ub
                | c :: r =>
                  if c = 44 then
                    match skipBlank r with
                    | .error e => .error e
                    | .ok cur => argsLoop sub (post.length + 1) fuel sig (i + 1) (c :: r) cur
                  else .ok sig) = fill cbp sig i (p :: ps) := by
      intro c r ptext hp hpb hc hk
      rw [scan_param hp hc]
      simp only [param_nonempty hp, if_false]
      cases p with
      | plain t =>
        simp only [isFn, oneArg, Bool.false_eq_true, if_false, parseCval_type hp.2, fill]
        cases setValType sig i t with
        | none => rfl
        | some sig' => exact hk sig'
      | fn ret as =>
        simp only [isFn, oneArg, if_true, fill]
        cases sig.cb with
        | some _ => rfl
        | none =>
          simp only
          rw [hsub ret as ptext _ (by simp) hp hpb]
          cases cbp ret as with
          | error e => rfl
          | ok cs =>
            simp only
            cases setValType { sig with cb := some cs } i .callback with
            | none => rfl
            | some sig' => exact hk sig'
    cases h with
    | one hp =>
      refine key 41 post s hp hb (Or.inr rfl) ?_
      intro sig'; simp [fill]
    | @more _ ptext _ s' hp hj =>
      have e : (ptext ++ 44 :: s') ++ 41 :: post = ptext ++ 44 :: (s' ++ 41 :: post) := by simp
      rw [e]
      refine key 44 _ ptext hp (by simp at hb; omega) (Or.inl rfl) ?_
      intro sig'
      rw [if_pos rfl, skipBlank_eq (by decide)]
      simp only
      have hle := (List.dropWhile_sublist (l := s') (· == 32)).length_le
      refine ih (fun r as text beyond hm => hsub r as text beyond (by simp [hm])) (joined_drop hj) ?_ ?_ sig' (i + 1) ?_
      · simp at hb; omega
      · simp at hf; omega
      · simp; omega

/-- Filling in a parameter list as text, whatever way it is empty. -/
theorem loop_list {cbp : CType → List CType → Except Stop Sig} {sub : List UInt8 → List UInt8 → Except Stop Sig}
    {bound : Nat} {ps : List Param} (hsub : ∀ r as text beyond, .fn r as ∈ ps → ParamText (.fn r as) text → text.length ≤ bound →
      sub text beyond = cbp r as) (post : List UInt8) {s : List UInt8} (h : ListText ParamText ps s) (hb : s.length ≤ bound)
    (sig : Sig) (hs : sig.vals.set 1 .none = sig.vals) :
    argsLoop sub ((s ++ 41 :: post).length - s.length) ((s ++ 41 :: post).length + 1) sig 1 (s ++ 41 :: post) (s ++ 41 :: post)
      = fill cbp sig 1 ps := by
  have el : (s ++ 41 :: post).length - s.length = post.length + 1 := by simp
  rw [el]
  cases h with
  | nil => rw [argsLoop]; simp [fill]
  | void h =>
    have hp : scanArg 0 false (s ++ 41 :: post) = .ok (s, false, 41 :: post) := by
      rw [scan_plain (type_plain h), scan_stop (Or.inr rfl)]; simp
    have hl := type_nonempty h
    have hne : s ≠ [] := by rintro rfl; simp at hl
    rw [argsLoop, if_pos (by simp; omega), hp]
    simp only [hne, if_false, oneArg, Bool.false_eq_true, parseCval_type h]
    have : setValType sig 1 .none = some sig := by
      unfold setValType maxSize
      rw [hs]; cases sig; simp
    simp [this, fill]
  | some h =>
    refine loop_fill hsub post h hb (by simp; omega) sig 1 ?_
    have : s ≠ [] := by cases h with
      | one h => exact param_nonempty h
      | more h _ => simp
    have := List.length_pos_iff.2 this
    simp; omega

/-! ## Filling in -/

/-- The signature of the first callback among the parameters. -/
def foundCb : List Param → Option Sig
  | [] => none
  | .plain _ :: ps => foundCb ps
  | .fn r as :: _ => some (cbSigOf r as)

theorem setValType_eq {sig : Sig} {front : List CType} {k : Nat} (hv : sig.vals = front ++ List.replicate k .none)
    (hl : front.length + k = 7) (t : CType) :
    setValType sig front.length t =
      if 1 ≤ k then some { sig with vals := (front ++ [t]) ++ List.replicate (k - 1) .none } else none := by
  unfold setValType maxSize
  cases k with
  | zero => simp at hl; simp [hl]
  | succ k =>
    rw [if_pos (by omega), if_pos (by omega), hv]
    simp [List.replicate_succ]

/-- Whether the callbacks among the parameters can be used: at most one (none if there is one already). -/
def CbsOk (have1 : Bool) (ps : List Param) : Prop :=
  (ps.map Param.type).count .callback + (if have1 then 1 else 0) ≤ 1 ∧
  ∀ p ∈ ps, p.ok

instance (h : Bool) (ps : List Param) : Decidable (CbsOk h ps) := by unfold CbsOk; infer_instance

theorem fill_eq {cbp : CType → List CType → Except Stop Sig} {ps : List Param}
    (hcb : ∀ r as, .fn r as ∈ ps → cbp r as = if CbOk r as then .ok (cbSigOf r as) else .error .error)
    (hpl : ∀ t, .plain t ∈ ps → t ≠ .callback)
    {sig : Sig} {front : List CType} {k : Nat} (hv : sig.vals = front ++ List.replicate k .none)
    (hl : front.length + k = 7) :
    fill cbp sig front.length ps =
      if ps.length ≤ k ∧ CbsOk sig.cb.isSome ps then
        .ok { sig with vals := front ++ ps.map Param.type ++ List.replicate (k - ps.length) .none,
                       cb := sig.cb <|> foundCb ps }
      else .error .error := by
  induction ps generalizing sig front k with
  | nil =>
    have : CbsOk sig.cb.isSome [] := by cases sig.cb <;> simp [CbsOk]
    cases sig
    simp_all [fill, foundCb]
  | cons p ps ih =>
    have hcb' : ∀ r as, Param.fn r as ∈ ps → cbp r as = if CbOk r as then .ok (cbSigOf r as) else .error .error :=
      fun r as hm => hcb r as (by simp [hm])
    have hpl' : ∀ t, Param.plain t ∈ ps → t ≠ .callback := fun t hm => hpl t (by simp [hm])
    cases p with
    | plain t =>
      rw [fill, setValType_eq hv hl]
      by_cases hk : 1 ≤ k
      · rw [if_pos hk]
        simp only
        have hih := ih hcb' hpl' (sig := { sig with vals := (front ++ [t]) ++ List.replicate (k - 1) .none })
          (front := front ++ [t]) (k := k - 1) rfl (by simp; omega)
        simp only [List.length_append, List.length_singleton] at hih
        rw [hih]
        have e1 : (ps.length ≤ k - 1 ∧ CbsOk sig.cb.isSome ps) ↔
            ((Param.plain t :: ps).length ≤ k ∧ CbsOk sig.cb.isSome (Param.plain t :: ps)) := by
          have ht : t ≠ .callback := hpl t (by simp)
          have ht' : ¬ (CType.callback = t) := fun e => ht e.symm
          simp [CbsOk, Param.type, Param.ok, ht]
          omega
        simp only [e1]
        split
        · have e2 : k - 1 - ps.length = k - (ps.length + 1) := by omega
          simp [Param.type, foundCb, e2]
        · rfl
      · rw [if_neg hk, if_neg]
        simp; omega
    | fn r as =>
      rw [fill]
      cases hc : sig.cb with
      | some c =>
        simp only
        rw [if_neg]
        rintro ⟨-, h, -⟩
        simp [Param.type] at h
      | none =>
        simp only
        rw [hcb r as (by simp)]
        by_cases hok : CbOk r as
        · rw [if_pos hok]
          simp only
          rw [setValType_eq (sig := { sig with cb := some (cbSigOf r as) }) hv hl]
          by_cases hk : 1 ≤ k
          · rw [if_pos hk]
            simp only
            have hih := ih hcb' hpl' 
              (sig := { sig with cb := some (cbSigOf r as), vals := (front ++ [CType.callback]) ++ List.replicate (k - 1) .none })
              (front := front ++ [CType.callback]) (k := k - 1) rfl (by simp; omega)
            simp only [List.length_append, List.length_singleton] at hih
            rw [hih]
            have e1 : (ps.length ≤ k - 1 ∧ CbsOk true ps) ↔
                ((Param.fn r as :: ps).length ≤ k ∧ CbsOk false (Param.fn r as :: ps)) := by
              simp [CbsOk, Param.type, Param.ok, hok]
              omega
            simp only [Option.isSome_some, Option.isSome_none, e1]
            split
            · have e2 : k - 1 - ps.length = k - (ps.length + 1) := by omega
              simp [Param.type, foundCb, e2]
            · rfl
          · rw [if_neg hk, if_neg]
            simp; omega
        · rw [if_neg hok, if_neg]
          rintro ⟨-, -, h⟩
          exact hok (h (.fn r as) (by simp))

/-! ## Validation -/

/-- The condition checked on each argument type. -/
def ArgsGood (kind : SigKind) (ts : List CType) (ud : Nat) : Prop :=
  CType.mgStr ∉ ts ∧ (kind = .callback → CType.callback ∉ ts) ∧ ts.count .userdata + (if ud ≠ 0 then 1 else 0) ≤ 1

instance (kind : SigKind) (ts : List CType) (ud : Nat) : Decidable (ArgsGood kind ts ud) := by
  unfold ArgsGood; infer_instance

theorem validateArgs_nones (kind : SigKind) (m i cb ud cnt : Nat) :
    validateArgs kind (List.replicate m .none) i cb ud cnt = .ok (cb, ud, cnt) := by
  cases m <;> simp [validateArgs, List.replicate_succ]

theorem validateArgs_eq (kind : SigKind) {ts : List CType} (hn : CType.none ∉ ts) (m i cb ud cnt : Nat) (hi : 1 ≤ i) :
    if ArgsGood kind ts ud then
      ∃ cb' ud', validateArgs kind (ts ++ List.replicate m .none) i cb ud cnt = .ok (cb', ud', cnt + ts.length) ∧
        (0 < cb' ↔ 0 < cb ∨ CType.callback ∈ ts) ∧ (0 < ud' ↔ 0 < ud ∨ CType.userdata ∈ ts)
    else validateArgs kind (ts ++ List.replicate m .none) i cb ud cnt = .error .error := by
  induction ts generalizing i cb ud cnt with
  | nil =>
    have : ArgsGood kind [] ud := by unfold ArgsGood; split <;> simp
    rw [if_pos this]
    exact ⟨cb, ud, by simp [validateArgs_nones]⟩
  | cons t ts ih =>
    have hn' : CType.none ∉ ts := fun h => hn (by simp [h])
    have plain : ∀ (_ : t ≠ .userdata) (_ : t ≠ .callback) (_ : t ≠ .mgStr) (_ : t ≠ .none),
        validateArgs kind (t :: ts ++ List.replicate m .none) i cb ud cnt =
          validateArgs kind (ts ++ List.replicate m .none) (i + 1) cb ud (cnt + 1) := by
      intro h1 h2 h3 h4
      cases t <;> first | contradiction | rfl
    by_cases h1 : t = .userdata
    · subst h1
      simp only [List.cons_append, validateArgs]
      by_cases hu : ud = 0
      · subst hu
        have ih := ih hn' (i + 1) cb i (cnt + 1) (by omega)
        have e : ArgsGood kind (CType.userdata :: ts) 0 ↔ ArgsGood kind ts i := by
          unfold ArgsGood
          rw [if_pos (by omega : i ≠ 0)]
          simp
        simp only [e, ne_eq, not_true, if_false]
        split
        · rename_i hg
          rw [if_pos hg] at ih
          obtain ⟨cb', ud', h, hc, hu⟩ := ih
          refine ⟨cb', ud', by rw [h]; simp; omega, by simp [hc], ?_⟩
          rw [hu]; simp; omega
        · rename_i hg
          rw [if_neg hg] at ih
          exact ih
      · rw [if_neg]
        · simp [hu]
        · rintro ⟨-, -, h⟩
          simp [hu] at h
    · by_cases h2 : t = .callback
      · subst h2
        simp only [List.cons_append, validateArgs]
        cases kind with
        | callback =>
          rw [if_neg]
          rintro ⟨-, h, -⟩
          exact h rfl (by simp)
        | func =>
          have ih := ih hn' (i + 1) i ud (cnt + 1) (by omega)
          have e : ArgsGood .func (CType.callback :: ts) ud ↔ ArgsGood .func ts ud := by
            simp [ArgsGood]
          simp only [e]
          split
          · rename_i hg
            rw [if_pos hg] at ih
            obtain ⟨cb', ud', h, hc, hu⟩ := ih
            refine ⟨cb', ud', by rw [h]; simp; omega, ?_, by simp [hu]⟩
            rw [hc]; simp; omega
          · rename_i hg
            rw [if_neg hg] at ih
            exact ih
      · by_cases h3 : t = .mgStr
        · subst h3
          rw [if_neg]
          · simp [validateArgs]
          · rintro ⟨h, -⟩; exact h (by simp)
        · have h4 : t ≠ .none := fun e => hn (by simp [e])
          rw [plain h1 h2 h3 h4]
          have ih := ih hn' (i + 1) cb ud (cnt + 1) (by omega)
          have h1' : ¬ (CType.userdata = t) := fun e => h1 e.symm
          have h2' : ¬ (CType.callback = t) := fun e => h2 e.symm
          have h3' : ¬ (CType.mgStr = t) := fun e => h3 e.symm
          have e : ArgsGood kind (t :: ts) ud ↔ ArgsGood kind ts ud := by
            simp [ArgsGood, h1, h2', h3']
          simp only [e]
          split
          · rename_i hg
            rw [if_pos hg] at ih
            obtain ⟨cb', ud', h, hc, hu⟩ := ih
            refine ⟨cb', ud', by rw [h]; simp; omega, by simp [hc, h2'], by simp [hu, h1']⟩
          · rename_i hg
            rw [if_neg hg] at ih
            exact ih

theorem countTypes_nones (m i d f ud : Nat) : countTypes (List.replicate m .none) i d f ud = .ok (d, f, ud) := by
  induction m generalizing i with
  | zero => rfl
  | succ m ih => simp [List.replicate_succ, countTypes, ih]

theorem countTypes_none {ts : List CType} (h : CType.userdata ∉ ts) (m i d f ud : Nat) :
    countTypes (ts ++ List.replicate m .none) i d f ud = .ok (d + ts.count .double, f + ts.count .float, ud) := by
  induction ts generalizing i d f with
  | nil => simp [countTypes_nones]
  | cons t ts ih =>
    have h' : CType.userdata ∉ ts := fun e => h (by simp [e])
    have ih := fun i d f => ih h' i d f
    cases t <;> simp_all [countTypes] <;> omega

theorem beq_userdata {t : CType} (h : t ≠ .userdata) : (t == CType.userdata) = false := by
  cases t <;> first | rfl | contradiction

theorem countTypes_eq {ts : List CType} (h : ts.count .userdata = 1) (m i d f : Nat) :
    countTypes (ts ++ List.replicate m .none) i d f 0 =
      .ok (d + ts.count .double, f + ts.count .float, i + ts.idxOf .userdata) := by
  induction ts generalizing i d f with
  | nil => simp at h
  | cons t ts ih =>
    by_cases ht : t = .userdata
    · subst ht
      have h' : CType.userdata ∉ ts := by
        rw [List.count_cons_self] at h
        exact List.count_eq_zero.1 (by omega)
      simp [countTypes, countTypes_none h']
    · have h' : ts.count .userdata = 1 := by rwa [List.count_cons_of_ne ht] at h
      have ih := fun i d f => ih h' i d f
      have e : (t :: ts).idxOf .userdata = ts.idxOf .userdata + 1 := by
        rw [List.idxOf_cons, beq_userdata ht]; rfl
      rw [e]
      cases t <;> simp_all [countTypes] <;> omega

/-! ## Callbacks -/

theorem no_callback_text {t : CType} {s : List UInt8} (h : TypeText t s) : t ≠ .callback := by
  obtain ⟨a, w, b, ha, hw, hb, rfl⟩ := h
  cases hw <;> decide

theorem joined_types {l : List CType} {s : List UInt8} (h : Joined PlainText l s) : ∀ t ∈ l, t ≠ .none ∧ t ≠ .callback := by
  induction h with
  | one h => intro t ht; simp at ht; subst ht; exact ⟨h.1, no_callback_text h.2⟩
  | more h _ ih =>
    intro t ht
    simp only [List.mem_cons] at ht
    rcases ht with rfl | ht
    · exact ⟨h.1, no_callback_text h.2⟩
    · exact ih t ht

theorem listText_types {l : List CType} {s : List UInt8} (h : ListText PlainText l s) : ∀ t ∈ l, t ≠ .none ∧ t ≠ .callback := by
  cases h with
  | nil => simp
  | void h => simp
  | some h => exact joined_types h

theorem strchrClose_eq {a r : List UInt8} (h : ∀ c ∈ a, c ≠ 0 ∧ c ≠ 41) : strchrClose (a ++ 41 :: r) = .ok true := by
  induction a with
  | nil => simp [strchrClose]
  | cons x a ih =>
    have := h x (by simp)
    simp [strchrClose, this.1, this.2, ih fun c hc => h c (by simp [hc])]

theorem mem_idx {as : List CType} (h : as.count .userdata = 1) : as.idxOf .userdata < as.length ∧ as[as.idxOf .userdata]? = some .userdata := by
  have hm : CType.userdata ∈ as := List.count_pos_iff.1 (by omega)
  refine ⟨List.idxOf_lt_length_iff.2 hm, ?_⟩
  rw [List.getElem?_eq_getElem (List.idxOf_lt_length_iff.2 hm)]
  simp

theorem idx_zero {as : List CType} (h : as.count .userdata = 1) : as.idxOf .userdata = 0 ↔ as[0]? = some .userdata := by
  cases as with
  | nil => simp at h
  | cons t ts =>
    by_cases ht : t = .userdata
    · simp [ht]
    · rw [List.idxOf_cons, beq_userdata ht]; simp [ht]

theorem idx_one {as : List CType} (h : as.count .userdata = 1) : as.idxOf .userdata = 1 ↔ as[1]? = some .userdata := by
  cases as with
  | nil => simp at h
  | cons t ts =>
    by_cases ht : t = .userdata
    · subst ht
      have h' : CType.userdata ∉ ts := by
        rw [List.count_cons_self] at h
        exact List.count_eq_zero.1 (by omega)
      simp
      intro e
      exact h' (List.mem_of_getElem? e)
    · have h' : ts.count .userdata = 1 := by rwa [List.count_cons_of_ne ht] at h
      rw [List.idxOf_cons, beq_userdata ht]
      have := idx_zero h'
      simpa using this

/-- Validating a callback and finding its implementation. -/
theorem cb_decision {r : CType} {as : List CType} (has : ∀ t ∈ as, t ≠ .none ∧ t ≠ .callback) (hlen : as.length ≤ 6)
    (sig : Sig) (hv : sig.vals = padded r as) (hc : sig.argsCnt = 0) (hcb : sig.cb = none) (hi : sig.isCallback = true) :
    (match validate .callback sig with
      | .error e => .error e
      | .ok sig =>
        if sig.isCallback then
          match getCbImpl sig with
          | .error e => .error e
          | .ok none => .error .error
          | .ok (some i) => .ok { sig with fn := some (.impl i) }
        else .ok sig) = if CbOk r as then Except.ok (cbSigOf r as) else Except.error Stop.error := by
  have hn : CType.none ∉ as := fun h => (has _ h).1 rfl
  have hncb : CType.callback ∉ as := fun h => (has _ h).2 rfl
  have hhd : sig.vals.headD .none = r := by rw [hv]; rfl
  have htl : sig.vals.tail = as ++ List.replicate (6 - as.length) .none := by rw [hv]; rfl
  unfold validate
  rw [hhd, htl, hc]
  by_cases hr : returnOk .callback r
  · rw [if_pos hr]
    have hva := validateArgs_eq .callback hn (6 - as.length) 1 0 0 0 (by omega)
    by_cases hg : ArgsGood .callback as 0
    · rw [if_pos hg] at hva
      obtain ⟨cb', ud', he, -, hu⟩ := hva
      rw [he]
      simp only
      by_cases hud : CType.userdata ∈ as
      · have hud' : pairOk .callback cb' ud' = true := by
          have := hu.2 (Or.inr hud); simp [pairOk]; omega
        rw [if_pos hud']
        simp only [hi, if_true]
        have hcount : as.count .userdata = 1 := by
          have h1 : as.count .userdata ≤ 1 := by have := hg.2.2; simpa using this
          have := List.count_pos_iff.2 hud; omega
        unfold getCbImpl
        simp only [if_true]
        rw [hhd, htl]
        rw [countTypes_eq hcount]
        simp only [Nat.zero_add]
        by_cases hf : as.count .float > 0
        · rw [if_pos hf, if_neg]
          rintro ⟨-, -, -, h, -⟩
          have := h _ (List.count_pos_iff.1 hf)
          simp at this
        · rw [if_neg hf, if_neg (by omega), if_pos (by omega)]
          have hmem : ∀ t ∈ as, t ∈ [CType.userdata, .int, .bool, .double, .charPtr, .voidPtr, .mgStrPtr] := by
            intro t ht
            have h1 := has t ht
            have h2 : t ≠ .mgStr := fun e => hg.1 (e ▸ ht)
            have h3 : t ≠ .float := fun e => hf (List.count_pos_iff.2 (e ▸ ht))
            cases t <;> simp_all
          have hw : wordOrVoid r = true ↔ r ∈ [CType.none, .int, .bool] := by cases r <;> decide
          by_cases hwr : wordOrVoid r = true
          · rw [if_pos hwr]
            by_cases hd0 : as.count .double = 0
            · rw [if_pos hd0]
              have := (mem_idx hcount).1
              rw [if_pos (by omega), if_pos ⟨hw.1 hwr, hlen, hcount, hmem, Or.inl hd0⟩]
              simp [cbSigOf, implOf, hd0, hv, padded, hcb, Nat.add_comm]
            · rw [if_neg hd0]
              by_cases hd1 : as.count .double = 1
              · rw [if_pos hd1]
                by_cases hi0 : as[0]? = some .userdata
                · have := (idx_zero hcount).2 hi0
                  rw [if_pos (by omega), if_pos ⟨hw.1 hwr, hlen, hcount, hmem, Or.inr ⟨hd1, Or.inl hi0⟩⟩]
                  simp [cbSigOf, implOf, hd1, hi0, hv, padded, hcb]
                · have h0 : ¬ as.idxOf .userdata = 0 := fun e => hi0 ((idx_zero hcount).1 e)
                  rw [if_neg (by omega)]
                  by_cases hi1 : as[1]? = some .userdata
                  · have := (idx_one hcount).2 hi1
                    rw [if_pos (by omega), if_pos ⟨hw.1 hwr, hlen, hcount, hmem, Or.inr ⟨hd1, Or.inr hi1⟩⟩]
                    simp [cbSigOf, implOf, hd1, hi0, hv, padded, hcb]
                  · have h1 : ¬ as.idxOf .userdata = 1 := fun e => hi1 ((idx_one hcount).1 e)
                    rw [if_neg (by omega), if_neg]
                    rintro ⟨-, -, -, -, h⟩
                    rcases h with h | ⟨-, h | h⟩
                    · exact hd0 h
                    · exact hi0 h
                    · exact hi1 h
              · rw [if_neg hd1, if_neg]
                rintro ⟨-, -, -, -, h⟩
                rcases h with h | ⟨h, -⟩
                · exact hd0 h
                · exact hd1 h
          · rw [if_neg hwr, if_neg]
            rintro ⟨h, -⟩
            exact hwr (hw.2 h)
      · have hud' : ¬ pairOk .callback cb' ud' = true := by
          have h0 : ¬ 0 < ud' := fun h => by
            have := hu.1 h
            simp [hud] at this
          simp [pairOk]; omega
        rw [if_neg hud', if_neg]
        rintro ⟨-, -, h, -⟩
        exact hud (List.count_pos_iff.1 (by omega))
    · rw [if_neg hg] at hva
      rw [hva]
      simp only
      rw [if_neg]
      rintro ⟨-, -, h, h', -⟩
      refine hg ⟨fun hm => ?_, fun _ => hncb, by simp; omega⟩
      have := h' _ hm
      simp at this
  · rw [if_neg hr]
    simp only
    rw [if_neg]
    rintro ⟨h, -⟩
    apply hr
    revert h
    cases r <;> decide

theorem init_vals (rt : CType) (fn : Option Fn) (b : Bool) :
    (startSig rt fn b).vals = [rt] ++ List.replicate 6 .none := rfl

/-- What the parser makes of a callback. -/
theorem parse_cb (res : Resolver) {r : CType} {as : List CType} {s : List UInt8} (h : ParamText (.fn r as) s)
    (fuel : Nat) (beyond : List UInt8) :
    parseSig res (fuel + 1) .callback s beyond = if CbOk r as then .ok (cbSigOf r as) else .error .error := by
  obtain ⟨rt, at', tail, pre, rest, hrt, hat, hpre, hsplit⟩ := split_fn h beyond
  have hty := listText_types hat
  rw [parseSig, hsplit]
  simp only [parseCval_type hrt, resolve, if_true, strchrClose_eq hpre]
  have hloop := loop_list (cbp := fun _ _ => .error .error) (sub := parseSig res fuel .callback) (bound := at'.length)
    (ps := as.map .plain) (by simp) tail (listText_plain hat) (Nat.le_refl _)
    (startSig r none true) rfl
  rw [hloop]
  have hfill := fill_eq (cbp := fun _ _ => .error .error) (ps := as.map .plain) (by simp) (by
      intro t ht; simp at ht; exact (hty t ht).2)
    (sig := startSig r none true) (front := [r]) (k := 6)
    (init_vals r _ _) rfl
  simp only [List.length_singleton] at hfill
  rw [hfill]
  have hcbs : CbsOk false (as.map .plain) := by
    refine ⟨?_, ?_⟩
    · simp only [List.map_map, Bool.false_eq_true, if_false, Nat.add_zero]
      have : List.map (Param.type ∘ Param.plain) as = as := by
        rw [show Param.type ∘ Param.plain = id from rfl]; simp
      rw [this, List.count_eq_zero.2 fun h => (hty _ h).2 rfl]
      omega
    · intro p hp
      simp at hp
      obtain ⟨t, -, rfl⟩ := hp
      trivial
  have hmap : List.map Param.type (as.map .plain) = as := by
    rw [List.map_map, show Param.type ∘ Param.plain = id from rfl]; simp
  have hfc : ∀ l : List CType, foundCb (l.map .plain) = none := by
    intro l; induction l with
    | nil => rfl
    | cons t l ih => simpa [foundCb] using ih
  by_cases hlen : as.length ≤ 6
  · rw [if_pos ⟨by simpa using hlen, hcbs⟩]
    simp only
    refine cb_decision hty hlen _ ?_ rfl ?_ rfl
    · simp only [hmap, padded, List.length_map]
      simp
    · simp [startSig, sigInit, hfc]
  · rw [if_neg (by simp; omega), if_neg]
    rintro ⟨-, h, -⟩
    omega

/-! ## Functions -/

theorem joined_param_types {l : List Param} {s : List UInt8} (h : Joined ParamText l s) :
    ∀ t, .plain t ∈ l → t ≠ .none ∧ t ≠ .callback := by
  induction h with
  | @one a s h => intro t ht; simp at ht; subst ht; exact ⟨h.1, no_callback_text h.2⟩
  | more h _ ih =>
    intro t ht
    simp only [List.mem_cons] at ht
    rcases ht with rfl | ht
    · exact ⟨h.1, no_callback_text h.2⟩
    · exact ih t ht

theorem listText_param_types {l : List Param} {s : List UInt8} (h : ListText ParamText l s) :
    ∀ t, .plain t ∈ l → t ≠ .none ∧ t ≠ .callback := by
  cases h with
  | nil => simp
  | void h => simp
  | some h => exact joined_param_types h

theorem foundCb_eq (ps : List Param) : foundCb ps = cbOf ps := by
  induction ps with
  | nil => rfl
  | cons p ps ih => cases p <;> simp [foundCb, cbOf] <;> exact ih

/-- Validating a function. -/
theorem func_decision {d : Decl} (hty : ∀ t, .plain t ∈ d.params → t ≠ .none ∧ t ≠ .callback) (addr : Nat)
    (sig : Sig) (hlen : d.params.length ≤ 6) (hcbs : CbsOk false d.params)
    (hv : sig.vals = padded d.ret (d.params.map Param.type)) (hc : sig.argsCnt = 0) (hcb : sig.cb = cbOf d.params)
    (hi : sig.isCallback = false) (hf : sig.fn = some (.sym addr)) :
    (match validate .func sig with
      | .error e => .error e
      | .ok sig =>
        if sig.isCallback then
          match getCbImpl sig with
          | .error e => .error e
          | .ok none => .error .error
          | .ok (some i) => .ok { sig with fn := some (.impl i) }
        else .ok sig) = if DeclOk d then Except.ok (sigOf addr d) else Except.error Stop.error := by
  have hmt : ∀ t ∈ d.params.map Param.type, t ≠ .none := by
    intro t ht
    simp only [List.mem_map] at ht
    obtain ⟨p, hp, rfl⟩ := ht
    cases p with
    | plain t => exact (hty t hp).1
    | fn r as => simp [Param.type]
  have hn : CType.none ∉ d.params.map Param.type := fun h => hmt _ h rfl
  have hhd : sig.vals.headD .none = d.ret := by rw [hv]; rfl
  have htl : sig.vals.tail = d.params.map Param.type ++ List.replicate (6 - (d.params.map Param.type).length) .none := by
    rw [hv]; rfl
  have hret : returnOk .func d.ret = true ↔ d.ret ∈ [CType.none, .int, .bool, .double, .float, .voidPtr, .charPtr] := by
    cases d.ret <;> decide
  unfold validate
  rw [hhd, htl, hc]
  by_cases hr : returnOk .func d.ret
  · rw [if_pos hr]
    have hva := validateArgs_eq .func hn (6 - (d.params.map Param.type).length) 1 0 0 0 (by omega)
    by_cases hg : ArgsGood .func (d.params.map Param.type) 0
    · rw [if_pos hg] at hva
      obtain ⟨cb', ud', he, hcb', hud'⟩ := hva
      rw [he]
      simp only
      have hcount : (d.params.map Param.type).count .userdata ≤ 1 := by have := hg.2.2; simpa using this
      have hmem : ∀ p ∈ d.params, p.type ∈
          [CType.userdata, .callback, .int, .bool, .double, .float, .charPtr, .voidPtr, .mgStrPtr] := by
        intro p hp
        have h1 := hmt p.type (List.mem_map_of_mem hp)
        have h2 : p.type ≠ .mgStr := fun e => hg.1 (e ▸ List.mem_map_of_mem hp)
        revert h1 h2
        cases p.type <;> simp
      have hok : pairOk .func cb' ud' = true ↔
          (CType.callback ∈ d.params.map Param.type ↔ CType.userdata ∈ d.params.map Param.type) := by
        have h1 : 0 < cb' ↔ CType.callback ∈ d.params.map Param.type := by simpa using hcb'
        have h2 : 0 < ud' ↔ CType.userdata ∈ d.params.map Param.type := by simpa using hud'
        rw [← h1, ← h2]
        simp only [pairOk, Bool.or_eq_true, Bool.and_eq_true, decide_eq_true_eq, beq_iff_eq]
        omega
      by_cases hk : pairOk .func cb' ud' = true
      · rw [if_pos hk]
        simp only [hi, Bool.false_eq_true, if_false]
        rw [if_pos ⟨hret.1 hr, hlen, hmem, by simpa using hcbs.1, hcount, hok.1 hk, hcbs.2⟩]
        simp [sigOf, hv, hcb, hf]
      · rw [if_neg hk, if_neg]
        rintro ⟨-, -, -, -, -, h, -⟩
        exact hk (hok.2 h)
    · rw [if_neg hg] at hva
      rw [hva]
      simp only
      rw [if_neg]
      rintro ⟨-, -, h, -, h', -⟩
      refine hg ⟨fun hm => ?_, by simp, by simpa using h'⟩
      simp only [List.mem_map] at hm
      obtain ⟨p, hp, e⟩ := hm
      have := h p hp
      rw [e] at this
      simp at this
  · rw [if_neg hr]
    simp only
    rw [if_neg]
    rintro ⟨h, -⟩
    exact hr (hret.2 h)

/-- What the parser makes of a declaration. -/
theorem parse_decl (res : Resolver) {d : Decl} {s : List UInt8} (h : DeclText d s) :
    ffi res s = match res.bind (· (d.name.take 99)) with
      | none => .error .error
      | some addr => if DeclOk d then .ok (sigOf addr d) else .error .error := by
  obtain ⟨rt, as, tail, hrt, has, hlt, hsplit⟩ := split_decl h
  unfold ffi
  rw [parseSig, hsplit]
  simp only [parseCval_type hrt, resolve, Bool.false_eq_true, if_false]
  cases res with
  | none => rfl
  | some f =>
    simp only [Option.bind_some]
    cases hf : f (d.name.take 99) with
    | none => rfl
    | some addr =>
      simp only
      have hty := listText_param_types has
      have hne : s.length ≠ 0 := by omega
      obtain ⟨n, hn⟩ := Nat.exists_eq_succ_of_ne_zero hne
      rw [hn]
      have hloop := loop_list (cbp := fun r as => if CbOk r as then .ok (cbSigOf r as) else .error .error)
        (sub := parseSig (some f) (n + 1) .callback) (bound := as.length) (ps := d.params)
        (fun r as text beyond _ ht _ => parse_cb (some f) ht n beyond) tail has (Nat.le_refl _)
        (startSig d.ret (some (.sym addr)) false) rfl
      rw [hloop]
      have hfill := fill_eq (cbp := fun r as => if CbOk r as then .ok (cbSigOf r as) else .error .error) (ps := d.params)
        (fun r as _ => rfl) (fun t ht => (hty t ht).2)
        (sig := startSig d.ret (some (.sym addr)) false)
        (front := [d.ret]) (k := 6) (init_vals d.ret _ _) rfl
      simp only [List.length_singleton] at hfill
      rw [hfill]
      by_cases hcond : d.params.length ≤ 6 ∧ CbsOk (startSig d.ret (some (.sym addr)) false).cb.isSome d.params
      · rw [if_pos hcond]
        simp only
        refine func_decision hty addr _ hcond.1 hcond.2 ?_ rfl ?_ rfl rfl
        · simp [padded]
        · simp [startSig, sigInit, foundCb_eq]
      · rw [if_neg hcond]
        simp only
        rw [if_neg]
        rintro ⟨-, h1, -, h2, -, -, h3⟩
        exact hcond ⟨h1, by simpa [startSig, sigInit] using h2, h3⟩

end Mjs.Ffi
