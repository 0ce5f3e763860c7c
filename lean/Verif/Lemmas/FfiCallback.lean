import Verif.Lemmas.FfiCall
import Verif.Props.Value

/-!
# Lemmas about callbacks through FFI
-/

namespace Mjs.Ffi
open Mjs.FfiSpec Mjs.Spec.Double

theorem jsArgs_ok {P : Fpu} {addr : Cell → BitVec 64} {u : Val} (Q : Nat → Ret → Prop) : ∀ (ts : List CType) (cs : List Cell) (i : Nat),
    (∀ (k : Nat) t, ts[k]? = some t → ∃ c r, cs[k]? = some c ∧ jsArg P addr u t c = .ok r ∧ Q (i + k) r) →
    ∃ rs, jsArgs P addr u ts cs = .ok rs ∧ rs.length = ts.length ∧ ∀ k, k < ts.length → ∃ r, rs[k]? = some r ∧ Q (i + k) r
  | [], _, _, _ => ⟨[], rfl, rfl, by simp⟩
  | t :: ts, cs, i, h => by
    obtain ⟨c, r, hc, hr, hq⟩ := h 0 t rfl
    cases cs with
    | nil => simp at hc
    | cons c' cs =>
      simp only [List.getElem?_cons_zero, Option.some.injEq] at hc
      subst hc
      obtain ⟨rs, e, hl, hk⟩ := jsArgs_ok Q ts cs (i + 1) (fun k t' h' => by
        have := h (k + 1) t' (by simpa using h')
        rw [show i + 1 + k = i + (k + 1) by omega]
        simpa using this)
      refine ⟨r :: rs, by simp only [jsArgs, hr, e], by simp [hl], ?_⟩
      intro k hlt
      cases k with
      | zero => exact ⟨r, rfl, hq⟩
      | succ k =>
        obtain ⟨r', h1, h2⟩ := hk k (by simpa using hlt)
        exact ⟨r', by simpa using h1, by rwa [show i + 1 + k = i + (k + 1) by omega] at h2⟩

theorem words_get : ∀ (ps : List Passed), (∀ p ∈ ps, ∃ c, p = .word c) → ∀ (k : Nat) c, ps[k]? = some (.word c) → (words ps)[k]? = some c
  | [], _, k, c, h => by simp at h
  | p :: ps, hw, k, c, h => by
    obtain ⟨c', rfl⟩ := hw p (by simp)
    cases k with
    | zero => simp at h; simp [words, h]
    | succ k =>
      rw [words, List.getElem?_cons_succ]
      exact words_get ps (fun p hp => hw p (by simp [hp])) k c (by simpa using h)

/-- The value for one argument other than a `double`. -/
theorem jsArg_word (P : Fpu) (addr : Cell → BitVec 64) (u : Val) (id : Nat) {t : CType} {c : Cell} (h : Passable id t (.word c)) :
    ∃ r, jsArg P addr u t c = .ok r ∧ Arrives P u id t (.word c) r := by
  cases t with
  | userdata =>
    simp only [Passable, Passed.word.injEq] at h
    subst h
    exact ⟨_, rfl, .userdata⟩
  | int =>
    obtain ⟨w, hw, e⟩ := h
    simp only [Passed.word.injEq] at e
    subst e
    refine ⟨_, rfl, .int w.toNat w _ ?_ (by omega) (by omega) (mkInt_isInt _ (show ((w.toNat : Nat) : Int).natAbs < 2 ^ 53 by omega))⟩
    apply BitVec.eq_of_toNat_eq
    simp
  | bool =>
    obtain ⟨b, e⟩ := h
    simp only [Passed.word.injEq] at e
    subst e
    refine ⟨_, rfl, ?_⟩
    have := Arrives.bool (P := P) (userdata := u) (id := id) b
    cases b <;> exact this
  | charPtr =>
    obtain ⟨w, e⟩ := h
    simp only [Passed.word.injEq] at e
    subst e
    by_cases hw : w = 0#64
    · subst hw; exact ⟨_, rfl, .null⟩
    · exact ⟨.copyOf w, congrArg Except.ok (if_neg hw), .text hw⟩
  | voidPtr =>
    obtain ⟨w, hw, e⟩ := h
    simp only [Passed.word.injEq] at e
    subst e
    have := Props.C06_foreign_roundtrip_partial w hw
    exact ⟨.val (mkForeign w).1, rfl, .ptr ((Props.C04_constructors.2.2.2.2.1 w .foreign).2 rfl) this.1⟩
  | mgStrPtr =>
    obtain ⟨w, hw, e⟩ := h
    simp only [Passed.word.injEq] at e
    subst e
    exact ⟨.copyOfMg w, if_neg hw, .mgStr hw⟩
  | double => obtain ⟨d, e⟩ := h; simp at e
  | _ => exact h.elim

theorem mkNumber_nan {d : Val} (h : IsNaN d) : mkNumber d = tagNan := by
  rw [← isnan_iff] at h
  simp [mkNumber, h]

theorem mkNumber_real {d : Val} (h : ¬ IsNaN d) : mkNumber d = d := by
  rw [← isnan_iff] at h
  simp [mkNumber, h]

theorem jsArg_double (P : Fpu) (addr : Cell → BitVec 64) (u : Val) (id : Nat) (d : BitVec 64) :
    ∃ r, jsArg P addr u .double (.bits d) = .ok r ∧ Arrives P u id .double (.double (.bits d)) r := by
  by_cases h : IsNaN d
  · exact ⟨.val tagNan, congrArg (fun v => Except.ok (Ret.val v)) (mkNumber_nan h), .nan h⟩
  · exact ⟨.val d, congrArg (fun v => Except.ok (Ret.val v)) (mkNumber_real h), .double h⟩

theorem find_id {regs : List Node} (hn : (regs.map Node.id).Nodup) {n : Node} (hm : n ∈ regs) : regs.find? (·.id == n.id) = some n := by
  induction regs with
  | nil => simp at hm
  | cons a l ih =>
    rw [List.map_cons, List.nodup_cons] at hn
    rcases List.mem_cons.1 hm with rfl | h
    · simp
    · rw [List.find?_cons_of_neg (by
        simp only [beq_iff_eq]
        intro e
        exact hn.1 (e ▸ List.mem_map_of_mem h))]
      exact ih hn.2 h

/-- What C passes arrives. -/
theorem callback_ok (P : Fpu) (addr : Cell → BitVec 64) (junk : Nat → Cell) {regs : List Node} (hr : (regs.map Node.id).Nodup) {n : Node}
    (hn : n ∈ regs) {ret : CType} {ts : List CType} (hsig : n.sig = cbSigOf ret ts) (hok : CbOk ret ts)
    (hd : CType.double ∈ ts → ts.length = 2) {ps : List Passed} (hl : ps.length = ts.length)
    (hp : ∀ (k : Nat) t p, ts[k]? = some t → ps[k]? = some p → Passable n.id t p) :
    ∃ rs, callback P addr junk regs (implOf ts) ps = .ok (n.func, rs) ∧ rs.length = ts.length ∧
      ∀ (k : Nat) t p, ts[k]? = some t → ps[k]? = some p → ∃ r, rs[k]? = some r ∧ Arrives P n.userdata n.id t p r := by
  obtain ⟨_, h6, hu, hty, hdbl⟩ := hok
  have hmem : CType.userdata ∈ ts := List.count_pos_iff.1 (by omega)
  have h0 : 0 < ts.length := List.length_pos_of_mem hmem
  have hlu := List.idxOf_lt_length_of_mem hmem
  have hiu : ts[ts.idxOf .userdata]? = some .userdata := by
    rw [List.getElem?_eq_getElem hlu, List.getElem_idxOf]
  have fin : ∀ (cs : List Cell), (implData junk (implOf ts) ps) = (cs, .reg n.id) →
      (∀ (k : Nat) t p, ts[k]? = some t → ps[k]? = some p →
        ∃ c r, cs[k]? = some c ∧ jsArg P addr n.userdata t c = .ok r ∧ Arrives P n.userdata n.id t p r) →
      ∃ rs, callback P addr junk regs (implOf ts) ps = .ok (n.func, rs) ∧ rs.length = ts.length ∧
      ∀ (k : Nat) t p, ts[k]? = some t → ps[k]? = some p → ∃ r, rs[k]? = some r ∧ Arrives P n.userdata n.id t p r := by
    intro cs e hc
    obtain ⟨rs, ej, el, ea⟩ := jsArgs_ok (P := P) (addr := addr) (u := n.userdata)
      (fun k r => ∀ t p, ts[k]? = some t → ps[k]? = some p → Arrives P n.userdata n.id t p r) ts cs 0 (by
        intro k t hk
        have hlt : k < ps.length := by rw [hl]; exact (List.getElem?_eq_some_iff.1 hk).1
        obtain ⟨c, r, h1, h2, h3⟩ := hc k t _ hk (List.getElem?_eq_getElem hlt)
        refine ⟨c, r, h1, h2, ?_⟩
        intro t' p' ht' hp'
        rw [Nat.zero_add] at ht' hp'
        rw [hk] at ht'
        rw [List.getElem?_eq_getElem hlt] at hp'
        simp only [Option.some.injEq] at ht' hp'
        subst ht' hp'
        exact h3)
    refine ⟨rs, ?_, el, ?_⟩
    · unfold callback
      rw [e]
      simp only [generic, find_id hr hn, hsig]
      rw [if_pos (show (cbSigOf ret ts).argsCnt > 0 from h0)]
      have : ((cbSigOf ret ts).vals.drop 1).take (cbSigOf ret ts).argsCnt = ts := by
        show ((padded ret ts).drop 1).take ts.length = ts
        simp [padded]
      rw [this, ej]
    · intro k t p ht hp'
      obtain ⟨r, h1, h2⟩ := ea k (List.getElem?_eq_some_iff.1 ht).1
      rw [Nat.zero_add] at h2
      exact ⟨r, h1, h2 t p ht hp'⟩
  by_cases hc0 : ts.count .double = 0
  · have hnd : CType.double ∉ ts := List.count_eq_zero.1 hc0
    have hw : ∀ p ∈ ps, ∃ c, p = .word c := by
      intro p hpm
      obtain ⟨k, hk, e⟩ := List.getElem_of_mem hpm
      have hkt : k < ts.length := by omega
      have := hp k _ p (List.getElem?_eq_getElem hkt) (by rw [List.getElem?_eq_getElem hk, e])
      have hne : ts[k] ≠ .double := fun h => hnd (h ▸ List.getElem_mem hkt)
      revert this hne
      cases ts[k] <;> simp only [Passable] <;> intro h hne
      all_goals first
        | exact h.elim
        | exact ⟨_, h⟩
        | exact absurd rfl hne
        | (obtain ⟨_, h⟩ := h; exact ⟨_, h⟩)
        | (obtain ⟨_, _, h⟩ := h; exact ⟨_, h⟩)
    have hi : implOf ts = .words (ts.idxOf .userdata + 1) := by unfold implOf; rw [if_pos hc0]
    have hget : ∀ k < ts.length, ∃ c, ps[k]? = some (.word c) ∧ (words ps)[k]? = some c := by
      intro k hk
      have e : ps[k]? = some ps[k] := List.getElem?_eq_getElem (by omega)
      obtain ⟨c, hc⟩ := hw ps[k] (List.getElem_mem _)
      rw [hc] at e
      exact ⟨c, e, words_get ps hw k c e⟩
    refine fin [(words ps)[0]?.getD (junk 0), (words ps)[1]?.getD (junk 1), (words ps)[2]?.getD (junk 2),
      (words ps)[3]?.getD (junk 3), (words ps)[4]?.getD (junk 4), (words ps)[5]?.getD (junk 5)] ?_ ?_
    · rw [hi]
      simp only [implData]
      obtain ⟨c, e1, e2⟩ := hget _ hlu
      have := hp _ _ _ hiu e1
      simp only [Passable, Passed.word.injEq] at this
      rw [Nat.add_sub_cancel, e2, this]
      rfl
    · intro k t p ht hpk
      have hk := (List.getElem?_eq_some_iff.1 ht).1
      obtain ⟨c, e1, e2⟩ := hget k hk
      rw [e1] at hpk
      simp only [Option.some.injEq] at hpk
      subst hpk
      obtain ⟨r, h1, h2⟩ := jsArg_word P addr n.userdata n.id (hp k t _ ht e1)
      refine ⟨c, r, ?_, h1, h2⟩
      have : k = 0 ∨ k = 1 ∨ k = 2 ∨ k = 3 ∨ k = 4 ∨ k = 5 := by omega
      rcases this with rfl | rfl | rfl | rfl | rfl | rfl <;> simp [e2]
  · have hdm : CType.double ∈ ts := List.count_pos_iff.1 (by omega)
    have h2 := hd hdm
    match ts, h2, ps, hl with
    | [a, b], _, [p, q], _ =>
      have hpa := hp 0 a p rfl rfl
      have hpb := hp 1 b q rfl rfl
      have hab : (a = .userdata ∧ b = .double) ∨ (a = .double ∧ b = .userdata) := by
        simp only [List.mem_cons, List.not_mem_nil, or_false] at hmem hdm
        rcases hmem with rfl | rfl <;> rcases hdm with h | h
        · exact absurd h (by decide)
        · exact .inl ⟨rfl, h.symm⟩
        · exact .inr ⟨h.symm, rfl⟩
        · exact absurd h (by decide)
      rcases hab with ⟨rfl, rfl⟩ | ⟨rfl, rfl⟩
      · obtain ⟨d, rfl⟩ := hpb
        simp only [Passable] at hpa
        subst hpa
        refine fin [.reg n.id, .bits d, .bits 0#64, .bits 0#64, .bits 0#64, .bits 0#64] rfl ?_
        intro k t p ht hpk
        match k with
        | 0 =>
          simp only [List.getElem?_cons_zero, Option.some.injEq] at ht hpk
          subst ht hpk
          exact ⟨.reg n.id, .val n.userdata, rfl, rfl, .userdata⟩
        | 1 =>
          simp only [List.getElem?_cons_succ, List.getElem?_cons_zero, Option.some.injEq] at ht hpk
          subst ht hpk
          obtain ⟨r, h1, h2⟩ := jsArg_double P addr n.userdata n.id d
          exact ⟨.bits d, r, rfl, h1, h2⟩
        | k + 2 => simp at ht
      · obtain ⟨d, rfl⟩ := hpa
        simp only [Passable] at hpb
        subst hpb
        refine fin [.bits d, .reg n.id, .bits 0#64, .bits 0#64, .bits 0#64, .bits 0#64] rfl ?_
        intro k t p ht hpk
        match k with
        | 0 =>
          simp only [List.getElem?_cons_zero, Option.some.injEq] at ht hpk
          subst ht hpk
          obtain ⟨r, h1, h2⟩ := jsArg_double P addr n.userdata n.id d
          exact ⟨.bits d, r, rfl, h1, h2⟩
        | 1 =>
          simp only [List.getElem?_cons_succ, List.getElem?_cons_zero, Option.some.injEq] at ht hpk
          subst ht hpk
          exact ⟨.reg n.id, .val n.userdata, rfl, rfl, .userdata⟩
        | k + 2 => simp at ht

end Mjs.Ffi
