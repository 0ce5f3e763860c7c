import Verif.Props.Builtin
import Verif.Props.Str
import Verif.Model.MkStr
import Verif.Spec.MkStr

/-!
# C74: `mkstr`

Properties of `mjs_mkstr` (src/mjs_string.c), with which scripts make strings from C memory.
-/

namespace Mjs.Props
open Mjs Mjs.Mbuf Mjs.Str Mjs.Arena Mjs.Obj Mjs.Spec Mjs.Core Mjs.Code Mjs.Sem Mjs.Exec Mjs.Spec.MkStr

variable {E : Env} [Bodies E] {F : Nat → Option Fn} {d : Nat} {f : Expr} {args : List Expr} {vm vm3 : Vm} {t : Val} {vs : List Val}

/-- The same strings when the C memory holds something else. -/
def later (st : Store) (cmem : Nat → Option UInt8) : Store := { st with cmem := cmem }

omit [Bodies E] in
theorem getString_later (st : Store) (cmem) (v : Val) : getString (later st cmem) v = getString st v := rfl

omit [Bodies E] in
theorem truthy_undefined (st : Store) : isTruthy st mkUndefined = some false := by
  unfold isTruthy toBooleanV
  rw [if_neg (by decide)]
  decide

/-- What `mkstr` does with good arguments. -/
theorem mkstr_asks {h : Heap} {al : Nat → Allocs} {a : Nat} {len : Int} {copy : Bool} (hq : Asks h.str vs a len copy) :
    Builtin.mkstr t vs h al = (Builtin.mkString (al 0).hr h.str a len copy (al 0).strs).map fun r => ⟨{ h with str := r.1 }, r.2, none⟩ := by
  have num : ∀ {o}, isNumber o = true → o ≠ mkUndefined := by
    intro o ho e
    rw [e] at ho
    exact absurd ho (by decide)
  have fin : ∀ x : Option (Store × Val), (x.bind fun r => some (⟨{ h with str := r.1 }, r.2, none⟩ : Builtin.Done)) = x.map fun r => ⟨{ h with str := r.1 }, r.2, none⟩ := by
    intro x; cases x <;> rfl
  cases hq with
  | two h1 h2 h3 =>
    subst h3
    simp [Builtin.mkstr, Builtin.mkstrArgs, h1, h2, truthy_undefined, fin]
  | three h1 h2 h3 h4 =>
    rcases h2 with ⟨rfl, rfl⟩ | ⟨h2, rfl⟩
    · simp [Builtin.mkstr, Builtin.mkstrArgs, h1, h3, truthy_undefined, h4, fin]
    · simp [Builtin.mkstr, Builtin.mkstrArgs, h1, h2, h3, num h2, truthy_undefined, h4, fin]
  | four h1 h2 h3 h4 h5 =>
    rcases h2 with ⟨rfl, rfl⟩ | ⟨h2, rfl⟩
    · simp [Builtin.mkstr, Builtin.mkstrArgs, h1, h3, h4, h5, fin]
    · simp [Builtin.mkstr, Builtin.mkstrArgs, h1, h2, h3, num h2, h4, h5, fin]

theorem mkString_named {hr : Nat} {st : Store} {a : Nat} {len : Int} {copy : Bool} {als : Nat → Alloc} {bs : List UInt8} (hn : Named st.cmem a len bs) :
    Builtin.mkString hr st a len copy als =
      if copy then mkStringCopy hr st (if a = 0 then .null else .ext a) bs.length als else mkStringForeign hr st a bs.length als := by
  unfold Builtin.mkString
  rw [if_neg (by omega)]
  obtain ⟨h1, h2 | ⟨h2, h3, h4, h5⟩⟩ := hn
  · subst h2
    simp only [Int.toNat_natCast, if_neg (show ¬ ((bs.length : Int) = -1) by omega), if_neg (show ¬ ((bs.length : Int) < 0) by omega)]
    rfl
  · subst h2
    have := strlen_spec h1 (fun c hc e => h4 (e ▸ hc)) h5
    simp only [Int.toNat_natCast, if_true, if_neg h3, this]
    rfl

/-- A string that is not in C memory does not change with it. -/
theorem reads_later {st : Store} {v : Val} {bs : List UInt8} (h : Reads st v bs) (ht : v &&& tagMask ≠ tagStringF) (cmem) : Reads (later st cmem) v bs := by
  obtain ⟨p, n, h1, h2, h3⟩ := h
  refine ⟨p, n, h1, h2, ?_⟩
  cases p with
  | ext x =>
    exfalso
    unfold getString at h1
    simp only at h1
    split at h1
    · cases h1
    split at h1
    · cases h1
    split at h1
    · cases h1
    split at h1
    · split at h1
      · split at h1 <;> cases h1
      · cases h1
    · cases h1
  | _ => exact h3

/-- **C74, copies.** A call of `mkstr` that asks for a copy of bytes in C memory gives a string with these bytes, whatever the memory
holds later; the other strings are as before. -/
theorem C74_copy {fn : Nat} (hc : Called E F d f args vm (mkFn fn) t vs vm3) (hf : fn < 2 ^ 48 ∧ Bodies.body E fn = some Builtin.mkstr)
    (hi : InvS vm3.heap.str) {a : Nat} {len : Int} {bs : List UInt8} (hq : Asks vm3.heap.str vs a len true) (hn : Named vm3.heap.str.cmem a len bs)
    (ha : a ≠ 0) (hg : Granted vm3.heap bs.length (vm3.al 0)) :
    ∃ v vm4, Gives E F (d + vs.length + 2) (.call f args) vm vm3 v vm4 ∧ InvS vm4.heap.str ∧ (∀ cmem, Reads (later vm4.heap.str cmem) v bs) ∧
      (∀ w ws, Reads vm3.heap.str w ws → Reads vm4.heap.str w ws) ∧ vm4.heap.str.cmem = vm3.heap.str.cmem ∧ vm4.heap.objs = vm3.heap.objs ∧
      vm4.heap.props = vm3.heap.props := by
  obtain ⟨st', v, bs', e, i, x, hl, hld, r, hfo, hcm, _, hform⟩ := mkStringCopy_core (vm3.al 0).hr vm3.heap.str hi (.ext a) bs.length (vm3.al 0).strs
    (.inr ⟨bs, hn.1⟩) hg.room hg.low hg.grant
  have hb : bs' = bs := Option.some.inj ((hld rfl).symm.trans hn.1)
  subst hb
  have hr : Builtin.mkstr t vs vm3.heap (fun k => vm3.al (2 * k)) = some ⟨{ vm3.heap with str := st' }, v, none⟩ := by
    rw [mkstr_asks hq, mkString_named hn, if_pos rfl, if_neg ha]
    show (mkStringCopy (vm3.al 0).hr _ _ _ (vm3.al 0).strs).map _ = _
    rw [e]
    rfl
  obtain ⟨vm4, hgv, hh⟩ := called_gives hc hf hr
  refine ⟨v, vm4, hgv, by rw [hh]; exact i, fun cmem => ?_, fun w ws hw => by rw [hh]; exact reads_mono hi i x hw, by rw [hh]; exact hcm, by rw [hh], by rw [hh]⟩
  rw [hh]
  refine reads_later r.reads ?_ cmem
  rcases hform with ⟨_, _, rfl, _⟩ | ⟨_, _, rfl, _⟩ | ⟨_, rfl, _⟩
  · rw [show tagStringI = makeTag 1 (6 : Fin 16).val from rfl, mkTagged_tag]; decide
  · rw [show tagString5 = makeTag 1 (7 : Fin 16).val from rfl, mkTagged_tag]; decide
  · rw [show tagStringO = makeTag 1 (8 : Fin 16).val from rfl, mkTagged_tag]; decide

theorem mkStringForeign_later {hr : Nat} {st : Store} {a len : Nat} {als : Nat → Alloc} {st' : Store} {v : Val} (hz : len ≠ 0)
    (e : mkStringForeign hr st a len als = some (st', v)) (cmem) : mkStringForeign hr (later st cmem) a len als = some (later st' cmem, v) := by
  unfold mkStringForeign at e ⊢
  rw [if_neg hz] at e ⊢
  simp only [Option.bind_eq_bind, Option.bind_eq_some_iff, Option.some.injEq, Prod.mk.injEq] at e ⊢
  obtain ⟨⟨m1, x⟩, e1, m2, e2, m3, e3, rfl, rfl⟩ := e
  exact ⟨_, e1, _, e2, _, e3, rfl, rfl⟩

/-- **C74, views.** A call of `mkstr` that asks for no copy gives a string of so many bytes whose bytes are always those that the
memory holds then; the other strings are as before. -/
theorem C74_view {fn : Nat} (hc : Called E F d f args vm (mkFn fn) t vs vm3) (hf : fn < 2 ^ 48 ∧ Bodies.body E fn = some Builtin.mkstr)
    (hi : InvS vm3.heap.str) {a : Nat} {len : Int} {bs : List UInt8} (hq : Asks vm3.heap.str vs a len false) (hn : Named vm3.heap.str.cmem a len bs)
    (ha : a < 2 ^ 64) (hl : bs.length < 2 ^ 64) (hsz : vm3.heap.str.foreign.len + 18 < 2 ^ 48) (hg : Granted vm3.heap 0 (vm3.al 0))
    (h0 : (vm3.al 0).strs 0 ≠ none) :
    ∃ v vm4, Gives E F (d + vs.length + 2) (.call f args) vm vm3 v vm4 ∧ InvS vm4.heap.str ∧
      (∀ cmem bs', readC cmem a bs.length = some bs' → Reads (later vm4.heap.str cmem) v bs') ∧
      (∀ w ws, Reads vm3.heap.str w ws → Reads vm4.heap.str w ws) ∧ vm4.heap.str.cmem = vm3.heap.str.cmem ∧ vm4.heap.objs = vm3.heap.objs ∧
      vm4.heap.props = vm3.heap.props := by
  obtain ⟨st', v, e, i, x, r⟩ := mkStringForeign_core (vm3.al 0).hr vm3.heap.str hi a bs.length (vm3.al 0).strs bs hn.1 ha hl hsz
    (by have := hg.room; omega) hg.low h0 hg.grant
  have hr : Builtin.mkstr t vs vm3.heap (fun k => vm3.al (2 * k)) = some ⟨{ vm3.heap with str := st' }, v, none⟩ := by
    rw [mkstr_asks hq, mkString_named hn, if_neg (by decide)]
    show (mkStringForeign (vm3.al 0).hr _ _ _ (vm3.al 0).strs).map _ = _
    rw [e]
    rfl
  obtain ⟨vm4, hgv, hh⟩ := called_gives hc hf hr
  refine ⟨v, vm4, hgv, by rw [hh]; exact i, fun cmem bs' hb => ?_, fun w ws hw => by rw [hh]; exact reads_mono hi i x hw, by rw [hh]; exact x.2.2, by rw [hh], by rw [hh]⟩
  rw [hh]
  show Reads (later st' cmem) v bs'
  by_cases hz : bs.length = 0
  · rw [hz] at hb
    have : bs' = bs := by
      rw [List.length_eq_zero_iff] at hz
      rw [hz]
      exact (Option.some.inj hb).symm
    subst this
    refine reads_later r ?_ cmem
    rw [hz, mkStringForeign, if_pos rfl, mkStringCopy, if_pos (by decide)] at e
    simp only [inlineBytes, Ptr.isNull, Bool.false_eq_true, if_false, load, readC, Option.bind_eq_bind, Option.bind_some, Option.some.injEq, Prod.mk.injEq] at e
    rw [← e.2, show tagStringI = makeTag 1 (6 : Fin 16).val from rfl, mkTagged_tag]
    decide
  · obtain ⟨st2, v2, e2, _, _, r2⟩ := mkStringForeign_core (vm3.al 0).hr (later vm3.heap.str cmem) hi a bs.length (vm3.al 0).strs bs' hb ha hl hsz
      (by have := hg.room; show vm3.heap.str.owned.len + 11 < _; omega) hg.low h0 hg.grant
    rw [mkStringForeign_later hz e] at e2
    cases e2
    exact r2

omit [Bodies E] in
theorem mkstrArgs_none : ∀ {vs : List Val}, vs.length < 2 ∨ 4 < vs.length → Builtin.mkstrArgs vs = none
  | [], _ => rfl
  | [_], _ => rfl
  | [_, _], h => by simp only [List.length_cons, List.length_nil] at h; omega
  | [_, _, _], h => by simp only [List.length_cons, List.length_nil] at h; omega
  | [_, _, _, _], h => by simp only [List.length_cons, List.length_nil] at h; omega
  | _ :: _ :: _ :: _ :: _ :: _, _ => rfl

omit [Bodies E] in
theorem mkstrArgs_some {p : Val} : ∀ {vs : List Val}, 1 ≤ vs.length → vs.length ≤ 3 → ∃ o l c, Builtin.mkstrArgs (p :: vs) = some (p, o, l, c)
  | [], h, _ => by simp only [List.length_nil] at h; omega
  | [_], _, _ => ⟨_, _, _, rfl⟩
  | [_, _], _, _ => ⟨_, _, _, rfl⟩
  | [_, _, _], _, _ => ⟨_, _, _, rfl⟩
  | _ :: _ :: _ :: _ :: _, _, h => by simp only [List.length_cons] at h; omega

omit [Bodies E] in
theorem mkstrArgs_three {p o l : Val} : ∀ {c : List Val}, c.length ≤ 1 → ∃ c', Builtin.mkstrArgs (p :: o :: l :: c) = some (p, o, l, c')
  | [], _ => ⟨_, rfl⟩
  | [_], _ => ⟨_, rfl⟩
  | _ :: _ :: _, h => by simp only [List.length_cons] at h; omega

/-- **C74, wrong arguments.** They are a TypeError with a text that says what is wrong, and nothing is made. -/
theorem C74_errors {fn : Nat} (hc : Called E F d f args vm (mkFn fn) t vs vm3) (hf : fn < 2 ^ 48 ∧ Bodies.body E fn = some Builtin.mkstr)
    (hok : vm3.error = .ok) (hmsg : vm3.msg = none) {text : List UInt8} (hw : Wrong vs text) :
    ∃ u, Means E F (d + vs.length + 2) (.call f args) vm (.err u) ∧ u.error = .type ∧ u.msg = some text ∧ u.heap = vm3.heap := by
  have hr : ∀ al, Builtin.mkstr t vs vm3.heap al = some ⟨vm3.heap, mkUndefined, some (.type, text)⟩ := by
    intro al
    cases hw with
    | count h =>
      have := mkstrArgs_none h
      unfold Builtin.mkstr
      rw [this]
    | @ptr p vs h1 h2 h3 =>
      obtain ⟨o, l, c, e⟩ := mkstrArgs_some (p := p) h1 h2
      unfold Builtin.mkstr
      rw [e]
      simp only
      rw [if_pos (by rw [h3]; decide)]
    | @offset p o l c h1 h2 h3 h4 =>
      obtain ⟨c', e⟩ := mkstrArgs_three (p := p) (o := o) (l := l) h4
      unfold Builtin.mkstr
      rw [e]
      simp only
      rw [if_neg (by rw [h1]; decide), if_pos ⟨h2, by rw [h3]; decide⟩]
    | @len2 p l h1 h2 =>
      unfold Builtin.mkstr
      rw [show Builtin.mkstrArgs [p, l] = some (p, mkUndefined, l, mkUndefined) from rfl]
      simp only
      rw [if_neg (by rw [h1]; decide), if_neg (fun h => h.1 rfl), if_pos (by rw [h2]; decide)]
    | @len p o l c h1 h2 h3 h4 =>
      obtain ⟨c', e⟩ := mkstrArgs_three (p := p) (o := o) (l := l) h4
      unfold Builtin.mkstr
      rw [e]
      simp only
      rw [if_neg (by rw [h1]; decide), if_neg (fun h => h2.elim h.1 h.2), if_pos (by rw [h3]; decide)]
  refine ⟨_, called_body hc hf.1 hf.2 (hr _) rfl, ?_, ?_, rfl⟩
  · show (if vm3.error = .ok then Err.type else vm3.error) = _
    rw [if_pos hok]
  · show some (match vm3.msg with | some old => text ++ txt ": " ++ old | none => text) = _
    rw [hmsg]

/-! ### A call -/

/-- An engine with `mkstr` at the address 100. -/
def mkEnv : Env := { demoEnv with cfun := fun a vm => if a = 100 then Builtin.cfunction Builtin.mkstr vm else none }

instance : Bodies mkEnv where
  body a := if a = 100 then some Builtin.mkstr else none
  code {a b} h := by
    split at h
    · rename_i ha
      cases h
      subst ha
      rfl
    · cases h

/-- `this` is `mkstr`. -/
theorem this_mkstr (F : Nat → Option Fn) (args : List Expr) (vs : List Val)
    (hargs : ∀ vm : Vm, vm.this = mkFn 100 → evalArgs mkEnv F 5 3 args vm = some (.ok vm vs)) : ∃ vm : Vm,
      Called mkEnv F 3 .this args vm (mkFn 100) mkUndefined vs vm ∧ InvS vm.heap.str ∧ vm.error = .ok ∧ vm.msg = none ∧ vm.heap.str.cmem = demoMem ∧
      vm.heap.str.foreign.len + 18 < 2 ^ 48 ∧ Granted vm.heap 64 (vm.al 0) ∧ (vm.al 0).strs 0 ≠ none := by
  obtain ⟨h, v, hh, hg, hcm, hf⟩ := demo_object mkEnv.numText
  obtain ⟨A, fo, fp, hsim⟩ := hh.sim
  refine ⟨{ heap := h, this := mkFn 100, lastGetprop := mkUndefined, al := fun _ => demoAl }, ⟨5, _, _, by rw [eval]; rfl, by unfold calleeThis; rfl, hargs _ rfl⟩,
    hsim.inv.str, rfl, rfl, hcm, by show h.str.foreign.len + 18 < _; rw [hf]; decide, hg, by show demoAl.strs 0 ≠ none; decide⟩

theorem args_this (F : Nat → Option Fn) (vm : Vm) (h : vm.this = mkFn 100) :
    evalArgs mkEnv F 5 3 [.this, .int 2] vm = some (.ok vm [mkFn 100, mkInt (BitVec.ofNat 64 2).toInt]) := by
  rw [evalArgs, bind_ok (show eval mkEnv F 4 2 .this vm = some (.ok vm (mkFn 100)) by rw [eval, ← h]; rfl), evalArgs,
    bind_ok (a := [mkInt (BitVec.ofNat 64 2).toInt]) (vm' := vm)]
  · rfl
  · rw [bind_ok (show eval mkEnv F 3 1 (.int 2) vm = some (.ok vm _) by rw [eval]; rfl), evalArgs]
    rfl

/-- `mkstr(p, 2)` is a view of two bytes. -/
example (F : Nat → Option Fn) : ∃ vm v vm4, Gives mkEnv F 7 (.call .this [.this, .int 2]) vm vm v vm4 ∧ Reads vm4.heap.str v (txt "ab") ∧
    Reads (later vm4.heap.str fun a => some (UInt8.ofNat a)) v (txt "de") := by
  obtain ⟨vm, hc, hi, _, _, hcm, hf, hg, h0⟩ := this_mkstr F _ _ (args_this F)
  obtain ⟨v, vm4, h1, _, h3, _, h4, _⟩ := C74_view (a := 100) (len := 2) (bs := txt "ab") hc ⟨by decide, rfl⟩ hi
    (by
      have : getInt (mkInt (BitVec.ofNat 64 2).toInt) = 2 := by decide +kernel
      rw [← this]
      exact .two (by decide) (by decide +kernel) (by decide))
    ⟨by rw [hcm]; decide +kernel, .inl (by decide)⟩ (by decide) (by decide) hf
    ⟨hg.low, hg.grant, by have := hg.room; omega, hg.obj, hg.prop⟩ h0
  refine ⟨vm, v, vm4, h1, ?_, h3 _ _ (by decide +kernel)⟩
  have := h3 demoMem (txt "ab") (by decide +kernel)
  rw [← hcm, ← h4] at this
  exact this

/-- `mkstr()` is an error. -/
example (F : Nat → Option Fn) : ∃ vm u, Means mkEnv F 5 (.call .this []) vm (.err u) ∧ u.error = .type := by
  obtain ⟨vm, hc, _, hok, hm, _⟩ := this_mkstr F [] [] (fun _ _ => by rw [evalArgs]; rfl)
  obtain ⟨u, h1, h2, _⟩ := C74_errors hc ⟨by decide, rfl⟩ hok hm (.count (.inl (by decide)))
  exact ⟨vm, u, h1, h2⟩

/-- The arguments of a copy, of a C string and of an error. -/
example : Asks ⟨⟨0, [], 0⟩, ⟨0, [], 0⟩, demoMem⟩ [mkFn 90, mkInt 10, mkInt (-1), mkBoolean true] 100 (-1) true ∧
    Named (fun a => if a = 102 then some 0 else demoMem a) 100 (-1) (txt "ab") ∧ Wrong [mkFn 90, mkNull, mkInt 1] (txt "offset should be a number") := by
  have e1 : getInt (mkInt (-1)) = -1 := by decide +kernel
  refine ⟨?_, ⟨by decide +kernel, .inr ⟨rfl, by decide, by decide, by decide⟩⟩, .offset (by decide) (by decide) (by decide +kernel) (by decide)⟩
  have := Asks.four (st := ⟨⟨0, [], 0⟩, ⟨0, [], 0⟩, demoMem⟩) (p := mkFn 90) (o := mkInt 10) (l := mkInt (-1)) (c := mkBoolean true) (a := 100) (b := true)
    (by decide) (.inr ⟨by decide +kernel, rfl⟩) (by decide +kernel) (by decide +kernel) (by decide +kernel)
  rwa [e1] at this

end Mjs.Props
