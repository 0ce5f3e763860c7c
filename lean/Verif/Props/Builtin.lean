import Verif.Lemmas.Natives
import Verif.Lemmas.Means
import Verif.Props.Vars
import Verif.Props.Apply
import Verif.Lemmas.HistoryOrder
import Verif.Props.StrApi
import Verif.Props.JsonValue
import Verif.Props.Script

/-!
# C66: methods of strings and arrays in scripts
-/

namespace Mjs.Props
open Mjs Mjs.Mbuf Mjs.Str Mjs.Arena Mjs.Obj Mjs.Spec Mjs.Core Mjs.Code Mjs.Sem Mjs.Exec Mjs.Spec.Double Mjs.Spec.Slice

section
variable {cmem : Nat → Option UInt8} {E : Env} [Bodies E] {F : Nat → Option Fn} {d : Nat} {vm vm1 vm3 : Vm} {ops : List ObjOp}
  {f e : Expr} {args : List Expr} {t : Val} {vs : List Val}

theorem mkFn_facts {a : Nat} (ha : a < 2 ^ 48) : isForeign (mkFn a) = true ∧ isFunction (mkFn a) = false ∧ isNative (mkFn a) = true ∧
    (getPtr (mkFn a)).toNat = a := by
  have hf : isForeign (mkFn a) = true := (C04_constructors.2.2.2.2.1 _ .foreign).2 rfl
  have hn := cfun_native (f := mkFn a) (by unfold isCFun; rw [hf]; rfl)
  refine ⟨hf, hn.1, hn.2, ?_⟩
  unfold mkFn
  rw [(C06_foreign_roundtrip_partial (BitVec.ofNat 64 a) (by rw [BitVec.toNat_ofNat]; omega)).1, BitVec.toNat_ofNat]
  omega

/-- The meaning of a call of a C function with a body, once callee and arguments are evaluated. -/
theorem called_body {a : Nat} {b : Builtin.Body} (hc : Called E F d f args vm (mkFn a) t vs vm3) (ha : a < 2 ^ 48)
    (hb : Bodies.body E a = some b) {r : Builtin.Done} (hr : b t vs vm3.heap (fun k => vm3.al (2 * k)) = some r) {u : Vm}
    (hl : Builtin.leave vm3 r = some u) :
    Means E F (d + vs.length + 2) (.call f args) vm (if r.err.isNone then .ok u r.val else .err u) := by
  obtain ⟨n, vm1, vm2, h1, h2, h3⟩ := hc
  obtain ⟨g1, g2, g3, g4⟩ := mkFn_facts ha
  refine ⟨n + 2, ?_⟩
  rw [eval, bind_ok (eval_mono h1 (by omega) (by omega)), bind_ok h2,
    bind_ok ((Mono.of_le (show n ≤ n + 1 by omega)).evalArgs _ _ _ (by omega) _ _ h3),
    show d + vs.length + 1 - vs.length = d + 1 by omega, callFn, if_neg (by rw [g2]; decide), if_pos g3]
  unfold withThis
  show (bodiesRun E (mkFn a) vs { vm3 with this := t }).map _ = _
  unfold bodiesRun
  rw [if_pos g1, g4, hb]
  simp only
  unfold bodyRun
  have hl' : Builtin.leave { vm3 with this := t } r = some { u with this := t } := by
    unfold Builtin.leave at hl ⊢
    cases hre : r.err with
    | none => rw [hre] at hl; cases hl; rfl
    | some x =>
      rw [hre] at hl
      simp only at hl ⊢
      split at hl
      · cases hl
      · rename_i hx
        rw [if_neg hx]; cases hl; rfl
  rw [show b ({ vm3 with this := t } : Vm).this vs ({ vm3 with this := t } : Vm).heap (fun k => ({ vm3 with this := t } : Vm).al (2 * k)) = some r from hr]
  simp only [Option.bind_eq_bind, Option.bind_some, hl']
  have ht := (leave_scopes hl).2
  cases r.err.isNone <;> simp only [Option.map_some, if_true, Bool.false_eq_true, if_false, ← ht]

/-- After a body that sets no error only the heap is another, and the answers of the allocator that were used are gone. -/
theorem called_ok {a : Nat} {b : Builtin.Body} (hc : Called E F d f args vm (mkFn a) t vs vm3) (ha : a < 2 ^ 48)
    (hb : Bodies.body E a = some b) {h : Heap} {v : Val} (hr : b t vs vm3.heap (fun k => vm3.al (2 * k)) = some ⟨h, v, none⟩) :
    Means E F (d + vs.length + 2) (.call f args) vm (.ok { vm3 with heap := h, al := fun k => vm3.al (2 * k + 1) } v) :=
  called_body hc ha hb hr rfl

/-- A body that sets an error ends the script with it. -/
theorem called_err {a : Nat} {b : Builtin.Body} (hc : Called E F d f args vm (mkFn a) t vs vm3) (ha : a < 2 ^ 48)
    (hb : Bodies.body E a = some b) {h : Heap} {v : Val} {er : Err} {text : List UInt8} (he : er ≠ .ok) (hok : vm3.error = .ok)
    (hr : b t vs vm3.heap (fun k => vm3.al (2 * k)) = some ⟨h, v, some (er, text)⟩) :
    ∃ u, Means E F (d + vs.length + 2) (.call f args) vm (.err u) ∧ u.error = er ∧ u.heap = h := by
  refine ⟨_, called_body hc ha hb hr (by unfold Builtin.leave; simp only [if_neg he]; rfl), ?_, rfl⟩
  show (if vm3.error = .ok then er else vm3.error) = er
  rw [if_pos hok]

/-! ## C66: finding the methods -/

omit [Bodies E] in
theorem mkStr_keeps (h : Scoped cmem E vm ops) {x : List UInt8} (hg : Granted vm.heap x.length (vm.al 0)) {k : Val}
    (e : mkStr vm x = some (vm1, k)) : (∀ w ws, Reads vm.heap.str w ws → Reads vm1.heap.str w ws) ∧
      Spec.Json.Request x.length vm.heap (vm.al 0) vm1.heap := by
  have hi := h.inv
  obtain ⟨st', v, bs', e', i', ex, _⟩ :=
    mkStringCopy_core (vm.al 0).hr vm.heap.str hi (.loc x) x.length (vm.al 0).strs (.inr ⟨x, loc_load _ _⟩) hg.room hg.low hg.grant
  rw [mkStr, mkStrP, e'] at e
  cases e
  exact ⟨fun w ws => reads_mono hi i' ex, .str (Nat.le_refl _) e'⟩

/-- A text that does not begin with a blank, a sign or a digit is not a number. -/
theorem cstrToUlong_name {x : List UInt8} {c : UInt8} (hx : x.head? = some c) (h1 : Arr.isspace c = false) (h2 : c ≠ 45 ∧ c ≠ 43)
    (h3 : ¬ (48 ≤ c.toNat ∧ c.toNat ≤ 57)) : cstrToUlong x = some (0, false) := by
  obtain ⟨r, rfl⟩ : ∃ r, x = c :: r := by
    cases x with
    | nil => cases hx
    | cons a r => cases hx; exact ⟨r, rfl⟩
  unfold cstrToUlong Arr.strtoul
  rw [Arr.skipSpace]
  simp only [List.length_cons, Nat.zero_lt_succ, if_true, List.getElem?_cons_zero, Option.bind_eq_bind, Option.bind_some, h1,
    Bool.false_eq_true, if_false, h2.1, h2.2, or_self]
  rw [Arr.digits]
  simp only [Nat.zero_lt_succ, if_true, List.getElem?_cons_zero, Option.bind_eq_bind, Option.bind_some, h3, if_false]
  rfl

/-- The methods of strings by name. -/
def stringMethod (E : Env) (x : Name) : Option Nat :=
  if x = txt "at" ∨ x = txt "charCodeAt" then some E.atFn
  else if x = txt "indexOf" then some E.indexOfFn
  else if x = txt "slice" then some E.sliceFn
  else none

/-- The methods of arrays by name. -/
def arrayMethod (E : Env) (x : Name) : Option Nat :=
  if x = txt "splice" then some E.spliceFn
  else if x = txt "push" then some E.pushFn
  else none

/-- What evaluating `.x`, with a name of `n` bytes, leaves alone; it takes memory for the name only. -/
structure Kept (cmem : Nat → Option UInt8) (E : Env) (ops : List ObjOp) (n : Nat) (vm vm' : Vm) : Prop where
  inv : Scoped cmem E vm' ops
  error : vm'.error = vm.error
  scopes : vm'.scopes = vm.scopes
  this : vm'.this = vm.this
  reads : ∀ w ws, Reads vm.heap.str w ws → Reads vm'.heap.str w ws
  room : ∀ m al, Granted vm.heap (m + n + 11) al → Granted vm'.heap m al
  heap : Spec.Json.Request n vm.heap (vm.al 0) vm'.heap
  al : vm'.al = fun k => vm.al (k + 1)

/-- If the built-in properties answer `v` for the name, `e.x` is `v`, and a call of it has the object as `this`. -/
theorem dot_builtin (he : Means E F d e vm (.ok vm1 t)) (h : Scoped cmem E vm1 ops) (hok : vm1.error = .ok) {x : Name}
    (hl : x.length < 2 ^ 32) (hg : Granted vm1.heap x.length (vm1.al 0)) {v : Val}
    (hb : ∀ u k, IsName u k x → Scoped cmem E u ops → (∀ w ws, Reads vm1.heap.str w ws → Reads u.heap.str w ws) →
      builtin E u t k = some (u, some v)) :
    ∃ vm2, Kept cmem E ops x.length vm1 vm2 ∧ ∀ args vs vm3, (∃ n, evalArgs E F n (d + 2) args vm2 = some (.ok vm3 vs)) →
      Called E F (d + 2) (.get (.dot e x)) args vm v t vs vm3 := by
  obtain ⟨u, k, e1, h1, h2, h3, h4, h5, h6, hroom⟩ := mkStr_name h hl hg
  obtain ⟨hk, hsh⟩ := mkStr_keeps h hg e1
  have hgp : getProp E u t k = some (u, v) := by
    unfold getProp
    rw [hb u k h2 h1 hk]
    rfl
  refine ⟨{ u with lastGetprop := t }, ⟨⟨h1.hist, h1.noNul, h1.scopes, h1.plain⟩, h4, h3, h5, hk, hroom, hsh, h6⟩, fun args vs vm3 ⟨n2, ha⟩ => ?_⟩
  obtain ⟨n1, he⟩ := he
  refine ⟨n1 + n2 + 2, _, _, ?_, rfl, (Mono.of_le (show n2 ≤ n1 + n2 + 2 by omega)).evalArgs _ _ _ (Nat.le_refl _) _ _ ha⟩
  rw [eval, evalL]
  have : (eval E F (n1 + n2) d e >>= fun o => Sem.string x >>= fun k => pure (k, o)) vm = some (.ok u (k, t)) := by
    rw [bind_ok (eval_mono he (by omega) (Nat.le_refl _))]
    unfold Sem.string
    rw [bind_ok (prim_ok e1 (h4.trans hok))]
    rfl
  rw [bind_ok this]
  show (prim _ >>= _) u = _
  rw [bind_ok (prim_ok hgp (h4.trans hok))]
  rfl

/-- **C66, the methods of strings.** If `e` is a string, `e.at`, `e.charCodeAt`, `e.indexOf` and `e.slice` are the built-in
methods, and in `e.x(args)` the method gets the string as `this` and the values of the arguments, evaluated from left to right
after `e`. -/
theorem C66_string_method (he : Means E F d e vm (.ok vm1 t)) (h : Scoped cmem E vm1 ops) (hok : vm1.error = .ok) {x : Name} {a : Nat}
    (hx : stringMethod E x = some a) (hg : Granted vm1.heap x.length (vm1.al 0)) {bs : List UInt8} (ht : Reads vm1.heap.str t bs) :
    ∃ vm2, Kept cmem E ops x.length vm1 vm2 ∧ ∀ args vs vm3, (∃ n, evalArgs E F n (d + 2) args vm2 = some (.ok vm3 vs)) →
      Called E F (d + 2) (.get (.dot e x)) args vm (mkFn a) t vs vm3 := by
  have hx4 : x = txt "at" ∨ x = txt "charCodeAt" ∨ x = txt "indexOf" ∨ x = txt "slice" := by
    unfold stringMethod at hx
    split at hx
    · rename_i hh; exact hh.elim .inl fun h => .inr (.inl h)
    · split at hx
      · rename_i hh; exact .inr (.inr (.inl hh))
      · split at hx
        · rename_i hh; exact .inr (.inr (.inr hh))
        · cases hx
  refine dot_builtin he h hok (by rcases hx4 with rfl | rfl | rfl | rfl <;> decide) hg fun u k hk hs hr => ?_
  obtain ⟨q, hq, hp⟩ := hk.text hs.inv E.numText
  obtain ⟨p, n, g1, g2, g3⟩ := hr _ _ ht
  unfold builtin
  rw [keyErr_name hs hk]
  simp only [Option.bind_eq_bind, Option.bind_some]
  rw [hq]
  simp only [Option.bind_some, hp.bytes]
  rw [if_pos (reads_isString ht)]
  unfold builtinString
  have hu : cstrToUlong x = some (0, false) := by
    rcases hx4 with rfl | rfl | rfl | rfl
    · exact cstrToUlong_name (c := 97) (by decide) (by decide) (by decide) (by decide)
    · exact cstrToUlong_name (c := 99) (by decide) (by decide) (by decide) (by decide)
    · exact cstrToUlong_name (c := 105) (by decide) (by decide) (by decide) (by decide)
    · exact cstrToUlong_name (c := 115) (by decide) (by decide) (by decide) (by decide)
  rw [hu]
  simp only [Option.bind_eq_bind, Option.bind_some, g1]
  rcases hx4 with rfl | rfl | rfl | rfl
  all_goals
    have hx' := hx
    simp (decide := true) only [stringMethod, if_true, if_false] at hx'
    cases hx'
    simp (decide := true) only [if_true, if_false]

/-- **C66, the methods of arrays.** If `e` is an array, `e.push` and `e.splice` are the built-in methods, called in the same
way. -/
theorem C66_array_method (he : Means E F d e vm (.ok vm1 t)) (h : Scoped cmem E vm1 ops) (hok : vm1.error = .ok) {x : Name} {a : Nat}
    (hx : arrayMethod E x = some a) (hg : Granted vm1.heap x.length (vm1.al 0)) (ht : isArray t = true) :
    ∃ vm2, Kept cmem E ops x.length vm1 vm2 ∧ ∀ args vs vm3, (∃ n, evalArgs E F n (d + 2) args vm2 = some (.ok vm3 vs)) →
      Called E F (d + 2) (.get (.dot e x)) args vm (mkFn a) t vs vm3 := by
  have hx4 : x = txt "splice" ∨ x = txt "push" := by
    unfold arrayMethod at hx
    split at hx
    · rename_i hh; exact .inl hh
    · split at hx
      · rename_i hh; exact .inr hh
      · cases hx
  refine dot_builtin he h hok (by rcases hx4 with rfl | rfl <;> decide) hg fun u k hk hs hr => ?_
  obtain ⟨q, hq, hp⟩ := hk.text hs.inv E.numText
  have hob : isObject t = true := by
    unfold isArray at ht; unfold isObject; rw [beq_iff_eq] at ht; rw [ht]; decide
  unfold builtin
  rw [keyErr_name hs hk]
  simp only [Option.bind_eq_bind, Option.bind_some]
  rw [hq]
  simp only [Option.bind_some, hp.bytes]
  rw [if_neg (by rw [(tags_of_isObject hob).1]; decide), if_neg (by rcases hx4 with rfl | rfl <;> decide), if_pos ht]
  unfold builtinArray
  rcases hx4 with rfl | rfl
  all_goals
    have hx' := hx
    simp (decide := true) only [arrayMethod, if_true, if_false] at hx'
    cases hx'
    simp (decide := true) only [if_true, if_false]

/-! ## C66: what the methods do -/

/-- The call has the value `v`; scopes, `this` and the absence of an error are as when the arguments were evaluated. -/
structure Gives (E : Env) [Bodies E] (F : Nat → Option Fn) (d : Nat) (e : Expr) (vm vm3 : Vm) (v : Val) (vm4 : Vm) : Prop where
  means : Means E F d e vm (.ok vm4 v)
  scopes : vm4.scopes = vm3.scopes
  this : vm4.this = vm3.this
  error : vm4.error = vm3.error

theorem called_gives {a : Nat} {b : Builtin.Body} (hc : Called E F d f args vm (mkFn a) t vs vm3) (ha : a < 2 ^ 48 ∧ Bodies.body E a = some b)
    {h : Heap} {v : Val} (hr : b t vs vm3.heap (fun k => vm3.al (2 * k)) = some ⟨h, v, none⟩) :
    ∃ vm4, Gives E F (d + vs.length + 2) (.call f args) vm vm3 v vm4 ∧ vm4.heap = h :=
  ⟨_, ⟨called_ok hc ha.1 ha.2 hr, rfl, rfl, rfl⟩, rfl⟩

omit [Bodies E] in
/-- Only the heap matters, and that there are more operations on objects that are no scopes' creation. -/
theorem scoped_of (h : Scoped cmem E vm3 ops) {vm4 : Vm} (hs : vm4.scopes = vm3.scopes) {new : List ObjOp}
    (hh : History cmem E.numText vm4.heap (new ++ ops)) (hn : ∀ o ∈ new, o.noNul) : Scoped cmem E vm4 (new ++ ops) := by
  refine ⟨hh, fun o ho => (List.mem_append.1 ho).elim (hn o) (h.noNul o), fun s hm => ?_, fun s hm => h.plain s (hs ▸ hm)⟩
  have := h.scopes s (hs ▸ hm)
  clear hh hn
  induction new with
  | nil => exact this
  | cons o l ih => exact created_cons ih

/-- `slice` copies the bytes from position `i` up to position `j`. -/
theorem slice_eq (hr : Nat) (st : Store) (hi : InvS st) (this b e : Val) (nb ne : Int) (x : List UInt8) (rest : List Val)
    (als : Nat → Alloc) (hthis : Reads st this x) (hb : IsInt b nb) (he : IsInt e ne)
    (hb1 : -2 ^ 31 ≤ nb) (hb2 : nb < 2 ^ 31) (he1 : -2 ^ 31 ≤ ne) (he2 : ne < 2 ^ 31) (hx : x.length < 2 ^ 31) :
    ∃ p, p.isNull = false ∧ load st.cmem st.owned p (sub x (position nb x.length) (position ne x.length)).length =
        some (sub x (position nb x.length) (position ne x.length)) ∧
      ∀ r, mkStringCopy hr st p (sub x (position nb x.length) (position ne x.length)).length als = some r →
        Str.slice hr st this (b :: e :: rest) als = .ok r.1 r.2 := by
  have hs := reads_isString hthis
  obtain ⟨p, n, hg, hp, hl⟩ := hthis
  have hn := load_length hi.1.1 hl
  subst hn
  have p1 := position_le nb x.length
  have p2 := position_le ne x.length
  have hend : (if normalizeIdx (getInt e) x.length < normalizeIdx (getInt b) x.length
      then normalizeIdx (getInt b) x.length else normalizeIdx (getInt e) x.length) -
      normalizeIdx (getInt b) x.length = ((position ne x.length - position nb x.length : Nat) : Int) := by
    rw [getInt_isInt he he1 he2, getInt_isInt hb hb1 hb2, normalizeIdx_eq, normalizeIdx_eq]
    split <;> omega
  have hpart := load_add hl (position nb x.length) (position ne x.length - position nb x.length) (by omega)
  have hlen : (sub x (position nb x.length) (position ne x.length)).length = position ne x.length - position nb x.length := by
    simp [sub]; omega
  refine ⟨p.add (position nb x.length), by rw [add_isNull]; exact hp, by rw [hlen]; exact hpart, fun r h1 => ?_⟩
  simp only [Str.slice, cInt_eq hx, checkArg_string hs, hg, List.getElem?_cons_zero, List.getElem?_cons_succ,
    checkArg_number (isNumber_finite hb.1), checkArg_number (isNumber_finite he.1), List.length_cons, Option.map_some]
  rw [if_pos (by omega)]
  simp only [hend, Int.toNat_natCast]
  rw [getInt_isInt hb hb1 hb2, normalizeIdx_eq, Int.toNat_natCast, ← hlen, h1]

theorem slice_end_eq (hr : Nat) (st : Store) (hi : InvS st) (this b : Val) (nb : Int) (x : List UInt8)
    (als : Nat → Alloc) (hthis : Reads st this x) (hb : IsInt b nb) (hb1 : -2 ^ 31 ≤ nb) (hb2 : nb < 2 ^ 31) (hx : x.length < 2 ^ 31) :
    ∃ p, p.isNull = false ∧ load st.cmem st.owned p (x.drop (position nb x.length)).length = some (x.drop (position nb x.length)) ∧
      ∀ r, mkStringCopy hr st p (x.drop (position nb x.length)).length als = some r → Str.slice hr st this [b] als = .ok r.1 r.2 := by
  have hs := reads_isString hthis
  obtain ⟨p, n, hg, hp, hl⟩ := hthis
  have hn := load_length hi.1.1 hl
  subst hn
  have p1 := position_le nb x.length
  have hpart := load_add hl (position nb x.length) (x.length - position nb x.length) (by omega)
  rw [List.take_of_length_le (by simp)] at hpart
  have hlen : (x.drop (position nb x.length)).length = x.length - position nb x.length := by simp
  rw [← hlen] at hpart
  refine ⟨p.add (position nb x.length), by rw [add_isNull]; exact hp, hpart, fun r h1 => ?_⟩
  simp only [Str.slice, cInt_eq hx, checkArg_string hs, hg, List.getElem?_cons_zero,
    checkArg_number (isNumber_finite hb.1), List.length_cons, List.length_nil]
  rw [if_neg (by omega), getInt_isInt hb hb1 hb2, normalizeIdx_eq]
  simp only
  rw [if_neg (by omega), Int.toNat_natCast, show (x.length : Int) - (position nb x.length : Nat) =
    ((x.length - position nb x.length : Nat) : Int) by omega, Int.toNat_natCast, ← hlen, h1]

/-- A call that makes a copy of known bytes. -/
theorem called_copy {a : Nat} {b : Builtin.Body} (hc : Called E F d f args vm (mkFn a) t vs vm3) (ha : a < 2 ^ 48 ∧ Bodies.body E a = some b)
    (h : Scoped cmem E vm3 ops) {p : Ptr} {y : List UInt8} (hp : p.isNull = false)
    (hl : load vm3.heap.str.cmem vm3.heap.str.owned p y.length = some y) (hg : Granted vm3.heap y.length (vm3.al 0))
    (hb : ∀ r, mkStringCopy (vm3.al 0).hr vm3.heap.str p y.length (vm3.al 0).strs = some r →
      b t vs vm3.heap (fun k => vm3.al (2 * k)) = some ⟨{ vm3.heap with str := r.1 }, r.2, none⟩) :
    ∃ vm4 v, Gives E F (d + vs.length + 2) (.call f args) vm vm3 v vm4 ∧ Reads vm4.heap.str v y ∧ Scoped cmem E vm4 ops ∧
      ∀ w ws, Reads vm3.heap.str w ws → Reads vm4.heap.str w ws := by
  obtain ⟨st', v, e1, h2, h3, h4, _⟩ := C07_copy_reads_back (vm3.al 0).hr vm3.heap.str h.inv p y (vm3.al 0).strs hp hl hg.room hg.low hg.grant
  obtain ⟨vm4, g1, g2⟩ := called_gives hc ha (hb _ e1)
  refine ⟨vm4, v, g1, by rw [g2]; exact h3.reads, ?_, fun w ws hw => by rw [g2]; exact h4 w ws hw⟩
  exact scoped_of (new := []) h g1.scopes (by rw [g2]; exact .string h.hist hp hl hg e1) (by simp)

/-- **C66, `slice`.** `s.slice(b, e)` is the part of `s` from `b` up to `e`; negative numbers count from the end. -/
theorem C66_slice (hm : Methods E) {b e : Val} {rest : List Val} {nb ne : Int} {x : List UInt8}
    (hc : Called E F d f args vm (mkFn E.sliceFn) t (b :: e :: rest) vm3) (h : Scoped cmem E vm3 ops) (ht : Reads vm3.heap.str t x)
    (hx : x.length < 2 ^ 31) (hb : IsInt b nb) (he : IsInt e ne) (hb1 : -2 ^ 31 ≤ nb) (hb2 : nb < 2 ^ 31) (he1 : -2 ^ 31 ≤ ne)
    (he2 : ne < 2 ^ 31) (hg : Granted vm3.heap x.length (vm3.al 0)) :
    ∃ vm4 v, Gives E F (d + (b :: e :: rest).length + 2) (.call f args) vm vm3 v vm4 ∧
      Reads vm4.heap.str v (sub x (position nb x.length) (position ne x.length)) ∧ Scoped cmem E vm4 ops ∧
      ∀ w ws, Reads vm3.heap.str w ws → Reads vm4.heap.str w ws := by
  obtain ⟨p, hp, hl, hr⟩ := slice_eq (vm3.al 0).hr vm3.heap.str h.inv t b e nb ne x rest (vm3.al 0).strs ht hb he hb1 hb2 he1 he2 hx
  have hle : (sub x (position nb x.length) (position ne x.length)).length ≤ x.length := by simp [sub]; omega
  refine called_copy hc hm.sliceFn h hp hl ⟨hg.low, hg.grant, by have := hg.room; omega, hg.obj, hg.prop⟩ fun r e1 => ?_
  unfold Builtin.slice
  simp only [Nat.mul_zero, hr r e1]
  rfl

/-- **C66, `slice` with one argument.** `s.slice(b)` is the rest of `s` from `b`. -/
theorem C66_slice_to_end (hm : Methods E) {b : Val} {nb : Int} {x : List UInt8}
    (hc : Called E F d f args vm (mkFn E.sliceFn) t [b] vm3) (h : Scoped cmem E vm3 ops) (ht : Reads vm3.heap.str t x)
    (hx : x.length < 2 ^ 31) (hb : IsInt b nb) (hb1 : -2 ^ 31 ≤ nb) (hb2 : nb < 2 ^ 31) (hg : Granted vm3.heap x.length (vm3.al 0)) :
    ∃ vm4 v, Gives E F (d + 3) (.call f args) vm vm3 v vm4 ∧ Reads vm4.heap.str v (x.drop (position nb x.length)) ∧
      Scoped cmem E vm4 ops ∧ ∀ w ws, Reads vm3.heap.str w ws → Reads vm4.heap.str w ws := by
  obtain ⟨p, hp, hl, hr⟩ := slice_end_eq (vm3.al 0).hr vm3.heap.str h.inv t b nb x (vm3.al 0).strs ht hb hb1 hb2 hx
  have hle : (x.drop (position nb x.length)).length ≤ x.length := by simp
  refine called_copy hc hm.sliceFn h hp hl ⟨hg.low, hg.grant, by have := hg.room; omega, hg.obj, hg.prop⟩ fun r e1 => ?_
  unfold Builtin.slice
  simp only [Nat.mul_zero, hr r e1]
  rfl

/-- **C66, `indexOf`.** `s.indexOf(y)` and `s.indexOf(y, n)`: the first position, from `n` on, where `y` is; -1 if it is
nowhere. -/
theorem C66_indexOf (hm : Methods E) {s : Val} {rest : List Val} {x y : List UInt8} {from_ : Option Int}
    (hc : Called E F d f args vm (mkFn E.indexOfFn) t (s :: rest) vm3) (h : Scoped cmem E vm3 ops) (ht : Reads vm3.heap.str t x)
    (hs : Reads vm3.heap.str s y) (hx : x.length < 2 ^ 31) (hrest : (rest = [] ∧ from_ = none) ∨
      ∃ d n more, rest = d :: more ∧ from_ = some n ∧ IsInt d n ∧ -2 ^ 31 ≤ n ∧ n < 2 ^ 31) :
    ∃ vm4 v r, Gives E F (d + (s :: rest).length + 2) (.call f args) vm vm3 v vm4 ∧ IsInt v r ∧
      ((∃ i : Nat, r = i ∧ startAt from_ x.length ≤ i ∧ OccursAt x y i ∧
          ∀ j, startAt from_ x.length ≤ j → j < i → ¬ OccursAt x y j) ∨
       (r = -1 ∧ ∀ j, startAt from_ x.length ≤ j → ¬ OccursAt x y j)) ∧
      vm4.heap = vm3.heap ∧ Scoped cmem E vm4 ops := by
  obtain ⟨v, r, e1, h1, h2⟩ := C12_indexOf vm3.heap.str t s x y rest from_ ht hs hx hrest
  obtain ⟨vm4, g1, g2⟩ := called_gives hc hm.indexOfFn (h := vm3.heap) (v := v) (by unfold Builtin.indexOf; rw [e1]; rfl)
  exact ⟨vm4, v, r, g1, h1, h2, g2, scoped_of (new := []) h g1.scopes (by rw [g2]; exact h.hist) (by simp)⟩

/-- **C66, `at` and `charCodeAt`.** `s.at(n)` is the byte at position `n`, undefined if `n` is not below the length.  A
negative `n` counts from the end; before the begin it stands for the begin (`C13_at_before_begin`). -/
theorem C66_at (hm : Methods E) {i : Val} {rest : List Val} {n : Int} {x : List UInt8}
    (hc : Called E F d f args vm (mkFn E.atFn) t (i :: rest) vm3) (h : Scoped cmem E vm3 ops) (ht : Reads vm3.heap.str t x)
    (hx : x.length < 2 ^ 31) (hi : IsInt i n) (h1 : -2 ^ 31 ≤ n) (h2 : n < 2 ^ 31) :
    ∃ vm4 v, Gives E F (d + (i :: rest).length + 2) (.call f args) vm vm3 v vm4 ∧
      (∀ b, x[position n x.length]? = some b → IsInt v b.toNat) ∧ (x[position n x.length]? = none → v = mkUndefined) ∧
      vm4.heap = vm3.heap ∧ Scoped cmem E vm4 ops := by
  have e := charCodeAt_eq vm3.heap.str h.inv t i n x rest ht hx hi h1 h2
  have hb : ∃ v, Str.charCodeAt vm3.heap.str t (i :: rest) = .ok vm3.heap.str v ∧
      (∀ b, x[position n x.length]? = some b → IsInt v b.toNat) ∧ (x[position n x.length]? = none → v = mkUndefined) := by
    cases hp : x[position n x.length]? with
    | none => rw [hp] at e; exact ⟨_, e, by simp, fun _ => rfl⟩
    | some b =>
      rw [hp] at e
      refine ⟨_, e, fun c hc => ?_, by simp⟩
      cases hc
      exact mkInt_isInt _ (by have := b.toNat_lt; omega)
  obtain ⟨v, e1, h3, h4⟩ := hb
  obtain ⟨vm4, g1, g2⟩ := called_gives hc hm.atFn (h := vm3.heap) (v := v) (by unfold Builtin.charCodeAt; rw [e1]; rfl)
  exact ⟨vm4, v, g1, h3, h4, g2, scoped_of (new := []) h g1.scopes (by rw [g2]; exact h.hist) (by simp)⟩

/-- **C66, `push`.** `a.push(args)` appends the arguments to the array; its value is the new length.  No other object
changes. -/
theorem C66_push (hm : Methods E) {g : Nat → Option Val} {n : Nat} (hc : Called E F d f args vm (mkFn E.pushFn) t vs vm3)
    (h : Scoped cmem E vm3 ops) (ha : ArrayOps t ops g) (hv : isArray t = true) (hn : IsLength g n) (hl : n + vs.length ≤ 2 ^ 32 - 1)
    (hg : Arr.Supply vs.length vm3.heap fun k => vm3.al (2 * k)) :
    ∃ vm4 ops' g', Gives E F (d + vs.length + 2) (.call f args) vm vm3 (mkInt (n + vs.length : Nat)) vm4 ∧ Scoped cmem E vm4 ops' ∧
      ArrayOps t ops' g' ∧ Arr.Only t ops ops' ∧ ∀ i, g' i = if i < n then g i else vs[i - n]? := by
  obtain ⟨h', ops', g', e1, hh, ha', ho, hi⟩ := C18_push_method h.hist ha hv hn vs hl hg
  obtain ⟨vm4, g1, g2⟩ := called_gives hc hm.pushFn (h := h') (v := mkInt (n + vs.length : Nat)) (by
    show (Arr.pushMethod vm3.heap t vs _).map _ = _
    rw [e1]; rfl)
  refine ⟨vm4, ops', g', g1, ?_, ha', ho, hi⟩
  obtain ⟨new, rfl, hnew⟩ := ho
  refine scoped_of h g1.scopes (by rw [g2]; exact hh) fun o hm => array_noNul (orderly hh) ha' o (by simp [hm]) (hnew o hm)

/-- **C66, `splice`.** `a.splice(start, count, items)` replaces elements of the array by `items`; its value is a new array with
the elements removed.  No other object changes. -/
theorem C66_splice (hm : Methods E) {l : List Val} {a : Val} {rest : List Val}
    (hc : Called E F d f args vm (mkFn E.spliceFn) t (a :: rest) vm3) (h : Scoped cmem E vm3 ops) (ha : ArrayOps t ops (elems l))
    (hv : isArray t = true) (hna : isNumber a = true) (hnc : ∀ c, rest.head? = some c → isNumber c = true)
    (hb : l.length + rest.length < 2 ^ 31) (hg : Arr.Supply (1 + 3 * l.length + rest.length) vm3.heap fun k => vm3.al (2 * k)) :
    let s := editStart l.length (getInt a)
    let c := editCount l.length s (rest.head?.map getInt)
    ∃ vm4 ops' r, Gives E F (d + (a :: rest).length + 2) (.call f args) vm vm3 r vm4 ∧ Scoped cmem E vm4 ops' ∧
      ArrayOps t ops' (elems (l.take s ++ rest.tail ++ l.drop (s + c))) ∧ ArrayOps r ops' (elems ((l.drop s).take c)) ∧
      isArray r = true ∧ ¬ created ops r ∧ ∃ new, ops' = new ++ ops ∧ ∀ o ∈ new, o.target = t ∨ o.target = r := by
  intro s c
  obtain ⟨h', ops', r, e1, hh, ha1, ha2, hr, hnew, new, rfl, ht⟩ := C19_splice h.hist ha hv a hna rest hnc hb hg
  obtain ⟨vm4, g1, g2⟩ := called_gives hc hm.spliceFn (h := h') (v := r) (by
    show (Arr.splice vm3.heap t (a :: rest) _).map _ = _
    rw [e1]; rfl)
  refine ⟨vm4, new ++ ops, r, g1, ?_, ha1, ha2, hr, hnew, new, rfl, ht⟩
  refine scoped_of h g1.scopes (by rw [g2]; exact hh) fun o ho => ?_
  exact (ht o ho).elim (array_noNul (orderly hh) ha1 o (by simp [ho])) (array_noNul (orderly hh) ha2 o (by simp [ho]))

/-! ## C66: wrong arguments -/

theorem tag_shift {v c : Val} (hc : c = (c >>> 48) <<< 48) (e : (v &&& tagMask) >>> 48 = c >>> 48) : v &&& tagMask = c := by
  have h1 : ∀ w : Val, w &&& tagMask = ((w &&& tagMask) >>> 48) <<< 48 := by
    intro w
    apply BitVec.eq_of_getLsbD_eq
    intro j hj
    rw [BitVec.getLsbD_shiftLeft, BitVec.getLsbD_ushiftRight, BitVec.getLsbD_and]
    by_cases h48 : j < 48
    · have : ∀ j, j < 48 → tagMask.getLsbD j = false := by decide
      simp [h48, this j h48]
    · rw [show 48 + (j - 48) = j by omega]; simp [h48, hj]
  rw [h1 v, e, ← hc]

theorem getType_is_string {v : Val} (ht : getType v = some .string) : isString v = true := by
  simp only [getType] at ht
  repeat' split at ht
  all_goals first | (cases ht; done) | skip
  rename_i hs
  simp only [isString]
  rcases hs with e | e | e | e | e
  all_goals
    rw [tag_shift (by decide) e]
    decide

theorem getType_is_number {v : Val} (ht : getType v = some .number) : isNumber v = true := by
  simp only [getType] at ht
  repeat' split at ht
  all_goals first | (cases ht; done) | skip
  assumption

theorem not_string {v : Val} (h : getType v ≠ none) (hs : isString v = false) : checkArg (some v) .string = some none := by
  unfold checkArg
  cases ht : getType v with
  | none => exact absurd ht h
  | some t =>
    simp only [ht]
    rw [if_pos]
    rintro rfl
    rw [getType_is_string ht] at hs
    cases hs

theorem not_number {v : Val} (h : getType v ≠ none) (hs : isNumber v = false) : checkArg (some v) .number = some none := by
  unfold checkArg
  cases ht : getType v with
  | none => exact absurd ht h
  | some t =>
    simp only [ht]
    rw [if_pos]
    rintro rfl
    rw [getType_is_number ht] at hs
    cases hs

/-- The script ends with a TypeError, and nothing has changed in the heap. -/
def TypeError (E : Env) [Bodies E] (F : Nat → Option Fn) (d : Nat) (e : Expr) (vm vm3 : Vm) : Prop :=
  ∃ u, Means E F d e vm (.err u) ∧ u.error = .type ∧ u.heap = vm3.heap

theorem called_type {a : Nat} {b : Builtin.Body} (hc : Called E F d f args vm (mkFn a) t vs vm3) (ha : a < 2 ^ 48 ∧ Bodies.body E a = some b)
    (hok : vm3.error = .ok) {v : Val} {text : List UInt8}
    (hr : b t vs vm3.heap (fun k => vm3.al (2 * k)) = some ⟨vm3.heap, v, some (.type, text)⟩) :
    TypeError E F (d + vs.length + 2) (.call f args) vm vm3 :=
  called_err hc ha.1 ha.2 (by decide) hok hr

/-- **C66, `at` with wrong arguments.** -/
theorem C66_at_errors (hm : Methods E) (hc : Called E F d f args vm (mkFn E.atFn) t vs vm3) (hok : vm3.error = .ok)
    (hty : ∀ w ∈ t :: vs, getType w ≠ none) (hread : isString t = true → ∃ x, Reads vm3.heap.str t x)
    (hbad : isString t = false ∨ ∀ i, vs[0]? = some i → isNumber i = false) :
    TypeError E F (d + vs.length + 2) (.call f args) vm vm3 := by
  have e : Str.charCodeAt vm3.heap.str t vs = .typeError mkUndefined := by
    unfold Str.charCodeAt
    cases hs : isString t with
    | false => rw [not_string (hty t (by simp)) hs]
    | true =>
      have h0 := hbad.resolve_left (by simp [hs])
      obtain ⟨x, p, n, hg, _⟩ := hread hs
      simp only [checkArg_string hs, hg]
      cases h1 : vs[0]? with
      | none => rfl
      | some i => rw [not_number (hty i (List.mem_cons_of_mem _ (List.mem_of_getElem? h1))) (h0 i h1)]
  exact called_type hc hm.atFn hok (by unfold Builtin.charCodeAt; rw [e]; rfl)

/-- **C66, `slice` with wrong arguments.** -/
theorem C66_slice_errors (hm : Methods E) (hc : Called E F d f args vm (mkFn E.sliceFn) t vs vm3) (hok : vm3.error = .ok)
    (hty : ∀ w ∈ t :: vs, getType w ≠ none) (hread : isString t = true → ∃ x, Reads vm3.heap.str t x)
    (hbad : isString t = false ∨ (∀ i, vs[0]? = some i → isNumber i = false) ∨ ∃ i, vs[1]? = some i ∧ isNumber i = false) :
    TypeError E F (d + vs.length + 2) (.call f args) vm vm3 := by
  have e : ∀ hr als, Str.slice hr vm3.heap.str t vs als = .typeError (mkInt 0) := by
    intro hr als
    unfold Str.slice
    generalize mkInt 0 = z
    cases hs : isString t with
    | false => rw [not_string (hty t (by simp)) hs]
    | true =>
      have h0 := hbad.resolve_left (by simp [hs])
      obtain ⟨x, p, n, hg, _⟩ := hread hs
      simp only [checkArg_string hs, hg]
      cases h1 : vs[0]? with
      | none => rfl
      | some i =>
        have hi := hty i (List.mem_cons_of_mem _ (List.mem_of_getElem? h1))
        cases hn : isNumber i with
        | false => rw [not_number hi hn]
        | true =>
          obtain ⟨j, h2, h3⟩ := h0.resolve_left fun h => by rw [h i h1] at hn; cases hn
          have hj := hty j (List.mem_cons_of_mem _ (List.mem_of_getElem? h2))
          simp only [checkArg_number hn, h2, not_number hj h3, Option.map_some, Option.map_none]
          rw [if_pos (by have := (List.getElem?_eq_some_iff.1 h2).1; omega)]
  exact called_type hc hm.sliceFn hok (by unfold Builtin.slice; rw [e]; rfl)

/-- **C66, `indexOf` with wrong arguments.** -/
theorem C66_indexOf_errors (hm : Methods E) (hc : Called E F d f args vm (mkFn E.indexOfFn) t vs vm3) (hok : vm3.error = .ok)
    (hty : ∀ w ∈ t :: vs, getType w ≠ none) (hread : ∀ w ∈ t :: vs, isString w = true → ∃ x, Reads vm3.heap.str w x)
    (hbad : isString t = false ∨ (∀ s, vs[0]? = some s → isString s = false) ∨ ∃ i, vs[1]? = some i ∧ isNumber i = false) :
    TypeError E F (d + vs.length + 2) (.call f args) vm vm3 := by
  have e : Str.indexOf vm3.heap.str t vs = .typeError (mkInt (-1)) := by
    unfold Str.indexOf
    generalize mkInt (-1) = z
    cases hs : isString t with
    | false => rw [not_string (hty t (by simp)) hs]
    | true =>
      have h0 := hbad.resolve_left (by simp [hs])
      have bytes : ∀ w ∈ t :: vs, isString w = true → ∃ x, strBytes vm3.heap.str w = some x := fun w hw hs => by
        obtain ⟨x, p, n, hg, _, hl⟩ := hread w hw hs
        exact ⟨x, by simp [strBytes, hg, hl]⟩
      obtain ⟨x, hx⟩ := bytes t (by simp) hs
      simp only [checkArg_string hs]
      cases h1 : vs[0]? with
      | none => rfl
      | some i =>
        have hm := List.mem_cons_of_mem t (List.mem_of_getElem? h1)
        cases hn : isString i with
        | false => rw [not_string (hty i hm) hn]
        | true =>
          obtain ⟨j, h2, h3⟩ := h0.resolve_left fun h => by rw [h i h1] at hn; cases hn
          have hj := hty j (List.mem_cons_of_mem _ (List.mem_of_getElem? h2))
          obtain ⟨y, hy⟩ := bytes i hm hn
          have hf : indexOfFrom vs x.length = some none := by
            unfold indexOfFrom
            rw [if_pos (by have := (List.getElem?_eq_some_iff.1 h2).1; omega), h2, not_number hj h3]
            rfl
          simp only [checkArg_string hn, hx, hy, hf]
  exact called_type hc hm.indexOfFn hok (by unfold Builtin.indexOf; rw [e]; rfl)

/-- **C66, `push` on anything but an array.** -/
theorem C66_push_errors (hm : Methods E) (hc : Called E F d f args vm (mkFn E.pushFn) t vs vm3) (hok : vm3.error = .ok)
    (hty : getType t ≠ none) (hbad : isArray t = false) : TypeError E F (d + vs.length + 2) (.call f args) vm vm3 := by
  obtain ⟨ty, hty⟩ := Option.ne_none_iff_exists'.1 hty
  exact called_type (v := mkUndefined) hc hm.pushFn hok (by
    show (Arr.pushMethod vm3.heap t vs _).map _ = _
    rw [(C18_not_array vm3.heap t _).2 ty hty hbad vs]
    rfl)

/-- **C66, `splice` with wrong arguments.** The script ends with a TypeError; no object has changed. -/
theorem C66_splice_errors (hm : Methods E) (hc : Called E F d f args vm (mkFn E.spliceFn) t vs vm3) (hok : vm3.error = .ok)
    (h : Scoped cmem E vm3 ops) (hg : CallocOk vm3.heap.objs (vm3.al 0).obj) (hty : ∀ w ∈ t :: vs, getType w ≠ none)
    (hbad : isArray t = false ∨ (∃ g, ArrayOps t ops g) ∧ (vs = [] ∨ (∃ a rest, vs = a :: rest ∧ isNumber a = false) ∨
      ∃ a c rest, vs = a :: c :: rest ∧ isNumber c = false)) :
    ∃ u r, Means E F (d + vs.length + 2) (.call f args) vm (.err u) ∧ u.error = .type ∧
      History cmem E.numText u.heap (.new r :: ops) ∧ ¬ created ops r := by
  obtain ⟨h', r, e1, hh, hnc⟩ := C19_type_errors h.hist vs (fun k => vm3.al (2 * k)) hg hty hbad
  obtain ⟨u, h1, h2, h3⟩ := called_err (er := .type) (h := h') (v := r) hc hm.spliceFn.1 hm.spliceFn.2 (by decide) hok (by
    show (Arr.splice vm3.heap t vs _).map _ = _
    rw [e1]; rfl)
  exact ⟨u, r, h1, h2, by rw [h3]; exact hh, hnc⟩

end

/-! ### Concrete cases -/

/-- The addresses of the functions. -/
def libBody : Nat → Option Builtin.Body
  | 1 => some Builtin.charCodeAt
  | 2 => some Builtin.indexOf
  | 3 => some Builtin.slice
  | 4 => some Builtin.splice
  | 5 => some Builtin.push
  | _ => none

/-- An engine with these functions. -/
def libEnv : Env := { demoEnv with cfun := fun a vm => (libBody a).bind fun b => Builtin.cfunction b vm }

instance : Bodies libEnv where
  body := libBody
  code {a b} h := by
    funext vm
    show (libBody a).bind _ = _
    rw [h]; rfl

theorem libMethods : Methods libEnv := ⟨⟨by decide, rfl⟩, ⟨by decide, rfl⟩, ⟨by decide, rfl⟩, ⟨by decide, rfl⟩, ⟨by decide, rfl⟩⟩

theorem args_ints {E : Env} [Bodies E] {F : Nat → Option Fn} {d : Nat} {vm : Vm} (a b : Nat) :
    ∃ n, evalArgs E F n (d + 3) [.int a, .int b] vm = some (.ok vm [mkInt (BitVec.ofNat 64 a).toInt, mkInt (BitVec.ofNat 64 b).toInt]) := by
  refine ⟨3, ?_⟩
  rw [evalArgs, bind_ok (show eval E F 2 (d + 2) (.int a) vm = some (.ok vm _) by rw [eval]; rfl), evalArgs,
    bind_ok (a := [mkInt (BitVec.ofNat 64 b).toInt]) (vm' := vm)]
  · rfl
  · rw [bind_ok (show eval E F 1 (d + 1) (.int b) vm = some (.ok vm _) by rw [eval]; rfl), evalArgs]
    rfl

/-- Calls of methods of the literal `"hello"`. -/
theorem hello_method (F : Nat → Option Fn) {x : Name} {a : Nat} (hx : stringMethod libEnv x = some a) (hl : x.length ≤ 16) :
    ∃ vm vm2 k ops, Scoped demoMem libEnv vm2 ops ∧ vm2.error = .ok ∧ Reads vm2.heap.str k (txt "hello") ∧
      (∀ i n, n < 512 → Granted vm2.heap n (vm2.al i)) ∧
      ∀ args vs vm3, (∃ n, evalArgs libEnv F n 3 args vm2 = some (.ok vm3 vs)) →
        Called libEnv F 3 (.get (.dot (.str (txt "hello")) x)) args vm (mkFn a) k vs vm3 := by
  obtain ⟨vm, s1, s2, ops, h, he, _, _, _, _, _, _, _, _, hg⟩ := demo_scopes libEnv
  obtain ⟨vm1, k, e1, h1, h2, h3, h4, h5, h6, h7⟩ := mkStr_name (x := txt "hello") h (by decide) (hg 0 _ (by decide))
  have hme : Means libEnv F 1 (.str (txt "hello")) vm (.ok vm1 k) := ⟨1, by rw [eval]; exact prim_ok e1 (h4.trans he)⟩
  have h5 : (txt "hello").length = 5 := by decide
  have hg1 : ∀ i n, n < 1024 → Granted vm1.heap n (vm1.al i) := fun i n hn => by rw [h6]; exact h7 _ _ (hg _ _ (by omega))
  obtain ⟨vm2, hk, hcall⟩ := C66_string_method hme h1 (h4.trans he) hx (hg1 0 _ (by omega)) h2.reads.reads
  exact ⟨vm, vm2, k, ops, hk.inv, hk.error.trans (h4.trans he), hk.reads _ _ h2.reads.reads,
    fun i n hn => hk.room _ _ (by rw [hk.al]; exact hg1 _ _ (by omega)), hcall⟩

/-- `"hello".slice(1, 3)` is `"el"`. -/
example (F : Nat → Option Fn) : ∃ vm vm3 vm4 v,
    Gives libEnv F 7 (.call (.get (.dot (.str (txt "hello")) (txt "slice"))) [.int 1, .int 3]) vm vm3 v vm4 ∧
    Reads vm4.heap.str v (txt "el") := by
  obtain ⟨vm, vm2, k, ops, h, he, hr, hg, hcall⟩ := hello_method F (x := txt "slice") (a := 3) (by decide) (by decide)
  obtain ⟨vm4, v, g1, g2, _⟩ := C66_slice (nb := 1) (ne := 3) libMethods (hcall _ _ _ (args_ints 1 3)) h hr (by decide)
    (mkInt_isInt _ (by decide)) (mkInt_isInt _ (by decide)) (by decide) (by decide) (by decide) (by decide) (hg 0 _ (by decide))
  exact ⟨vm, vm2, vm4, v, g1, g2⟩

/-- `"hello".at(1, 3)` is 101. -/
example (F : Nat → Option Fn) : ∃ vm vm3 vm4 v,
    Gives libEnv F 7 (.call (.get (.dot (.str (txt "hello")) (txt "at"))) [.int 1, .int 3]) vm vm3 v vm4 ∧ IsInt v 101 := by
  obtain ⟨vm, vm2, k, ops, h, he, hr, hg, hcall⟩ := hello_method F (x := txt "at") (a := 1) (by decide) (by decide)
  obtain ⟨vm4, v, g1, g2, _⟩ := C66_at (n := 1) libMethods (hcall _ _ _ (args_ints 1 3)) h hr (by decide)
    (mkInt_isInt _ (by decide)) (by decide) (by decide)
  exact ⟨vm, vm2, vm4, v, g1, g2 101 (by decide)⟩

/-- `"hello".indexOf("l")` is 2. -/
example (F : Nat → Option Fn) : ∃ vm vm3 vm4 v,
    Gives libEnv F 6 (.call (.get (.dot (.str (txt "hello")) (txt "indexOf"))) [.str (txt "l")]) vm vm3 v vm4 ∧ IsInt v 2 := by
  obtain ⟨vm, vm2, k, ops, h, he, hr, hg, hcall⟩ := hello_method F (x := txt "indexOf") (a := 2) (by decide) (by decide)
  obtain ⟨vm3, l, e1, h1, h2, _, _, _, _, _⟩ := mkStr_name (x := txt "l") h (by decide) (hg 0 _ (by decide))
  have he3 : vm3.error = .ok := by
    rw [mkStr, mkStrP] at e1
    obtain ⟨r, _, e1⟩ := Option.map_eq_some_iff.1 e1
    cases e1
    exact he
  have ha : evalArgs libEnv F 2 3 [.str (txt "l")] vm2 = some (.ok vm3 [l]) := by
    rw [evalArgs, bind_ok (show eval libEnv F 1 2 (.str (txt "l")) vm2 = some (.ok vm3 l) by rw [eval]; exact prim_ok e1 he3), evalArgs]
    rfl
  obtain ⟨vm4, v, r, g1, g2, g3, _⟩ := C66_indexOf (from_ := none) libMethods (hcall _ _ _ ⟨2, ha⟩) h1
    ((mkStr_keeps h (hg 0 _ (by decide)) e1).1 _ _ hr) h2.reads.reads (by decide) (.inl ⟨rfl, rfl⟩)
  have o2 : OccursAt (txt "hello") (txt "l") 2 := ⟨txt "he", txt "lo", by decide, by decide⟩
  have n0 : ¬ OccursAt (txt "hello") (txt "l") 0 := by
    rintro ⟨pre, post, e, hp⟩
    rw [List.length_eq_zero_iff] at hp
    subst hp
    have e' : some (104 : UInt8) = some 108 := congrArg List.head? e
    exact absurd e' (by decide)
  have n1 : ¬ OccursAt (txt "hello") (txt "l") 1 := by
    rintro ⟨pre, post, e, hp⟩
    obtain ⟨c, rfl⟩ := List.length_eq_one_iff.1 hp
    have e' : some (101 : UInt8) = some 108 := congrArg (fun l => l.tail.head?) e
    exact absurd e' (by decide)
  refine ⟨vm, vm3, vm4, v, g1, ?_⟩
  rcases g3 with ⟨i, rfl, _, ho, hf⟩ | ⟨_, hf⟩
  · have h2 : ¬ 2 < i := fun hlt => hf 2 (by simp [startAt]) hlt o2
    have : i = 2 := by
      clear g1 g2 hf
      match i, ho, h2 with
      | 0, ho, _ => exact absurd ho n0
      | 1, ho, _ => exact absurd ho n1
      | 2, _, _ => rfl
      | i + 3, _, h2 => omega
    subst this
    exact g2
  · exact absurd o2 (hf 2 (by simp [startAt]))

/-- `"hello".slice()` is a TypeError. -/
example (F : Nat → Option Fn) : ∃ vm vm3,
    TypeError libEnv F 5 (.call (.get (.dot (.str (txt "hello")) (txt "slice"))) []) vm vm3 := by
  obtain ⟨vm, vm2, k, ops, h, he, hr, hg, hcall⟩ := hello_method F (x := txt "slice") (a := 3) (by decide) (by decide)
  exact ⟨vm, vm2, C66_slice_errors libMethods (hcall [] [] vm2 ⟨1, by rw [evalArgs]; rfl⟩) he
    (by simp [getType_string (reads_isString hr)]) (fun _ => ⟨_, hr⟩) (.inr (.inl (by simp)))⟩

/-- Calls of methods of an empty array. -/
theorem this_method (F : Nat → Option Fn) {x : Name} {a : Nat} (hx : arrayMethod libEnv x = some a) (hl : x.length ≤ 6) :
    ∃ vm vm2 k ops, Scoped demoMem libEnv vm2 ops ∧ vm2.error = .ok ∧ isArray k = true ∧ ArrayOps k ops (elems []) ∧
      (Arr.Supply 4096 vm2.heap fun i => vm2.al (2 * i)) ∧
      ∀ args vs vm3, (∃ n, evalArgs libEnv F n 3 args vm2 = some (.ok vm3 vs)) →
        Called libEnv F 3 (.get (.dot .this x)) args vm (mkFn a) k vs vm3 := by
  obtain ⟨h0, hh0, hr0⟩ := demo_start libEnv.numText
  obtain ⟨h1, v, e, hh1, _, hv⟩ := newArray_step hh0 (al := alFor 65536) (hr0.granted (n := 0) (by decide) (by decide)).obj
  obtain ⟨A, fo, fp, hs⟩ := hh0.sim
  obtain ⟨r1, i1⟩ := next_room hr0 hs.inv.str (by decide) (.new e)
  have hme : Means libEnv F 1 .this { heap := h1, this := v, al := fun k => supplyFrom (65536 + 1048576) ((k + 1) / 2) } (.ok _ v) := ⟨1, by rw [eval]; rfl⟩
  obtain ⟨vm2, hk, hcall⟩ := C66_array_method (cmem := demoMem) (ops := [.new v]) hme ⟨hh1, by simp [ObjOp.noNul], by simp, by simp⟩ rfl hx
    (r1.granted (by decide) (by omega)) hv
  refine ⟨_, vm2, v, [.new v], hk.inv, hk.error, hv, .new, ?_, hcall⟩
  obtain ⟨r2, i2⟩ := request_room r1 i1 (by decide) (by omega) hk.heap
  have := supply_room 4096 r2 i2 (by decide)
  rw [hk.al]
  have e : (fun i => supplyFrom (65536 + 1048576) ((2 * i + 1 + 1) / 2)) = supplyFrom (65536 + 1048576 + 1048576) := by
    funext i
    rw [show (2 * i + 1 + 1) / 2 = i + 1 by omega]
    rfl
  show Arr.Supply 4096 vm2.heap fun i => supplyFrom (65536 + 1048576) ((2 * i + 1 + 1) / 2)
  rw [e]
  exact this

/-- `this.push(1, 3)` for an empty array: the length is 2, and the elements are there. -/
example (F : Nat → Option Fn) : ∃ vm vm3 vm4 k ops,
    Gives libEnv F 7 (.call (.get (.dot .this (txt "push"))) [.int 1, .int 3]) vm vm3 (mkInt 2) vm4 ∧
    Scoped demoMem libEnv vm4 ops ∧ ArrayOps k ops (elems [mkInt 1, mkInt 3]) := by
  obtain ⟨vm, vm2, k, ops, h, he, hv, ha, hs, hcall⟩ := this_method F (x := txt "push") (a := 5) (by decide) (by decide)
  obtain ⟨vm4, ops', g', g1, g2, g3, _, g4⟩ := C66_push (n := 0) libMethods (hcall _ _ _ (args_ints 1 3)) h ha hv (Arr.isLength_elems []) (by simp)
    (hs.le (by simp))
  refine ⟨vm, vm2, vm4, k, ops', g1, g2, ?_⟩
  have : g' = elems [mkInt 1, mkInt 3] := by
    funext i
    rw [g4 i, if_neg (by omega)]
    rfl
  rw [← this]
  exact g3

/-- `this.splice(1, 3)` for an empty array: the result is empty, too. -/
example (F : Nat → Option Fn) : ∃ vm vm3 vm4 k r ops,
    Gives libEnv F 7 (.call (.get (.dot .this (txt "splice"))) [.int 1, .int 3]) vm vm3 r vm4 ∧
    Scoped demoMem libEnv vm4 ops ∧ ArrayOps k ops (elems []) ∧ ArrayOps r ops (elems []) := by
  obtain ⟨vm, vm2, k, ops, h, he, hv, ha, hs, hcall⟩ := this_method F (x := txt "splice") (a := 4) (by decide) (by decide)
  obtain ⟨vm4, ops', r, g1, g2, g3, g4, _⟩ := C66_splice libMethods (hcall _ _ _ (args_ints 1 3)) h ha hv
    (isNumber_finite (mkInt_isInt 1 (by decide)).1) (by simpa using isNumber_finite (mkInt_isInt 3 (by decide)).1) (by simp) (hs.le (by simp))
  simp only [List.take_nil, List.drop_nil, List.tail_cons, List.append_nil] at g3 g4
  exact ⟨vm, vm2, vm4, k, r, ops', g1, g2, g3, g4⟩

end Mjs.Props
