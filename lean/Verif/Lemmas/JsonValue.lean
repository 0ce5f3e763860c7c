import Verif.Lemmas.JsonBuilt

/-!
# The JSON parser on well-formed texts
-/

namespace Mjs.Json
open Mjs Mjs.Str Mjs.Obj Mjs.Core Mjs.Exec Mjs.Spec Mjs.Spec.Json Mjs.Props Mjs.Arr

variable {cmem : Nat → Option UInt8} {numText : Val → List UInt8} {need : Nat} {E : Env}

/-! ### Tokens -/

section
variable {σ : Type} {cb : σ → Event → Option σ}

theorem callBack_some {s : S σ} {t : TokT} {ptr : List UInt8} {len : Nat} {c : σ} (hp : s.path.getLast? ≠ some 46)
    (h : cb s.ctx ⟨s.name, t, ptr, len, s.path⟩ = some c) : callBack cb s t ptr len = .ok { s with ctx := c, name := none } := by
  unfold callBack
  rw [if_neg hp, h]

theorem callBack_dot {s : S σ} {t : TokT} {ptr : List UInt8} {len : Nat} (hp : s.path.getLast? = some 46) :
    callBack cb s t ptr len = .ok s := by
  unfold callBack
  rw [if_pos hp]

theorem parseString_eq {s : S σ} {body bs tail : List UInt8} (hs : s.rest = 34 :: (body ++ 34 :: tail)) (h : Chars body bs) :
    parseString cb s = (callBack cb { s with rest := body ++ 34 :: tail } .string (body ++ 34 :: tail) body.length).bind
      fun s => .ok (advance s (body.length + 1)) := by
  unfold parseString
  rw [testAndSkip_blank (w := []) hs blank_nil (by rfl)]
  simp only [Res.bind]
  rw [scanStr_chars h _ _ _ (Nat.lt_succ_self _)]
  simp only [Nat.zero_add]

theorem drop_body (body tail : List UInt8) : (body ++ 34 :: tail).drop (body.length + 1) = tail := by
  rw [← List.drop_drop, List.drop_left]; rfl

end

/-- How values begin. -/
theorem writes_head {K : List UInt8 → Key → Prop} {j : J} {t : List UInt8} (h : Writes K j t) :
    ∃ c u, t = c :: u ∧ isSpace c = false ∧ c ≠ 93 := by
  cases h with
  | null => exact ⟨_, _, rfl, rfl, by decide⟩
  | true => exact ⟨_, _, rfl, rfl, by decide⟩
  | false => exact ⟨_, _, rfl, rfl, by decide⟩
  | @num neg t hn =>
    cases neg with
    | true => exact ⟨45, t, rfl, rfl, by decide⟩
    | false =>
      obtain ⟨_, _, c, u, rfl, hc⟩ := numeral_scan hn (r := [32]) ⟨32, [], rfl, by simp⟩ false
      refine ⟨c, u, rfl, ?_, ?_⟩
      · obtain ⟨h1, h2⟩ := hc
        simp only [isSpace, Bool.or_eq_false_iff, beq_eq_false_iff_ne]
        refine ⟨⟨⟨?_, ?_⟩, ?_⟩, ?_⟩ <;> rintro rfl <;> exact absurd h1 (by decide)
      · rintro rfl; exact absurd hc.2 (by decide)
  | str => exact ⟨_, _, rfl, rfl, by decide⟩
  | arr => exact ⟨_, _, rfl, rfl, by decide⟩
  | obj => exact ⟨_, _, rfl, rfl, by decide⟩

/-- What parsing a value does to the context: the value is created, linked and filled. -/
structure Delivered (cmem : Nat → Option UInt8) (numText : Val → List UInt8) (E : Env) (c c' : Ctx) (nm : Option (List UInt8)) (ops inner pre : List ObjOp) (v : Val)
    (j : J) : Prop where
  adv : Adv cmem numText c c' (inner ++ (linkOps nm c.frames v ++ (pre ++ ops)))
  root : c.frames = [] → c'.result = v
  nested : c.frames ≠ [] → c'.result = c.result
  innerNew : ∀ o ∈ inner, ¬ created ops o.target
  preNew : ∀ o ∈ pre, ¬ created ops o.target
  built : Built E ops (inner ++ (linkOps nm c.frames v ++ (pre ++ ops))) c'.heap.str v j

/-- What is to be shown for values. -/
def VS (cmem : Nat → Option UInt8) (numText : Val → List UInt8) (need : Nat) (E : Env) (j : J) (t : List UInt8) : Prop :=
  ∀ (d m : Nat) (s : S Ctx) (w tail : List UInt8) (ops : List ObjOp), s.rest = w ++ (t ++ tail) → Blank w → (∀ neg n, j = .num neg n → Stops tail) → t.length < d →
    t.length < 2 ^ 31 → t.length + 255 ≤ need →
    (0 : UInt8) ∉ s.path → s.path.getLast? ≠ some 46 → Fits s.path.length j →
    Hst cmem numText s.ctx ops → Place ops s.name s.ctx.frames → Supplied need (m + 2 * t.length) s.ctx.heap s.ctx.al →
    ∃ s' v inner pre, parseValue (frozenCb E) d s = .ok s' ∧ s'.rest = tail ∧ s'.path = s.path ∧
      Delivered cmem numText E s.ctx s'.ctx s.name ops inner pre v j ∧ Supplied need m s'.ctx.heap s'.ctx.al

/-- A scalar token that is delivered. -/
theorem scalar_out {c c1 : Ctx} {ops : List ObjOp} {nm : Option (List UInt8)} {t : TokT} {ptr pa : List UInt8} {len : Nat} {v : Val} {j : J}
    (h1 : tokenValue E c ⟨nm, t, ptr, len, pa⟩ = some (c1, v)) (ht : t ≠ .objectStart ∧ t ≠ .arrayStart) (hu : isUndefined v = false)
    (ha : Adv cmem numText c c1 ops) (hr : c1.result = c.result) (hp : Place ops nm c.frames)
    (hneed : 255 ≤ need) {m : Nat} (hs : Supplied need (m + 1) c1.heap c1.al)
    (hb : ∀ ops' st', Keeps c1.heap.str st' → Built E ops ops' st' v j) :
    ∃ c', frozenCb E c ⟨nm, t, ptr, len, pa⟩ = some c' ∧ Delivered cmem numText E c c' nm ops [] [] v j ∧ Supplied need m c'.heap c'.al := by
  rw [← ha.frames] at hp
  obtain ⟨c', e, ha', hs', h3, h4⟩ := link_ok ha.st hp hneed hs v
  rw [ha.frames] at ha' h3 h4
  refine ⟨c', ?_, ⟨⟨ha'.st, ha'.frames.trans ha.frames, ha'.error.trans ha.error, ha.keeps.trans ha'.keeps⟩, h3, fun h => (h4 h).trans hr,
    by simp, by simp, hb _ _ ha'.keeps⟩, hs'⟩
  simp only [frozenCb, h1, Option.bind_some, hu, Bool.false_eq_true, if_false, e]
  rw [if_neg (by simp [ht.1, ht.2])]

/-- `null`, `true` and `false`. -/
theorem expect_out {s : S Ctx} {word tail : List UInt8} {t : TokT} {v : Val} {j : J} {ops : List ObjOp} {m : Nat}
    (hr : s.rest = word ++ tail) (hp : s.path.getLast? ≠ some 46)
    (h1 : ∀ c nm ptr len pa, tokenValue E c ⟨nm, t, ptr, len, pa⟩ = some (c, v)) (ht : t ≠ .objectStart ∧ t ≠ .arrayStart)
    (hu : isUndefined v = false) (hc : Hst cmem numText s.ctx ops) (hpl : Place ops s.name s.ctx.frames) (hneed : 255 ≤ need)
    (hs : Supplied need (m + 1) s.ctx.heap s.ctx.al) (hb : ∀ ops' st', Built E ops ops' st' v j) :
    ∃ s' v inner pre, expect (frozenCb E) s word t = .ok s' ∧ s'.rest = tail ∧ s'.path = s.path ∧
      Delivered cmem numText E s.ctx s'.ctx s.name ops inner pre v j ∧ Supplied need m s'.ctx.heap s'.ctx.al := by
  obtain ⟨c', e, ho, hs'⟩ := scalar_out (j := j) (h1 s.ctx s.name s.rest word.length s.path) ht hu ⟨hc, rfl, rfl, .refl _⟩ rfl hpl hneed hs
    (fun ops' st' _ => hb ops' st')
  refine ⟨{ s with rest := tail, ctx := c', name := none }, v, [], [], ?_, rfl, rfl, ho, hs'⟩
  unfold expect
  rw [if_pos (by rw [hr, List.take_left]), callBack_some hp e]
  simp only [Res.bind, advance]
  rw [hr, List.drop_left]

/-! ### Arrays -/

/-- The state inside the loop over the elements. -/
structure InArr (cmem : Nat → Option UInt8) (numText : Val → List UInt8) (E : Env) (base ops : List ObjOp) (c : Ctx) (v : Val) (fs : List Val) (xs : List Val) (l : List J) :
    Prop where
  st : Hst cmem numText c ops
  frames : c.frames = v :: fs
  sub : ∀ u, created base u → created ops u
  cr : created base v
  arr : ArrayOps v ops (elems xs)
  len : xs.length = l.length
  parts : ∀ (i : Nat) (x : Val) (j : J), xs[i]? = some x → l[i]? = some j → Built E base ops c.heap.str x j

/-- What the loop over the elements did so far. -/
structure LoopOut (c c' : Ctx) (v : Val) (ops new : List ObjOp) : Prop where
  error : c'.error = c.error
  result : c'.result = c.result
  keeps : Keeps c.heap.str c'.heap.str
  new : ∀ o ∈ new, o.target = v ∨ ¬ created ops o.target

theorem linkOps_eq {f : Val} {fs : List Val} {k : List UInt8} {v : Val} {c : Ctx} (hf : c.frames = f :: fs) : linkOps (some k) c.frames v = [.set f k v] := by
  rw [hf]; rfl

theorem append_full {σ : Type} {s : S σ} {str : List UInt8} (h : s.path.length + str.length ≤ 255) :
    append s str = { s with path := s.path ++ str } := by
  unfold append
  rw [List.take_of_length_le (by omega)]

theorem elemName_eq {path : List UInt8} (h0 : (0 : UInt8) ∉ path) (i : Nat) : elemName (path ++ indexText i) (indexText i) = some (dec i) := by
  unfold elemName
  have hz : (0 : UInt8) ∉ path ++ indexText i := by
    intro h
    rcases List.mem_append.1 h with h | h
    · exact h0 h
    · exact indexText_noNul i h
  rw [takeWhile_noNul hz]
  have hl : (indexText i).length = (dec i).length + 2 := by rw [indexText_eq]; simp
  simp only [List.length_append, hl]
  rw [if_neg (by omega)]
  have : path.length + ((dec i).length + 2) + 1 - ((dec i).length + 2) = path.length + 1 := by omega
  rw [this, ← List.drop_drop, List.drop_left, indexText_eq]
  simp

theorem truncate_back {σ : Type} {s : S σ} {p str : List UInt8} (h : s.path = p ++ str) : truncate s p.length = .ok { s with path := p } := by
  unfold truncate
  rw [if_pos (by rw [h]; simp), h, List.take_left]

/-- One element. -/
theorem elem_step {j : J} {t : List UInt8} (hv : VS cmem numText need E j t) (hh : ∃ c u, t = c :: u ∧ isSpace c = false ∧ c ≠ 93)
    {d n i m : Nat} {s : S Ctx} {w tail : List UInt8} {base ops : List ObjOp} {v : Val} {fs xs : List Val} {l : List J}
    (hr : s.rest = w ++ (t ++ tail)) (hw : Blank w) (ht : Stops tail) (hd : t.length < d) (h31 : t.length < 2 ^ 31) (hneed : t.length + 255 ≤ need)
    (hi : i < 2 ^ 31) (hxs : xs.length = i) (h0 : (0 : UInt8) ∉ s.path) (hl : s.path.length + (dec i).length + 2 ≤ 255)
    (hf : Fits (s.path.length + (dec i).length + 2) j) (hin : InArr cmem numText E base ops s.ctx v fs xs l)
    (hs : Supplied need (m + 2 * t.length) s.ctx.heap s.ctx.al) :
    ∃ s' x new, arrLoop (parseValue (frozenCb E) d) (n + 1) i s = arrLoop (parseValue (frozenCb E) d) n (i + 1) (skipComma s') ∧
      s'.rest = tail ∧ s'.path = s.path ∧ InArr cmem numText E base (new ++ ops) s'.ctx v fs (xs ++ [x]) (l ++ [j]) ∧
      LoopOut s.ctx s'.ctx v ops new ∧ Supplied need m s'.ctx.heap s'.ctx.al := by
  obtain ⟨c0, u, rfl, hsp, h93⟩ := hh
  have hlen : (indexText i).length = (dec i).length + 2 := by rw [indexText_eq]; simp
  have hsk : skip s = { s with rest := c0 :: u ++ tail } := skip_blank (by rw [hr]; rfl) hw hsp
  have hap := append_full (s := { s with rest := c0 :: u ++ tail }) (str := indexText i) (by simp only [hlen]; omega)
  have hlast : (s.path ++ indexText i).getLast? ≠ some 46 := by
    rw [indexText_eq, ← List.cons_append, ← List.append_assoc, List.getLast?_append]; simp
  have hnul : (0 : UInt8) ∉ s.path ++ indexText i := by
    intro h
    rcases List.mem_append.1 h with h | h
    · exact h0 h
    · exact indexText_noNul i h
  have hdn : dec i ≠ [] := (dec_value i).2.1
  obtain ⟨s', x, inner, pre, e, hrest, hpath, ho, hs'⟩ := hv d m { s with rest := c0 :: u ++ tail, path := s.path ++ indexText i, name := some (dec i) } [] tail ops
    rfl blank_nil (fun _ _ _ => ht) hd h31 hneed hnul hlast (by simp only [List.length_append, hlen]; rw [← Nat.add_assoc]; exact hf) hin.st
    (by
      show Place ops (some (dec i)) s.ctx.frames
      rw [hin.frames]
      exact .mem (hin.sub _ hin.cr) hdn (dec_noNul i) (by omega)) hs
  have hlo : linkOps (some (dec i)) s.ctx.frames x = [.set v (dec i) x] := linkOps_eq hin.frames
  have had := ho.adv
  have hbt := ho.built
  simp only [hlo] at had hbt
  have hvc : created ops v := hin.sub _ hin.cr
  have hpne : ∀ o ∈ pre, o.target ≠ v := fun o h e => ho.preNew o h (e ▸ hvc)
  have hine : ∀ o ∈ inner, o.target ≠ v := fun o h e => ho.innerNew o h (e ▸ hvc)
  have hnew : ∀ o ∈ inner ++ ([.set v (dec i) x] ++ pre), o.target = v ∨ ¬ created ops o.target := by
    intro o h
    rcases List.mem_append.1 h with h | h
    · exact .inr (ho.innerNew o h)
    rcases List.mem_append.1 h with h | h
    · rw [List.mem_singleton] at h; subst h; exact .inl rfl
    · exact .inr (ho.preNew o h)
  have hops : inner ++ ([.set v (dec i) x] ++ (pre ++ ops)) = (inner ++ ([.set v (dec i) x] ++ pre)) ++ ops := by simp
  refine ⟨{ s' with path := s.path }, x, inner ++ ([.set v (dec i) x] ++ pre), ?_, hrest, rfl, ⟨?_, ?_, ?_, hin.cr, ?_, ?_, ?_⟩, ⟨had.error, ?_, had.keeps, hnew⟩, hs'⟩
  · rw [arrLoop]
    simp only [hsk, List.cons_append, List.head?_cons, Option.some.injEq]
    rw [if_neg h93]
    simp only [List.cons_append] at hap
    simp only [hap, elemName_eq h0]
    simp only [List.cons_append] at e
    rw [e]
    simp only [Res.bind]
    rw [truncate_back hpath]
  · rw [← hops]; exact had.st
  · exact had.frames.trans hin.frames
  · exact fun u hu => created_append _ (hin.sub u hu)
  · rw [← hops]
    refine arrayOps_append inner hine ?_
    rw [← setAt_push, hxs]
    exact .set (arrayOps_append pre hpne hin.arr) (by unfold IsIndex; omega) (dec_numeral i)
  · simp [hin.len]
  · intro q y j' hy hj
    rw [List.getElem?_append] at hy hj
    rw [hin.len] at hy
    by_cases hq : q < l.length
    · rw [if_pos hq] at hy hj
      refine (hin.parts q y j' hy hj).mono _ (fun o h hcr => ?_) had.keeps (fun _ h => h)
      rcases hnew o h with h' | h'
      · exact h' ▸ hin.cr
      · exact (h' hcr).elim
    · rw [if_neg hq] at hy hj
      rcases Nat.eq_zero_or_pos (q - l.length) with hz | hz
      · rw [hz] at hy hj
        cases hy; cases hj
        rw [← hops]
        exact hbt.mono (new := []) (by simp) (.refl _) hin.sub
      · obtain ⟨q', hq'⟩ : ∃ q', q - l.length = q' + 1 := ⟨q - l.length - 1, by omega⟩
        rw [hq'] at hy; cases hy
  · exact ho.nested (by rw [hin.frames]; simp)

theorem LoopOut.trans {a b c : Ctx} {v : Val} {ops new new' : List ObjOp} (h1 : LoopOut a b v ops new) (h2 : LoopOut b c v (new ++ ops) new') :
    LoopOut a c v ops (new' ++ new) := by
  refine ⟨h2.error.trans h1.error, h2.result.trans h1.result, h1.keeps.trans h2.keeps, fun o ho => ?_⟩
  rcases List.mem_append.1 ho with h | h
  · rcases h2.new o h with h | h
    · exact .inl h
    · exact .inr fun hc => h (created_append _ hc)
  · exact h1.new o h

theorem LoopOut.refl (c : Ctx) (v : Val) (ops : List ObjOp) : LoopOut c c v ops [] := ⟨rfl, rfl, .refl _, by simp⟩

/-- Closing brackets and commas end a value. -/
theorem stops_close {w r : List UInt8} {c : UInt8} (h : Blank w) (hc : c = 44 ∨ c = 93 ∨ c = 125) : Stops (w ++ c :: r) :=
  stops_blank h ⟨c, r, rfl, by rcases hc with h | h | h <;> simp [h]⟩

/-- The loop over the elements. -/
theorem arrLoop_ok {K : List UInt8 → Key → Prop} {M : Nat} (hv : ∀ j t, Writes K j t → t.length < M → VS cmem numText need E j t) {d : Nat}
    {base : List ObjOp} {v : Val} {fs : List Val} {tail : List UInt8} (hM : M ≤ d) (hneed : M + 255 ≤ need) {l : List J} {t : List UInt8}
    (h : Sep (Writes K) l t) : ∀ (n m : Nat) (s : S Ctx) (w : List UInt8) (ops : List ObjOp) (xs : List Val) (l0 : List J),
    s.rest = w ++ (t ++ 93 :: tail) → Blank w → t.length < n → t.length < M → xs.length + t.length < 2 ^ 31 → (0 : UInt8) ∉ s.path →
    (∀ (q : Nat) (j : J), l[q]? = some j → s.path.length + (dec (xs.length + q)).length + 2 ≤ 255 ∧
      Fits (s.path.length + (dec (xs.length + q)).length + 2) j) →
    InArr cmem numText E base ops s.ctx v fs xs l0 → Supplied need (m + 2 * t.length) s.ctx.heap s.ctx.al →
    ∃ s' xs' new, arrLoop (parseValue (frozenCb E) d) n xs.length s = .ok s' ∧ s'.rest = 93 :: tail ∧ s'.path = s.path ∧
      InArr cmem numText E base (new ++ ops) s'.ctx v fs xs' (l0 ++ l) ∧ xs'.length = xs.length + l.length ∧
      LoopOut s.ctx s'.ctx v ops new ∧ Supplied need m s'.ctx.heap s'.ctx.al := by
  have close : ∀ (n i : Nat) (s : S Ctx) (w : List UInt8), s.rest = w ++ 93 :: tail → Blank w → 0 < n →
      arrLoop (parseValue (frozenCb E) d) n i s = .ok { s with rest := 93 :: tail } := by
    intro n i s w hr hw hn
    cases n with
    | zero => omega
    | succ n =>
      rw [arrLoop]
      simp only [skip_blank hr hw (show isSpace 93 = false from rfl), List.head?_cons, if_true]
  induction h with
  | none =>
    intro n m s w ops xs l0 hr hw hn _ _ _ _ hin hs
    exact ⟨{ s with rest := 93 :: tail }, xs, [], close n _ s w hr hw (by omega), rfl, rfl, by simpa using hin, rfl, .refl _ _ _, hs⟩
  | @last a t w' ha hw' =>
    intro n m s w ops xs l0 hr hw hn hM' h31 h0 hfit hin hs
    cases n with
    | zero => omega
    | succ n =>
      have hlt : (t ++ w').length = t.length + w'.length := List.length_append
      obtain ⟨f1, f2⟩ := hfit 0 a rfl
      obtain ⟨s', x, new, e, hr', hp', hin', hlo, hs'⟩ := elem_step (d := d) (n := n) (m := m) (hv a t ha (by omega)) (writes_head ha) (by rw [hr, List.append_assoc]) hw
        (stops_close (r := tail) hw' (.inr (.inl rfl))) (by omega) (by omega) (by omega) (by omega) rfl h0 f1 f2 hin (Supplied.le hs (by omega))
      have hne := writes_head ha
      have ht : 0 < t.length := by obtain ⟨_, _, rfl, _⟩ := hne; simp
      refine ⟨{ skipComma s' with rest := 93 :: tail }, xs ++ [x], new, ?_, rfl, ?_, ?_, by simp, ?_, ?_⟩
      · rw [e]
        have := skipComma_none hr' hw' (by rfl) (by decide)
        rw [this]
        exact close n _ _ [] rfl blank_nil (by omega)
      · exact (skipComma_path s').trans hp'
      all_goals rw [skipComma_none hr' hw' (by rfl) (by decide)]; assumption
  | @more a b l t w' w'' t' ha hw' hw'' _ ih =>
    intro n m s w ops xs l0 hr hw hn hM' h31 h0 hfit hin hs
    cases n with
    | zero => omega
    | succ n =>
      have hlt : (t ++ (w' ++ 44 :: (w'' ++ t'))).length = t.length + (w'.length + (w''.length + t'.length + 1)) := by simp
      obtain ⟨f1, f2⟩ := hfit 0 a rfl
      have hs0 : Supplied need (m + 2 * t'.length + 2 * t.length) s.ctx.heap s.ctx.al := Supplied.le hs (by omega)
      obtain ⟨s', x, new, e, hr', hp', hin', hlo, hs'⟩ := elem_step (d := d) (n := n) (hv a t ha (by omega)) (writes_head ha)
        (tail := w' ++ 44 :: (w'' ++ (t' ++ 93 :: tail))) (by rw [hr]; simp) hw
        (stops_close hw' (.inl rfl)) (by omega) (by omega) (by omega) (by omega) rfl h0 f1 f2 hin hs0
      have hne := writes_head ha
      have ht : 0 < t.length := by obtain ⟨_, _, rfl, _⟩ := hne; simp
      have hsc := skipComma_comma hr' hw'
      obtain ⟨s2, xs2, new2, e2, hr2, hp2, hin2, hl2, hlo2, hs2⟩ := ih n m (skipComma s') w'' (new ++ ops) (xs ++ [x]) (l0 ++ [a])
        (by rw [hsc]) hw'' (by omega) (by omega) (by simp; omega) (by rw [skipComma_path, hp']; exact h0)
        (fun q j hq => by
          have := hfit (q + 1) j hq
          rw [skipComma_path, hp']
          simp only [List.length_append, List.length_cons, List.length_nil]
          rw [show xs.length + (0 + 1) + q = xs.length + (q + 1) from by omega]
          exact this)
        (by rw [hsc]; exact hin') (by rw [hsc]; exact hs')
      refine ⟨s2, xs2, new2 ++ new, ?_, hr2, ?_, ?_, ?_, ?_, hs2⟩
      · rw [e]
        simpa using e2
      · rw [hp2, skipComma_path, hp']
      · simpa using hin2
      · rw [hl2]; simp; omega
      · rw [hsc] at hlo2
        exact hlo.trans hlo2

theorem linkOps_target {ops : List ObjOp} {nm : Option (List UInt8)} {fs : List Val} {v : Val} (hp : Place ops nm fs) (hn : ¬ created ops v) :
    ∀ o ∈ linkOps nm fs v, o.target ≠ v := by
  cases hp with
  | root => simp [linkOps]
  | mem h1 =>
    intro o ho e
    simp only [linkOps, List.mem_singleton] at ho
    subst ho
    exact hn (e ▸ h1)

theorem sep_length {α : Type} {W : α → List UInt8 → Prop} {l : List α} {t : List UInt8} (h : Sep W l t) (hW : ∀ a t, W a t → 0 < t.length) :
    l.length ≤ t.length := by
  induction h with
  | none => simp
  | last ha _ => have := hW _ _ ha; simp; omega
  | more ha _ _ _ ih => have := hW _ _ ha; simp at ih ⊢; omega

/-- A whole array. -/
theorem array_ok {K : List UInt8 → Key → Prop} {l : List J} {w0 t0 : List UInt8} (hw0 : Blank w0) (hsep : Sep (Writes K) l t0)
    (hv : ∀ j t, Writes K j t → t.length < (91 :: (w0 ++ (t0 ++ [93]))).length → VS cmem numText need E j t) :
    VS cmem numText need E (.arr l) (91 :: (w0 ++ (t0 ++ [93]))) := by
  intro d m s w tail ops hr hw ht hd h31 hneed h0 hlast hf hc hpl hs
  cases d with
  | zero => omega
  | succ d =>
  have hlen : (91 :: (w0 ++ (t0 ++ [93]))).length = w0.length + t0.length + 2 := by simp; omega
  rw [hlen] at hd h31 hneed hs hv
  have hsk : skip s = { s with rest := 91 :: (w0 ++ (t0 ++ 93 :: tail)) } := skip_blank (by rw [hr]; simp) hw (by rfl)
  have hs0 : Supplied need (m + 2 * t0.length + 1 + 1) s.ctx.heap s.ctx.al := Supplied.le hs (by omega)
  obtain ⟨c1, v, e1, a1, s1, r1, n1, o1, ar1⟩ := tokenArray_ok (E := E) (e := ⟨s.name, .arrayStart, [], 0, s.path⟩) hc rfl hs0
  obtain ⟨c2, e2, st2, f2, er2, k2, s2, q1, q2⟩ := start_ok e1 (.inr rfl) o1 a1 r1 (hpl.append [.new v]) (by omega) s1
  cases hf with
  | arr hf1 hf2 =>
  have hcr : created (linkOps s.name s.ctx.frames v ++ .new v :: ops) v := created_append _ (.inl rfl)
  have htg := linkOps_target (v := v) hpl n1
  have hin : InArr cmem numText E (linkOps s.name s.ctx.frames v ++ .new v :: ops) (linkOps s.name s.ctx.frames v ++ .new v :: ops) c2 v s.ctx.frames [] [] :=
    ⟨st2, f2, fun _ h => h, hcr, arrayOps_append _ htg .new, rfl, by simp⟩
  obtain ⟨s3, xs, new, e3, hr3, hp3, hin3, hl3, hlo3, hs3⟩ := arrLoop_ok (d := d) (tail := tail) hv (by omega) hneed hsep
    ((w0 ++ (t0 ++ 93 :: tail)).length + 1) m { s with rest := w0 ++ (t0 ++ 93 :: tail), ctx := c2, name := none } w0 _ [] [] rfl hw0 (by simp; omega) (by omega)
    (by simp; omega) h0 (fun q j hq => by
      rw [show ([] : List Val).length + q = q from Nat.zero_add q]
      exact ⟨hf1 q j _ hq (dec_numeral q), hf2 q j _ hq (dec_numeral q)⟩) hin s2
  have hsub : ∀ u, created ops u → created (linkOps s.name s.ctx.frames v ++ .new v :: ops) u := fun u hu => created_append _ (.inr hu)
  refine ⟨{ s3 with rest := tail, name := none, path := s.path, ctx := { s3.ctx with frames := s.ctx.frames } }, v, new, [.new v], ?_, rfl, rfl,
    ⟨⟨⟨hin3.st.hist, hin3.st.noNul⟩, rfl, hlo3.error.trans er2, k2.trans hlo3.keeps⟩, fun h => hlo3.result.trans (q1 h), fun h => hlo3.result.trans (q2 h),
      fun o ho hcr' => ?_, (fun o ho => by rw [List.mem_singleton] at ho; subst ho; exact n1), ?_⟩, hs3⟩
  · simp only [parseValue, hsk, List.head?_cons]
    rw [if_neg (by decide), if_neg (by decide), if_pos trivial]
    unfold parseArray
    rw [callBack_some (s := { s with rest := 91 :: (w0 ++ (t0 ++ 93 :: tail)) }) (c := c2) hlast e2]
    simp only [Res.bind]
    rw [testAndSkip_blank (w := []) rfl blank_nil (by rfl)]
    simp only [Res.bind]
    simp only [List.length_nil] at e3
    rw [e3]
    simp only [Res.bind]
    rw [testAndSkip_blank (w := []) hr3 blank_nil (by rfl)]
    simp only [Res.bind]
    have hp3' : s3.path = s.path := hp3
    rw [truncate_back (p := s.path) (str := []) (by simp [hp3'])]
    simp only
    rw [callBack_some (s := { s3 with rest := tail, path := s.path }) (c := { s3.ctx with frames := s.ctx.frames }) hlast (end_ok (.inr rfl) hin3.frames)]
  · rcases hlo3.new o ho with h | h
    · exact n1 (h ▸ hcr')
    · exact h (hsub _ hcr')
  · refine .arr xs n1 (created_append _ hcr) ar1 hin3.arr ?_ (by simpa using hl3) (fun i x j hx hj => ?_)
    · have : l.length ≤ t0.length := sep_length hsep fun a t ha => by obtain ⟨_, _, rfl, _⟩ := writes_head ha; simp
      simp only [List.length_nil] at hl3
      omega
    · exact (hin3.parts i x j hx hj).mono [] (by simp) (.refl _) hsub

/-! ### Objects -/

/-- The state inside the loop over the members. -/
structure InObj (cmem : Nat → Option UInt8) (numText : Val → List UInt8) (E : Env) (base ops : List ObjOp) (c : Ctx) (v : Val) (fs : List Val) (xs : List (Key × Val))
    (l : List (Key × J)) : Prop where
  st : Hst cmem numText c ops
  frames : c.frames = v :: fs
  sub : ∀ u, created base u → created ops u
  cr : created base v
  cur : ∀ k, current ops v k = lastOf xs k
  short : ∀ x ∈ xs, x.1.length < 2 ^ 32
  keys : xs.map (·.1) = l.map (·.1)
  parts : ∀ (i : Nat) (x : Key × Val) (j : Key × J), xs[i]? = some x → l[i]? = some j → Built E base ops c.heap.str x.2 j.2

/-- The key of a member. -/
theorem parseKey_eq {σ : Type} {cb : σ → Event → Option σ} {s : S σ} {k tail : List UInt8} (hr : s.rest = 34 :: (k ++ 34 :: tail)) (hk : Chars k k)
    (hp : s.path.getLast? = some 46) : parseKey cb s = .ok { s with rest := tail } := by
  unfold parseKey
  rw [skip_blank (w := []) hr blank_nil (by rfl)]
  simp only [List.head?_cons]
  rw [if_neg (by decide), if_pos (by trivial), parseString_eq rfl hk, callBack_dot (by exact hp)]
  simp only [Res.bind, advance, drop_body]

/-- One member. -/
theorem pair_step {k : Key} {j : J} {w1 w2 t : List UInt8} (hk : PlainKey k k) (hw1 : Blank w1) (hw2 : Blank w2) (hv : VS cmem numText need E j t)
    {d n m : Nat} {s : S Ctx} {w tail : List UInt8} {base ops : List ObjOp} {v : Val} {fs : List Val} {xs : List (Key × Val)} {l : List (Key × J)}
    (hr : s.rest = w ++ (34 :: (k ++ 34 :: (w1 ++ 58 :: (w2 ++ t))) ++ tail)) (hw : Blank w) (ht : Stops tail) (hd : t.length < d) (h31 : t.length < 2 ^ 31)
    (hneed : t.length + 255 ≤ need)
    (h0 : (0 : UInt8) ∉ s.path) (hdot : s.path.getLast? = some 46) (hl : s.path.length + k.length ≤ 255)
    (hf : Fits (s.path.length + k.length) j) (hin : InObj cmem numText E base ops s.ctx v fs xs l)
    (hs : Supplied need (m + 2 * t.length) s.ctx.heap s.ctx.al) :
    ∃ s' x new, objLoop (frozenCb E) (parseValue (frozenCb E) d) (n + 1) s = objLoop (frozenCb E) (parseValue (frozenCb E) d) n (skipComma s') ∧
      s'.rest = tail ∧ s'.path = s.path ∧ InObj cmem numText E base (new ++ ops) s'.ctx v fs (xs ++ [(k, x)]) (l ++ [(k, j)]) ∧
      LoopOut s.ctx s'.ctx v ops new ∧ Supplied need m s'.ctx.heap s'.ctx.al := by
  obtain ⟨_, hch, h92, hne, h46⟩ := hk
  have hk0 := chars_noNul hch
  have hsk : skip s = { s with rest := 34 :: (k ++ 34 :: (w1 ++ 58 :: (w2 ++ (t ++ tail)))) } := skip_blank (by rw [hr]; simp) hw (by rfl)
  have hnul : (0 : UInt8) ∉ s.path ++ k := by
    intro h
    rcases List.mem_append.1 h with h | h
    · exact h0 h
    · exact hk0 h
  have hlast : (s.path ++ k).getLast? ≠ some 46 := by
    rw [List.getLast?_append]
    cases hg : k.getLast? with
    | none => exact (hne (List.getLast?_eq_none_iff.1 hg)).elim
    | some c => rw [hg] at h46; simpa using h46
  obtain ⟨s', x, inner, pre, e, hrest, hpath, ho, hs'⟩ := hv d m { s with rest := w2 ++ (t ++ tail), path := s.path ++ k, name := some k } w2 tail ops
    rfl hw2 (fun _ _ _ => ht) hd h31 hneed hnul hlast (by simpa only [List.length_append] using hf) hin.st
    (by
      show Place ops (some k) s.ctx.frames
      rw [hin.frames]
      exact .mem (hin.sub _ hin.cr) hne hk0 (by omega)) hs
  have hlo : linkOps (some k) s.ctx.frames x = [.set v k x] := linkOps_eq hin.frames
  have had := ho.adv
  have hbt := ho.built
  simp only [hlo] at had hbt
  have hvc : created ops v := hin.sub _ hin.cr
  have hpne : ∀ o ∈ pre, o.target ≠ v := fun o h e => ho.preNew o h (e ▸ hvc)
  have hine : ∀ o ∈ inner, o.target ≠ v := fun o h e => ho.innerNew o h (e ▸ hvc)
  have hnew : ∀ o ∈ inner ++ ([.set v k x] ++ pre), o.target = v ∨ ¬ created ops o.target := by
    intro o h
    rcases List.mem_append.1 h with h | h
    · exact .inr (ho.innerNew o h)
    rcases List.mem_append.1 h with h | h
    · rw [List.mem_singleton] at h; subst h; exact .inl rfl
    · exact .inr (ho.preNew o h)
  have hops : inner ++ ([.set v k x] ++ (pre ++ ops)) = (inner ++ ([.set v k x] ++ pre)) ++ ops := by simp
  refine ⟨{ s' with path := s.path }, x, inner ++ ([.set v k x] ++ pre), ?_, hrest, rfl, ⟨?_, ?_, ?_, hin.cr, ?_, ?_, ?_, ?_⟩, ⟨had.error, ?_, had.keeps, hnew⟩, hs'⟩
  · rw [objLoop]
    simp only [hsk, List.head?_cons, Option.some.injEq]
    rw [if_neg (by decide)]
    unfold parsePair
    rw [skip_blank (w := []) rfl blank_nil (by rfl)]
    dsimp only
    rw [parseKey_eq (s := { s with rest := 34 :: (k ++ 34 :: (w1 ++ 58 :: (w2 ++ (t ++ tail)))) }) rfl hch hdot]
    simp only [Res.bind]
    have hkn : keyName (34 :: (k ++ 34 :: (w1 ++ 58 :: (w2 ++ (t ++ tail)))))
        ((34 :: (k ++ 34 :: (w1 ++ 58 :: (w2 ++ (t ++ tail))))).length - (w1 ++ 58 :: (w2 ++ (t ++ tail))).length) = k := by
      unfold keyName
      rw [if_pos (by rfl)]
      rw [show (34 :: (k ++ 34 :: (w1 ++ 58 :: (w2 ++ (t ++ tail))))).length - (w1 ++ 58 :: (w2 ++ (t ++ tail))).length - 2 = k.length from by
        simp only [List.length_cons, List.length_append]; omega]
      simp
    rw [hkn, append_full (by exact hl), testAndSkip_blank rfl hw1 (by rfl)]
    simp only
    rw [e]
    simp only
    rw [truncate_back hpath]
  · rw [← hops]; exact had.st
  · exact had.frames.trans hin.frames
  · exact fun u hu => created_append _ (hin.sub u hu)
  · intro k'
    rw [← hops, current_append inner hine, lastOf_snoc, ← hin.cur k', ← current_append (ops := ops) pre hpne]
    show (if v = v ∧ k' = k then some x else _) = _
    by_cases h : k' = k <;> simp [h]
  · intro y hy
    rcases List.mem_append.1 hy with h | h
    · exact hin.short y h
    · rw [List.mem_singleton] at h; subst h; simp only; omega
  · simp [hin.keys]
  · have hll : xs.length = l.length := by have := congrArg List.length hin.keys; simpa using this
    intro q y j' hy hj
    rw [List.getElem?_append] at hy hj
    rw [hll] at hy
    by_cases hq : q < l.length
    · rw [if_pos hq] at hy hj
      refine (hin.parts q y j' hy hj).mono _ (fun o h hcr => ?_) had.keeps (fun _ h => h)
      rcases hnew o h with h' | h'
      · exact h' ▸ hin.cr
      · exact (h' hcr).elim
    · rw [if_neg hq] at hy hj
      rcases Nat.eq_zero_or_pos (q - l.length) with hz | hz
      · rw [hz] at hy hj
        cases hy; cases hj
        rw [← hops]
        exact hbt.mono (new := []) (by simp) (.refl _) hin.sub
      · obtain ⟨q', hq'⟩ : ∃ q', q - l.length = q' + 1 := ⟨q - l.length - 1, by omega⟩
        rw [hq'] at hy; cases hy
  · exact ho.nested (by rw [hin.frames]; simp)

/-- The loop over the members. -/
theorem objLoop_ok {M : Nat} (hv : ∀ j t, Writes PlainKey j t → t.length < M → VS cmem numText need E j t) {d : Nat}
    {base : List ObjOp} {v : Val} {fs : List Val} {tail : List UInt8} (hM : M ≤ d) (hM31 : M ≤ 2 ^ 31) (hneed : M + 255 ≤ need) {l : List (Key × J)} {t : List UInt8}
    (h : Sep (Member PlainKey (Writes PlainKey)) l t) : ∀ (n m : Nat) (s : S Ctx) (w : List UInt8) (ops : List ObjOp) (xs : List (Key × Val)) (l0 : List (Key × J)),
    s.rest = w ++ (t ++ 125 :: tail) → Blank w → t.length < n → t.length < M → (0 : UInt8) ∉ s.path → s.path.getLast? = some 46 →
    (∀ k j, (k, j) ∈ l → s.path.length + k.length ≤ 255 ∧ Fits (s.path.length + k.length) j) →
    InObj cmem numText E base ops s.ctx v fs xs l0 → Supplied need (m + 2 * t.length) s.ctx.heap s.ctx.al →
    ∃ s' xs' new, objLoop (frozenCb E) (parseValue (frozenCb E) d) n s = .ok s' ∧ s'.rest = 125 :: tail ∧ s'.path = s.path ∧
      InObj cmem numText E base (new ++ ops) s'.ctx v fs xs' (l0 ++ l) ∧
      LoopOut s.ctx s'.ctx v ops new ∧ Supplied need m s'.ctx.heap s'.ctx.al := by
  have close : ∀ (n : Nat) (s : S Ctx) (w : List UInt8), s.rest = w ++ 125 :: tail → Blank w → 0 < n →
      objLoop (frozenCb E) (parseValue (frozenCb E) d) n s = .ok { s with rest := 125 :: tail } := by
    intro n s w hr hw hn
    cases n with
    | zero => omega
    | succ n =>
      rw [objLoop]
      simp only [skip_blank hr hw (show isSpace 125 = false from rfl), List.head?_cons, if_true]
  induction h with
  | none =>
    intro n m s w ops xs l0 hr hw hn _ _ _ _ hin hs
    exact ⟨{ s with rest := 125 :: tail }, xs, [], close n s w hr hw (by omega), rfl, rfl, by simpa using hin, .refl _ _ _, hs⟩
  | @last a t w' ha hw' =>
    intro n m s w ops xs l0 hr hw hn hM' h0 hdot hfit hin hs
    cases n with
    | zero => omega
    | succ n =>
      cases ha with
      | @mk body k j w1 w2 t hk hw1 hw2 hj =>
      obtain rfl := hk.1
      have hlt : (34 :: (body ++ 34 :: (w1 ++ 58 :: (w2 ++ t))) ++ w').length = body.length + w1.length + w2.length + t.length + w'.length + 3 := by simp; omega
      obtain ⟨f1, f2⟩ := hfit body j (by simp)
      obtain ⟨s', x, new, e, hr', hp', hin', hlo, hs'⟩ := pair_step (d := d) (n := n) (m := m) hk hw1 hw2 (hv j t hj (by omega)) (tail := w' ++ 125 :: tail)
        (by rw [hr, List.append_assoc]) hw
        (stops_close (r := tail) hw' (.inr (.inr rfl))) (by omega) (by omega) (by omega) h0 hdot f1 f2 hin (Supplied.le hs (by omega))
      refine ⟨{ skipComma s' with rest := 125 :: tail }, xs ++ [(body, x)], new, ?_, rfl, ?_, ?_, ?_, ?_⟩
      · rw [e]
        have := skipComma_none hr' hw' (by rfl) (by decide)
        rw [this]
        exact close n _ [] rfl blank_nil (by omega)
      · exact (skipComma_path s').trans hp'
      all_goals rw [skipComma_none hr' hw' (by rfl) (by decide)]; assumption
  | @more a b l t w' w'' t' ha hw' hw'' _ ih =>
    intro n m s w ops xs l0 hr hw hn hM' h0 hdot hfit hin hs
    cases n with
    | zero => omega
    | succ n =>
      cases ha with
      | @mk body k j w1 w2 t hk hw1 hw2 hj =>
      obtain rfl := hk.1
      have hlt : (34 :: (body ++ 34 :: (w1 ++ 58 :: (w2 ++ t))) ++ (w' ++ 44 :: (w'' ++ t'))).length =
        body.length + w1.length + w2.length + t.length + w'.length + w''.length + t'.length + 4 := by simp; omega
      obtain ⟨f1, f2⟩ := hfit body j (by simp)
      have hs0 : Supplied need (m + 2 * t'.length + 2 * t.length) s.ctx.heap s.ctx.al := Supplied.le hs (by omega)
      obtain ⟨s', x, new, e, hr', hp', hin', hlo, hs'⟩ := pair_step (d := d) (n := n) hk hw1 hw2 (hv j t hj (by omega))
        (tail := w' ++ 44 :: (w'' ++ (t' ++ 125 :: tail))) (by rw [hr]; simp) hw
        (stops_close hw' (.inl rfl)) (by omega) (by omega) (by omega) h0 hdot f1 f2 hin hs0
      have hsc := skipComma_comma hr' hw'
      obtain ⟨s2, xs2, new2, e2, hr2, hp2, hin2, hlo2, hs2⟩ := ih n m (skipComma s') w'' (new ++ ops) (xs ++ [(body, x)]) (l0 ++ [(body, j)])
        (by rw [hsc]) hw'' (by omega) (by omega) (by rw [skipComma_path, hp']; exact h0) (by rw [skipComma_path, hp']; exact hdot)
        (fun k j hq => by
          rw [skipComma_path, hp']
          exact hfit k j (List.mem_cons_of_mem _ hq))
        (by rw [hsc]; exact hin') (by rw [hsc]; exact hs')
      refine ⟨s2, xs2, new2 ++ new, ?_, hr2, ?_, ?_, ?_, hs2⟩
      · rw [e]; exact e2
      · rw [hp2, skipComma_path, hp']
      · simpa using hin2
      · rw [hsc] at hlo2
        exact hlo.trans hlo2

/-- A whole object. -/
theorem object_ok {l : List (Key × J)} {w0 t0 : List UInt8} (hw0 : Blank w0) (hsep : Sep (Member PlainKey (Writes PlainKey)) l t0)
    (hv : ∀ j t, Writes PlainKey j t → t.length < (123 :: (w0 ++ (t0 ++ [125]))).length → VS cmem numText need E j t) :
    VS cmem numText need E (.obj l) (123 :: (w0 ++ (t0 ++ [125]))) := by
  intro d m s w tail ops hr hw ht hd h31 hneed h0 hlast hf hc hpl hs
  cases d with
  | zero => omega
  | succ d =>
  have hlen : (123 :: (w0 ++ (t0 ++ [125]))).length = w0.length + t0.length + 2 := by simp; omega
  rw [hlen] at hd h31 hneed hs hv
  have hsk : skip s = { s with rest := 123 :: (w0 ++ (t0 ++ 125 :: tail)) } := skip_blank (by rw [hr]; simp) hw (by rfl)
  have hs0 : Supplied need (m + 2 * t0.length + 1 + 1) s.ctx.heap s.ctx.al := Supplied.le hs (by omega)
  obtain ⟨c1, v, e1, a1, s1, r1, n1, o1, ar1⟩ := tokenObject_ok (E := E) (e := ⟨s.name, .objectStart, [], 0, s.path⟩) hc rfl hs0
  obtain ⟨c2, e2, st2, f2, er2, k2, s2, q1, q2⟩ := start_ok e1 (.inl rfl) o1 a1 r1 (hpl.append [.new v]) (by omega) s1
  cases hf with
  | obj hf0 hf1 hf2 =>
  have hcr : created (linkOps s.name s.ctx.frames v ++ .new v :: ops) v := created_append _ (.inl rfl)
  have htg := linkOps_target (v := v) hpl n1
  have hin : InObj cmem numText E (linkOps s.name s.ctx.frames v ++ .new v :: ops) (linkOps s.name s.ctx.frames v ++ .new v :: ops) c2 v s.ctx.frames [] [] :=
    ⟨st2, f2, fun _ h => h, hcr, fun k => by rw [current_append _ htg]; exact if_pos rfl, by simp, rfl, by simp⟩
  have hap := append_full (s := { s with rest := w0 ++ (t0 ++ 125 :: tail), ctx := c2, name := none }) (str := [46]) hf0
  obtain ⟨s3, xs, new, e3, hr3, hp3, hin3, hlo3, hs3⟩ := objLoop_ok (d := d) (tail := tail) hv (by omega) (by omega) hneed hsep
    ((w0 ++ (t0 ++ 125 :: tail)).length + 1) m { s with rest := w0 ++ (t0 ++ 125 :: tail), ctx := c2, name := none, path := s.path ++ [46] } w0 _ [] [] rfl hw0 (by simp; omega) (by omega)
    (by simpa using h0) (by simp) (fun k j hq => by
      simp only [List.length_append, List.length_cons, List.length_nil, Nat.zero_add]
      exact ⟨hf1 k j hq, hf2 k j hq⟩) hin s2
  have hsub : ∀ u, created ops u → created (linkOps s.name s.ctx.frames v ++ .new v :: ops) u := fun u hu => created_append _ (.inr hu)
  refine ⟨{ s3 with rest := tail, name := none, path := s.path, ctx := { s3.ctx with frames := s.ctx.frames } }, v, new, [.new v], ?_, rfl, rfl,
    ⟨⟨⟨hin3.st.hist, hin3.st.noNul⟩, rfl, hlo3.error.trans er2, k2.trans hlo3.keeps⟩, fun h => hlo3.result.trans (q1 h), fun h => hlo3.result.trans (q2 h),
      fun o ho hcr' => ?_, (fun o ho => by rw [List.mem_singleton] at ho; subst ho; exact n1), ?_⟩, hs3⟩
  · simp only [parseValue, hsk, List.head?_cons]
    rw [if_neg (by decide), if_pos trivial]
    unfold parseObject
    rw [callBack_some (s := { s with rest := 123 :: (w0 ++ (t0 ++ 125 :: tail)) }) (c := c2) hlast e2]
    simp only [Res.bind]
    rw [testAndSkip_blank (w := []) rfl blank_nil (by rfl)]
    simp only [Res.bind]
    rw [hap, e3]
    simp only [Res.bind]
    rw [testAndSkip_blank (w := []) hr3 blank_nil (by rfl)]
    simp only [Res.bind]
    have hp3' : s3.path = s.path ++ [46] := hp3
    rw [truncate_back (s := { s3 with rest := tail }) (p := s.path) (str := [46]) hp3']
    simp only
    rw [callBack_some (s := { s3 with rest := tail, path := s.path }) (c := { s3.ctx with frames := s.ctx.frames }) hlast (end_ok (.inl rfl) hin3.frames)]
  · rcases hlo3.new o ho with h | h
    · exact n1 (h ▸ hcr')
    · exact h (hsub _ hcr')
  · exact .obj xs n1 (created_append _ hcr) ar1 hin3.cur hin3.short (by simpa using hin3.keys) (fun i x j hx hj =>
      (hin3.parts i x j hx hj).mono [] (by simp) (.refl _) hsub)

/-! ### All values -/

theorem value_ok : ∀ (N : Nat) (j : J) (t : List UInt8), Writes PlainKey j t → t.length < N → VS cmem numText need E j t
  | 0, _, _, _, h => by omega
  | N + 1, j, t, hw, h => by
    have ih := value_ok N
    cases hw with
    | arr hw0 hsep => exact array_ok hw0 hsep fun j t hj hl => ih j t hj (by omega)
    | obj hw0 hsep => exact object_ok hw0 hsep fun j t hj hl => ih j t hj (by omega)
    | null =>
      intro d m s w tail ops hr hw ht hd h31 hneed h0 hlast hf hc hpl hs
      cases d with
      | zero => omega
      | succ d =>
      obtain ⟨s', v, inner, pre, e, h1, h2, h3, h4⟩ := expect_out (E := E) (m := m) (s := { s with rest := [110, 117, 108, 108] ++ tail }) (t := .null) (v := mkNull) (j := .null)
        rfl hlast (fun _ _ _ _ _ => rfl) (by decide) (by decide) hc hpl (by omega : 255 ≤ need) (Supplied.le hs (by simp)) (fun _ _ => .null)
      refine ⟨s', v, inner, pre, ?_, h1, h2, h3, h4⟩
      rw [parseValue, skip_blank (r := [117, 108, 108] ++ tail) hr hw (by rfl)]
      exact e
    | true =>
      intro d m s w tail ops hr hw ht hd h31 hneed h0 hlast hf hc hpl hs
      cases d with
      | zero => omega
      | succ d =>
      obtain ⟨s', v, inner, pre, e, h1, h2, h3, h4⟩ := expect_out (E := E) (m := m) (s := { s with rest := [116, 114, 117, 101] ++ tail }) (t := .true) (v := mkBoolean true) (j := .bool true)
        rfl hlast (fun _ _ _ _ _ => rfl) (by decide) (by decide) hc hpl (by omega : 255 ≤ need) (Supplied.le hs (by simp)) (fun _ _ => .bool)
      refine ⟨s', v, inner, pre, ?_, h1, h2, h3, h4⟩
      rw [parseValue, skip_blank (r := [114, 117, 101] ++ tail) hr hw (by rfl)]
      exact e
    | false =>
      intro d m s w tail ops hr hw ht hd h31 hneed h0 hlast hf hc hpl hs
      cases d with
      | zero => omega
      | succ d =>
      obtain ⟨s', v, inner, pre, e, h1, h2, h3, h4⟩ := expect_out (E := E) (m := m) (s := { s with rest := [102, 97, 108, 115, 101] ++ tail }) (t := .false) (v := mkBoolean false) (j := .bool false)
        rfl hlast (fun _ _ _ _ _ => rfl) (by decide) (by decide) hc hpl (by omega : 255 ≤ need) (Supplied.le hs (by simp)) (fun _ _ => .bool)
      refine ⟨s', v, inner, pre, ?_, h1, h2, h3, h4⟩
      rw [parseValue, skip_blank (r := [97, 108, 115, 101] ++ tail) hr hw (by rfl)]
      exact e
    | @str body bs hb =>
      intro d m s w tail ops hr hw ht hd h31 hneed h0 hlast hf hc hpl hs
      cases d with
      | zero => omega
      | succ d =>
      have hlen : (34 :: (body ++ [34])).length = body.length + 2 := by simp
      rw [hlen] at hneed hs
      have hbl := chars_length hb
      have hs0 : Supplied need (m + 1 + 1) s.ctx.heap s.ctx.al := Supplied.le hs (by omega)
      obtain ⟨c1, v, e1, a1, s1, r1, i1, rd1⟩ := tokenString_ok (E := E) (need := need) (e := ⟨s.name, .string, body ++ 34 :: tail, body.length, s.path⟩) (bs := bs) hc rfl
        (by rw [List.take_left, unescape_chars hb]) (by omega) hs0
      obtain ⟨c', e, ho, hs'⟩ := scalar_out (j := .str bs) e1 (by decide) (isUndefined_of_string i1) a1 r1 hpl (by omega) s1
        (fun ops' st' hk => .str i1 (hk _ _ rd1))
      refine ⟨{ s with rest := tail, ctx := c', name := none }, v, [], [], ?_, rfl, rfl, ho, hs'⟩
      rw [parseValue, skip_blank (r := body ++ 34 :: tail) (c := 34) (by rw [hr]; simp) hw (by rfl)]
      simp only [List.head?_cons]
      rw [if_pos trivial, parseString_eq rfl hb, callBack_some (s := { s with rest := body ++ 34 :: tail }) (c := c') hlast e]
      simp only [Res.bind, advance, drop_body]
    | @num neg t hn =>
      intro d m s w tail ops hr hw ht hd h31 hneed h0 hlast hf hc hpl hs
      cases d with
      | zero => omega
      | succ d =>
      obtain ⟨h1, h2, c0, u, hcu, hdig⟩ := numeral_scan hn (ht _ _ rfl) neg
      obtain ⟨_, h2', _⟩ := numeral_scan hn (r := tail ++ [48]) (by obtain ⟨c, t, rfl, h⟩ := ht _ _ rfl; exact ⟨c, t ++ [48], rfl, h⟩) neg
      rw [List.append_assoc] at hr
      obtain ⟨c1, u1, hcu1, hsp, _⟩ := writes_head (K := PlainKey) (.num (neg := neg) hn)
      have hsk : skip s = { s with rest := (if neg then [45] else []) ++ (t ++ tail) } := by
        rw [← List.append_assoc, hcu1]
        exact skip_blank (by rw [hr, ← List.append_assoc _ t, hcu1]; rfl) hw hsp
      have hc45 : c0 ≠ 45 := by rintro rfl; exact absurd hdig.1 (by decide)
      have hst : strtod E ((if neg then [45] else []) ++ (t ++ tail)) = some (if neg then negD (E.numVal t) else E.numVal t) := by
        unfold strtod
        cases neg with
        | true =>
          simp only [if_true, List.cons_append, List.nil_append, List.head?_cons, List.drop_succ_cons, List.drop_zero, List.append_assoc, h2, h2', ne_eq,
            not_true_eq_false, if_false, List.take_left]
        | false =>
          have : ((t ++ tail).head? = some 45) = False := by rw [hcu]; simp [hc45]
          simp only [Bool.false_eq_true, if_false, List.nil_append, this, List.append_assoc, h2, h2', ne_eq, not_true_eq_false, List.take_left]
      obtain ⟨c', e, ho, hs'⟩ := scalar_out (E := E) (c := s.ctx) (j := .num neg t) (nm := s.name) (pa := s.path) (t := .number) (ptr := (if neg then [45] else []) ++ (t ++ tail))
        (len := ((if neg then [45] else []) ++ t).length) (m := m) (need := need) (ops := ops) (cmem := cmem) (numText := numText)
        (by simp only [tokenValue, hst]; rfl) (by decide) (isUndefined_mkNumber _)
        ⟨hc, rfl, rfl, .refl _⟩ rfl hpl (by omega) (Supplied.le hs (by rw [hcu]; simp; omega)) (fun ops' st' hk => .num)
      refine ⟨{ s with rest := tail, ctx := c', name := none }, _, [], [], ?_, rfl, rfl, ho, hs'⟩
      have hnum : parseNumber (frozenCb E) { s with rest := (if neg then [45] else []) ++ (t ++ tail) } = .ok { s with rest := tail, ctx := c', name := none } := by
        unfold parseNumber
        have : skip { s with rest := (if neg then [45] else []) ++ (t ++ tail) } = { s with rest := (if neg then [45] else []) ++ (t ++ tail) } := by
          rw [← List.append_assoc, hcu1]
          exact skip_blank (w := []) rfl blank_nil hsp
        rw [this]
        simp only [h1]
        rw [callBack_some (s := { s with rest := (if neg then [45] else []) ++ (t ++ tail) }) (c := c') hlast e]
        simp only [Res.bind, advance]
        rw [← List.append_assoc, List.drop_left]
      rw [parseValue, hsk, ← hnum]
      have hd1 : isDigit c0 = true := (digit_iff c0).1.2 hdig
      have hb := hdig
      unfold Digit at hb
      cases neg with
      | true => rfl
      | false =>
        simp only [Bool.false_eq_true, if_false, List.nil_append, hcu, List.cons_append, List.head?_cons]
        rw [if_neg, if_neg, if_neg, if_neg, if_neg, if_neg, if_pos (.inr hd1)]
        all_goals rintro rfl; revert hb; decide

end Mjs.Json
