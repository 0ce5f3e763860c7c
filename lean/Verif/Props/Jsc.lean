import Verif.Model.Jsc

/-!
# C100: scripts run the code that was made of them, with and without `.jsc` files
-/

namespace Mjs.Props
open Mjs.Jsc

/-- The name of the file: a script `x.js` has `x.jsc`, others have none. -/
theorem C100_name (path f : List UInt8) : jscName path = some f ↔ ∃ b, b ≠ [] ∧ path = b ++ [46, 106, 115] ∧ f = b ++ [46, 106, 115, 99] := by
  unfold jscName
  constructor
  · intro h
    split at h
    · rename_i hc
      refine ⟨path.take (path.length - 3), fun e => ?_, ?_, (Option.some.inj h).symm⟩
      · have := congrArg List.length e
        rw [List.length_take, List.length_nil] at this
        omega
      · rw [← hc.2, List.take_append_drop]
    · simp at h
  · rintro ⟨b, hb, rfl, rfl⟩
    have hl : 0 < b.length := List.length_pos_iff.2 hb
    have e : (b ++ [46, 106, 115] : List UInt8).length - 3 = b.length := by simp
    rw [if_pos ⟨by simp; exact hl, by rw [e, List.drop_left]⟩, e, List.take_left]

theorem mmap_some {d : Disk} {ok : Bool} {f b : List UInt8} (h : (mmap d ok f).1 = some b) : d.files f = some b := by
  unfold mmap at h
  split at h
  · simp at h
  · rename_i c hc
    dsimp only at h
    split at h
    · rw [hc, h]
    · simp at h

theorem mmap_ok {d : Disk} {f b : List UInt8} (h : d.files f = some b) (hb : b ≠ []) : (mmap d true f).1 = some b := by
  unfold mmap
  rw [h]
  dsimp only
  rw [if_pos ⟨rfl, hb⟩]

theorem view_rom (d : Disk) (f : List UInt8) (n : Nat) : view d (.rom f n) = (d.files f).bind fun b => if n ≤ b.length then some (b.take n) else none := rfl

/-- What executing a script does to files and parts, if nothing fails that matters. -/
theorem keep_cases {d : Disk} {g : Bool} {path code : List UInt8} {o : Oracle} (hc : code ≠ []) (hw : code.length ≤ o.writes) (hm : o.mapsAgain = true) :
    ((keep d g path code o).files = d.files ∧ (keep d g path code o).parts = d.parts ++ [.ram code]) ∨
    ∃ f, g = true ∧ jscName path = some f ∧ (keep d g path code o).files f = some code ∧ (∀ x, x ≠ f → (keep d g path code o).files x = d.files x) ∧
      (keep d g path code o).parts = d.parts ++ [.rom f code.length] := by
  unfold keep
  cases hn : (if g = true then jscName path else none) with
  | none => exact .inl ⟨rfl, rfl⟩
  | some f =>
    have hg : g = true ∧ jscName path = some f := by
      cases g
      · simp at hn
      · exact ⟨rfl, by simpa using hn⟩
    dsimp only
    have key : ∀ d2 : Disk, d2.files f = some code → (mmap d2 o.mapsAgain f).1 = some code := fun d2 h => by rw [hm]; exact mmap_ok h hc
    by_cases hr : (mmap d o.maps f).1 = some code
    · have hb : (!((mmap d o.maps f).1 == some code)) = false := by rw [hr]; simp
      have hf := mmap_some hr
      rw [hb, if_neg (by simp), if_neg (by simp)]
      refine .inr ⟨f, hg.1, hg.2, hf, fun _ _ => rfl, ?_⟩
      rw [key ⟨d.files, d.parts, (mmap d o.maps f).2⟩ hf]
    · have hb : (!((mmap d o.maps f).1 == some code)) = true := by simpa using hr
      rw [hb]
      by_cases ho : o.opens = true
      · rw [if_neg (by simp [ho]), if_pos rfl]
        refine .inr ⟨f, hg.1, hg.2, ?_, fun x hx => ?_, ?_⟩
        · show (if f = f then some (code.take o.writes) else _) = _
          rw [if_pos rfl, List.take_of_length_le hw]
        · show (if x = f then some (code.take o.writes) else _) = _
          rw [if_neg hx]
        · rw [key _ (by show (if f = f then some (code.take o.writes) else _) = _; rw [if_pos rfl, List.take_of_length_le hw])]
      · rw [if_pos ⟨rfl, ho⟩]
        exact .inl ⟨rfl, rfl⟩

/-- **C100, one script.** Whatever the files hold, and whether they can be written or not, the part added for a script shows its code.  Missing: a file that cannot be written in full or mapped
again, for which it is false (`C100_violation_short`). -/
theorem C100_fresh_partial {d : Disk} {g : Bool} {path code : List UInt8} {o : Oracle} (hc : code ≠ []) (hw : code.length ≤ o.writes) (hm : o.mapsAgain = true) :
    ∃ p, (keep d g path code o).parts = d.parts ++ [p] ∧ view (keep d g path code o) p = some code := by
  rcases keep_cases (d := d) (g := g) (path := path) hc hw hm with ⟨_, hp⟩ | ⟨f, _, _, hf, _, hp⟩
  · exact ⟨_, hp, rfl⟩
  · refine ⟨_, hp, ?_⟩
    rw [view_rom, hf, Option.bind_some, if_pos (Nat.le_refl _), List.take_length]

/-- Parts and the codes they were made for, and the files they are in. -/
inductive Show (d : Disk) (codeOf : List UInt8 → List UInt8) : List Part → List (List UInt8) → Prop
  | nil : Show d codeOf [] []
  | ram {c ps cs} : Show d codeOf ps cs → Show d codeOf (.ram c :: ps) (c :: cs)
  | rom {f ps cs} : d.files f = some (codeOf f) → Show d codeOf ps cs → Show d codeOf (.rom f (codeOf f).length :: ps) (codeOf f :: cs)

theorem Show.mono {d d' : Disk} {codeOf : List UInt8 → List UInt8} {ps : List Part} {cs : List (List UInt8)} (h : Show d codeOf ps cs)
    (hd : ∀ f, d.files f = some (codeOf f) → d'.files f = some (codeOf f)) : Show d' codeOf ps cs := by
  induction h with
  | nil => exact .nil
  | ram _ ih => exact .ram ih
  | rom hf _ ih => exact .rom (hd _ hf) ih

theorem Show.snoc {d : Disk} {codeOf : List UInt8 → List UInt8} {ps qs : List Part} {cs es : List (List UInt8)} (h : Show d codeOf ps cs) (h' : Show d codeOf qs es) :
    Show d codeOf (ps ++ qs) (cs ++ es) := by
  induction h with
  | nil => exact h'
  | ram _ ih => exact .ram ih
  | rom hf _ ih => exact .rom hf ih

theorem Show.view {d : Disk} {codeOf : List UInt8 → List UInt8} {ps : List Part} {cs : List (List UInt8)} (h : Show d codeOf ps cs) : ps.map (Jsc.view d) = cs.map some := by
  induction h with
  | nil => rfl
  | ram _ ih => rw [List.map_cons, List.map_cons, ih]; rfl
  | rom hf _ ih =>
    rw [List.map_cons, List.map_cons, ih]
    rw [view_rom, hf, Option.bind_some, if_pos (Nat.le_refl _), List.take_length]

theorem history_show {codeOf : List UInt8 → List UInt8} : ∀ (r : List (Bool × List UInt8 × List UInt8 × Oracle)) (d : Disk) (cs : List (List UInt8)), Show d codeOf d.parts cs →
    (∀ x ∈ r, x.2.2.1 ≠ [] ∧ x.2.2.1.length ≤ x.2.2.2.writes ∧ x.2.2.2.mapsAgain = true) → (∀ x ∈ r, ∀ f, jscName x.2.1 = some f → codeOf f = x.2.2.1) →
    Show (history d r) codeOf (history d r).parts (cs ++ r.map fun x => x.2.2.1) := by
  intro r
  induction r with
  | nil => intro d cs h _ _; simpa [history] using h
  | cons x r ih =>
    intro d cs h h1 h2
    obtain ⟨g, path, code, o⟩ := x
    obtain ⟨a1, a2, a3⟩ := h1 _ List.mem_cons_self
    dsimp only at a1 a2 a3
    rw [history]
    have hnext : Show (keep d g path code o) codeOf (keep d g path code o).parts (cs ++ [code]) := by
      rcases keep_cases (d := d) (g := g) (path := path) a1 a2 a3 with ⟨hf, hp⟩ | ⟨f, _, hn, hf, ho, hp⟩
      · rw [hp]
        exact (h.mono (fun f hf' => by rw [hf]; exact hf')).snoc (.ram .nil)
      · have e : codeOf f = code := h2 _ List.mem_cons_self f hn
        rw [hp]
        refine (h.mono (fun y hy => ?_)).snoc ?_
        · by_cases hyf : y = f
          · rw [hyf, hf, e]
          · rw [ho y hyf]; exact hy
        · have := Show.rom (d := keep d g path code o) (codeOf := codeOf) (f := f) (by rw [hf, e]) .nil
          rwa [e] at this
    have := ih _ _ hnext (fun y hy => h1 y (List.mem_cons_of_mem _ hy)) (fun y hy => h2 y (List.mem_cons_of_mem _ hy))
    simpa using this

/-- **C100, histories.** Whatever the files hold at first, however many scripts are executed and whether or not their files can be written: if scripts with the same name have the same code,
all parts show the code that they were made for at the end.  Missing: scripts that change, for which it is false (`C100_violation_changed`). -/
theorem C100_history_partial {d : Disk} (h0 : d.parts = []) {r : List (Bool × List UInt8 × List UInt8 × Oracle)}
    (h1 : ∀ x ∈ r, x.2.2.1 ≠ [] ∧ x.2.2.1.length ≤ x.2.2.2.writes ∧ x.2.2.2.mapsAgain = true) (h2 : ∀ x ∈ r, ∀ y ∈ r, x.2.1 = y.2.1 → x.2.2.1 = y.2.2.1) :
    (history d r).parts.map (view (history d r)) = r.map fun x => some x.2.2.1 := by
  have H := history_show (codeOf := fun f => ((r.find? fun x => jscName x.2.1 = some f).map fun x => x.2.2.1).getD []) r d [] (by rw [h0]; exact .nil) h1 (by
    intro x hx f hf
    cases hq : r.find? fun x => jscName x.2.1 = some f with
    | none => exact absurd hf (by simpa using List.find?_eq_none.1 hq x hx)
    | some y =>
      have hy : jscName y.2.1 = some f := by simpa using List.find?_some hq
      rw [Option.map_some, Option.getD_some]
      refine h2 y (List.mem_of_find?_eq_some hq) x hx ?_
      obtain ⟨b, _, e1, e2⟩ := (C100_name _ _).1 hf
      obtain ⟨b', _, e3, e4⟩ := (C100_name _ _).1 hy
      rw [e1, e3, List.append_cancel_right (e4.symm.trans e2)])
  have := H.view
  rw [this, List.nil_append, List.map_map]
  rfl

/-- **C100, a file that is up to date is left alone.** -/
theorem C100_up_to_date {d : Disk} {path code f : List UInt8} {o : Oracle} (hn : jscName path = some f) (hf : d.files f = some code) (hc : code ≠ []) (hm : o.maps = true) :
    (keep d true path code o).files = d.files := by
  unfold keep
  rw [if_pos rfl, hn]
  dsimp only
  have hb : (!((mmap d o.maps f).1 == some code)) = false := by rw [hm, mmap_ok hf hc]; simp
  rw [hb, if_neg (by simp), if_neg (by simp)]

/-- **C100, without the option** no file is used. -/
theorem C100_off (d : Disk) (path code : List UInt8) (o : Oracle) : keep d false path code o = { d with parts := d.parts ++ [.ram code] } := by
  unfold keep
  rw [if_neg (by simp)]

/-- **C100, other files are left alone**, whatever fails. -/
theorem C100_others (d : Disk) (g : Bool) (path code : List UInt8) (o : Oracle) (x : List UInt8) (hx : jscName path ≠ some x) : (keep d g path code o).files x = d.files x := by
  unfold keep
  cases hn : (if g = true then jscName path else none) with
  | none => rfl
  | some f =>
    have hf : x ≠ f := by
      rintro rfl
      cases g
      · simp at hn
      · exact hx (by simpa using hn)
    dsimp only
    split
    · rfl
    · split
      · exact if_neg hf
      · rfl

/-- **C100 is violated** if a script changes and is executed again: the functions of the first part now have the code of the second, or none. -/
theorem C100_violation_changed {d : Disk} {path c1 c2 f : List UInt8} {o : Oracle} (h0 : d.parts = []) (hn : jscName path = some f) (h1 : c1 ≠ []) (h2 : c2 ≠ [])
    (hw : c1.length ≤ o.writes) (hw2 : c2.length ≤ o.writes) (ho : o.opens = true) (hm : o.mapsAgain = true) (hne : ¬ c1 <+: c2) :
    ∃ p q, (history d [(true, path, c1, o), (true, path, c2, o)]).parts = [p, q] ∧ view (keep d true path c1 o) p = some c1 ∧
      view (history d [(true, path, c1, o), (true, path, c2, o)]) p ≠ some c1 := by
  have mapped : ∀ (d : Disk) (c : List UInt8), c ≠ [] → c.length ≤ o.writes → (keep d true path c o).files f = some c ∧ (keep d true path c o).parts = d.parts ++ [.rom f c.length] := by
    intro d c hc hw
    unfold keep
    rw [if_pos rfl, hn]
    dsimp only
    rw [if_neg (fun h => h.2 ho)]
    have hfile : ∀ d2 : Disk, d2.files f = some c → (mmap d2 o.mapsAgain f).1 = some c := fun d2 h => by rw [hm]; exact mmap_ok h hc
    by_cases hr : (mmap d o.maps f).1 = some c
    · have hb : (!((mmap d o.maps f).1 == some c)) = false := by rw [hr]; simp
      rw [hb, if_neg (by simp)]
      have hf := mmap_some hr
      exact ⟨hf, by rw [hfile ⟨d.files, d.parts, (mmap d o.maps f).2⟩ hf]⟩
    · have hb : (!((mmap d o.maps f).1 == some c)) = true := by simpa using hr
      rw [hb, if_pos rfl]
      have hx : (if f = f then some (c.take o.writes) else d.files f) = some c := by rw [if_pos rfl, List.take_of_length_le hw]
      exact ⟨hx, by rw [hfile _ hx]⟩
  obtain ⟨f1, p1⟩ := mapped d c1 h1 hw
  obtain ⟨f2, p2⟩ := mapped (keep d true path c1 o) c2 h2 hw2
  refine ⟨.rom f c1.length, .rom f c2.length, ?_, ?_, ?_⟩
  · show (keep (keep d true path c1 o) true path c2 o).parts = _
    rw [p2, p1, h0]; rfl
  · rw [view_rom, f1, Option.bind_some, if_pos (Nat.le_refl _), List.take_length]
  · show view (keep (keep d true path c1 o) true path c2 o) _ ≠ _
    rw [view_rom, f2, Option.bind_some]
    split
    · intro h
      exact hne ((Option.some.inj h) ▸ List.take_prefix _ _)
    · simp

/-- **C100 is violated** if the disk is full: the part shows a part of the code, or none. -/
theorem C100_violation_short {d : Disk} {path code f : List UInt8} {o : Oracle} (hn : jscName path = some f) (hf : d.files f = none) (ho : o.opens = true) (hw : o.writes < code.length) :
    ∃ p, (keep d true path code o).parts = d.parts ++ [p] ∧ view (keep d true path code o) p ≠ some code := by
  unfold keep
  rw [if_pos rfl, hn]
  dsimp only
  have hm : mmap d o.maps f = (none, d.fds) := by unfold mmap; rw [hf]
  have hb : (!((mmap d o.maps f).1 == some code)) = true := by rw [hm]; simp
  rw [hb, if_neg (fun h => h.2 ho), if_pos rfl]
  refine ⟨_, rfl, ?_⟩
  split
  · rename_i b hb'
    have hb := mmap_some hb'
    have hb : (if f = f then some (code.take o.writes) else d.files f) = some b := hb
    rw [if_pos rfl] at hb
    rw [view_rom]
    dsimp only
    rw [if_pos rfl, Option.bind_some]
    split
    · intro h
      have := congrArg List.length (Option.some.inj h)
      simp only [List.length_take] at this
      omega
    · simp
  · simp [view]

/-- **C100 is violated** with each script: a file descriptor is left open. -/
theorem C100_violation_descriptors {d : Disk} {path code f : List UInt8} {o : Oracle} (hn : jscName path = some f) (ho : o.opens = true) : d.fds < (keep d true path code o).fds := by
  have hle : ∀ d : Disk, ∀ ok, d.fds ≤ (mmap d ok f).2 := fun d ok => by unfold mmap; split <;> simp
  unfold keep
  rw [if_pos rfl, hn]
  dsimp only
  rw [if_neg (fun h => h.2 ho)]
  split
  · refine Nat.lt_of_le_of_lt (hle d o.maps) ?_
    unfold mmap
    simp
  · rename_i hr
    have hr : (mmap d o.maps f).1 = some code := by simpa using hr
    have hf := mmap_some hr
    refine Nat.lt_of_le_of_lt (hle d o.maps) ?_
    show _ < (mmap ⟨d.files, d.parts, (mmap d o.maps f).2⟩ o.mapsAgain f).2
    generalize (mmap d o.maps f).2 = k
    unfold mmap
    dsimp only
    rw [hf]
    simp

/-- Two histories of `a.js`: its code is 1 2 both times, or 1 2 and then 3. -/
def twice (c : List UInt8) : Disk := history ⟨fun _ => none, [], 0⟩ [(true, [97, 46, 106, 115], [1, 2], ⟨true, true, 10, true⟩), (true, [97, 46, 106, 115], c, ⟨true, true, 10, true⟩)]

/-- Non-vacuity: `a.js` is executed twice. -/
example : jscName [97, 46, 106, 115] = some [97, 46, 106, 115, 99] ∧ (twice [1, 2]).parts.map (view (twice [1, 2])) = [some [1, 2], some [1, 2]] ∧
    (twice [3]).parts.map (view (twice [3])) = [none, some [3]] ∧ (twice [3]).fds = 3 ∧ ¬ ([1, 2] : List UInt8) <+: [3] := by
  decide +kernel

end Mjs.Props
