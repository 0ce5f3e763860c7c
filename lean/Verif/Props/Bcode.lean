import Verif.Lemmas.Keeps
import Verif.Props.Machine

/-!
# C42: loaded code is stable

The scripts of an engine are numbered through: each byte of loaded code has an offset, which return addresses and function
values refer to.  Whatever is loaded and run afterwards, an offset keeps belonging to the same script.
-/

namespace Mjs.Props
open Mjs Mjs.Str Mjs.Obj Mjs.Spec Mjs.Core Mjs.Code Mjs.Exec Mjs.Bcode

/-- `b` has the code of `a` and, behind it, the code of further scripts. -/
def Grown (a b : Vm) : Prop := ∃ more : List (List UInt8), SameCode b (more.foldl commit a)

/-- The C functions that scripts call may load scripts, and change no code otherwise. -/
structure OnlyLoad (E : Env) : Prop where
  cfun : ∀ n a b, E.cfun n a = some b → Grown a b
  ffi : ∀ a b, E.ffi a = some b → Grown a b

/-- What can happen to an engine: a script is loaded, code is run from an offset, a function is called from C, or something is
done to values only (objects are made, values owned, the collector runs). -/
inductive Happens (E : Env) : Vm → Vm → Prop
  | load (vm : Vm) (bytes : List UInt8) : Happens E vm (commit vm bytes)
  | run {vm vm' : Vm} {off : Nat} {r : Val} : execute E vm off = some (vm', r) → Happens E vm vm'
  | call {vm vm' : Vm} {f this : Val} {args : List Val} {moved : Bool} {r : Option Val × Err} :
      apply E vm f this args moved = some (vm', r) → Happens E vm vm'
  | values {vm vm' : Vm} : vm'.parts = vm.parts → vm'.bcodeLen = vm.bcodeLen → Happens E vm vm'

/-- Any number of these, one after the other. -/
inductive Later (E : Env) : Vm → Vm → Prop
  | start (vm : Vm) : Later E vm vm
  | next {a b c : Vm} : Later E a b → Happens E b c → Later E a c

/-! ## Lemmas -/

/-- Where each script starts, and its bytes. -/
def codes (vm : Vm) : List (Nat × List UInt8) := vm.parts.map fun p => (p.startIdx, p.data)

/-- The scripts follow each other from offset `a` on to offset `e`. -/
def Chain : Nat → List (Nat × List UInt8) → Nat → Prop
  | a, [], e => a = e
  | a, p :: ps, e => p.1 = a ∧ Chain (a + p.2.length) ps e

theorem chain_append : ∀ (a e : Nat) (l : List (Nat × List UInt8)) (bs : List UInt8), Chain a l e → Chain a (l ++ [(e, bs)]) (e + bs.length)
  | a, e, [], bs, h => by cases h; exact ⟨rfl, rfl⟩
  | a, e, p :: ps, bs, h => ⟨h.1, chain_append _ _ ps bs h.2⟩

theorem chain_find : ∀ (a e : Nat) (l : List (Nat × List UInt8)) (off : Nat), Chain a l e → a ≤ off → off < e →
    ∃ c, l.find? (fun c => decide (off < c.1 + c.2.length)) = some c ∧ c.1 ≤ off ∧ off < c.1 + c.2.length
  | a, e, [], off, h, h1, h2 => by cases h; omega
  | a, e, p :: ps, off, h, h1, h2 => by
    obtain ⟨rfl, h⟩ := h
    by_cases hp : off < p.1 + p.2.length
    · exact ⟨p, by rw [List.find?_cons]; simp [hp], h1, hp⟩
    · obtain ⟨c, hc, r⟩ := chain_find _ e ps off h (by omega) h2
      exact ⟨c, by rw [List.find?_cons]; simp only [hp, decide_false]; exact hc, r⟩

theorem partAt_codes {vm : Vm} {off : Nat} (h : off < vm.bcodeLen) :
    (partAt vm off).map (fun p => (p.startIdx, p.data)) = (codes vm).find? (fun c => decide (off < c.1 + c.2.length)) := by
  unfold partAt partIdx
  rw [if_neg (by omega), findIdx_get, codes, List.find?_map]
  rfl

theorem SameCode.refl (a : Vm) : SameCode a a := ⟨rfl, rfl⟩

theorem SameCode.trans {a b c : Vm} (h : SameCode a b) (h' : SameCode b c) : SameCode a c := ⟨h.len.trans h'.len, h.parts.trans h'.parts⟩

theorem sameCode_commit {a b : Vm} (bs : List UInt8) (h : SameCode a b) : SameCode (commit a bs) (commit b bs) := by
  refine ⟨?_, ?_⟩
  · show a.bcodeLen + bs.length = b.bcodeLen + bs.length
    rw [h.len]
  · simp only [commit, List.map_append, h.parts, List.map_cons, List.map_nil, h.len]

theorem sameCode_commits {a b : Vm} (more : List (List UInt8)) (h : SameCode a b) : SameCode (more.foldl commit a) (more.foldl commit b) := by
  induction more generalizing a b with
  | nil => exact h
  | cons m ms ih => exact ih (sameCode_commit m h)

theorem Grown.trans {a b c : Vm} (h : Grown a b) (h' : Grown b c) : Grown a c := by
  obtain ⟨m, h⟩ := h
  obtain ⟨m', h'⟩ := h'
  refine ⟨m ++ m', ?_⟩
  rw [List.foldl_append]
  exact SameCode.trans h' (sameCode_commits m' h)

theorem Grown.of_same {a b : Vm} (h : SameCode b a) : Grown a b := ⟨[], h⟩

theorem kept_grown {E : Env} (hE : OnlyLoad E) : KeepsCode E Grown :=
  ⟨fun a b h => .of_same ⟨h.2, by rw [h.1]⟩, fun _ _ _ h h' => h.trans h', hE.cfun, hE.ffi⟩

theorem codes_commits (a : Vm) (more : List (List UInt8)) : ∃ l, codes (more.foldl commit a) = codes a ++ l ∧
    a.bcodeLen ≤ (more.foldl commit a).bcodeLen ∧ ∀ s, Chain s (codes a) a.bcodeLen →
      Chain s (codes (more.foldl commit a)) (more.foldl commit a).bcodeLen := by
  induction more generalizing a with
  | nil => exact ⟨[], by simp, Nat.le_refl _, fun _ h => h⟩
  | cons m ms ih =>
    obtain ⟨l, h1, h2, h3⟩ := ih (commit a m)
    have e : codes (commit a m) = codes a ++ [(a.bcodeLen, m)] := by simp [codes, commit]
    have el : (commit a m).bcodeLen = a.bcodeLen + m.length := rfl
    refine ⟨(a.bcodeLen, m) :: l, ?_, ?_, ?_⟩
    · rw [List.foldl_cons, h1, e, List.append_assoc]; rfl
    · rw [List.foldl_cons]; omega
    · intro s h
      exact h3 s (by rw [e, el]; exact chain_append _ _ _ _ h)

theorem grown_codes {a b : Vm} (h : Grown a b) : ∃ l, codes b = codes a ++ l ∧ a.bcodeLen ≤ b.bcodeLen ∧
    ∀ s, Chain s (codes a) a.bcodeLen → Chain s (codes b) b.bcodeLen := by
  obtain ⟨more, h⟩ := h
  have e : codes b = codes (more.foldl commit a) := h.parts
  rw [e, h.len]
  exact codes_commits a more

theorem execute_grown {E : Env} (hE : OnlyLoad E) {vm vm' : Vm} {off : Nat} {r : Val} (h : execute E vm off = some (vm', r)) :
    Grown vm vm' := by
  unfold execute at h
  simp only [Option.bind_eq_bind, Option.bind_eq_some_iff] at h
  obtain ⟨bp, _, vm1, hl, n, _, part, hp, h⟩ := h
  cases h
  have h1 := loop_kept (kept_grown hE) _ _ _ hl
  have h2 : Grown vm vm1 := Grown.trans (b := setErrorf vm .ok none) (.of_same ⟨rfl, rfl⟩) h1
  refine h2.trans (.of_same ?_)
  have h3 := pop_same { vm1 with parts := vm1.parts.set n { part with execRes := some vm1.error } }
  exact sameCode_set h3.2 h3.1 hp

theorem apply_grown {E : Env} (hE : OnlyLoad E) {vm vm' : Vm} {f this : Val} {args : List Val} {moved : Bool} {r : Option Val × Err}
    (h : apply E vm f this args moved = some (vm', r)) : Grown vm vm' := by
  have K := kept_grown hE
  unfold apply at h
  split at h
  · cases h
    exact .of_same ⟨rfl, rfl⟩
  · simp only [Option.bind_eq_bind, Option.bind_eq_some_iff] at h
    obtain ⟨vm2, h2, ⟨vm3, r3⟩, h3, vm4, h4, h⟩ := h
    cases h
    have g2 : Grown vm vm2 := Grown.of_same ⟨(pushFrame_same h2).2, by rw [(pushFrame_same h2).1]⟩
    have g3 : Grown vm2 vm3 := by
      split at h3
      · obtain ⟨v, h5, h3⟩ := Option.bind_eq_some_iff.1 h3
        split at h3
        · cases h3
        · obtain ⟨x, _, h3⟩ := Option.map_eq_some_iff.1 h3
          cases h3
          exact hE.cfun _ _ _ h5
      · split at h3
        · obtain ⟨v, h5, h3⟩ := Option.bind_eq_some_iff.1 h3
          split at h3
          · cases h3
          · obtain ⟨x, _, h3⟩ := Option.map_eq_some_iff.1 h3
            cases h3
            exact hE.ffi _ _ h5
        · exact execute_grown hE h3
    have g4 : Grown vm3 vm4 := by
      split at h4
      · obtain ⟨⟨x, o⟩, h5, rfl⟩ := Option.map_eq_some_iff.1 h4
        exact K.same _ _ ((restoreFrame_same h5).trans (pop_same _))
      · cases h4
        exact .of_same ⟨rfl, rfl⟩
    exact (g2.trans g3).trans (g4.trans (.of_same ⟨rfl, rfl⟩))

theorem later_grown {E : Env} (hE : OnlyLoad E) {a b : Vm} (h : Later E a b) : Grown a b := by
  induction h with
  | start => exact .of_same (SameCode.refl _)
  | next _ h ih =>
    refine ih.trans ?_
    cases h with
    | load bytes => exact ⟨[bytes], SameCode.refl _⟩
    | run h => exact execute_grown hE h
    | call h => exact apply_grown hE h
    | values h1 h2 => exact .of_same ⟨h2, by rw [h1]⟩

/-! ## The property -/

/-- **C42.** Take an engine that began without code, at any point `a` of its history and at any later point `b`.  Every offset of
the code loaded at `a` belongs to a script then, it belongs to a script with the same first offset and the same bytes at `b`,
and that script covers the offset. -/
theorem C42_offsets_stable {E : Env} (hE : OnlyLoad E) {new a b : Vm} (h0 : new.parts = []) (h1 : new.bcodeLen = 0)
    (ha : Later E new a) (hb : Later E a b) {off : Nat} (ho : off < a.bcodeLen) :
    ∃ p p', partAt a off = some p ∧ partAt b off = some p' ∧ p'.startIdx = p.startIdx ∧ p'.data = p.data ∧
      p.startIdx ≤ off ∧ off < p.startIdx + p.data.length := by
  obtain ⟨_, _, _, hc⟩ := grown_codes (later_grown hE ha)
  have hca := hc 0 (by rw [h1]; simp [codes, h0, Chain])
  obtain ⟨l, e, hle, _⟩ := grown_codes (later_grown hE hb)
  obtain ⟨c, hf, hlo, hhi⟩ := chain_find 0 _ _ off hca (Nat.zero_le _) ho
  have ea := partAt_codes ho
  have eb := partAt_codes (vm := b) (off := off) (by omega)
  rw [e, List.find?_append, hf] at eb
  rw [hf] at ea
  obtain ⟨p, hp, hpc⟩ := Option.map_eq_some_iff.1 ea
  obtain ⟨p', hp', hpc'⟩ := Option.map_eq_some_iff.1 eb
  subst hpc
  simp only [Prod.mk.injEq] at hpc'
  exact ⟨p, p', hp, hp', hpc'.1, hpc'.2, hlo, hhi⟩

/-- The byte of code at an offset. -/
def byteAt (vm : Vm) (off : Nat) : Option UInt8 := (partAt vm off).bind fun p => p.data[off - p.startIdx]?

/-- **C42.** No byte of loaded code ever changes, and the amount of loaded code never shrinks. -/
theorem C42_bytes_stable {E : Env} (hE : OnlyLoad E) {new a b : Vm} (h0 : new.parts = []) (h1 : new.bcodeLen = 0)
    (ha : Later E new a) (hb : Later E a b) :
    a.bcodeLen ≤ b.bcodeLen ∧ ∀ off < a.bcodeLen, ∃ c, byteAt a off = some c ∧ byteAt b off = some c := by
  obtain ⟨l, e, hle, _⟩ := grown_codes (later_grown hE hb)
  refine ⟨hle, fun off ho => ?_⟩
  obtain ⟨p, p', hp, hp', e1, e2, hlo, hhi⟩ := C42_offsets_stable hE h0 h1 ha hb ho
  refine ⟨p.data[off - p.startIdx]'(by omega), ?_, ?_⟩
  · rw [byteAt, hp, Option.bind_some, List.getElem?_eq_getElem]
  · rw [byteAt, hp', Option.bind_some, e1, e2, List.getElem?_eq_getElem]

/-- Two scripts are loaded, the first is run, and another is loaded: the hypotheses hold. -/
example : ∃ new a b : Vm, new.parts = [] ∧ new.bcodeLen = 0 ∧ OnlyLoad demoEnv ∧ Later demoEnv new a ∧ Later demoEnv a b ∧
    demoErr.bytes.length < a.bcodeLen ∧ a.bcodeLen < b.bcodeLen := by
  have hd : (demo.bind fun r => (executeN 60 demoEnv
      (commit { heap := r.1, scopes := [r.2], al := fun _ => demoAl } demoErr.bytes) 0).map fun _ => ()) = some () := by
    decide +kernel
  obtain ⟨r, hr, hd⟩ := Option.bind_eq_some_iff.1 hd
  obtain ⟨⟨vm2, v⟩, ho, _⟩ := Option.map_eq_some_iff.1 hd
  have hx := execute_runN ho
  have hE : OnlyLoad demoEnv := ⟨fun _ _ _ h => (nomatch h), fun _ _ h => (nomatch h)⟩
  have ha : Later demoEnv { heap := r.1, scopes := [r.2], al := fun _ => demoAl } vm2 := .next (.next (.start _) (.load _ _)) (.run hx)
  obtain ⟨_, _, hlen, _⟩ := grown_codes (execute_grown hE hx)
  have e : (commit { heap := r.1, scopes := [r.2], al := fun _ => demoAl } demoErr.bytes).bcodeLen = 0 + demoErr.bytes.length := rfl
  refine ⟨_, commit vm2 demoOr.bytes, commit (commit vm2 demoOr.bytes) demoErr.bytes, rfl, rfl, hE, .next ha (.load _ _),
    .next (.start _) (.load _ _), ?_, ?_⟩
  · show _ < vm2.bcodeLen + demoOr.bytes.length
    have : 0 < demoOr.bytes.length := by decide +kernel
    omega
  · show vm2.bcodeLen + demoOr.bytes.length < vm2.bcodeLen + demoOr.bytes.length + demoErr.bytes.length
    have : 0 < demoErr.bytes.length := by decide +kernel
    omega

theorem funsFrom_append : ∀ (ss more : List Script) (a : Nat), ∃ l, funsFrom a (ss ++ more) = funsFrom a ss ++ l
  | [], more, a => ⟨funsFrom a more, rfl⟩
  | s :: ss, more, a => by
    obtain ⟨l, e⟩ := funsFrom_append ss more (a + s.bytes.length)
    exact ⟨l, by simp only [List.cons_append, funsFrom, e, List.append_assoc]⟩

theorem partsFrom_append : ∀ (ss : List Script) (ps : List Part) (a : Nat) (s : Script) (p : Part), PartsFrom a ss ps →
    p.startIdx = a + (ss.map fun s => s.bytes.length).sum → p.data = s.bytes → PartsFrom a (ss ++ [s]) (ps ++ [p])
  | [], [], a, s, p, _, h1, h2 => ⟨by simpa using h1, h2, trivial⟩
  | [], _ :: _, _, _, _, h, _, _ => h.elim
  | _ :: _, [], _, _, _, h, _, _ => h.elim
  | s' :: ss, p' :: ps, a, s, p, h, h1, h2 =>
    ⟨h.1, h.2.1, partsFrom_append ss ps _ s p h.2.2 (by simp only [List.map_cons, List.sum_cons] at h1; omega) h2⟩

/-- **C42 for programs.** Loading one more script leaves an engine that has loaded the scripts from before and the new one, and
every function value of the program means the same function as before. -/
theorem C42_functions_stable {vm : Vm} {ss : List Script} {s : Script} (h : Loaded vm ss) (hn : NumSs s.body)
    (hs : vm.bcodeLen + s.bytes.length < 2 ^ 31 - 1) :
    Loaded (commit vm s.bytes) (ss ++ [s]) ∧
      ∀ a f, fnAt (funsFrom 0 ss) a = some f → fnAt (funsFrom 0 (ss ++ [s])) a = some f := by
  refine ⟨⟨?_, ?_, hs, ?_⟩, ?_⟩
  · exact partsFrom_append ss vm.parts 0 s _ h.parts (by show vm.bcodeLen = _; rw [h.len]; omega) rfl
  · show vm.bcodeLen + s.bytes.length = _
    rw [h.len, List.map_append, List.sum_append]
    simp
  · intro t ht
    rcases List.mem_append.1 ht with ht | ht
    · exact h.nums t ht
    · rw [List.mem_singleton.1 ht]; exact hn
  · intro a f hf
    obtain ⟨l, e⟩ := funsFrom_append ss [s] 0
    unfold fnAt at hf ⊢
    obtain ⟨q, hq, rfl⟩ := Option.map_eq_some_iff.1 hf
    rw [e, List.find?_append, hq]
    rfl

theorem cstr_path : ∀ (path r : List UInt8), (0 : UInt8) ∉ path → Bcode.cstr (path ++ 0 :: r) = some path
  | [], r, _ => by simp [Bcode.cstr]
  | c :: path, r, h => by
    have h1 : c ≠ 0 := fun e => h (by simp [e])
    rw [List.cons_append, Bcode.cstr, if_neg h1, cstr_path path r (fun e => h (by simp [e]))]
    rfl

/-- **C42 for stack traces.** The file name reported for an offset of a script is the name the script was loaded under (names are C
strings). -/
theorem C42_file_name {vm : Vm} {ss : List Script} {k : Nat} {p : Part} {s : Script} (h : Loaded vm ss) (hk : IsScript vm ss k p s)
    (hp : (0 : UInt8) ∉ s.path) {off : Nat} (h1 : p.startIdx ≤ off) (h2 : off < p.startIdx + p.data.length) :
    fileNameAt vm off = some (some s.path) := by
  obtain ⟨e, _⟩ := parts_nth ss vm.parts 0 k p s h.parts hk.part hk.script
  have hg := loaded_good h (List.mem_of_getElem? hk.part)
  have := hg.found (off - p.startIdx) (by omega)
  rw [show p.startIdx + (off - p.startIdx) = off by omega] at this
  unfold fileNameAt
  rw [this]
  have : p.data.drop 13 = s.path ++ 0 :: (codeScript s.body ++ (vint s.map.length ++ s.map)) := by
    rw [e]
    simp [Script.bytes, assemble, header, u32]
  simp only [fileName, this, cstr_path _ _ hp, Option.map_some]

end Mjs.Props
