import Verif.Model.JFile
import Verif.Props.Pretty
import Verif.Props.JPrintf

/-!
# C95: JSON files
-/

namespace Mjs.Props
open Mjs Mjs.Json Mjs.Pretty Mjs.JFile Mjs.Spec Mjs.Spec.Json

theorem cstr_fread {c : List UInt8} (h : (0 : UInt8) ∉ c) : cstr (c ++ [0]) = c := by
  induction c with
  | nil => rfl
  | cons x c ih =>
    have hx : x ≠ 0 := fun e => h (e ▸ List.mem_cons_self)
    have := ih fun e => h (List.mem_cons_of_mem _ e)
    simp only [cstr, List.cons_append] at this ⊢
    rw [List.takeWhile_cons_of_pos (by simpa using hx), this]

theorem blank_ends {w : List UInt8} (h : Blank w) : Ends w := by
  cases w with
  | nil => exact .inl rfl
  | cons c w =>
    refine .inr ?_
    have := h c List.mem_cons_self
    rcases this with rfl | rfl | rfl | rfl <;> simp [Stops]

/-- **C95**: `json_fread` gives what a file holds and a NUL, and null for an empty or missing file or if there is no memory. -/
theorem C95_read (mem : Bool) (file : Option (List UInt8)) :
    (∀ c, file = some c → c ≠ [] → mem = true → fread mem file = some (c ++ [0])) ∧ (file = none ∨ file = some [] ∨ mem = false → fread mem file = none) := by
  constructor
  · rintro c rfl hc rfl
    simp [fread, List.length_pos_iff.2 hc]
  · rintro (rfl | rfl | rfl)
    · rfl
    · simp [fread]
    · cases file <;> simp [fread]

/-- **C95**, partial: a file that holds a JSON text, with blanks around it, holds the text laid out and a new line afterwards.  The restrictions on keys are those of C87. -/
theorem C95_prettify_partial {D : Doc} {j : J} (hD : D.Says j) (hk : D.Keys Unbracketed) (hf : Fits 0 j) {d : Nat} (hd : D.depth ≤ d) {w w' : List UInt8} (hw : Blank w) (hw' : Blank w')
    (h0 : (0 : UInt8) ∉ D.text) (open2 : Bool) :
    prettifyFile d true true open2 (some (w ++ (D.text ++ w'))) = some (some ((D.lay 0).text ++ [10]), ((w.length + D.text.length : Nat) : Int)) := by
  obtain ⟨pd, h1, h2⟩ := C87_prettify_partial hD hk hf hd hw (blank_ends hw')
  have hn : (0 : UInt8) ∉ w ++ (D.text ++ w') := by
    have b : ∀ v : List UInt8, Blank v → (0 : UInt8) ∉ v := fun v hv h => by
      rcases hv 0 h with e | e | e | e <;> exact absurd e (by decide)
    simp [h0, b w hw, b w' hw']
  obtain ⟨c, u, hcu, _⟩ := doc_head hD
  have hl : (w ++ (D.text ++ w')).length > 0 := by simp [hcu]; omega
  have hr : fread true (some (w ++ (D.text ++ w'))) = some (w ++ (D.text ++ w') ++ [0]) := by
    simp only [fread]; rw [if_pos ⟨hl, trivial⟩]
  unfold prettifyFile
  rw [hr]
  dsimp only
  rw [cstr_fread hn, if_pos rfl, h1]
  dsimp only
  rw [h2]
  have e : (w ++ (D.text ++ w')).length - w'.length = w.length + D.text.length := by simp; omega
  rw [e]

/-- **C95**, partial: a file that was laid out is left as it is. -/
theorem C95_twice_partial {D : Doc} {j : J} (hD : D.Says j) (hk : D.Keys Unbracketed) (hf : Fits 0 j) {d : Nat} (hd : D.depth ≤ d) (h0 : (0 : UInt8) ∉ (D.lay 0).text) (open2 : Bool) :
    (prettifyFile d true true open2 (some ((D.lay 0).text ++ [10]))).map (·.1) = some (some ((D.lay 0).text ++ [10])) := by
  have h := C95_prettify_partial (w := []) (w' := [10]) (doc_lay_says D 0 j hD) (doc_lay_keys D 0 hk) hf (by rw [doc_lay_depth]; exact hd) blank_nil
    (fun c hc => by simp at hc; simp [hc]) h0 open2
  rw [doc_lay_lay] at h
  rw [List.nil_append] at h
  rw [h]; rfl

/-- **C95**, partial: whatever a file without NULs holds, and whether or not there is memory and the file can be opened, the file is left as it is if the result is negative. -/
theorem C95_kept_partial {d : Nat} {mem open1 open2 : Bool} {file file' : Option (List UInt8)} {n : Int} (h0 : ∀ c, file = some c → (0 : UInt8) ∉ c)
    (h : prettifyFile d mem open1 open2 file = some (file', n)) (hn : n < 0) : file' = file := by
  unfold prettifyFile at h
  cases hr : fread mem file with
  | none => rw [hr] at h; simp at h; exact h.1.symm
  | some s =>
    rw [hr] at h
    cases file with
    | none => simp [fread] at hr
    | some c =>
      have hs : s = c ++ [0] := by
        simp only [fread] at hr
        split at hr
        · exact (Option.some.inj hr).symm
        · simp at hr
      subst hs
      dsimp only at h
      rw [cstr_fread (h0 c rfl)] at h
      split at h
      · split at h
        · simp only [Option.some.injEq, Prod.mk.injEq] at h
          omega
        · split at h
          · simp only [Option.some.injEq, Prod.mk.injEq] at h
            exact h.1.symm
          · simp at h
        · simp at h
      · simp only [Option.some.injEq, Prod.mk.injEq] at h
        exact h.1.symm

/-- **C95**: what `json_fprintf` prints with a format that describes a value is what `json_fread` gives afterwards: a text of the value, and a new line. -/
theorem C95_print_read {E : JPrintf.Env} {j : J} {f : List UInt8} {a : List JPrintf.Arg} (h : JsonFmt.Describes E Base64 (Utf8Text Writable) j f a) (a' : List JPrintf.Arg)
    (file : Option (List UInt8)) : ∃ t, JsonText j t ∧ (0 : UInt8) ∉ t ∧ fprintf E true f (a ++ a') file = some (some (t ++ [10]), false) ∧
      fread true (some (t ++ [10])) = some (t ++ [10, 0]) := by
  obtain ⟨ps, _, h2, h3, h4⟩ := C92_print_partial h a'
  refine ⟨ps.flatten, h3, h4, ?_, by simp [fread]⟩
  simp [fprintf, h2]

/-- **C95**: a file that cannot be opened is left as it is. -/
theorem C95_closed (E : JPrintf.Env) (f : List UInt8) (a : List JPrintf.Arg) (file : Option (List UInt8)) : fprintf E false f a file = some (file, true) := rfl

/-- Non-vacuity: the document of C87, with blanks around it, laid out in a file. -/
example : (0 : UInt8) ∉ demoDoc.text ∧ prettifyFile 100 true true true (some ([32] ++ (demoDoc.text ++ [10, 10]))) = some (some ((demoDoc.lay 0).text ++ [10]), 23) ∧
    (0 : UInt8) ∉ (demoDoc.lay 0).text := by decide +kernel

/-- Non-vacuity: `[1,` is left as it is. -/
example : prettifyFile 100 true true true (some [91, 49, 44]) = some (some [91, 49, 44], -2) := by decide +kernel

/-- **C95 is violated**: what stands behind the first value is lost; `1 2` becomes `1` and a new line. -/
theorem C95_violation_rest : prettifyFile 100 true true true (some [49, 32, 50]) = some (some [49, 10], 1) := by decide +kernel

/-- **C95 is violated**: of a file that is no JSON text only what stands before the first NUL is put back. -/
theorem C95_violation_nul : prettifyFile 100 true true true (some [91, 0, 49, 93]) = some (some [91], -2) := by decide +kernel

/-- **C95 is violated**: if the file cannot be opened a second time, a null pointer is given to `fseek`. -/
theorem C95_violation_open : prettifyFile 100 true true false (some [91]) = none := by decide +kernel

end Mjs.Props
