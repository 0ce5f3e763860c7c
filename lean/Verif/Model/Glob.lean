import Verif.Model.MgStr

/-!
# Model of comma separated lists and patterns (`src/common/str_util.c`)

A `struct mg_str` is the list of its `len` bytes, as in `Model/MgStr`.  What the code does with indices into `pattern` and
`str` is done here with the rest of the two from these indices on; a read outside of either is impossible in both.
-/

namespace Mjs.Glob

/-- `str_util_lowercase`, str_util.c:353-355, in the "C" locale. -/
def lower (b : UInt8) : UInt8 := if 65 ≤ b ∧ b ≤ 90 then b + 32 else b

/-- `memchr(p, c, len)`: the index of the first byte that is `c`. -/
def memchr (c : UInt8) : List UInt8 → Option Nat
  | [] => none
  | b :: bs => if b = c then some 0 else (memchr c bs).map (· + 1)

/-- What `mg_next_comma_list_entry_n` stores in `val` and `eq_val`, and returns. `eq` is `none` for `eq_val->p == NULL`. -/
structure Entry where
  val : List UInt8
  eq : Option (List UInt8)
  rest : List UInt8
  deriving DecidableEq

/-- `mg_next_comma_list_entry_n` with `eq_val == NULL`, str_util.c:440-475: `val` and the result; `none`: the result is the
null string. -/
def nextPlain (list : List UInt8) : Option (List UInt8 × List UInt8) :=
  if list.length = 0 then none
  else match MgStr.strchr list 44 with
    | some k => some (list.take k, list.drop (k + 1))
    | none => some (list, [])

/-- `mg_next_comma_list_entry_n` with `eq_val` given, str_util.c:440-475: what comes last is in lines 460-471. -/
def next (list : List UInt8) : Option Entry :=
  (nextPlain list).bind fun vr =>
    match memchr 61 vr.1 with
      | some k => some ⟨vr.1.take k, some (vr.1.drop (k + 1)), vr.2⟩
      | none => some ⟨vr.1, none, vr.2⟩

/-- What comes behind the loop of `mg_match_prefix_n`, str_util.c:518-521, with `p` and `s` the rest of pattern and text. -/
def finish (p s : List UInt8) (j : Nat) : Nat :=
  match p with
  | [] => j
  | c :: _ => if c = 36 then (if s.length = 0 then j else 0) else 0

/-- The longest that a star may stand for, str_util.c:499-505. -/
def starLen (two : Bool) (s : List UInt8) : Nat := if two then s.length else (s.takeWhile (· != 47)).length

/-- One star or two, and the pattern behind them, str_util.c:498-501; `p` is the pattern behind the first star. -/
def stars (p : List UInt8) : Bool × List UInt8 :=
  match p with
  | c :: q => if c = 42 then (true, q) else (false, p)
  | [] => (false, p)

theorem stars_length (p : List UInt8) : (stars p).2.length ≤ p.length := by
  unfold stars; split
  · split <;> simp
  · simp

theorem memchr_lt {c : UInt8} : ∀ {p : List UInt8} {k : Nat}, memchr c p = some k → k < p.length
  | [], _, h => by simp [memchr] at h
  | b :: bs, k, h => by
    unfold memchr at h
    split at h
    · cases h; simp
    · obtain ⟨m, hm, rfl⟩ := Option.map_eq_some_iff.1 h
      have := memchr_lt hm
      simp; omega

theorem split_lt {p : List UInt8} {k : Nat} (h : ((memchr 124 p).orElse fun _ => memchr 44 p) = some k) : k < p.length := by
  cases h1 : memchr 124 p with
  | some m => rw [h1] at h; simp at h; subst h; exact memchr_lt h1
  | none => rw [h1] at h; simp at h; exact memchr_lt h

mutual
/-- `mg_match_prefix_n`, str_util.c:479-522. -/
def matchN (p s : List UInt8) : Nat :=
  match _h : (memchr 124 p).orElse fun _ => memchr 44 p with
  | some k =>
    let res := matchN (p.take k) s
    if res > 0 then res else matchN (p.drop (k + 1)) s
  | none => loop p s 0
termination_by (p.length, 1, 0)
decreasing_by
  · have hk := split_lt _h
    apply Prod.Lex.left
    simp; omega
  · have hk := split_lt _h
    apply Prod.Lex.left
    simp; omega
  · apply Prod.Lex.right; apply Prod.Lex.left; decide

/-- The loop of `mg_match_prefix_n` and what follows it, str_util.c:493-521: `p` and `s` are the rest of pattern and text,
`j` bytes of the text are matched. -/
def loop (p s : List UInt8) (j : Nat) : Nat :=
  match p, s with
  | c :: p', d :: s' =>
    if c = 63 then loop p' s' (j + 1)
    else if c = 42 then
      let len := starLen (stars p').1 (d :: s')
      if (stars p').2 = [] ∨ (stars p').2 = [36] then j + len
      else
        let r := back (stars p').2 (d :: s') len
        if r.1 = 0 then 0 else j + r.1 + r.2
    else if lower c ≠ lower d then finish (c :: p') (d :: s') j
    else loop p' s' (j + 1)
  | p, s => finish p s j
termination_by (p.length, 0, 0)
decreasing_by
  all_goals apply Prod.Lex.left
  · simp
  · have := stars_length p'; simp; omega
  · simp

/-- The inner `do` loop, str_util.c:507-511: `res` and `len` at its end. -/
def back (p s : List UInt8) (len : Nat) : Nat × Nat :=
  let res := matchN p (s.drop len)
  match len with
  | 0 => (res, 0)
  | len' + 1 => if res = 0 then back p s len' else (res, len' + 1)
termination_by (p.length, 2, len)
decreasing_by
  · apply Prod.Lex.right; apply Prod.Lex.left; decide
  · apply Prod.Lex.right; apply Prod.Lex.right; omega
end

end Mjs.Glob
