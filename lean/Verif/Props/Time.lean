import Verif.Model.Time
import Verif.Spec.Calendar

/-!
# C84: seconds since 1970
-/

namespace Mjs.Props

open Mjs Mjs.Spec Mjs.Time

/-- The formula for the number of days. -/
def dayFormula (m y d : Int) : Int :=
  let yl := if m > 1 then y + 1 else y
  monthDay m + d - 1 + 365 * (y - 70) + (yl - 69).tdiv 4 - (yl - 1).tdiv 100 + (yl + 299).tdiv 400

theorem tdiv_pos {a b : Int} (h : 0 ≤ a) : a.tdiv b = a / b := Int.tdiv_eq_ediv_of_nonneg h

theorem dayNo_bounds {y m d n : Nat} (h : DayNo y m d n) : 1970 ≤ y ∧ m < 12 ∧ 1 ≤ d ∧ d ≤ monthDays y m := by
  induction h with
  | start => decide
  | day _ h ih => omega
  | @month y m n _ h ih => refine ⟨ih.1, by omega, by omega, ?_⟩; unfold monthDays; split_ifs <;> omega
  | year _ ih => refine ⟨by omega, by omega, by omega, ?_⟩; unfold monthDays; split_ifs <;> omega

/-- The formula counts the days. -/
theorem dayNo_formula {y m d n : Nat} (h : DayNo y m d n) : dayFormula m (y - 1900) d = n := by
  induction h with
  | start => decide
  | @day y m d n h hd ih => unfold dayFormula at ih ⊢; dsimp only at ih ⊢; push_cast; omega
  | @month y m n h hm ih =>
    have hy := (dayNo_bounds h).1
    have hcases : m = 0 ∨ m = 1 ∨ m = 2 ∨ m = 3 ∨ m = 4 ∨ m = 5 ∨ m = 6 ∨ m = 7 ∨ m = 8 ∨ m = 9 ∨ m = 10 := by omega
    clear h
    rcases hcases with rfl | rfl | rfl | rfl | rfl | rfl | rfl | rfl | rfl | rfl | rfl
    case inr.inl =>
      unfold dayFormula at ih ⊢
      dsimp only at ih ⊢
      rw [if_neg (by decide), tdiv_pos (by omega), tdiv_pos (by omega), tdiv_pos (by omega), show monthDay ((1 : Nat) : Int) = 31 from rfl] at ih
      rw [if_pos (by decide), tdiv_pos (by omega), tdiv_pos (by omega), tdiv_pos (by omega), show monthDay ((1 + 1 : Nat) : Int) = 59 from rfl]
      unfold monthDays at ih
      rw [if_pos rfl] at ih
      have k1 : ((y : Int) - 1900 + 1 - 69) / 4 = ((y : Int) - 1900 - 69) / 4 + if y % 4 = 0 then 1 else 0 := by split <;> omega
      have k2 : ((y : Int) - 1900 + 1 - 1) / 100 = ((y : Int) - 1900 - 1) / 100 + if y % 100 = 0 then 1 else 0 := by split <;> omega
      have k3 : ((y : Int) - 1900 + 1 + 299) / 400 = ((y : Int) - 1900 + 299) / 400 + if y % 400 = 0 then 1 else 0 := by split <;> omega
      have k4 : y % 100 = 0 → y % 4 = 0 := by omega
      have k5 : y % 400 = 0 → y % 100 = 0 := by omega
      rw [k1, k2, k3]
      generalize ((y : Int) - 1900 - 69) / 4 = t1 at ih ⊢
      generalize ((y : Int) - 1900 - 1) / 100 = t2 at ih ⊢
      generalize ((y : Int) - 1900 + 299) / 400 = t3 at ih ⊢
      clear k1 k2 k3
      by_cases hl : Leap y
      · rw [if_pos hl] at ih; unfold Leap at hl; push_cast at ih ⊢; split_ifs <;> omega
      · rw [if_neg hl] at ih; unfold Leap at hl; push_cast at ih ⊢; split_ifs <;> omega
    all_goals
      simp only [dayFormula, monthDay, monthDays] at ih ⊢
      simp at ih ⊢
      omega
  | @year y n h ih =>
    have hy := (dayNo_bounds h).1
    unfold dayFormula at ih ⊢
    rw [if_pos (by decide), show monthDay ((11 : Nat) : Int) = 334 from rfl] at ih
    rw [if_neg (by decide), show monthDay ((0 : Nat) : Int) = 0 from rfl]
    have e : ((y + 1 : Nat) : Int) - 1900 = (y : Int) - 1900 + 1 := by omega
    rw [e]
    push_cast at ih ⊢
    omega

theorem int_some {n r : Int} : int n = some r ↔ -2 ^ 31 ≤ n ∧ n < 2 ^ 31 ∧ r = n := by
  unfold int
  split
  · simp only [Option.some.injEq]; omega
  · simp only [reduceCtorEq, false_iff]; omega

theorem int_ok {n : Int} (h1 : -2 ^ 31 ≤ n) (h2 : n < 2 ^ 31) : int n = some n := int_some.2 ⟨h1, h2, rfl⟩

theorem monthDay_bounds (m : Int) : 0 ≤ monthDay m ∧ monthDay m ≤ 334 := by
  unfold monthDay
  by_cases h : m.toNat < 12
  · revert h
    generalize m.toNat = k
    intro h
    have : k = 0 ∨ k = 1 ∨ k = 2 ∨ k = 3 ∨ k = 4 ∨ k = 5 ∨ k = 6 ∨ k = 7 ∨ k = 8 ∨ k = 9 ∨ k = 10 ∨ k = 11 := by omega
    rcases this with rfl | rfl | rfl | rfl | rfl | rfl | rfl | rfl | rfl | rfl | rfl | rfl <;> decide
  · rw [List.getD_eq_getElem?_getD, List.getElem?_eq_none (by simp only [List.length_cons, List.length_nil]; omega)]
    decide

/-- The days, as computed. -/
theorem days_some {m y yl d r : Int} (hyl : yl = if m > 1 then y + 1 else y) (h : days m y yl d = some r) : r = dayFormula m y d := by
  subst hyl
  unfold days at h
  simp only [Option.bind_eq_bind, Option.bind_eq_some_iff, int_some] at h
  unfold dayFormula
  dsimp only
  obtain ⟨a1, ⟨_, _, rfl⟩, a2, ⟨_, _, rfl⟩, a3, ⟨_, _, rfl⟩, a4, ⟨_, _, rfl⟩, a5, ⟨_, _, rfl⟩, a6, ⟨_, _, rfl⟩, a7, ⟨_, _, rfl⟩, a8, ⟨_, _, rfl⟩,
    a9, ⟨_, _, rfl⟩, a10, ⟨_, _, rfl⟩, _, _, rfl⟩ := h
  omega

theorem days_ok {m y yl d : Int} (hyl : yl = if m > 1 then y + 1 else y) (hy0 : 0 ≤ y) (hy : y < 1000000) (hd0 : 0 ≤ d) (hd : d < 1000) :
    days m y yl d = some (dayFormula m y d) := by
  have hb := monthDay_bounds m
  have hyl' : 0 ≤ yl ∧ yl ≤ y + 1 := by rw [hyl]; split <;> omega
  have q1 : -69 ≤ (yl - 69).tdiv 4 ∧ (yl - 69).tdiv 4 ≤ 1000000 := by
    rcases Int.lt_or_le yl 69 with h | h
    · have : (yl - 69).tdiv 4 = -((69 - yl).tdiv 4) := by rw [← Int.neg_tdiv]; congr 1; omega
      rw [this, tdiv_pos (by omega)]; omega
    · rw [tdiv_pos (by omega)]; omega
  have q2 : -1 ≤ (yl - 1).tdiv 100 ∧ (yl - 1).tdiv 100 ≤ 1000000 := by
    rcases Int.lt_or_le yl 1 with h | h
    · have : yl = 0 := by omega
      subst this; decide
    · rw [tdiv_pos (by omega)]; omega
  have q3 : 0 ≤ (yl + 299).tdiv 400 ∧ (yl + 299).tdiv 400 ≤ 1000000 := by rw [tdiv_pos (by omega)]; omega
  have hf : dayFormula m y d = monthDay m + d - 1 + 365 * (y - 70) + (yl - 69).tdiv 4 - (yl - 1).tdiv 100 + (yl + 299).tdiv 400 := by
    subst hyl; rfl
  rw [hf]
  unfold days
  simp only [Option.bind_eq_bind]
  rw [int_ok (n := monthDay m + d) (by omega) (by omega), Option.bind_some, int_ok (n := monthDay m + d - 1) (by omega) (by omega), Option.bind_some,
    int_ok (n := y - 70) (by omega) (by omega), Option.bind_some, int_ok (n := 365 * (y - 70)) (by omega) (by omega), Option.bind_some,
    int_ok (n := monthDay m + d - 1 + 365 * (y - 70)) (by omega) (by omega), Option.bind_some,
    int_ok (n := yl - 69) (by omega) (by omega), Option.bind_some, int_ok (n := monthDay m + d - 1 + 365 * (y - 70) + _) (by omega) (by omega), Option.bind_some,
    int_ok (n := yl - 1) (by omega) (by omega), Option.bind_some, int_ok (n := monthDay m + d - 1 + 365 * (y - 70) + _ - _) (by omega) (by omega), Option.bind_some,
    int_ok (n := yl + 299) (by omega) (by omega), Option.bind_some, int_ok (by omega) (by omega)]

/-- The month from 0 to 11 and the year, of a month that may be any number. -/
theorem normal_ok {tm : Tm} {m y : Int} (k : Int) (h0 : 0 ≤ m) (h1 : m < 12) (hm : tm.mon = m + 12 * k) (hy : tm.year + k = y)
    (hy0 : 0 ≤ y) (hy1 : y < 2 ^ 31 - 1) : normal tm = some (m, y) := by
  unfold normal
  simp only [Option.bind_eq_bind]
  have hE := Int.tmod_add_mul_tdiv tm.mon 12
  have hr := Int.tmod_lt_of_pos tm.mon (show (0 : Int) < 12 by decide)
  have hn : 0 ≤ tm.mon → 0 ≤ tm.mon.tmod 12 := fun h => Int.tmod_nonneg _ h
  have hneg : tm.mon < 0 → -12 < tm.mon.tmod 12 ∧ tm.mon.tmod 12 ≤ 0 := by
    intro h
    have e : tm.mon.tmod 12 = -((-tm.mon).tmod 12) := by rw [Int.neg_tmod]; omega
    have := Int.tmod_lt_of_pos (-tm.mon) (show (0 : Int) < 12 by decide)
    have := Int.tmod_nonneg (a := -tm.mon) 12 (by omega)
    omega
  generalize tm.mon.tmod 12 = r at *
  generalize tm.mon.tdiv 12 = q at *
  by_cases hs : r < 0
  · have hneg' := hneg (by omega)
    rw [int_ok (by omega) (by omega), Option.bind_some, if_pos hs, int_ok (by omega) (by omega), Option.bind_some]
    show some _ = some _
    congr 2 <;> omega
  · have : r < 12 := hr
    rw [int_ok (by omega) (by omega), Option.bind_some, if_neg hs]
    show some _ = some _
    congr 2 <;> omega

/-- The seconds of a time of day on the `n`-th day. -/
def secondsAt (n : Nat) (hour min sec : Nat) : Nat := ((n * 24 + hour) * 60 + min) * 60 + sec

/-- **C84.** For every day from 1970 on and every time of day, given with any numbering of the months that carries into the
year: as long as the number of seconds since 1970 fits in 32 bits with sign, it is the result; from then on the behaviour
is undefined. -/
theorem C84_timegm_partial {y m d n hour min sec : Nat} (h : DayNo y m d n) (hh : hour < 24) (hm : min < 60) (hs : sec ≤ 60) (k : Int) {tm : Tm}
    (e1 : tm.sec = sec) (e2 : tm.min = min) (e3 : tm.hour = hour) (e4 : tm.mday = d) (e5 : tm.mon = m + 12 * k) (e6 : tm.year + k = y - 1900)
    (hy : y < 2 ^ 31) :
    timegm tm = if secondsAt n hour min sec < 2 ^ 31 then some (secondsAt n hour min sec : Int) else none := by
  obtain ⟨b1, b2, b3, b4⟩ := dayNo_bounds h
  have hf := dayNo_formula h
  have hd31 : d ≤ 31 := by unfold monthDays at b4; split_ifs at b4 <;> omega
  unfold timegm
  simp only [Option.bind_eq_bind]
  rw [normal_ok (m := m) (y := y - 1900) k (by omega) (by omega) e5 e6 (by omega) (by omega), Option.bind_some]
  dsimp only
  have hyl : (if (m : Int) > 1 then int ((y : Int) - 1900 + 1) else some ((y : Int) - 1900)) =
      some (if (m : Int) > 1 then (y : Int) - 1900 + 1 else (y : Int) - 1900) := by
    split
    · exact int_ok (by omega) (by omega)
    · rfl
  rw [hyl, Option.bind_some, e1, e2, e3, e4]
  unfold secondsAt
  by_cases hlt : ((n * 24 + hour) * 60 + min) * 60 + sec < 2 ^ 31
  · rw [if_pos hlt]
    have hy' : (y : Int) - 1900 < 1000000 := by
      -- the formula grows with the year
      unfold dayFormula at hf
      dsimp only at hf
      have hb := monthDay_bounds m
      have : 0 ≤ ((if (m : Int) > 1 then (y : Int) - 1900 + 1 else (y : Int) - 1900) - 69).tdiv 4 -
          ((if (m : Int) > 1 then (y : Int) - 1900 + 1 else (y : Int) - 1900) - 1).tdiv 100 + 
          ((if (m : Int) > 1 then (y : Int) - 1900 + 1 else (y : Int) - 1900) + 299).tdiv 400 := by
        generalize hyl' : (if (m : Int) > 1 then (y : Int) - 1900 + 1 else (y : Int) - 1900) = yl
        have : 70 ≤ yl := by rw [← hyl']; split <;> omega
        rw [tdiv_pos (by omega), tdiv_pos (by omega), tdiv_pos (by omega)]
        omega
      omega
    rw [days_ok rfl (by omega) hy' (by omega) (by omega), hf, Option.bind_some, int_ok (n := 24 * (n : Int)) (by omega) (by omega), Option.bind_some,
      int_ok (n := (hour : Int) + 24 * n) (by omega) (by omega), Option.bind_some, int_ok (n := 60 * ((hour : Int) + 24 * n)) (by omega) (by omega),
      Option.bind_some, int_ok (n := (min : Int) + 60 * (hour + 24 * n)) (by omega) (by omega), Option.bind_some,
      int_ok (n := 60 * ((min : Int) + 60 * (hour + 24 * n))) (by omega) (by omega), Option.bind_some,
      int_ok (n := (sec : Int) + 60 * (min + 60 * (hour + 24 * n))) (by omega) (by omega), Option.bind_some, if_neg (by omega)]
    show some _ = some _
    congr 1
    push_cast
    omega
  · rw [if_neg hlt]
    cases hday : days m ((y : Int) - 1900) (if (m : Int) > 1 then (y : Int) - 1900 + 1 else (y : Int) - 1900) d with
    | none => rfl
    | some r =>
      have := days_some rfl hday
      rw [hf] at this
      subst this
      rw [Option.bind_some]
      rw [Option.eq_none_iff_forall_not_mem]
      intro r hr
      rw [Option.mem_def] at hr
      simp only [Option.bind_eq_some_iff, int_some] at hr
      obtain ⟨a1, ⟨_, _, rfl⟩, a2, ⟨_, _, rfl⟩, a3, ⟨_, _, rfl⟩, a4, ⟨_, _, rfl⟩, a5, ⟨_, _, rfl⟩, a6, ⟨_, _, rfl⟩, _⟩ := hr
      omega

/-- Every day of the calendar from 1970 on has its number. -/
theorem C84_all_days {y m d : Nat} (hy : 1970 ≤ y) (hm : m < 12) (h1 : 1 ≤ d) (h2 : d ≤ monthDays y m) : ∃ n, DayNo y m d n := by
  have inMonth : ∀ y m, (∃ n, DayNo y m 1 n) → ∀ d, 1 ≤ d → d ≤ monthDays y m → ∃ n, DayNo y m d n := by
    intro y m h d
    induction d with
    | zero => intro h; omega
    | succ d ih =>
      intro _ hd
      by_cases h0 : d = 0
      · subst h0; exact h
      · obtain ⟨n, hn⟩ := ih (by omega) (by omega)
        exact ⟨n + 1, .day hn (by omega)⟩
  have pos : ∀ y m, 1 ≤ monthDays y m := by intro y m; unfold monthDays; split_ifs <;> omega
  have inYear : ∀ y, (∃ n, DayNo y 0 1 n) → ∀ m, m < 12 → ∃ n, DayNo y m 1 n := by
    intro y h m
    induction m with
    | zero => exact fun _ => h
    | succ m ih =>
      intro hm
      obtain ⟨n, hn⟩ := inMonth y m (ih (by omega)) (monthDays y m) (pos y m) (Nat.le_refl _)
      exact ⟨n + 1, .month hn (by omega)⟩
  have years : ∀ k, ∃ n, DayNo (1970 + k) 0 1 n := by
    intro k
    induction k with
    | zero => exact ⟨0, .start⟩
    | succ k ih =>
      obtain ⟨n, hn⟩ := inMonth _ 11 (inYear _ ih 11 (by decide)) 31 (by decide) (by unfold monthDays; simp)
      exact ⟨n + 1, .year hn⟩
  have := years (y - 1970)
  rw [show 1970 + (y - 1970) = y by omega] at this
  exact inMonth y m (inYear y this m hm) d h1 h2

/-- **C84, before 1970.** For the years 1902 to 1969 the result is -1. -/
theorem C84_before {tm : Tm} {m : Nat} (hm : m < 12) (e1 : 0 ≤ tm.sec ∧ tm.sec < 60) (e2 : 0 ≤ tm.min ∧ tm.min < 60) (e3 : 0 ≤ tm.hour ∧ tm.hour < 24)
    (e4 : 1 ≤ tm.mday ∧ tm.mday ≤ 31) (e5 : tm.mon = m) (e6 : 2 ≤ tm.year ∧ tm.year < 70) : timegm tm = some (-1) := by
  unfold timegm
  simp only [Option.bind_eq_bind]
  rw [normal_ok (m := m) (y := tm.year) 0 (by omega) (by omega) (by omega) (by omega) (by omega) (by omega), Option.bind_some]
  dsimp only
  have hyl : (if (m : Int) > 1 then int (tm.year + 1) else some tm.year) = some (if (m : Int) > 1 then tm.year + 1 else tm.year) := by
    split
    · exact int_ok (by omega) (by omega)
    · rfl
  rw [hyl, Option.bind_some, days_ok rfl (by omega) (by omega) (by omega) (by omega), Option.bind_some]
  have hf : -24840 ≤ dayFormula m tm.year tm.mday ∧ dayFormula m tm.year tm.mday ≤ -1 := by
    unfold dayFormula
    have hb := monthDay_bounds m
    generalize hyl' : (if (m : Int) > 1 then tm.year + 1 else tm.year) = yl
    have hyl2 : 2 ≤ yl ∧ yl ≤ 70 := by rw [← hyl']; split <;> omega
    dsimp only
    have q1 : -17 ≤ (yl - 69).tdiv 4 ∧ (yl - 69).tdiv 4 ≤ 0 := by
      rcases Int.lt_or_le yl 69 with h | h
      · have : (yl - 69).tdiv 4 = -((69 - yl).tdiv 4) := by rw [← Int.neg_tdiv]; congr 1; omega
        rw [this, tdiv_pos (by omega)]; omega
      · rw [tdiv_pos (by omega)]; omega
    have q2 : (yl - 1).tdiv 100 = 0 := by
      rcases Int.lt_or_le yl 1 with h | h
      · have : yl = 0 := by omega
        subst this; decide
      · rw [tdiv_pos (by omega)]; omega
    have q3 : (yl + 299).tdiv 400 = 0 := by rw [tdiv_pos (by omega)]; omega
    omega
  generalize dayFormula m tm.year tm.mday = f at *
  rw [int_ok (n := 24 * f) (by omega) (by omega), Option.bind_some, int_ok (n := tm.hour + 24 * f) (by omega) (by omega), Option.bind_some,
    int_ok (n := 60 * (tm.hour + 24 * f)) (by omega) (by omega), Option.bind_some, int_ok (n := tm.min + 60 * (tm.hour + 24 * f)) (by omega) (by omega),
    Option.bind_some, int_ok (n := 60 * (tm.min + 60 * (tm.hour + 24 * f))) (by omega) (by omega), Option.bind_some,
    int_ok (n := tm.sec + 60 * (tm.min + 60 * (tm.hour + 24 * f))) (by omega) (by omega), Option.bind_some, if_pos (by omega)]
  rfl

/-- Whatever is returned without undefined behaviour is the sum, or -1 if the sum is negative. -/
theorem timegm_some {tm : Tm} {r : Int} (h : timegm tm = some r) : ∃ m y : Int, normal tm = some (m, y) ∧
    -2 ^ 31 ≤ tm.sec + 60 * (tm.min + 60 * (tm.hour + 24 * dayFormula m y tm.mday)) ∧
    r = if tm.sec + 60 * (tm.min + 60 * (tm.hour + 24 * dayFormula m y tm.mday)) < 0 then -1 else
      tm.sec + 60 * (tm.min + 60 * (tm.hour + 24 * dayFormula m y tm.mday)) := by
  unfold timegm at h
  simp only [Option.bind_eq_bind, Option.bind_eq_some_iff] at h
  obtain ⟨⟨m, y⟩, hn, yl, hyl, f, hf, h⟩ := h
  have hyl' : yl = if m > 1 then y + 1 else y := by
    dsimp only at hyl
    split at hyl
    · rw [if_pos (by assumption)]; exact (int_some.1 hyl).2.2
    · rw [if_neg (by assumption)]; exact (Option.some.inj hyl).symm
  have hd := days_some hyl' hf
  simp only [int_some] at h
  obtain ⟨a1, ⟨_, _, rfl⟩, a2, ⟨_, _, rfl⟩, a3, ⟨_, _, rfl⟩, a4, ⟨_, _, rfl⟩, a5, ⟨_, _, rfl⟩, a6, ⟨_, _, rfl⟩, h⟩ := h
  subst hd
  exact ⟨m, y, hn, by omega, (Option.some.inj h).symm⟩

theorem normal_some {tm : Tm} {m y : Int} (h : normal tm = some (m, y)) : 0 ≤ m ∧ m < 12 ∧ ∃ k, tm.mon = m + 12 * k ∧ tm.year + k = y := by
  unfold normal at h
  simp only [Option.bind_eq_bind, Option.bind_eq_some_iff, int_some] at h
  have hE := Int.tmod_add_mul_tdiv tm.mon 12
  have hr := Int.tmod_lt_of_pos tm.mon (show (0 : Int) < 12 by decide)
  have hneg : -12 < tm.mon.tmod 12 := by
    rcases Int.lt_or_le tm.mon 0 with h | h
    · have e : tm.mon.tmod 12 = -((-tm.mon).tmod 12) := by rw [Int.neg_tmod]; omega
      have := Int.tmod_lt_of_pos (-tm.mon) (show (0 : Int) < 12 by decide)
      omega
    · have := Int.tmod_nonneg (a := tm.mon) 12 h
      omega
  generalize tm.mon.tmod 12 = r at *
  generalize tm.mon.tdiv 12 = q at *
  obtain ⟨a, ⟨_, _, rfl⟩, h⟩ := h
  split at h
  · simp only [Option.bind_eq_some_iff, int_some] at h
    obtain ⟨b, ⟨_, _, rfl⟩, h⟩ := h
    have h := Option.some.inj h
    simp only [Prod.mk.injEq] at h
    exact ⟨by omega, by omega, q - 1, by omega, by omega⟩
  · have h := Option.some.inj h
    simp only [Prod.mk.injEq] at h
    exact ⟨by omega, by omega, q, by omega, by omega⟩

theorem tdiv_neg {a b : Int} (h : a ≤ 0) : a.tdiv b = -((-a) / b) := by
  rw [← tdiv_pos (by omega), Int.neg_tdiv, Int.neg_neg]

/-- The days before 1970 are counted below zero, and those before 1901 are many. -/
theorem dayFormula_early {m y d : Int} (hd : d ≤ 31) (hm : 0 ≤ m) (hy : y < 70) : dayFormula m y d < 0 ∧ (y ≤ 0 → dayFormula m y d ≤ -25202) := by
  have hb := monthDay_bounds m
  have hm2 : ¬m > 1 → monthDay m ≤ 31 := by
    intro h
    have : m = 0 ∨ m = 1 := by omega
    rcases this with rfl | rfl <;> decide
  unfold dayFormula
  dsimp only
  generalize monthDay m = md at *
  generalize hyl : (if m > 1 then y + 1 else y) = yl
  have hyl' : y ≤ yl ∧ yl ≤ y + 1 := by rw [← hyl]; split <;> omega
  rcases Int.lt_or_le yl 70 with h70 | h70
  · rw [tdiv_neg (a := yl - 69) (by omega)]
    rcases Int.lt_or_le yl 2 with h1 | h1
    · rw [tdiv_neg (a := yl - 1) (by omega)]
      rcases Int.lt_or_le yl (-299) with h3 | h3
      · rw [tdiv_neg (a := yl + 299) (by omega)]; omega
      · rw [tdiv_pos (a := yl + 299) (by omega)]; omega
    · rw [tdiv_pos (a := yl - 1) (by omega), tdiv_pos (a := yl + 299) (by omega)]; omega
  · have : yl = 70 := by omega
    subst this
    rw [show (70 - 69 : Int).tdiv 4 = 0 from rfl, show (70 - 1 : Int).tdiv 100 = 0 from rfl, show (70 + 299 : Int).tdiv 400 = 0 from rfl]
    omega

/-- **C84, before 1970.** For every date before 1970, with any numbering of the months that carries into the year, the result
is -1 unless the sum leaves the range of `int`, which is undefined. -/
theorem C84_early_partial {tm : Tm} {m : Nat} {y k : Int} (hm : m < 12) (e1 : tm.sec < 60) (e2 : tm.min < 60) (e3 : tm.hour < 24)
    (e4 : tm.mday ≤ 31) (e5 : tm.mon = m + 12 * k) (e6 : tm.year + k = y) (hy : y < 70) : timegm tm = some (-1) ∨ timegm tm = none := by
  cases h : timegm tm with
  | none => exact .inr rfl
  | some r =>
    left
    obtain ⟨m', y', hn, h1, hr⟩ := timegm_some h
    obtain ⟨a1, a2, k', a3, a4⟩ := normal_some hn
    obtain ⟨hf, _⟩ := dayFormula_early (m := m') (y := y') e4 a1 (by omega)
    rw [hr, if_pos (by omega)]

/-- **C84** is violated for the years before 1901: the behaviour is undefined. -/
theorem C84_violation_early {tm : Tm} {m : Nat} {y k : Int} (hm : m < 12) (e1 : tm.sec < 60) (e2 : tm.min < 60) (e3 : tm.hour < 24)
    (e4 : tm.mday ≤ 31) (e5 : tm.mon = m + 12 * k) (e6 : tm.year + k = y) (hy : y ≤ 0) : timegm tm = none := by
  cases h : timegm tm with
  | none => rfl
  | some r =>
    exfalso
    obtain ⟨m', y', hn, h1, hr⟩ := timegm_some h
    obtain ⟨a1, a2, k', a3, a4⟩ := normal_some hn
    obtain ⟨_, hf⟩ := dayFormula_early (m := m') (y := y') e4 a1 (by omega)
    have := hf (by omega)
    omega

/-- 31 December 1900, and 14 December 1901. -/
example : timegm ⟨59, 59, 23, 31, 11, 0⟩ = none ∧ timegm ⟨0, 0, 0, 14, 11, 1⟩ = some (-1) :=
  ⟨C84_violation_early (m := 11) (k := 0) (y := 0) (by decide) (by decide) (by decide) (by decide) (by decide) rfl rfl (by decide), by decide +kernel⟩

/-- The hypotheses can be met: 2 January 1970, 01:00:01, given as month 12 of 1969; the second after 03:14:07 on
19 January 2038 is undefined. -/
example : timegm ⟨1, 0, 1, 2, 12, 69⟩ = some 90001 :=
  C84_timegm_partial (y := 1970) (m := 0) (d := 2) (n := 1) (hour := 1) (min := 0) (sec := 1) (.day .start (by decide)) (by decide) (by decide) (by decide)
    1 rfl rfl rfl rfl rfl rfl (by decide)

example : timegm ⟨7, 14, 3, 19, 0, 138⟩ = some (2 ^ 31 - 1) ∧ timegm ⟨8, 14, 3, 19, 0, 138⟩ = none := by decide +kernel

end Mjs.Props
