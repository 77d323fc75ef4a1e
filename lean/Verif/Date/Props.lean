import Verif.Date.Model
import Verif.Math.Props
/-
C29-C31: the calendar.  C59: the textual form.
-/
namespace Verif.Date.Props
open Verif Verif.Math Verif.Date Verif.Str

/-! ### Specification: the proleptic Gregorian calendar -/

/-- Years divisible by four, except full centuries not divisible by 400. -/
def leap (y : Int) : Bool := y % 4 == 0 && (y % 100 != 0 || y % 400 == 0)

/-- Month lengths; months count from 0. -/
def monthLen (y m : Int) : Int :=
  if m = 1 then (if leap y then 29 else 28) else if m = 3 ∨ m = 5 ∨ m = 8 ∨ m = 10 then 30 else 31

def ValidDate (y m d : Int) : Prop := 0 ≤ m ∧ m ≤ 11 ∧ 1 ≤ d ∧ d ≤ monthLen y m

/-- The day after. -/
def next (y m d : Int) : Int × Int × Int :=
  if d < monthLen y m then (y, m, d + 1) else if m < 11 then (y, m + 1, 1) else (y + 1, 0, 1)

/-- All components of a time stamp as the accessors report them. -/
def dateParts (t : Int) : Res (Int × Int × Int) := do
  let y ← yearFromTime t
  let m ← monthFromTime t
  let d ← dateFromTime t
  return (y, m, d)

def timeParts (t : Int) : Res (Int × Int × Int × Int) := do
  let h ← hourFromTime t
  let m ← minuteFromTime t
  let s ← secondFromTime t
  let ms ← milliFromTime t
  return (h, m, s, ms)

/-- Time stamps at least a year away from the limits of int64: 292 million years before and after 1970. -/
def InRange (t : Int) : Prop := -9223372000000000000 ≤ t ∧ t ≤ 9223372000000000000

/-! ### Proof -/

theorem divFloor_pos {x c : Int} (hx : isInt64 x) (h0 : 0 < c) (hc : c ≤ 86400000) : divFloor x c = .ok (x / c) := by
  have := (divFloor_eq_fdiv x c hx (by unfold isInt64 int64Min int64Max; omega) (by omega) (by omega)).1
  rw [this, Int.fdiv_eq_ediv_of_nonneg _ (by omega)]

theorem modFloor_pos {x c : Int} (hx : isInt64 x) (h0 : 0 < c) (hc : c ≤ 86400000) : modFloor x c = .ok (x % c) := by
  have := (divFloor_eq_fdiv x c hx (by unfold isInt64 int64Min int64Max; omega) (by omega) (by omega)).2
  rw [this, Int.fmod_eq_emod_of_nonneg _ (by omega)]

/-- days from 1970-01-01 to the first of January of year `y` -/
def D (y : Int) : Int := 365 * (y - 1970) + (y - 1969) / 4 - (y - 1901) / 100 + (y - 1601) / 400

theorem D_succ (y : Int) : D (y + 1) = D y + if leap y then 366 else 365 := by
  unfold D leap
  have e : (y % 4 == 0 && (y % 100 != 0 || y % 400 == 0)) = true ↔ (y % 4 = 0 ∧ (y % 100 ≠ 0 ∨ y % 400 = 0)) := by simp
  split
  · rename_i h; rw [e] at h; omega
  · rename_i h; rw [e] at h; omega

theorem D_up (k : Nat) : 365 * (k : Int) ≤ D (1970 + k) ∧ D (1970 + k) ≤ 366 * k := by unfold D; omega
theorem D_down (k : Nat) : -(366 * (k : Int)) ≤ D (1970 - k) ∧ D (1970 - k) ≤ -(365 * k) := by unfold D; omega
theorem D_mono {y z : Int} (h : y ≤ z) : 365 * (z - y) ≤ D z - D y := by unfold D; omega

/-- years whose first day is far from the limits -/
def YOk (y : Int) : Prop := -106751991167 ≤ D y ∧ D y ≤ 106751991167

theorem isInt64_of {x : Int} (h : -9223372036854775808 ≤ x ∧ x ≤ 9223372036854775807) : isInt64 x := by
  unfold isInt64 int64Min int64Max; omega

theorem chk_ok {x : Int} (h : isInt64 x) : chk x = .ok x := by unfold chk; rw [if_pos h]

theorem chk_eq {x u : Int} (h : chk x = .ok u) : u = x := by
  unfold chk at h
  split at h
  · cases h; rfl
  · cases h

theorem YOk.bound {y : Int} (h : YOk y) : -400000000 ≤ y ∧ y ≤ 400000000 := by
  unfold YOk D at h; omega

theorem dayFromYear_ok {y : Int} (h : -10000000000 ≤ y ∧ y ≤ 10000000000) : dayFromYear y = .ok (D y) := by
  unfold dayFromYear
  rw [divFloor_pos (isInt64_of (by omega)) (by omega) (by omega), divFloor_pos (isInt64_of (by omega)) (by omega) (by omega),
    divFloor_pos (isInt64_of (by omega)) (by omega) (by omega)]
  rfl

theorem timeFromYear_ok {y : Int} (h : YOk y) : timeFromYear y = .ok (86400000 * D y) := by
  have hb := h.bound
  unfold timeFromYear
  rw [dayFromYear_ok (by omega)]
  simp only [bind, Except.bind, MS_PER_DAY]
  rw [chk_ok (isInt64_of (by unfold YOk at h; omega))]

theorem yearUp_ok (t : Int) (ht : t ≤ 9223372000000000000) (fuel k : Nat) (hk : 86400000 * D (1970 + (k : Int) - 1) ≤ t ∨ k = 0)
    (ht0 : 0 ≤ t) (hf : t + 1 < 86400000 * D (1970 + k) + fuel ∨ t < 86400000 * D (1970 + k)) (hf0 : 1 ≤ fuel) (hy : YOk (1970 + k)) :
    ∃ y, yearUp t fuel k = .ok y ∧ 86400000 * D y ≤ t ∧ t < 86400000 * D (y + 1) := by
  induction fuel generalizing k with
  | zero => omega
  | succ fuel ih =>
    unfold yearUp
    rw [timeFromYear_ok hy]
    simp only [bind, Except.bind]
    have hm := D_mono (show (1970 + (k : Int)) ≤ 1970 + k + 1 by omega)
    have hs := D_succ (1970 + k)
    have hs' : D (1970 + k + 1) ≤ D (1970 + k) + 366 := by rw [hs]; split <;> omega
    split
    · rename_i h
      have hc : (1970 + ((k + 1 : Nat) : Int)) = 1970 + k + 1 := by omega
      refine ih (k + 1) (.inl ?_) ?_ ?_ ?_
      · rw [hc]; simpa using h
      · rw [hc]; omega
      · omega
      · rw [hc]
        have h1 := (D_up (k + 1)).1
        rw [hc] at h1
        unfold YOk at *
        omega
    · rename_i h
      refine ⟨1970 + k - 1, rfl, ?_, ?_⟩
      · rcases hk with hk | hk
        · exact hk
        · subst hk
          have : D (1970 + ((0 : Nat) : Int)) = 0 := by decide
          rw [this] at h; omega
      · simpa using h

theorem yearDown_ok (t : Int) (ht : -9223372000000000000 ≤ t) (fuel k : Nat) (hk : t < 86400000 * D (1970 - (k : Int) + 1))
    (hf : 86400000 * D (1970 - k) < t + fuel) (hf0 : 1 ≤ fuel) (hy : YOk (1970 - k)) :
    ∃ y, yearDown t fuel k = .ok y ∧ 86400000 * D y ≤ t ∧ t < 86400000 * D (y + 1) := by
  induction fuel generalizing k with
  | zero => omega
  | succ fuel ih =>
    unfold yearDown
    rw [timeFromYear_ok hy]
    simp only [bind, Except.bind]
    have hc : (1970 - ((k + 1 : Nat) : Int)) = 1970 - k - 1 := by omega
    have hm := D_mono (show (1970 - (k : Int) - 1) ≤ 1970 - k by omega)
    have hs := D_succ (1970 - k - 1)
    rw [show (1970 - (k : Int) - 1 + 1) = 1970 - k by omega] at hs
    have hs' : D (1970 - k) ≤ D (1970 - k - 1) + 366 := by rw [hs]; split <;> omega
    split
    · rename_i h
      refine ih (k + 1) ?_ ?_ ?_ ?_
      · rw [hc, show (1970 - (k : Int) - 1 + 1) = 1970 - k by omega]; exact h
      · rw [hc]; omega
      · omega
      · rw [hc]
        have h1 := (D_down (k + 1)).2
        rw [hc] at h1
        unfold YOk at *
        omega
    · rename_i h
      exact ⟨1970 - k, rfl, by omega, hk⟩

theorem yearFromTime_ok (t : Int) (ht : InRange t) : ∃ y, yearFromTime t = .ok y ∧ D y ≤ t / 86400000 ∧ t / 86400000 < D (y + 1) := by
  have h0 : D (1970 + ((0 : Nat) : Int)) = 0 := by decide
  have h0' : D (1970 - ((0 : Nat) : Int)) = 0 := by decide
  have h1' : D (1970 - ((0 : Nat) : Int) + 1) = 365 := by decide
  unfold InRange at ht
  unfold yearFromTime
  split
  · obtain ⟨y, h1, h2, h3⟩ := yearUp_ok t ht.2 (t.natAbs + 2) 0 (.inr rfl) (by omega) (by rw [h0]; omega) (by omega)
      (by unfold YOk; rw [h0]; omega)
    exact ⟨y, h1, by omega, by omega⟩
  · obtain ⟨y, h1, h2, h3⟩ := yearDown_ok t ht.1 (t.natAbs + 2) 0 (by rw [h1']; omega) (by rw [h0']; omega) (by omega)
      (by unfold YOk; rw [h0']; omega)
    exact ⟨y, h1, by omega, by omega⟩

/-- the year is determined by the day -/
theorem year_unique {y z n : Int} (h1 : D y ≤ n) (h2 : n < D (y + 1)) (h3 : D z ≤ n) (h4 : n < D (z + 1)) : y = z := by
  by_cases h : y < z
  · have := D_mono (show y + 1 ≤ z by omega); omega
  · by_cases h' : z < y
    · have := D_mono (show z + 1 ≤ y by omega); omega
    · omega

theorem daysInYear_ok (y : Int) : daysInYear y = if leap y then 366 else 365 := by
  unfold daysInYear leap
  have e : (y % 4 == 0 && (y % 100 != 0 || y % 400 == 0)) = true ↔ (y % 4 = 0 ∧ (y % 100 ≠ 0 ∨ y % 400 = 0)) := by simp
  have t4 : y.tmod 4 = 0 ↔ y % 4 = 0 := by rw [← Int.dvd_iff_tmod_eq_zero, Int.dvd_iff_emod_eq_zero]
  have t100 : y.tmod 100 = 0 ↔ y % 100 = 0 := by rw [← Int.dvd_iff_tmod_eq_zero, Int.dvd_iff_emod_eq_zero]
  have t400 : y.tmod 400 = 0 ↔ y % 400 = 0 := by rw [← Int.dvd_iff_tmod_eq_zero, Int.dvd_iff_emod_eq_zero]
  simp only [ne_eq, t4, t100, t400, e]
  repeat' split
  all_goals first | rfl | omega

def ly (y : Int) : Int := if leap y then 1 else 0

/-- month and day of the month for the day `n` of year `y` (from 0) -/
def md (y n : Int) : Int × Int := (monthOf n (ly y), dateOf n (ly y) (monthOf n (ly y)))

theorem inRange_int64 {t : Int} (h : InRange t) : isInt64 t := isInt64_of (by unfold InRange at h; omega)

theorem day_ok {t : Int} (h : isInt64 t) : day t = .ok (t / 86400000) := by
  unfold day MS_PER_DAY; exact divFloor_pos h (by omega) (by omega)

theorem parts_ok (t : Int) (ht : InRange t) (y : Int) (h1 : D y ≤ t / 86400000) (h2 : t / 86400000 < D (y + 1)) :
    yearFromTime t = .ok y ∧ inLeapYear t = .ok (ly y) ∧ dayWithinYear t = .ok (t / 86400000 - D y) ∧
    dateParts t = .ok (y, md y (t / 86400000 - D y)) := by
  obtain ⟨y', e1, e2, e3⟩ := yearFromTime_ok t ht
  have := year_unique h1 h2 e2 e3
  subst this
  have hyb : -10000000000 ≤ y ∧ y ≤ 10000000000 := by
    have : -106751991167 ≤ t / 86400000 ∧ t / 86400000 ≤ 106751991167 := by unfold InRange at ht; omega
    unfold D at h1 h2; omega
  have e4 : inLeapYear t = .ok (ly y) := by
    unfold inLeapYear
    simp only [e1, bind, Except.bind, pure, Except.pure, daysInYear_ok, ly]
    cases leap y <;> rfl
  have e5 : dayWithinYear t = .ok (t / 86400000 - D y) := by
    unfold dayWithinYear
    simp only [day_ok (inRange_int64 ht), e1, dayFromYear_ok hyb, bind, Except.bind, pure, Except.pure]
  refine ⟨e1, e4, e5, ?_⟩
  simp only [dateParts, monthFromTime, dateFromTime, e1, e4, e5, bind, Except.bind, pure, Except.pure, md]

/-- length of month `m` in a year with `ily` leap days -/
def len (ily m : Int) : Int := if m = 1 then 28 + ily else if m = 3 ∨ m = 5 ∨ m = 8 ∨ m = 10 then 30 else 31

def StepOk (ily n : Int) : Prop :=
  (0 ≤ monthOf n ily ∧ monthOf n ily ≤ 11 ∧ 1 ≤ dateOf n ily (monthOf n ily) ∧ dateOf n ily (monthOf n ily) ≤ len ily (monthOf n ily)) ∧
  (n + 1 < 365 + ily → dateOf n ily (monthOf n ily) < len ily (monthOf n ily) →
    monthOf (n + 1) ily = monthOf n ily ∧ dateOf (n + 1) ily (monthOf (n + 1) ily) = dateOf n ily (monthOf n ily) + 1) ∧
  (n + 1 < 365 + ily → ¬ dateOf n ily (monthOf n ily) < len ily (monthOf n ily) →
    monthOf n ily < 11 ∧ monthOf (n + 1) ily = monthOf n ily + 1 ∧ dateOf (n + 1) ily (monthOf (n + 1) ily) = 1) ∧
  (¬ n + 1 < 365 + ily → monthOf n ily = 11 ∧ dateOf n ily (monthOf n ily) = 31)

instance (ily n : Int) : Decidable (StepOk ily n) := by unfold StepOk; infer_instance

theorem md_next (lp : Bool) (n : Fin 366) : (n.val : Int) < 365 + (if lp then 1 else 0) → StepOk (if lp then 1 else 0) n.val := by
  revert lp n; decide +kernel

theorem monthLen_eq (y m : Int) : monthLen y m = len (ly y) m := by
  unfold monthLen len ly; cases leap y <;> rfl

theorem stepOk (y n : Int) (h0 : 0 ≤ n) (h1 : n < 365 + ly y) : StepOk (ly y) n := by
  have hl : ly y = if leap y then 1 else 0 := rfl
  have hl' : ly y ≤ 1 := by rw [hl]; split <;> omega
  have hc : ((n.toNat : Nat) : Int) = n := by omega
  have := md_next (leap y) ⟨n.toNat, by omega⟩ (by rw [← hl]; simp only; omega)
  rw [← hl] at this
  simp only [hc] at this
  exact this

theorem md_step (y n : Int) (h0 : 0 ≤ n) (h1 : n < 365 + ly y) :
    ValidDate y (md y n).1 (md y n).2 ∧
    (n + 1 < 365 + ly y → (y, md y (n + 1)) = next y (md y n).1 (md y n).2) ∧
    (¬ n + 1 < 365 + ly y → (y + 1, 0, 1) = next y (md y n).1 (md y n).2) := by
  obtain ⟨a1, a2, a3, a4⟩ := stepOk y n h0 h1
  have e1 : (md y n).1 = monthOf n (ly y) := rfl
  have e2 : (md y n).2 = dateOf n (ly y) (monthOf n (ly y)) := rfl
  have e3 : md y (n + 1) = (monthOf (n + 1) (ly y), dateOf (n + 1) (ly y) (monthOf (n + 1) (ly y))) := rfl
  refine ⟨?_, ?_, ?_⟩
  · unfold ValidDate; rw [monthLen_eq, e1, e2]; exact a1
  · intro h
    unfold next
    rw [monthLen_eq, e1, e2, e3]
    by_cases h' : dateOf n (ly y) (monthOf n (ly y)) < len (ly y) (monthOf n (ly y))
    · rw [if_pos h', (a2 h h').2, (a2 h h').1]
    · rw [if_neg h', if_pos (a3 h h').1, (a3 h h').2.2, (a3 h h').2.1]
  · intro h
    unfold next
    rw [monthLen_eq, e1, e2, (a4 h).2, (a4 h).1]
    rw [if_neg (by simp [len]), if_neg (by omega)]

theorem md_zero (y : Int) : md y 0 = (0, 1) := by unfold md ly; cases leap y <;> rfl

theorem D_len (y : Int) : D (y + 1) = D y + (365 + ly y) := by rw [D_succ]; unfold ly; split <;> omega

/-! ### Theorems -/

/-- C30: 1970-01-01 is time 0; every reported date is a date of the calendar; and a day later the next date
is reported.  Together this fixes the date of every time stamp in range. -/
theorem calendar (t : Int) (ht : InRange t) (ht' : InRange (t + 86400000)) :
    ∃ y m d, dateParts t = .ok (y, m, d) ∧ ValidDate y m d ∧ dateParts (t + 86400000) = .ok (next y m d) := by
  obtain ⟨y, e1, e2, e3⟩ := yearFromTime_ok t ht
  obtain ⟨_, _, _, p⟩ := parts_ok t ht y e2 e3
  have hl := D_len y
  have hs : (t + 86400000) / 86400000 = t / 86400000 + 1 := by omega
  obtain ⟨v, st⟩ := md_step y (t / 86400000 - D y) (by omega) (by omega)
  refine ⟨y, (md y (t / 86400000 - D y)).1, (md y (t / 86400000 - D y)).2, p, v, ?_⟩
  by_cases h : t / 86400000 - D y + 1 < 365 + ly y
  · have st := st.1 h
    obtain ⟨_, _, _, p'⟩ := parts_ok (t + 86400000) ht' y (by omega) (by omega)
    rw [p', hs, ← st]
    congr 3; omega
  · have st := st.2 h
    have hy1 := D_len (y + 1)
    have hy2 : 0 ≤ ly (y + 1) := by unfold ly; split <;> omega
    obtain ⟨_, _, _, p'⟩ := parts_ok (t + 86400000) ht' (y + 1) (by omega) (by omega)
    rw [p', hs, ← st]
    have : t / 86400000 + 1 - D (y + 1) = 0 := by omega
    rw [this, md_zero]

theorem epoch : dateParts 0 = .ok (1970, 0, 1) := by
  obtain ⟨_, _, _, p⟩ := parts_ok 0 (by unfold InRange; omega) 1970 (by decide) (by decide)
  rw [p]; rfl

/-- All times of one day have the same date. -/
theorem same_day (t u : Int) (ht : InRange t) (hu : InRange u) (h : t / 86400000 = u / 86400000) : dateParts t = dateParts u := by
  obtain ⟨y, e1, e2, e3⟩ := yearFromTime_ok t ht
  obtain ⟨_, _, _, p⟩ := parts_ok t ht y e2 e3
  obtain ⟨_, _, _, q⟩ := parts_ok u hu y (by omega) (by omega)
  rw [p, q, h]

/-- The time of the day: hours, minutes, seconds and milliseconds, in range, before 1970 as well. -/
theorem time_of_day (t : Int) (ht : InRange t) :
    ∃ h m s ms, timeParts t = .ok (h, m, s, ms) ∧ 0 ≤ h ∧ h < 24 ∧ 0 ≤ m ∧ m < 60 ∧ 0 ≤ s ∧ s < 60 ∧ 0 ≤ ms ∧ ms < 1000 ∧
      t = 86400000 * (t / 86400000) + 3600000 * h + 60000 * m + 1000 * s + ms := by
  have hi := inRange_int64 ht
  unfold InRange at ht
  refine ⟨t / 3600000 % 24, t / 60000 % 60, t / 1000 % 60, t % 1000, ?_, by omega, by omega, by omega, by omega, by omega, by omega, by omega, by omega, by omega⟩
  simp only [timeParts, hourFromTime, minuteFromTime, secondFromTime, milliFromTime, MS_PER_HOUR, MS_PER_MINUTE, MS_PER_SECOND]
  rw [divFloor_pos hi (by omega) (by omega), divFloor_pos hi (by omega) (by omega), divFloor_pos hi (by omega) (by omega), modFloor_pos hi (by omega) (by omega)]
  simp only [bind, Except.bind]
  rw [modFloor_pos (isInt64_of (by omega)) (by omega) (by omega), modFloor_pos (isInt64_of (by omega)) (by omega) (by omega),
    modFloor_pos (isInt64_of (by omega)) (by omega) (by omega)]
  rfl

theorem monthStart_md (lp : Bool) (m : Fin 12) (d : Fin 31) :
    let ily : Int := if lp then 1 else 0
    (d.val : Int) < len ily m.val →
    monthOf (monthStart m.val ily / 86400000 + d.val) ily = m.val ∧
    dateOf (monthStart m.val ily / 86400000 + d.val) ily m.val = d.val + 1 ∧ monthStart m.val ily % 86400000 = 0 ∧
    0 ≤ monthStart m.val ily / 86400000 ∧ monthStart m.val ily / 86400000 + d.val < 365 + ily := by
  revert lp m d; decide +kernel

theorem makeDay_ok (y m d : Int) (hy : 0 ≤ y ∧ y ≤ 300000) (hm : 0 ≤ m ∧ m ≤ 11) (hd : 1 ≤ d ∧ d ≤ monthLen y m) :
    ∃ n, makeDay y m d = .ok n ∧ D y ≤ n ∧ n < D (y + 1) ∧ md y (n - D y) = (m, d) := by
  have hl : ly y = if leap y then 1 else 0 := rfl
  have hl' : 0 ≤ ly y ∧ ly y ≤ 1 := by rw [hl]; split <;> omega
  have hdl : d ≤ 31 := by
    have := hd.2
    rw [monthLen_eq] at this
    unfold len at this
    split at this
    · omega
    · split at this <;> omega
  have hDb : -800000 ≤ D y ∧ D y ≤ 120000000 := by unfold D; omega
  have hyk : YOk y := by unfold YOk; omega
  have key := monthStart_md (leap y) ⟨m.toNat, by omega⟩ ⟨(d - 1).toNat, by omega⟩
  have hmc : ((m.toNat : Nat) : Int) = m := by omega
  have hdc : (((d - 1).toNat : Nat) : Int) = d - 1 := by omega
  simp only [hmc, hdc, ← hl] at key
  obtain ⟨k1, k2, k3, k4, k5⟩ := key (by have := hd.2; rw [monthLen_eq] at this; omega)
  have hmt : m.tmod 12 = m := Int.tmod_eq_of_lt (by omega) (by omega)
  have hmq : m / 12 = 0 := by omega
  refine ⟨D y + monthStart m (ly y) / 86400000 + d - 1, ?_, by omega, by rw [D_len]; omega, ?_⟩
  · unfold makeDay
    rw [divFloor_pos (isInt64_of (by omega)) (by omega) (by omega), hmq]
    simp only [bind, Except.bind, Int.add_zero, timeFromYear_ok hyk, hmt]
    have hr : InRange (86400000 * D y) := by unfold InRange; omega
    have hq : 86400000 * D y / 86400000 = D y := by omega
    obtain ⟨_, e4, _, _⟩ := parts_ok (86400000 * D y) hr y (by omega) (by rw [hq, D_len]; omega)
    have hi : isInt64 (86400000 * D y + monthStart m (ly y)) := isInt64_of (by omega)
    simp only [e4, chk_ok hi, day_ok hi, pure, Except.pure]
    congr 1
    omega
  · unfold md
    rw [show D y + monthStart m (ly y) / 86400000 + d - 1 - D y = monthStart m (ly y) / 86400000 + (d - 1) by omega, k1, k2]
    congr 1; omega

/-- C29: a Date built from the components of a valid date and time reports these components. -/
theorem construct_components (y m d h mi s ms : Nat) (hy : y ≤ 65535) (hv : ValidDate y m d) (hh : h < 24) (hmi : mi < 60) (hs : s < 60)
    (hms : ms < 1000) :
    ∃ t, construct y m d h mi s ms = .ok t ∧ dateParts t = .ok (y, m, d) ∧ timeParts t = .ok (h, mi, s, ms) := by
  obtain ⟨v1, v2, v3, v4⟩ := hv
  obtain ⟨n, h1, h2, h3, h4⟩ := makeDay_ok y m d (by omega) (by omega) ⟨by omega, v4⟩
  have hDb : -800000 ≤ D y ∧ D y ≤ 120000000 := by unfold D; omega
  have hDl := D_len y
  have hl' : ly y ≤ 1 := by unfold ly; split <;> omega
  let t : Int := n * 86400000 + (3600000 * h + 60000 * mi + 1000 * s + ms)
  have htd : t / 86400000 = n := by show (n * 86400000 + (3600000 * (h : Int) + 60000 * mi + 1000 * s + ms)) / 86400000 = n; omega
  have hr : InRange t := by unfold InRange; omega
  refine ⟨t, ?_, ?_, ?_⟩
  · simp only [construct, h1, bind, Except.bind, makeDate, makeTime, MS_PER_HOUR, MS_PER_MINUTE, MS_PER_SECOND, MS_PER_DAY]
    have e : n * 86400000 + (h * 3600000 + mi * 60000 + s * 1000 + ms : Int) = t := by
      show n * 86400000 + (h * 3600000 + mi * 60000 + s * 1000 + ms : Int) = n * 86400000 + (3600000 * h + 60000 * mi + 1000 * s + ms)
      omega
    rw [e, chk_ok (inRange_int64 hr)]
  · obtain ⟨_, _, _, p⟩ := parts_ok t hr y (by omega) (by omega)
    rw [p, htd, h4]
  · obtain ⟨h', m', s', ms', p, q1, q2, q3, q4, q5, q6, q7, q8, q9⟩ := time_of_day t hr
    rw [p]
    rw [htd] at q9
    have hq : 3600000 * (h : Int) + 60000 * mi + 1000 * s + ms = 3600000 * h' + 60000 * m' + 1000 * s' + ms' := by
      have : t = n * 86400000 + (3600000 * (h : Int) + 60000 * mi + 1000 * s + ms) := rfl
      omega
    have e1 : h' = h := by omega
    have e2 : m' = mi := by omega
    have e3 : s' = s := by omega
    have e4 : ms' = ms := by omega
    rw [e1, e2, e3, e4]

/-- C29: components determine the time stamp … -/
theorem components_injective (t u : Int) (ht : InRange t) (hu : InRange u) (h1 : dateParts t = dateParts u) (h2 : timeParts t = timeParts u) : t = u := by
  obtain ⟨y, e1, e2, e3⟩ := yearFromTime_ok t ht
  obtain ⟨_, _, _, p⟩ := parts_ok t ht y e2 e3
  obtain ⟨z, f1, f2, f3⟩ := yearFromTime_ok u hu
  obtain ⟨_, _, _, q⟩ := parts_ok u hu z f2 f3
  rw [p, q] at h1
  have hyz : y = z := by injection h1 with h1; exact congrArg Prod.fst h1
  subst hyz
  have hmd : md y (t / 86400000 - D y) = md y (u / 86400000 - D y) := by injection h1 with h1; exact congrArg Prod.snd h1
  have hl := D_len y
  have hll : ly y = if leap y then 1 else 0 := rfl
  have hl' : 0 ≤ ly y ∧ ly y ≤ 1 := by rw [hll]; split <;> omega
  have inj : ∀ (lp : Bool) (m n : Fin 366), (m.val : Int) < 365 + (if lp then 1 else 0) → (n.val : Int) < 365 + (if lp then 1 else 0) →
      monthOf m.val (if lp then 1 else 0) = monthOf n.val (if lp then 1 else 0) →
      dateOf m.val (if lp then 1 else 0) (monthOf m.val (if lp then 1 else 0)) = dateOf n.val (if lp then 1 else 0) (monthOf n.val (if lp then 1 else 0)) →
      m = n := by
    intro lp m n hm hn e1 e2
    rw [← e1] at e2
    obtain ⟨⟨a, b, _⟩, _⟩ := md_next lp m hm
    generalize monthOf (m.val : Int) (if lp then 1 else 0) = mm at *
    apply Fin.ext
    have : mm = 0 ∨ mm = 1 ∨ mm = 2 ∨ mm = 3 ∨ mm = 4 ∨ mm = 5 ∨ mm = 6 ∨ mm = 7 ∨ mm = 8 ∨ mm = 9 ∨ mm = 10 ∨ mm = 11 := by omega
    rcases this with rfl | rfl | rfl | rfl | rfl | rfl | rfl | rfl | rfl | rfl | rfl | rfl <;> simp [dateOf] at e2 <;> omega
  have hn := inj (leap y) ⟨(t / 86400000 - D y).toNat, by omega⟩ ⟨(u / 86400000 - D y).toNat, by omega⟩
    (by simp only [← hll]; omega) (by simp only [← hll]; omega)
    (by
      have c1 : (((t / 86400000 - D y).toNat : Nat) : Int) = t / 86400000 - D y := by omega
      have c2 : (((u / 86400000 - D y).toNat : Nat) : Int) = u / 86400000 - D y := by omega
      simp only [c1, c2, ← hll]; exact congrArg Prod.fst hmd)
    (by
      have c1 : (((t / 86400000 - D y).toNat : Nat) : Int) = t / 86400000 - D y := by omega
      have c2 : (((u / 86400000 - D y).toNat : Nat) : Int) = u / 86400000 - D y := by omega
      simp only [c1, c2, ← hll]; exact congrArg Prod.snd hmd)
  have hday : t / 86400000 = u / 86400000 := by
    have := congrArg Fin.val hn
    simp only at this
    omega
  obtain ⟨a1, a2, a3, a4, p1, p2⟩ := time_of_day t ht
  obtain ⟨b1, b2, b3, b4, q1, q2⟩ := time_of_day u hu
  rw [p1, q1] at h2
  simp only [Except.ok.injEq, Prod.mk.injEq] at h2
  omega

/-- … and building a Date from the reported components of a time stamp in the years 0 to 65535 gives it back. -/
theorem reconstruct (t : Int) (ht : InRange t) (y m d h mi s ms : Nat) (hy : y ≤ 65535) (h1 : dateParts t = .ok (y, m, d))
    (h2 : timeParts t = .ok (h, mi, s, ms)) : construct y m d h mi s ms = .ok t := by
  obtain ⟨y', e1, e2, e3⟩ := yearFromTime_ok t ht
  obtain ⟨_, _, _, p⟩ := parts_ok t ht y' e2 e3
  rw [h1] at p
  have hyy : y' = (y : Int) := by injection p with p; exact (congrArg Prod.fst p).symm
  subst hyy
  obtain ⟨v, _⟩ := md_step y (t / 86400000 - D y) (by omega) (by have := D_len y; omega)
  have hmd : md y (t / 86400000 - D y) = ((m : Int), (d : Int)) := by injection p with p; exact (congrArg Prod.snd p).symm
  rw [hmd] at v
  obtain ⟨a1, a2, a3, a4, p1, p2⟩ := time_of_day t ht
  rw [h2] at p1
  simp only [Except.ok.injEq, Prod.mk.injEq] at p1
  obtain ⟨rfl, rfl, rfl, rfl⟩ := p1
  obtain ⟨u, c1, c2, c3⟩ := construct_components y m d h mi s ms hy v (by omega) (by omega) (by omega) (by omega)
  have hu : InRange u := by
    obtain ⟨v1, v2, v3, v4⟩ := v
    obtain ⟨n, g1, g2, g3, g4⟩ := makeDay_ok y m d (by omega) (by omega) ⟨by omega, v4⟩
    have hDb : -800000 ≤ D y ∧ D y ≤ 120000000 := by unfold D; omega
    have hDl := D_len y
    have hl' : ly y ≤ 1 := by unfold ly; split <;> omega
    simp only [construct, g1, bind, Except.bind, makeDate, makeTime, MS_PER_HOUR, MS_PER_MINUTE, MS_PER_SECOND, MS_PER_DAY] at c1
    have := chk_eq c1
    unfold InRange; omega
  rw [c1]
  congr 1
  exact components_injective u t hu ht (c2.trans h1.symm) (c3.trans h2.symm)

/-- C31 from 1970 on: Thursday on the first day, and each day the next weekday. -/
theorem weekday_partial (t : Int) (ht : InRange t) (h0 : -4 * 86400000 ≤ t) :
    ∃ w, weekDay t = .ok w ∧ 0 ≤ w ∧ w < 7 ∧ w = (t / 86400000 + 4) % 7 := by
  refine ⟨(t / 86400000 + 4).tmod 7, ?_, ?_⟩
  · simp only [weekDay, day_ok (inRange_int64 ht), bind, Except.bind, pure, Except.pure]
  · rw [Int.tmod_eq_emod_of_nonneg (by omega)]
    omega

theorem weekday_epoch : weekDay 0 = .ok 4 := by decide +kernel

theorem weekday_cycle (t : Int) (ht : InRange t) (ht' : InRange (t + 86400000)) (h0 : -4 * 86400000 ≤ t) :
    ∃ w, weekDay t = .ok w ∧ weekDay (t + 86400000) = .ok ((w + 1) % 7) := by
  obtain ⟨w, h1, _, _, h2⟩ := weekday_partial t ht h0
  obtain ⟨w', h3, _, _, h4⟩ := weekday_partial (t + 86400000) ht' (by omega)
  refine ⟨w, h1, ?_⟩
  rw [h3]; congr 1; omega

/-- Before the last days of 1969 the weekday is negative, except for Sundays: it is the right weekday minus seven. -/
theorem weekday_before_1970 (t : Int) (ht : InRange t) (h0 : t < -4 * 86400000) :
    ∃ w, weekDay t = .ok w ∧ w ≤ 0 ∧ (w = 0 ∨ w = (t / 86400000 + 4) % 7 - 7) ∧ (w = 0 ↔ (t / 86400000 + 4) % 7 = 0) := by
  refine ⟨(t / 86400000 + 4).tmod 7, ?_, ?_⟩
  · simp only [weekDay, day_ok (inRange_int64 ht), bind, Except.bind, pure, Except.pure]
  · have hn : t / 86400000 + 4 < 0 := by omega
    generalize t / 86400000 + 4 = k at hn
    have := Int.tmod_add_mul_tdiv k 7
    have h1 : k.tmod 7 ≤ 0 := by have := Int.tmod_nonneg 7 (show 0 ≤ -k by omega); rw [Int.neg_tmod] at this; omega
    have h2 : -7 < k.tmod 7 := by have := Int.lt_tmod_of_pos k (show (0 : Int) < 7 by omega); omega
    omega

theorem weekday_witness : weekDay (-5 * 86400000) = .ok (-1) := by decide +kernel

/-- The empty date (the smallest int64) has no components: the search for its year goes down through all years
to -292275054 and then leaves the int64 range. -/
theorem empty_date_overflows :
    (∀ y, -292275054 ≤ y → y ≤ 1970 → ∃ s, timeFromYear y = .ok s ∧ s > int64Min) ∧ timeFromYear (-292275055) = .error .ub := by
  constructor
  · intro y h1 h2
    have hD : -106751991168 < D y ∧ D y ≤ 0 := by unfold D; omega
    refine ⟨86400000 * D y, timeFromYear_ok (by unfold YOk; omega), by unfold int64Min; omega⟩
  · decide +kernel

example : InRange 1700000000000 ∧ InRange (-1700000000000) ∧ ValidDate 2024 1 29 ∧ next 2024 1 29 = (2024, 2, 1) := by
  refine ⟨by unfold InRange; omega, by unfold InRange; omega, ?_, by decide⟩
  unfold ValidDate; decide

/-! ### C59: the textual form -/

/-- `n` in decimal with `w` digits -/
def pad : Nat → Nat → List Ch
  | 0, _ => []
  | w + 1, n => pad w (n / 10) ++ [BitVec.ofNat 16 (48 + n % 10)]

theorem dig_ok (n : Nat) (h : n < 10) : dig n = BitVec.ofNat 16 (48 + n) := by
  have : ∀ k : Fin 10, dig (k.val : Int) = BitVec.ofNat 16 (48 + k.val) := by decide +kernel
  exact this ⟨n, h⟩

theorem tdiv_ok (a : Nat) (b : Nat) : (a : Int).tdiv b = ((a / b : Nat) : Int) := by simp
theorem tmod_ok (a : Nat) (b : Nat) : (a : Int).tmod b = ((a % b : Nat) : Int) := by
  rw [Int.tmod_eq_emod_of_nonneg (by omega)]; rfl

/-- The text of a time stamp in the years 0 to 9999 is year, month (from 1), day, time and milliseconds in
ISO 8601 form. -/
theorem toString_iso (t : Int) (ht : InRange t) (y m d h mi s ms : Nat) (hy : y ≤ 9999) (h1 : dateParts t = .ok (y, m, d))
    (h2 : timeParts t = .ok (h, mi, s, ms)) :
    toString t = .ok (pad 4 y ++ [45] ++ pad 2 (m + 1) ++ [45] ++ pad 2 d ++ [84] ++ pad 2 h ++ [58] ++ pad 2 mi ++ [58] ++ pad 2 s ++ [46] ++
      pad 3 ms ++ [90]) := by
  obtain ⟨y', e1, e2, e3⟩ := yearFromTime_ok t ht
  obtain ⟨p1, p2, p3, p⟩ := parts_ok t ht y' e2 e3
  have h1' := h1
  rw [p] at h1
  have hyy : y' = (y : Int) := by injection h1 with h1; exact congrArg Prod.fst h1
  subst hyy
  obtain ⟨v, _⟩ := md_step y (t / 86400000 - D y) (by omega) (by have := D_len y; omega)
  have hmd : md y (t / 86400000 - D y) = ((m : Int), (d : Int)) := by injection h1 with h1; exact congrArg Prod.snd h1
  rw [hmd] at v
  obtain ⟨v1, v2, v3, v4⟩ := v
  simp only at v1 v2 v3 v4
  have hd31 : d ≤ 31 := by
    rw [monthLen_eq] at v4
    unfold len at v4
    have : ly y ≤ 1 := by unfold ly; split <;> omega
    split at v4
    · omega
    · split at v4 <;> omega
  have em : monthFromTime t = .ok (m : Int) := by
    simp only [monthFromTime, p3, p2, bind, Except.bind, pure, Except.pure]
    exact congrArg _ (congrArg Prod.fst hmd)
  have ed : dateFromTime t = .ok (d : Int) := by
    simp only [dateFromTime, p3, p2, em, bind, Except.bind, pure, Except.pure]
    have := congrArg Prod.snd hmd
    have hm' : monthOf (t / 86400000 - D y) (ly y) = m := congrArg Prod.fst hmd
    simp only [md, hm'] at this
    rw [this]
  obtain ⟨a1, a2, a3, a4, q, b⟩ := time_of_day t ht
  rw [h2] at q
  simp only [Except.ok.injEq, Prod.mk.injEq] at q
  obtain ⟨rfl, rfl, rfl, rfl⟩ := q
  have hhs : hourFromTime t = .ok (h : Int) ∧ minuteFromTime t = .ok (mi : Int) ∧ secondFromTime t = .ok (s : Int) ∧ milliFromTime t = .ok (ms : Int) := by
    unfold timeParts at h2
    simp only [bind, Except.bind, pure, Except.pure] at h2
    split at h2
    · cases h2
    · split at h2
      · cases h2
      · split at h2
        · cases h2
        · split at h2
          · cases h2
          · simp only [Except.ok.injEq, Prod.mk.injEq] at h2
            obtain ⟨rfl, rfl, rfl, rfl⟩ := h2
            exact ⟨by assumption, by assumption, by assumption, by assumption⟩
  obtain ⟨g1, g2, g3, g4⟩ := hhs
  simp only [toString, e1, em, ed, g1, g2, g3, g4, bind, Except.bind, pure, Except.pure]
  have hm12 : (1 : Int) + (m : Int).tmod 100 = ((m + 1 : Nat) : Int) := by
    rw [show (100 : Int) = ((100 : Nat) : Int) by rfl, tmod_ok]; omega
  rw [hm12]
  have c10 : (10 : Int) = ((10 : Nat) : Int) := rfl
  have c100 : (100 : Int) = ((100 : Nat) : Int) := rfl
  have c1000 : (1000 : Int) = ((1000 : Nat) : Int) := rfl
  have c10000 : (10000 : Int) = ((10000 : Nat) : Int) := rfl
  rw [c10, c100, c1000, c10000]
  simp only [tmod_ok, tdiv_ok]
  simp only [pad, List.nil_append, List.cons_append, List.append_assoc]
  rw [dig_ok _ (by omega), dig_ok _ (by omega), dig_ok _ (by omega), dig_ok _ (by omega), dig_ok _ (by omega), dig_ok _ (by omega),
    dig_ok _ (by omega), dig_ok _ (by omega), dig_ok _ (by omega), dig_ok _ (by omega), dig_ok _ (by omega), dig_ok _ (by omega),
    dig_ok _ (by omega), dig_ok _ (by omega), dig_ok _ (by omega), dig_ok _ (by omega), dig_ok _ (by omega)]
  congr 1
  simp only [List.cons.injEq, and_true, true_and]
  repeat' (first | apply And.intro | rfl | (congr 1; omega))

theorem pad_inj (w m n : Nat) (hm : m < 10 ^ w) (hn : n < 10 ^ w) (h : pad w m = pad w n) : m = n := by
  induction w generalizing m n with
  | zero => simp at hm hn; omega
  | succ w ih =>
    simp only [pad] at h
    obtain ⟨h1, h2⟩ := List.append_inj' h rfl
    have hp : 10 ^ (w + 1) = 10 ^ w * 10 := rfl
    have := ih (m / 10) (n / 10) (by omega) (by omega) h1
    simp only [List.cons.injEq, and_true] at h2
    have h3 := congrArg BitVec.toNat h2
    simp only [BitVec.toNat_ofNat] at h3
    omega

/-- Different time stamps in the years 0 to 9999 have different texts. -/
theorem toString_injective (t u : Int) (ht : InRange t) (hu : InRange u) (y z : Nat) (hy : y ≤ 9999) (hz : z ≤ 9999)
    (h1 : yearFromTime t = .ok (y : Int)) (h2 : yearFromTime u = .ok (z : Int)) (h : toString t = toString u) : t = u := by
  have parts : ∀ (t : Int) (y : Nat), InRange t → yearFromTime t = .ok (y : Int) → ∃ m d hh mi s ms : Nat, dateParts t = .ok (y, m, d) ∧
      timeParts t = .ok (hh, mi, s, ms) ∧ m < 99 ∧ d < 100 ∧ hh < 100 ∧ mi < 100 ∧ s < 100 ∧ ms < 1000 := by
    intro t y ht hy
    obtain ⟨y', e1, e2, e3⟩ := yearFromTime_ok t ht
    rw [hy] at e1; cases e1
    obtain ⟨_, _, _, p⟩ := parts_ok t ht y e2 e3
    obtain ⟨⟨v1, v2, v3, v4⟩, _⟩ := md_step y (t / 86400000 - D y) (by omega) (by have := D_len y; omega)
    have hd31 : (md y (t / 86400000 - D y)).2 ≤ 31 := by
      rw [monthLen_eq] at v4
      unfold len at v4
      have : ly y ≤ 1 := by unfold ly; split <;> omega
      split at v4
      · omega
      · split at v4 <;> omega
    obtain ⟨a1, a2, a3, a4, q, b1, b2, b3, b4, b5, b6, b7, b8, _⟩ := time_of_day t ht
    refine ⟨(md y (t / 86400000 - D y)).1.toNat, (md y (t / 86400000 - D y)).2.toNat, a1.toNat, a2.toNat, a3.toNat, a4.toNat, ?_, ?_,
      by omega, by omega, by omega, by omega, by omega, by omega⟩
    · rw [p, Int.toNat_of_nonneg v1, Int.toNat_of_nonneg (by omega)]
    · rw [q, Int.toNat_of_nonneg b1, Int.toNat_of_nonneg b3, Int.toNat_of_nonneg b5, Int.toNat_of_nonneg b7]
  obtain ⟨m, d, hh, mi, s, ms, p1, p2, b1, b2, b3, b4, b5, b6⟩ := parts t y ht h1
  obtain ⟨m', d', hh', mi', s', ms', q1, q2, c1, c2, c3, c4, c5, c6⟩ := parts u z hu h2
  rw [toString_iso t ht y m d hh mi s ms hy p1 p2, toString_iso u hu z m' d' hh' mi' s' ms' hz q1 q2] at h
  injection h with h
  have plen : ∀ w n, (pad w n).length = w := by
    intro w
    induction w with
    | zero => intro n; rfl
    | succ w ih => intro n; simp [pad, ih]
  simp only [List.append_assoc] at h
  obtain ⟨e1, h⟩ := List.append_inj h (by rw [plen, plen])
  obtain ⟨_, h⟩ := List.append_inj h rfl
  obtain ⟨e2, h⟩ := List.append_inj h (by rw [plen, plen])
  obtain ⟨_, h⟩ := List.append_inj h rfl
  obtain ⟨e3, h⟩ := List.append_inj h (by rw [plen, plen])
  obtain ⟨_, h⟩ := List.append_inj h rfl
  obtain ⟨e4, h⟩ := List.append_inj h (by rw [plen, plen])
  obtain ⟨_, h⟩ := List.append_inj h rfl
  obtain ⟨e5, h⟩ := List.append_inj h (by rw [plen, plen])
  obtain ⟨_, h⟩ := List.append_inj h rfl
  obtain ⟨e6, h⟩ := List.append_inj h (by rw [plen, plen])
  obtain ⟨_, h⟩ := List.append_inj h rfl
  obtain ⟨e7, _⟩ := List.append_inj h (by rw [plen, plen])
  have f1 := pad_inj _ _ _ (by omega) (by omega) e1
  have f2 := pad_inj _ _ _ (by omega) (by omega) e2
  have f3 := pad_inj _ _ _ (by omega) (by omega) e3
  have f4 := pad_inj _ _ _ (by omega) (by omega) e4
  have f5 := pad_inj _ _ _ (by omega) (by omega) e5
  have f6 := pad_inj _ _ _ (by omega) (by omega) e6
  have f7 := pad_inj _ _ _ (by omega) (by omega) e7
  have f2' : m = m' := by omega
  subst f1 f2' f3 f4 f5 f6 f7
  exact components_injective t u ht hu (p1.trans q1.symm) (p2.trans q2.symm)

/-- `compareTo` orders dates by time. -/
theorem compareTo_order (t u : Int) : (compareTo t u = -1 ↔ t < u) ∧ (compareTo t u = 0 ↔ t = u) ∧ (compareTo t u = 1 ↔ t > u) := by
  unfold compareTo
  by_cases h1 : t < u
  · simp [h1]; omega
  · by_cases h2 : t > u
    · simp [h1, h2]; omega
    · simp [h1, h2]; omega

example : dateParts 951782400000 = .ok (2000, 1, 29) := by
  obtain ⟨_, _, _, p⟩ := parts_ok 951782400000 (by unfold InRange; omega) 2000 (by decide) (by decide)
  rw [p]; rfl

end Verif.Date.Props
