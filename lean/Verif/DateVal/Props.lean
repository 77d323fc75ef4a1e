import Verif.DateVal.Model
import Verif.Date.Props
import Verif.Fp.Rel
import Mathlib.Tactic.Linarith
import Mathlib.Tactic.NormNum
/-
C124: dates as values – the clock, times of Cocoa, local time and order.
-/
namespace Verif.DateVal.Props
open Verif Verif.Math Verif.Date Verif.DateVal Verif.Date.Props
open Verif.Fp hiding Finite

attribute [local irreducible] Fp.one Fp.lit

/-! ### the present -/

/-- **C124 (clock).** For every answer of the clock (microseconds below a million; any second of the next and last 290 million years) the
date is the number of whole milliseconds since 1970, rounded down. -/
theorem now_floor (sec usec : Int) (h0 : 0 ≤ usec) (h1 : usec < 1000000) (hs : -9223372036854775 ≤ sec ∧ sec ≤ 9223372036854774) :
    now sec usec = .ok ((sec * 1000000 + usec) / 1000) := by
  have e1 : chk (sec * 1000) = .ok (sec * 1000) := chk_ok (isInt64_of (by omega))
  have e2 : usec.tdiv 1000 = usec / 1000 := Int.tdiv_eq_ediv_of_nonneg h0
  have e3 : chk (sec * 1000 + usec / 1000) = .ok (sec * 1000 + usec / 1000) := chk_ok (isInt64_of (by omega))
  simp only [now, e1, bind, Except.bind, e2, e3]
  congr 1; omega

/-- **C124 (clock).** A clock that does not go back yields dates that do not go back. -/
theorem now_mono (sec usec sec' usec' : Int) (h0 : 0 ≤ usec) (h1 : usec < 1000000) (h0' : 0 ≤ usec') (h1' : usec' < 1000000)
    (hs : -9223372036854775 ≤ sec ∧ sec ≤ 9223372036854774) (hs' : -9223372036854775 ≤ sec' ∧ sec' ≤ 9223372036854774)
    (h : sec * 1000000 + usec ≤ sec' * 1000000 + usec') :
    ∃ t t', now sec usec = .ok t ∧ now sec' usec' = .ok t' ∧ t ≤ t' := by
  refine ⟨_, _, now_floor _ _ h0 h1 hs, now_floor _ _ h0' h1' hs', ?_⟩
  omega

example : now 1700000000 123456 = .ok 1700000000123 := by decide +kernel

/-! ### times of Cocoa: seconds since 2001 in double precision -/

/-- the integral part -/
def trunc (q : ℚ) : Int := if 0 ≤ q then ⌊q⌋ else ⌈q⌉

theorem trunc_mono {p q : ℚ} (h : p ≤ q) : trunc p ≤ trunc q := by
  unfold trunc
  by_cases hp : 0 ≤ p
  · rw [if_pos hp, if_pos (hp.trans h)]; exact Int.floor_le_floor h
  · rw [if_neg hp]
    have hp' : ⌈p⌉ ≤ 0 := Int.ceil_le.2 (by push_cast; exact (not_le.1 hp).le)
    by_cases hq : 0 ≤ q
    · rw [if_pos hq]; exact hp'.trans (Int.floor_nonneg.2 hq)
    · rw [if_neg hq]; exact Int.ceil_le_ceil h

theorem trunc_near (q : ℚ) : |(trunc q : ℚ) - q| < 1 ∧ |(trunc q : ℚ)| ≤ |q| := by
  unfold trunc
  by_cases hq : 0 ≤ q
  · rw [if_pos hq]
    have h1 := Int.floor_le q
    have h2 := Int.lt_floor_add_one q
    have h3 : (0 : ℚ) ≤ (⌊q⌋ : ℚ) := by exact_mod_cast Int.floor_nonneg.2 hq
    refine ⟨abs_lt.2 ⟨by linarith, by linarith⟩, ?_⟩
    rw [abs_of_nonneg h3, abs_of_nonneg hq]; exact h1
  · rw [if_neg hq]
    have hq' := not_le.1 hq
    have h1 := Int.le_ceil q
    have h2 := Int.ceil_lt_add_one q
    have h3 : (⌈q⌉ : ℚ) ≤ 0 := by exact_mod_cast Int.ceil_le.2 (by push_cast; exact hq'.le)
    refine ⟨abs_lt.2 ⟨by linarith, by linarith⟩, ?_⟩
    rw [abs_of_nonpos h3, abs_of_neg hq']; linarith

theorem trunc_int (n : Int) : trunc n = n := by
  unfold trunc
  split <;> simp

theorem ceil_units (x : F64) : ⌈val x⌉ = -(-(units x) / (one : Int)) := by
  have h := Rat.floor_intCast_div_natCast (-(units x)) one
  rw [one_cast] at h
  rw [← h, Int.cast_neg, neg_div, Int.floor_neg, neg_neg]
  rfl

/-- conversion to an integer type, of every finite number -/
theorem toIntRange_trunc {x : F64} (hx : Fp.Finite x) (lo hi : Int) :
    toIntRange lo hi x = if lo ≤ trunc (val x) ∧ trunc (val x) ≤ hi then .ok (trunc (val x)) else .error .ub := by
  have hu := floor_units x
  have h2 : (0 : ℚ) < 2 ^ 1074 := by positivity
  cases x with
  | nan => exact absurd hx id
  | num s b hb =>
    have h1 : b < infBits := hx
    have hval : val (.num s b hb) * 2 ^ 1074 = (sgn s (mag b) : Int) := by rw [val_eq]; rfl
    have e : Int.tdiv (sgn s (mag b)) one = trunc (val (.num s b hb)) := by
      unfold trunc
      by_cases h0 : 0 ≤ val (.num s b hb)
      · rw [if_pos h0]
        have hu0 : 0 ≤ sgn s (mag b) := by
          have := mul_nonneg h0 h2.le
          rw [hval] at this
          exact_mod_cast this
        rw [hu, Int.tdiv_eq_ediv_of_nonneg hu0]; rfl
      · rw [if_neg h0]
        have hv := not_le.1 h0
        have hu0 : sgn s (mag b) ≤ 0 := by
          have := mul_nonpos_of_nonpos_of_nonneg hv.le h2.le
          rw [hval] at this
          exact_mod_cast this
        have hc : ⌈val (.num s b hb)⌉ = -(-(sgn s (mag b)) / (one : Int)) := ceil_units _
        rw [hc, ← Int.tdiv_eq_ediv_of_nonneg (by omega), Int.neg_tdiv, neg_neg]
    simp only [toIntRange]
    rw [if_neg (by omega), e]

/-- the double for a thousand -/
theorem thousand : Fp.Finite (lit 1000 1) ∧ val (lit 1000 1) = 1000 := by
  have h := lit_int 1000 (by norm_num)
  generalize lit 1000 1 = z at *
  refine ⟨h.1, ?_⟩
  rw [h.2]; norm_num

/-- the rounded product -/
theorem product {x : F64} (hx : Fp.Finite x) : Rounds (x * lit 1000 1) (1000 * val x) := by
  have h := mul_rounds hx thousand.1
  rw [thousand.2, mul_comm] at h
  exact h

/-- the date of the first of January 2001 -/
theorem reference_date : construct 2001 0 1 0 0 0 0 = .ok 978307200000 := by decide +kernel

theorem small_product {x : F64} (hx : Fp.Finite x) (h : |val x| ≤ 9000000000000) :
    Fp.Finite (x * lit 1000 1) ∧ |val (x * lit 1000 1) - 1000 * val x| ≤ 1 / 2 ∧ |val (x * lit 1000 1)| ≤ 2 ^ 53 := by
  have h1 : |1000 * val x| ≤ 2 ^ 53 / 2 ^ 0 := by
    rw [abs_mul, abs_of_pos (by norm_num : (0 : ℚ) < 1000)]; norm_num; linarith
  obtain ⟨f, hb⟩ := abs_le_of_grid (by norm_num) h1 (product hx)
  have := (product hx).err 0 (by norm_num) h1
  refine ⟨f, by simpa using this, by simpa using hb⟩

theorem ns_eq {x : F64} (hf : Fp.Finite (x * lit 1000 1)) (hb : |val (x * lit 1000 1)| ≤ 2 ^ 53) :
    fromNSDate x = .ok (978307200000 + trunc (val (x * lit 1000 1))) := by
  have h1 := (trunc_near (val (x * lit 1000 1))).2.trans hb
  have h2 : |trunc (val (x * lit 1000 1))| ≤ 2 ^ 53 := by exact_mod_cast h1
  have h3 := abs_le.1 h2
  unfold fromNSDate toInt64
  rw [toIntRange_trunc hf, if_pos ⟨by omega, by omega⟩]
  simp only [bind, Except.bind]
  exact chk_ok (isInt64_of (by omega))

/-- **C124 (Cocoa times).** Every time up to nine million million seconds (285 000 years) from 2001 is converted to a date less than one and
a half milliseconds away. -/
theorem ns_accurate {x : F64} (hx : Fp.Finite x) (h : |val x| ≤ 9000000000000) :
    ∃ t, fromNSDate x = .ok t ∧ |(t : ℚ) - (978307200000 + 1000 * val x)| < 3 / 2 := by
  obtain ⟨f, h1, h2⟩ := small_product hx h
  refine ⟨_, ns_eq f h2, ?_⟩
  have h3 := (trunc_near (val (x * lit 1000 1))).1
  have a := abs_lt.1 h3
  have b := abs_le.1 h1
  push_cast
  exact abs_lt.2 ⟨by linarith, by linarith⟩

/-- **C124 (Cocoa times).** Whole seconds are converted exactly. -/
theorem ns_whole {x : F64} (hx : Fp.Finite x) (n : Int) (hn : val x = n) (h : |n| ≤ 9000000000000) :
    fromNSDate x = .ok (978307200000 + 1000 * n) := by
  have hq : |val x| ≤ 9000000000000 := by rw [hn]; exact_mod_cast h
  obtain ⟨f, h1, h2⟩ := small_product hx hq
  have h3 := abs_le.1 h
  have hr : Rp (1000 * val x) := by
    have := Rp.int (1000 * n) (by omega)
    rw [hn]; exact_mod_cast this
  obtain ⟨_, e⟩ := (product hx).exact hr
  rw [ns_eq f h2, e, hn]
  have : (1000 * (n : ℚ)) = ((1000 * n : Int) : ℚ) := by push_cast; ring
  rw [this, trunc_int]

/-- **C124 (Cocoa times).** Later times are not converted to earlier dates. -/
theorem ns_mono {x y : F64} (hx : Fp.Finite x) (hy : Fp.Finite y) (h1 : |val x| ≤ 9000000000000) (h2 : |val y| ≤ 9000000000000)
    (h : val x ≤ val y) : ∃ t u, fromNSDate x = .ok t ∧ fromNSDate y = .ok u ∧ t ≤ u := by
  obtain ⟨f1, _, b1⟩ := small_product hx h1
  obtain ⟨f2, _, b2⟩ := small_product hy h2
  refine ⟨_, _, ns_eq f1 b1, ns_eq f2 b2, ?_⟩
  have hm := (product hx).mono (product hy) (by linarith)
  have := trunc_mono hm
  omega

example : Fp.Finite (lit 700000000 1) ∧ |val (lit 700000000 1)| ≤ 9000000000000 ∧ val (lit 700000000 1) = ((700000000 : Int) : ℚ) := by
  have hl := lit_int 700000000 (by norm_num)
  generalize lit 700000000 1 = z at *
  refine ⟨hl.1, ?_, hl.2⟩
  rw [hl.2]; norm_num

/-- Violation: the integral part is taken, not the nearest: 1.001 s after the reference is one second after it. -/
theorem ns_loses_millisecond : fromNSDate (lit 1001 1000) = .ok (978307200000 + 1000) := by decide +kernel

/-- Violation: before the reference date the conversion goes the other way: half a millisecond before and after are the same date as the
reference itself. -/
theorem ns_toward_reference : fromNSDate (lit (-5) 10000) = .ok 978307200000 ∧ fromNSDate (lit 5 10000) = .ok 978307200000 := by
  constructor <;> decide +kernel

/-- Violation: a number that is not one: undefined behaviour … -/
theorem ns_nan : fromNSDate .nan = .error .ub := rfl

/-- the product of a large number is large -/
theorem big_product {x : F64} (hx : Fp.Finite x) (h : 2 ^ 54 ≤ |val x|) (hf : Fp.Finite (x * lit 1000 1)) :
    (13835058055282163712 : ℚ) ≤ |val (x * lit 1000 1)| := by
  have hp : Rp (13835058055282163712 : ℚ) := by
    have := Rp.zgrid 3 62 (by norm_num) (by norm_num) (by norm_num)
    have e : (((3 : Int) : ℚ) * 2 ^ (62 : Int)) = 13835058055282163712 := by norm_num
    rwa [e] at this
  rcases le_or_gt 0 (val x) with h0 | h0
  · rw [abs_of_nonneg h0] at h
    obtain ⟨z, hz, fz, vz⟩ := hp.rounds
    have hm := hz.mono (product hx) (by linarith)
    rw [vz] at hm
    exact hm.trans (le_abs_self _)
  · rw [abs_of_neg h0] at h
    obtain ⟨z, hz, fz, vz⟩ := hp.neg.rounds
    have hm := (product hx).mono hz (by linarith)
    rw [vz] at hm
    have := neg_le_abs (val (x * lit 1000 1))
    linarith

/-- … and so are all times from 2^54 seconds on (570 million years; values as large as that serve as "never"), also the infinite ones. -/
theorem ns_overflow {x : F64} (hx : Fp.Finite x) (h : 2 ^ 54 ≤ |val x|) : fromNSDate x = .error .ub := by
  have hn := (product hx).ne_nan
  have hb := big_product hx h
  unfold fromNSDate toInt64
  generalize x * lit 1000 1 = y at *
  by_cases hf : Fp.Finite y
  · have hb := hb hf
    rw [toIntRange_trunc hf, if_neg]
    · rfl
    · rintro ⟨h1, h2⟩
      have ht := abs_lt.1 (trunc_near (val y)).1
      have h1' : (-(2 : ℚ) ^ 63) ≤ trunc (val y) := by exact_mod_cast h1
      have h2' : (trunc (val y) : ℚ) ≤ 2 ^ 63 - 1 := by exact_mod_cast h2
      rcases le_or_gt 0 (val y) with h0 | h0
      · rw [abs_of_nonneg h0] at hb; linarith
      · rw [abs_of_neg h0] at hb; linarith
  · cases y with
    | nan => exact absurd rfl hn
    | num s b hb' =>
      have hle : b = infBits := by
        have : ¬ b < infBits := hf
        omega
      simp only [toIntRange, if_pos hle, bind, Except.bind]

theorem ns_infinite : fromNSDate (.num false infBits (Nat.le_refl _)) = .error .ub ∧ fromNSDate (.num true infBits (Nat.le_refl _)) = .error .ub := by
  constructor <;> decide +kernel

example : Fp.Finite (lit (2 ^ 60) 1) ∧ (2 : ℚ) ^ 54 ≤ |val (lit (2 ^ 60) 1)| := by
  obtain ⟨a, b⟩ := (lit_rounds (2 ^ 60) 1 (by norm_num)).exact (by
    have := Rp.zgrid 1 60 (by norm_num) (by norm_num) (by norm_num)
    have e : (((1 : Int) : ℚ) * 2 ^ (60 : Int)) = (((2 ^ 60 : Int) : ℚ) / ((1 : Nat) : ℚ)) := by norm_num
    rwa [e] at this)
  refine ⟨a, ?_⟩
  rw [b]; norm_num

/-! ### local time -/

/-- Violation: there is no local time – every getter for local time gives UTC, in every time zone. -/
theorem local_is_utc (t : Int) : year t = utcYear t ∧ month t = utcMonth t ∧ date t = utcDate t ∧ dayOfWeek t = utcDay t ∧
    hours t = utcHours t ∧ minutes t = utcMinutes t ∧ seconds t = utcSeconds t ∧ milliseconds t = utcMilliseconds t := by
  have : localTime t = t := by simp [localTime, localTimeZoneAdjustment, daylightSavingTimeAdjustment]
  simp only [year, utcYear, month, utcMonth, date, utcDate, dayOfWeek, utcDay, hours, utcHours, minutes, utcMinutes, seconds, utcSeconds,
    milliseconds, utcMilliseconds, this, and_self]

/-! ### order and identity -/

/-- **C124 (order).** The six operators and `compareTo` all describe the order of time. -/
theorem operators (t u : Int) : (lt t u = true ↔ Date.compareTo t u = -1) ∧ (gt t u = true ↔ Date.compareTo t u = 1) ∧
    (eq t u = true ↔ Date.compareTo t u = 0) ∧ (le t u = true ↔ Date.compareTo t u ≠ 1) ∧ (ge t u = true ↔ Date.compareTo t u ≠ -1) ∧
    (ne t u = true ↔ Date.compareTo t u ≠ 0) ∧ (lt t u = true ↔ t < u) ∧ (eq t u = true ↔ t = u) := by
  obtain ⟨h1, h2, h3⟩ := compareTo_order t u
  simp only [lt, gt, eq, le, ge, ne, decide_eq_true_eq, ne_eq, h1, h2, h3]
  refine ⟨trivial, trivial, trivial, ?_, ?_, trivial, trivial, trivial⟩ <;> omega

/-- **C124 (value).** A date is its number of milliseconds: it is what was given or set, and it survives copying. -/
theorem value (old t : Int) : time (ofMillis t) = t ∧ time (setTime old t) = t ∧ eq (copy t) t = true ∧ utc (localTime t) = t := by
  refine ⟨rfl, rfl, by simp [eq, copy], ?_⟩
  simp [utc, localTime, localTimeZoneAdjustment, daylightSavingTimeAdjustment]

/-- **C124 (empty date).** Only the mark is empty; no time of the clock is, and every other date is after it. -/
theorem empty (t : Int) (h : isInt64 t) : (isEmpty t = true ↔ ∀ u, isInt64 u → le t u = true) ∧
    (∀ sec usec, 0 ≤ usec → usec < 1000000 → -9223372036854775 ≤ sec → sec ≤ 9223372036854774 → now sec usec = .ok t → isEmpty t = false) := by
  have hm : isInt64 (-9223372036854775808) := by decide
  refine ⟨⟨fun he u hu => ?_, fun ha => ?_⟩, fun sec usec h0 h1 h2 h3 hn => ?_⟩
  · have : t = -9223372036854775808 := by simpa [isEmpty] using he
    subst this
    have : int64Min ≤ u := hu.1
    simp only [le, decide_eq_true_eq]
    unfold int64Min at this
    omega
  · have := ha _ hm
    have h4 : int64Min ≤ t := h.1
    simp only [le, decide_eq_true_eq] at this
    unfold int64Min at h4
    have : t = -9223372036854775808 := by omega
    simp [isEmpty, this]
  · rw [now_floor sec usec h0 h1 ⟨h2, h3⟩] at hn
    cases hn
    have : (sec * 1000000 + usec) / 1000 ≠ -9223372036854775808 := by omega
    simpa [isEmpty] using this

end Verif.DateVal.Props
