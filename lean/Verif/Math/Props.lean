import Verif.Math.Lemmas
import Mathlib.Tactic.Linarith
import Mathlib.Tactic.FieldSimp
import Mathlib.Tactic.Ring
import Mathlib.Algebra.Order.Ring.Rat
import Mathlib.Data.Rat.Floor
/-
Property theorems for src/core/Math.cpp (C35, C36, C54, C55, C56).
-/
namespace Verif.Math
open Verif

/-! ### C35 floor division -/

/-- For 64-bit `x`, `y`, except for the two undefined cases `y = 0` and `INT64_MIN / -1`:
`divFloor` and `modFloor` return `q` and `r` with `x = y*q + r`, where `r` lies between `0` and
`y` (excluded) – so `q` is the quotient rounded towards minus infinity – and no intermediate
result overflows. -/
theorem divFloor_modFloor (x y : Int) (hx : isInt64 x) (hy : isInt64 y) (h0 : y ≠ 0)
    (hov : ¬ (x = int64Min ∧ y = -1)) :
    ∃ q r, divFloor x y = .ok q ∧ modFloor x y = .ok r ∧ x = y * q + r ∧
      (0 < y → 0 ≤ r ∧ r < y) ∧ (y < 0 → y < r ∧ r ≤ 0) := by
  have hq : isInt64 (x.tdiv y) ∧ (x.tmod y ≠ 0 → isInt64 (x.tdiv y - 1)) := by
    have h1 : (x.tdiv y).natAbs = x.natAbs / y.natAbs := Int.natAbs_tdiv ..
    have h2 : x.natAbs / y.natAbs ≤ x.natAbs := Nat.div_le_self _ _
    unfold isInt64 int64Min int64Max at *
    by_cases hy1 : y = -1
    · subst hy1
      have : x.tdiv (-1) = -x := by simp
      rw [this]; simp; omega
    by_cases hy2 : y = 1
    · subst hy2; simp; omega
    have h3 : x.natAbs / y.natAbs ≤ x.natAbs / 2 := Nat.div_le_div_left (by omega) (by omega)
    omega
  have hr := Int.tmod_add_mul_tdiv x y
  have hm : (x.tmod y).natAbs = x.natAbs % y.natAbs := Int.natAbs_tmod ..
  have hlt : x.natAbs % y.natAbs < y.natAbs := Nat.mod_lt _ (by omega)
  simp only [divFloor, modFloor, cdiv, cmod, h0, hq.1, if_true, if_false, bind, Except.bind, pure, Except.pure]
  generalize x.tdiv y = q at *
  generalize x.tmod y = r at *
  have hexp : y * (q - 1) = y * q - y := by ring
  by_cases hc : r ≠ 0 ∧ decide (r < 0) ≠ decide (y < 0)
  · rw [if_pos hc, if_pos (hq.2 hc.1), if_pos hc]
    have hs : (r < 0 ∧ 0 < y) ∨ (0 < r ∧ y < 0) := by
      have := hc.2
      simp only [ne_eq, decide_eq_decide] at this
      omega
    rw [if_pos (by unfold isInt64 int64Min int64Max at *; omega)]
    exact ⟨_, _, rfl, rfl, by rw [hexp]; omega, by omega, by omega⟩
  · rw [if_neg hc, if_neg hc]
    have hs : r = 0 ∨ (r < 0 ∧ y < 0) ∨ (0 < r ∧ 0 < y) := by
      simp only [ne_eq, decide_eq_decide, not_and, not_not] at hc
      by_cases hr0 : r = 0
      · exact .inl hr0
      · have := hc hr0
        omega
    exact ⟨_, _, rfl, rfl, by omega, by omega, by omega⟩

/-- The quotient/remainder pair above is the mathematical floor division. -/
theorem divFloor_eq_fdiv (x y : Int) (hx : isInt64 x) (hy : isInt64 y) (h0 : y ≠ 0)
    (hov : ¬ (x = int64Min ∧ y = -1)) : divFloor x y = .ok (x.fdiv y) ∧ modFloor x y = .ok (x.fmod y) := by
  obtain ⟨q, r, h1, h2, h3, h4, h5⟩ := divFloor_modFloor x y hx hy h0 hov
  rw [h1, h2]
  have hf := Int.mul_fdiv_add_fmod x y
  rcases Int.lt_or_gt_of_ne h0 with hneg | hpos
  · have b1 : y < x.fmod y ∧ x.fmod y ≤ 0 := by
      have e : x.fmod y = -((-x).fmod (-y)) := by rw [Int.neg_fmod_neg]; simp
      have n := Int.fmod_nonneg_of_pos (-x) (b := -y) (by omega)
      have l := Int.fmod_lt_of_pos (-x) (b := -y) (by omega)
      omega
    have b2 := h5 hneg
    have : q = x.fdiv y := by nlinarith
    subst this
    exact ⟨rfl, by rw [show r = x.fmod y by linarith]⟩
  · have b1 : 0 ≤ x.fmod y ∧ x.fmod y < y :=
      ⟨Int.fmod_nonneg_of_pos x hpos, Int.fmod_lt_of_pos x hpos⟩
    have b2 := h4 hpos
    have : q = x.fdiv y := by nlinarith
    subst this
    exact ⟨rfl, by rw [show r = x.fmod y by linarith]⟩

/-- Division by zero is undefined for `divFloor`, but `modFloor` answers 0. -/
theorem floor_by_zero (x : Int) : divFloor x 0 = .error .ub ∧ modFloor x 0 = .ok 0 := by
  simp [divFloor, modFloor, cdiv, bind, Except.bind, pure, Except.pure]

example : divFloor (-7) 2 = .ok (-4) ∧ modFloor (-7) 2 = .ok 1 ∧ divFloor 7 (-2) = .ok (-4) ∧
    modFloor 7 (-2) = .ok (-1) := by decide
example : isInt64 (-7) ∧ isInt64 2 ∧ ¬ ((-7 : Int) = int64Min ∧ (2 : Int) = -1) := by decide

/-! ### C36 powers of two -/

/-- `powerOf2` answers true exactly for the powers of two that a (signed) `int32` can hold. -/
theorem powerOf2_iff (x : BitVec 32) : powerOf2 x = true ↔ ∃ k : Nat, x.toInt = 2 ^ k := by
  have hx := x.isLt
  have hti : x.toInt = if 2 * x.toNat < 2 ^ 32 then (x.toNat : Int) else (x.toNat : Int) - 2 ^ 32 := by
    rw [BitVec.toInt_eq_toNat_cond]; rfl
  unfold powerOf2
  rw [Bool.and_eq_true, decide_eq_true_eq, beq_iff_eq]
  constructor
  · rintro ⟨h1, h2⟩
    have hp : 2 * x.toNat < 2 ^ 32 ∧ 0 < x.toNat := by
      rw [hti] at h1; split at h1 <;> omega
    have h3 := congrArg BitVec.toNat h2
    rw [BitVec.toNat_and] at h3
    have h4 : (x - 1#32).toNat = x.toNat - 1 := by
      rw [BitVec.toNat_sub]; simp; omega
    rw [h4] at h3
    obtain ⟨k, hk⟩ := (and_pred hp.2).1 (by simpa using h3)
    refine ⟨k, ?_⟩
    rw [hti, if_pos hp.1, hk]; simp
  · rintro ⟨k, hk⟩
    have hpos : (0 : Int) < x.toInt := by rw [hk]; positivity
    refine ⟨hpos, ?_⟩
    have hp : 2 * x.toNat < 2 ^ 32 ∧ 0 < x.toNat := by
      rw [hti] at hpos; split at hpos <;> omega
    rw [hti, if_pos hp.1] at hk
    have hk' : x.toNat = 2 ^ k := by exact_mod_cast hk
    apply BitVec.eq_of_toNat_eq
    have h4 : (x - 1#32).toNat = x.toNat - 1 := by
      rw [BitVec.toNat_sub]; simp; omega
    rw [BitVec.toNat_and, h4]
    simpa using (and_pred hp.2).2 ⟨k, hk'⟩

/-- `ceilPowerOf2 x` is the smallest power of two not below `x`, for `1 ≤ x ≤ 2^31`.
(For the remaining arguments see `ceilPowerOf2_outside`: the full statement fails there.) -/
theorem ceilPowerOf2_partial (x : BitVec 32) (h1 : 1 ≤ x.toNat) (h2 : x.toNat ≤ 2 ^ 31) :
    ∃ k, (ceilPowerOf2 x).toNat = 2 ^ k ∧ x.toNat ≤ 2 ^ k ∧ ∀ m, x.toNat ≤ 2 ^ m → k ≤ m := by
  obtain ⟨z, hz, hc⟩ := ceil_smear x
  have hy : (x - 1#32).toNat = x.toNat - 1 := by
    have := x.isLt
    rw [BitVec.toNat_sub]; simp; omega
  by_cases hx1 : x.toNat = 1
  · have : x - 1#32 = 0#32 := by apply BitVec.eq_of_toNat_eq; rw [hy, hx1]; rfl
    rw [this] at hz
    rw [hc, smear_zero hz]
    exact ⟨0, rfl, by omega, by omega⟩
  · obtain ⟨k, e1, e2⟩ := exists_log (x.toNat - 1) (by omega)
    have hk : k < 31 := by
      apply Decidable.byContradiction
      intro hn
      have : 2 ^ 31 ≤ 2 ^ k := Nat.pow_le_pow_right (by omega) (by omega)
      omega
    have hzN := smear_full hz k (by omega) (by omega) (by omega)
    have hp : 2 ^ (k + 1) ≤ 2 ^ 31 := Nat.pow_le_pow_right (by omega) (by omega)
    have hp0 : 0 < 2 ^ (k + 1) := Nat.two_pow_pos _
    refine ⟨k + 1, ?_, by omega, ?_⟩
    · rw [hc, BitVec.toNat_add, hzN]
      simp; omega
    · intro m hm
      apply Decidable.byContradiction
      intro hn
      have : 2 ^ m ≤ 2 ^ k := Nat.pow_le_pow_right (by omega) (by omega)
      omega

/-- C36 fails outside that range: for `0` and for every `x > 2^31` the answer is `0`, which is
not a power of two. -/
theorem ceilPowerOf2_outside (x : BitVec 32) (h : x.toNat = 0 ∨ 2 ^ 31 < x.toNat) :
    (ceilPowerOf2 x).toNat = 0 := by
  obtain ⟨z, hz, hc⟩ := ceil_smear x
  have hx := x.isLt
  have hy : 2 ^ 31 ≤ (x - 1#32).toNat := by
    rw [BitVec.toNat_sub]; simp; omega
  have hzN := smear_full hz 31 (by omega) hy (x - 1#32).isLt
  rw [hc, BitVec.toNat_add, hzN]; rfl

example : ceilPowerOf2 5#32 = 8#32 ∧ 1 ≤ (5#32).toNat ∧ (5#32).toNat ≤ 2 ^ 31 := by decide
example : powerOf2 64#32 = true ∧ powerOf2 65#32 = false ∧ powerOf2 0x80000000#32 = false := by decide

/-! ### C54 swap -/

/-- Swapping two different variables exchanges their values and touches nothing else. -/
theorem swap_partial {w} (s : Store w) (a b : Nat) (h : a ≠ b) :
    swap s a b a = s b ∧ swap s a b b = s a ∧ ∀ c, c ≠ a → c ≠ b → swap s a b c = s c := by
  have h' : b ≠ a := fun e => h e.symm
  have e1 : s b ^^^ (s a ^^^ s b) = s a := by
    have : s b ^^^ (s a ^^^ s b) = (s b ^^^ s b) ^^^ s a := by ac_rfl
    rw [this]; simp
  have e2 : s a ^^^ s b ^^^ s a = s b := by
    have : s a ^^^ s b ^^^ s a = (s a ^^^ s a) ^^^ s b := by ac_rfl
    rw [this]; simp
  refine ⟨?_, ?_, ?_⟩
  · simp [swap, Store.set, h, h', e1, e2]
  · simp [swap, Store.set, h, h', e1]
  · intro c h1 h2; simp [swap, Store.set, h1, h2]

/-- C54 is violated when both arguments are the same variable (`swap(x, x)`): the variable is
set to zero instead of keeping its value. -/
theorem swap_self_zeroes {w} (s : Store w) (a : Nat) : swap s a a a = 0#w := by
  simp [swap, Store.set]

example : swap (fun i => BitVec.ofNat 8 (i + 5)) 1 2 1 = 7#8 := by decide

/-! ### C55 tolerant comparison (exact arithmetic only) -/

/-- In exact arithmetic exactly one of `isLess`, `isEqual`, `isGreater` holds, the non-strict
versions and `isNotEqual` are the negations, and equality is the documented `|v2 - v1| < RESABS`.
Partial: IEEE rounding is not modelled. -/
theorem tolerance_trichotomy_partial (a b : Rat) :
    (isEqual a b = true ↔ |b - a| < RESABS) ∧
    isNotEqual a b = !isEqual a b ∧ isLessEqual a b = !isGreater a b ∧
    isGreaterEqual a b = !isLess a b ∧ isLessEqual a b = (isLess a b || isEqual a b) ∧
    isGreaterEqual a b = (isGreater a b || isEqual a b) ∧
    ¬ (isLess a b = true ∧ isEqual a b = true) ∧ ¬ (isGreater a b = true ∧ isEqual a b = true) ∧
    ¬ (isLess a b = true ∧ isGreater a b = true) := by
  have hR : 0 < RESABS := by norm_num [RESABS]
  simp only [isEqual, isNotEqual, isLess, isLessEqual, isGreater, isGreaterEqual]
  generalize RESABS = R at *
  rw [abs_lt]
  by_cases h1 : b - a < R <;> by_cases h2 : b - a > -R
  · have : ¬ (a + R ≤ b) := by linarith
    have : ¬ (a ≥ b + R) := by linarith
    have : a < b + R := by linarith
    have : a > b - R := by linarith
    have h2' : -R < b - a := h2
    simp [*]
  · have : ¬ (a + R ≤ b) := by linarith
    have : (a ≥ b + R) := by linarith
    have : ¬ a < b + R := by linarith
    have : a > b - R := by linarith
    have h2' : ¬ -R < b - a := h2
    simp [*]
  · have : (a + R ≤ b) := by linarith
    have : ¬ (a ≥ b + R) := by linarith
    have : a < b + R := by linarith
    have : ¬ a > b - R := by linarith
    simp [*]
  · exfalso; linarith

/-- `isEqual` is symmetric and reflexive, but – as any tolerance comparison – not transitive. -/
theorem isEqual_symm_partial (a b : Rat) : isEqual a b = isEqual b a ∧ isEqual a a = true := by
  constructor
  · have h1 := (tolerance_trichotomy_partial a b).1
    have h2 := (tolerance_trichotomy_partial b a).1
    rw [abs_sub_comm] at h2
    rw [Bool.eq_iff_iff, h1, h2]
  · rw [(tolerance_trichotomy_partial a a).1]
    simp [RESABS]

theorem isEqual_not_transitive : ∃ a b c : Rat, isEqual a b = true ∧ isEqual b c = true ∧ isEqual a c = false := by
  refine ⟨0, 3/4 * RESABS, 3/2 * RESABS, ?_, ?_, ?_⟩
  · rw [(tolerance_trichotomy_partial _ _).1, abs_lt]; norm_num [RESABS]
  · rw [(tolerance_trichotomy_partial _ _).1, abs_lt]; norm_num [RESABS]
  · rw [Bool.eq_false_iff, ne_eq, (tolerance_trichotomy_partial _ _).1, abs_lt]; norm_num [RESABS]

/-! ### C56 rounding, sign, interpolation (exact arithmetic) and random range -/

/-- Commercial rounding: the result is a nearest integer, ties go away from zero, and the function
is odd.  Partial: exact arithmetic. -/
theorem round_partial (x : Rat) :
    |(round x : Rat) - x| ≤ 1 / 2 ∧ round (-x) = - round x ∧
    (∀ n : Int, 0 ≤ n → x = n + 1 / 2 → round x = n + 1) := by
  have hpos : ∀ y : Rat, 0 < y → |(round y : Rat) - y| ≤ 1 / 2 ∧ round (-y) = - round y := by
    intro y hy
    have h1 := Rat.floor_le (y + 1/2)
    have h2 := Rat.lt_floor_add_one (y + 1/2)
    have hn : ¬ (-y > 0) := by linarith
    unfold round
    rw [if_pos hy, if_neg hn]
    push_cast at h2
    refine ⟨by rw [abs_le]; constructor <;> linarith, ?_⟩
    rw [Rat.ceil_eq_neg_floor_neg]
    congr 2
    ring
  have h0 : round 0 = 0 := by decide +kernel
  refine ⟨?_, ?_, ?_⟩
  · rcases lt_trichotomy x 0 with h | h | h
    · have := (hpos (-x) (by linarith))
      have h3 := this.2
      rw [neg_neg] at h3
      rw [h3]
      have h4 := this.1
      rw [← abs_neg]
      push_cast
      convert h4 using 2
      ring
    · subst h; rw [h0]; norm_num
    · exact (hpos x h).1
  · rcases lt_trichotomy x 0 with h | h | h
    · have := (hpos (-x) (by linarith)).2
      rw [neg_neg] at this
      omega
    · subst h; rw [neg_zero, h0]; rfl
    · exact (hpos x h).2
  · intro n hn hx
    have hn' : (0 : Rat) ≤ n := by exact_mod_cast hn
    unfold round
    rw [if_pos (by linarith), hx]
    have : ((n : Rat) + 1/2 + 1/2) = ((n + 1 : Int) : Rat) := by push_cast; ring
    rw [this, Rat.floor_intCast]

/-- `sign` is -1, 0, 1 for negative, zero, positive arguments. -/
theorem sign_partial (d : Rat) : (d < 0 → sign d = -1) ∧ (d = 0 → sign d = 0) ∧ (0 < d → sign d = 1) := by
  refine ⟨fun h => ?_, fun h => ?_, fun h => ?_⟩
  · simp [sign, h, not_lt.mpr h.le]
  · subst h; simp [sign]
  · simp [sign, h, not_lt.mpr h.le]

/-- Interpolation hits both end points and stays between them. Partial: exact arithmetic. -/
theorem interpolate_partial (vb ve b e pos : Rat) (hbe : b < e) :
    interpolateRange vb ve b e b = vb ∧ interpolateRange vb ve b e e = ve ∧
    (b ≤ pos → pos ≤ e → vb ≤ ve → vb ≤ interpolateRange vb ve b e pos ∧ interpolateRange vb ve b e pos ≤ ve) := by
  have hd : 0 < e - b := by linarith
  refine ⟨by simp [interpolateRange, interpolate], ?_, ?_⟩
  · unfold interpolateRange interpolate
    rw [div_self hd.ne']; ring
  · intro h1 h2 h3
    unfold interpolateRange interpolate
    have p0 : 0 ≤ (pos - b) / (e - b) := div_nonneg (by linarith) hd.le
    have p1 : (pos - b) / (e - b) ≤ 1 := by rw [div_le_one hd]; linarith
    constructor <;> nlinarith

/-- `random(lower, upper)` lies in the inclusive range, whatever `rand()` returns. -/
theorem random_in_range (z lower upper r : Int) (hz : 0 ≤ z) (h : lower ≤ upper)
    (hr : random z lower upper = .ok r) : lower ≤ r ∧ r ≤ upper := by
  unfold random at hr
  simp only at hr
  split at hr
  · cases hr
  split at hr
  · cases hr
  split at hr
  · cases hr
  injection hr with hr
  have h1 := Int.tmod_nonneg (upper + 1 - lower) hz
  have h2 := Int.tmod_lt_of_pos z (show 0 < upper + 1 - lower by omega)
  omega

/-- …and the call is defined for all bounds whose distance fits an `int`. -/
theorem random_defined (z lower upper : Int) (h : lower ≤ upper) (hl : -(2^31) ≤ lower) (hu : upper < 2^31 - 1)
    (hd : upper - lower < 2^31 - 1) : ∃ r, random z lower upper = .ok r := by
  unfold random
  simp only []
  rw [if_neg (by simp; omega), if_neg (by simp; omega), if_neg (by omega)]
  exact ⟨_, rfl⟩

/-- The full range is undefined: `upper + 1` overflows for `INT_MAX`. -/
theorem random_overflow : random 0 0 (2 ^ 31 - 1) = .error .ub := by decide

example : random 7 3 5 = .ok 4 := by decide
example : round (5/2) = 3 ∧ round (-5/2) = -3 := by decide +kernel

end Verif.Math
