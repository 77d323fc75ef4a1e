import Verif.Fp.Rel
import Mathlib.Analysis.Real.Sqrt
/-
`std::sqrt` for doubles.  IEEE 754 demands the double nearest to the root; the model computes it with whole numbers.  That
the result is the nearest double is proved below, not assumed.
-/
namespace Verif.Fp
open Verif

/-- the whole part of the root of `m`, bit by bit: `r` is the root so far, bits below `k` are still to be found -/
def rootFrom (m : Nat) : Nat → Nat → Nat
  | 0, r => r
  | k + 1, r => if (r + 2 ^ k) * (r + 2 ^ k) ≤ m then rootFrom m k (r + 2 ^ k) else rootFrom m k r

/-- the whole part of the root of `m` -/
def root (m : Nat) : Nat := rootFrom m (Nat.log2 m + 1) 0

/-- The root of `n` units in units, given as a number of quarters of a unit: the whole number of halves, and one quarter
more if the root is not that number.  Numbers between two neighbouring multiples of half a unit are all rounded in the same
way, so it does not matter which of them is given. -/
def rootQuarters (n : Nat) : Nat := 2 * root (4 * (n * one)) + if root (4 * (n * one)) * root (4 * (n * one)) = 4 * (n * one) then 0 else 1

/-- `std::sqrt`: IEEE 754, rounded to nearest; the root of a negative zero is that zero, of a negative number NaN -/
def sqrt : F64 → F64
  | .nan => .nan
  | .num s b h =>
    if b = 0 then .num s b h
    else if s then .nan
    else if b = infBits then .num s b h
    else ofUnits false (rootQuarters (mag b)) 4

example : sqrt (lit 4 1) = lit 2 1 := by decide +kernel
example : sqrt (lit 2 1) = mk false 0x3FF6A09E667F3BCD := by decide +kernel
example : sqrt (lit 1 10) = mk false 0x3FD43D136248490F := by decide +kernel
example : sqrt (mk false 1) = mk false 0x1E60000000000000 := by decide +kernel
example : sqrt (lit (-1) 1) = .nan ∧ sqrt (mk true 0) = mk true 0 := by decide +kernel

/-! ### The whole part -/

theorem rootFrom_spec (m : Nat) (k r : Nat) (h1 : r * r ≤ m) (h2 : m < (r + 2 ^ k) * (r + 2 ^ k)) :
    rootFrom m k r * rootFrom m k r ≤ m ∧ m < (rootFrom m k r + 1) * (rootFrom m k r + 1) := by
  induction k generalizing r with
  | zero => exact ⟨h1, h2⟩
  | succ k ih =>
    unfold rootFrom
    split
    · rename_i h
      refine ih _ h ?_
      have : r + 2 ^ k + 2 ^ k = r + 2 ^ (k + 1) := by rw [pow_succ]; omega
      rw [this]; exact h2
    · rename_i h
      exact ih _ h1 (by omega)

theorem root_spec (m : Nat) : root m * root m ≤ m ∧ m < (root m + 1) * (root m + 1) := by
  refine rootFrom_spec m _ 0 (by omega) ?_
  have h : m < 2 ^ (Nat.log2 m + 1) := Nat.lt_log2_self
  have h2 : 1 ≤ 2 ^ (Nat.log2 m + 1) := Nat.one_le_two_pow
  rw [Nat.zero_add]
  exact lt_of_lt_of_le h (Nat.le_mul_of_pos_left _ (by omega))

/-! ### The real root -/

/-- the exact root of a double that is not negative -/
noncomputable def rroot (x : F64) : ℝ := Real.sqrt ((val x : ℚ) : ℝ)

theorem rroot_nn (x : F64) : 0 ≤ rroot x := Real.sqrt_nonneg _
theorem rroot_sq {x : F64} (h : 0 ≤ val x) : rroot x * rroot x = ((val x : ℚ) : ℝ) :=
  Real.mul_self_sqrt (by exact_mod_cast h)

/-- the number that is rounded, in place of the root -/
theorem sqrt_rounds {x : F64} (hf : Finite x) (h0 : 0 ≤ val x) :
    ∃ e : ℚ, Rounds (sqrt x) e ∧ 0 ≤ e ∧ ∀ h : Int, ((h : ℚ) / 2 ^ 1075 ≤ e ↔ ((h : ℝ) / 2 ^ 1075 ≤ rroot x)) ∧
      (e ≤ (h : ℚ) / 2 ^ 1075 ↔ (rroot x ≤ (h : ℝ) / 2 ^ 1075)) := by
  cases x with
  | nan => exact absurd hf id
  | num s b hb =>
    have hfb : b < infBits := hf
    by_cases hb0 : b = 0
    · subst hb0
      have hv : val (.num s 0 hb) = 0 := by
        unfold val
        show ((sgn s (mag 0) : Int) : ℚ) / _ = 0
        cases s <;> simp [sgn, mag, mant]
      have hr : rroot (.num s 0 hb) = 0 := by unfold rroot; rw [hv]; simp
      refine ⟨0, ⟨s, 0, 1, ?_, by omega, by simp⟩, le_rfl, ?_⟩
      · simp [sqrt, ofUnits, mk]
      · intro h
        rw [hr]
        have hq : (0 : ℚ) < 2 ^ 1075 := by positivity
        have hR : (0 : ℝ) < 2 ^ 1075 := by positivity
        rw [div_le_iff₀ hq, div_le_iff₀ hR, le_div_iff₀ hq, le_div_iff₀ hR, zero_mul, zero_mul]
        constructor
        · exact_mod_cast Iff.rfl
        · exact_mod_cast Iff.rfl
    · have hs : s = false := by
        cases s with
        | false => rfl
        | true =>
          exfalso
          have hm : 0 < mag b := by
            have h1 := mag_inj (a := b) (b := 0)
            have h2 : mag 0 = 0 := by simp [mag, mant]
            rcases Nat.eq_zero_or_pos (mag b) with h | h
            · exact absurd (h1 (by rw [h, h2])) hb0
            · exact h
          have : val (.num true b hb) < 0 := by
            unfold val
            refine div_neg_of_neg_of_pos ?_ (by positivity)
            show ((sgn true (mag b) : Int) : ℚ) < 0
            simp [sgn]; exact hm
          linarith
      subst hs
      have hsq : sqrt (.num false b hb) = ofUnits false (rootQuarters (mag b)) 4 := by
        simp only [sqrt, if_neg hb0, if_neg (Nat.ne_of_lt hfb)]
        simp
      have hv : ((val (.num false b hb) : ℚ) : ℝ) = (mag b : ℝ) / 2 ^ 1074 := by
        unfold val
        show ((((sgn false (mag b) : Int) : ℚ) / 2 ^ 1074 : ℚ) : ℝ) = _
        simp [sgn]
      obtain ⟨q1, q2⟩ := root_spec (4 * (mag b * one))
      generalize hM : 4 * (mag b * one) = M at q1 q2
      generalize hq : root M = q at q1 q2
      -- 2 * root in units
      have hMr : (M : ℝ) = 4 * ((mag b : ℝ) * 2 ^ 1074) := by
        rw [← hM]; unfold one; push_cast; ring
      have hone : (0 : ℝ) < 2 ^ 1074 := by positivity
      have hM2 : Real.sqrt M = rroot (.num false b hb) * 2 ^ 1075 := by
        have : (M : ℝ) = ((mag b : ℝ) / 2 ^ 1074) * (2 ^ 1075) ^ 2 := by
          rw [hMr, show (1075 : Nat) = 1074 + 1 from rfl, pow_succ (2 : ℝ) 1074]
          generalize (2 : ℝ) ^ 1074 = w at hone
          field_simp
          ring
        unfold rroot
        rw [hv, this, Real.sqrt_mul (div_nonneg (Nat.cast_nonneg _) hone.le), Real.sqrt_sq (pow_nonneg zero_le_two _)]
      have hq75 : (0 : ℚ) < 2 ^ 1075 := by positivity
      have hR75 : (0 : ℝ) < 2 ^ 1075 := by positivity
      have hrt : rootQuarters (mag b) = 2 * q + if q * q = M then 0 else 1 := by
        unfold rootQuarters
        rw [hM, hq]
      refine ⟨((rootQuarters (mag b) : Nat) : ℚ) / 2 / 2 ^ 1075, ⟨false, _, 4, hsq, by omega, ?_⟩, div_nonneg (div_nonneg (Nat.cast_nonneg _) zero_le_two) hq75.le, ?_⟩
      · push_cast
        rw [show (1075 : Nat) = 1074 + 1 from rfl, pow_succ (2 : ℚ) 1074]
        have : (0 : ℚ) < 2 ^ 1074 := by positivity
        generalize (2 : ℚ) ^ 1074 = w at this
        field_simp
        ring
      · intro h
        rw [div_le_div_iff_of_pos_right hq75, div_le_iff₀ hR75, div_le_div_iff_of_pos_right hq75, le_div_iff₀ hR75, ← hM2, hrt]
        have r1 : (q : ℝ) ≤ Real.sqrt M := by
          refine Real.le_sqrt_of_sq_le ?_
          rw [pow_two]; exact_mod_cast q1
        have r2 : Real.sqrt M < (q : ℝ) + 1 := by
          rw [Real.sqrt_lt' (add_pos_of_nonneg_of_pos (Nat.cast_nonneg _) zero_lt_one), pow_two]; exact_mod_cast q2
        split
        · rename_i he
          have r3 : Real.sqrt M = q := by
            rw [← he]; push_cast; exact Real.sqrt_mul_self (Nat.cast_nonneg _)
          rw [r3]
          push_cast
          constructor
          · rw [add_zero, mul_div_cancel_left₀ _ (by norm_num : (2 : ℚ) ≠ 0)]; exact_mod_cast Iff.rfl
          · rw [add_zero, mul_div_cancel_left₀ _ (by norm_num : (2 : ℚ) ≠ 0)]; exact_mod_cast Iff.rfl
        · rename_i hne
          have r3 : (q : ℝ) < Real.sqrt M := by
            refine lt_of_le_of_ne r1 (fun h' => hne ?_)
            have := Real.mul_self_sqrt (Nat.cast_nonneg M : (0 : ℝ) ≤ M)
            rw [← h'] at this
            exact_mod_cast this
          push_cast
          have e1 : ((2 : ℚ) * q + 1) / 2 = q + 1 / 2 := by ring
          rw [e1]
          constructor
          · constructor
            · intro hh
              have : h ≤ (q : Int) := by
                have h3 : (h : ℚ) < ((q : Int) : ℚ) + 1 := by push_cast; linarith
                have h4 : h < (q : Int) + 1 := by exact_mod_cast h3
                omega
              have : (h : ℝ) ≤ q := by exact_mod_cast this
              linarith
            · intro hh
              have h3 : (h : ℝ) < ((q : Int) : ℝ) + 1 := by push_cast; linarith
              have h4 : h < (q : Int) + 1 := by exact_mod_cast h3
              have : (h : ℚ) ≤ q := by exact_mod_cast (by omega : h ≤ (q : Int))
              linarith
          · constructor
            · intro hh
              have h3 : ((q : Int) : ℚ) < (h : ℚ) := by push_cast; linarith
              have h4 : (q : Int) < h := by exact_mod_cast h3
              have : ((q : Int) : ℝ) + 1 ≤ (h : ℝ) := by exact_mod_cast (by omega : (q : Int) + 1 ≤ h)
              push_cast at this
              linarith
            · intro hh
              have h3 : ((q : Int) : ℝ) < (h : ℝ) := by push_cast; linarith
              have h4 : (q : Int) < h := by exact_mod_cast h3
              have : ((q : Int) : ℚ) + 1 ≤ (h : ℚ) := by exact_mod_cast (by omega : (q : Int) + 1 ≤ h)
              push_cast at this
              linarith

/-- the value of a double, as a real number -/
noncomputable def rval (x : F64) : ℝ := ((val x : ℚ) : ℝ)

/-- every finite double is a multiple of 2^-1074, so the middle of two doubles is one of 2^-1075 -/
theorem mid_grid (x y : F64) : ∃ h : Int, (val x + val y) / 2 = (h : ℚ) / 2 ^ 1075 := by
  refine ⟨units x + units y, ?_⟩
  have hx := val_eq x
  have hy := val_eq y
  push_cast
  rw [← hx, ← hy, show (1075 : Nat) = 1074 + 1 from rfl, pow_succ (2 : ℚ) 1074]
  have : (0 : ℚ) < 2 ^ 1074 := by positivity
  generalize (2 : ℚ) ^ 1074 = w at this
  field_simp

/-- The root of a finite double that is not negative: the double nearest to the exact root. -/
theorem sqrt_nearest {x : F64} (hf : Finite x) (h0 : 0 ≤ val x) (hr : Finite (sqrt x)) (z : F64) (hz : Finite z) :
    |rval (sqrt x) - rroot x| ≤ |rval z - rroot x| := by
  obtain ⟨e, he, -, hh⟩ := sqrt_rounds hf h0
  have hn := (he.nearest hr z hz).1
  obtain ⟨m, hm⟩ := mid_grid (sqrt x) z
  obtain ⟨k1, k2⟩ := hh m
  rw [← hm] at k1 k2
  have em : (m : ℝ) / 2 ^ 1075 = (rval (sqrt x) + rval z) / 2 := by
    unfold rval
    have := congrArg (fun q : ℚ => (q : ℝ)) hm
    push_cast at this
    linarith
  rw [em] at k1 k2
  rcases lt_trichotomy (val (sqrt x)) (val z) with h | h | h
  · have h1 : e ≤ (val (sqrt x) + val z) / 2 := by
      by_contra hc
      push Not at hc
      have : |val z - e| < |val (sqrt x) - e| := by
        rw [abs_of_neg (by linarith : val (sqrt x) - e < 0), abs_lt]
        constructor <;> linarith
      linarith
    have h3 := k2.1 h1
    have h4 : rval (sqrt x) < rval z := by unfold rval; exact_mod_cast h
    rw [abs_le]
    rcases le_or_gt 0 (rval z - rroot x) with h5 | h5
    · rw [abs_of_nonneg h5]; constructor <;> linarith
    · rw [abs_of_neg h5]; constructor <;> linarith
  · have : rval (sqrt x) = rval z := by unfold rval; rw [h]
    rw [this]
  · have h1 : (val (sqrt x) + val z) / 2 ≤ e := by
      by_contra hc
      push Not at hc
      have : |val z - e| < |val (sqrt x) - e| := by
        rw [abs_of_pos (by linarith : 0 < val (sqrt x) - e), abs_lt]
        constructor <;> linarith
      linarith
    have h3 := k1.1 h1
    have h4 : rval z < rval (sqrt x) := by unfold rval; exact_mod_cast h
    rw [abs_le]
    rcases le_or_gt 0 (rval z - rroot x) with h5 | h5
    · rw [abs_of_nonneg h5]; constructor <;> linarith
    · rw [abs_of_neg h5]; constructor <;> linarith

theorem rval_le {x y : F64} : rval x ≤ rval y ↔ val x ≤ val y := by unfold rval; exact_mod_cast Iff.rfl

/-- The root never leaves a pair of doubles the exact root is between. -/
theorem sqrt_between {x lo hi : F64} (hf : Finite x) (h0 : 0 ≤ val x) (hlo : Finite lo) (hhi : Finite hi)
    (h1 : rval lo ≤ rroot x) (h2 : rroot x ≤ rval hi) : Finite (sqrt x) ∧ val lo ≤ val (sqrt x) ∧ val (sqrt x) ≤ val hi := by
  obtain ⟨e, he, -, hh⟩ := sqrt_rounds hf h0
  obtain ⟨m, hm⟩ := mid_grid lo lo
  obtain ⟨n, hn⟩ := mid_grid hi hi
  rw [add_self_div_two] at hm hn
  have em : (m : ℝ) / 2 ^ 1075 = rval lo := by
    unfold rval; rw [hm]; push_cast; rfl
  have en : (n : ℝ) / 2 ^ 1075 = rval hi := by
    unfold rval; rw [hn]; push_cast; rfl
  have k1 := (hh m).1
  have k2 := (hh n).2
  rw [em, ← hm] at k1
  rw [en, ← hn] at k2
  exact he.between (Rp.of lo hlo) (Rp.of hi hhi) (k1.2 h1) (k2.2 h2)

/-- exact if the exact root is a double -/
theorem sqrt_exact {x y : F64} (hf : Finite x) (hy : Finite y) (hy0 : 0 ≤ val y) (h : val y * val y = val x) :
    Finite (sqrt x) ∧ val (sqrt x) = val y := by
  have h0 : 0 ≤ val x := by rw [← h]; exact mul_nonneg hy0 hy0
  have hr : rroot x = rval y := by
    unfold rroot rval
    rw [← h]; push_cast
    exact Real.sqrt_mul_self (by exact_mod_cast hy0)
  obtain ⟨f, a, b⟩ := sqrt_between hf h0 hy hy hr.ge hr.le
  exact ⟨f, le_antisymm b a⟩

/-- the root of a finite double is never infinite -/
theorem sqrt_finite {x : F64} (hf : Finite x) (h0 : 0 ≤ val x) : Finite (sqrt x) ∧ 0 ≤ val (sqrt x) := by
  obtain ⟨z, hz, fz, vz⟩ := (Rp.int 0 (by decide)).rounds
  obtain ⟨o, ho, fo, vo⟩ := (Rp.int 1 (by decide)).rounds
  have hv : (0 : ℝ) ≤ ((val x : ℚ) : ℝ) := by exact_mod_cast h0
  have hl : rval z ≤ rroot x := by
    unfold rval; rw [vz]; simpa using rroot_nn x
  rcases le_or_gt (val x) 1 with h | h
  · obtain ⟨f, a, -⟩ := sqrt_between hf h0 fz fo hl (by
      unfold rval rroot; rw [vo]
      have : ((val x : ℚ) : ℝ) ≤ 1 := by exact_mod_cast h
      simpa using Real.sqrt_le_one.2 this)
    exact ⟨f, by rw [vz] at a; simpa using a⟩
  · obtain ⟨f, a, -⟩ := sqrt_between hf h0 fz hf hl (by
      unfold rval rroot
      have : (1 : ℝ) ≤ ((val x : ℚ) : ℝ) := by exact_mod_cast h.le
      rw [Real.sqrt_le_left hv, pow_two]
      nlinarith)
    exact ⟨f, by rw [vz] at a; simpa using a⟩

/-- doubles with the same value have roots with the same value -/
theorem sqrt_congr {x y : F64} (hx : Finite x) (hy : Finite y) (h0 : 0 ≤ val x) (h : val x = val y) : val (sqrt x) = val (sqrt y) := by
  by_cases hz : val x = 0
  · obtain ⟨z, -, fz, vz⟩ := (Rp.int 0 (by decide)).rounds
    have vz' : val z = 0 := by rw [vz]; simp
    rw [(sqrt_exact hx fz vz'.ge (by rw [vz', hz]; ring)).2, (sqrt_exact hy fz vz'.ge (by rw [vz', ← h, hz]; ring)).2]
  · rw [val_inj hx hy h hz]

/-- larger numbers do not have smaller roots -/
theorem sqrt_mono {x y : F64} (hx : Finite x) (hy : Finite y) (h0 : 0 ≤ val x) (h : val x ≤ val y) : val (sqrt x) ≤ val (sqrt y) := by
  obtain ⟨fx, -⟩ := sqrt_finite hx h0
  obtain ⟨fy, -⟩ := sqrt_finite hy (h0.trans h)
  have hr : rroot x ≤ rroot y := Real.sqrt_le_sqrt (by exact_mod_cast h)
  by_contra hc
  push Not at hc
  have hc' : rval (sqrt y) < rval (sqrt x) := by unfold rval; exact_mod_cast hc
  have n1 := sqrt_nearest hx h0 fx _ fy
  have n2 := sqrt_nearest hy (h0.trans h) fy _ fx
  have m1 : (rval (sqrt x) + rval (sqrt y)) / 2 ≤ rroot x := by
    by_contra hk
    push Not at hk
    rw [abs_of_pos (by linarith : 0 < rval (sqrt x) - rroot x)] at n1
    rcases le_abs.1 n1 with h1 | h1 <;> linarith
  have m2 : rroot y ≤ (rval (sqrt x) + rval (sqrt y)) / 2 := by
    by_contra hk
    push Not at hk
    rw [abs_of_neg (by linarith : rval (sqrt y) - rroot y < 0)] at n2
    rcases le_abs.1 n2 with h1 | h1 <;> linarith
  have he : rroot x = rroot y := le_antisymm hr (m2.trans m1)
  have hv : val x = val y := by
    have h1 := rroot_sq h0
    have h2 := rroot_sq (h0.trans h)
    rw [he, h2] at h1
    exact_mod_cast h1.symm
  have := sqrt_congr hx hy h0 hv
  linarith

theorem inf_units : infUnits = 2 ^ (1024 + 1074) := by decide +kernel

/-- The relative error of a root is at most 2^-53: roots are never so small that they underflow. -/
theorem sqrt_rel {x : F64} (hx : Finite x) (h0 : 0 ≤ val x) : |rval (sqrt x) - rroot x| ≤ rroot x / 2 ^ 53 := by
  by_cases hz : val x = 0
  · obtain ⟨z, -, fz, vz⟩ := (Rp.int 0 (by decide)).rounds
    have vz' : val z = 0 := by rw [vz]; simp
    have h1 := (sqrt_exact hx fz vz'.ge (by rw [vz', hz]; ring)).2
    have h2 : rroot x = 0 := by unfold rroot; rw [hz]; simp
    unfold rval
    rw [h1, vz', h2]; simp
  have hp : 0 < val x := lt_of_le_of_ne h0 (Ne.symm hz)
  have hpR : (0 : ℝ) < ((val x : ℚ) : ℝ) := by exact_mod_cast hp
  have ht : 0 < rroot x := Real.sqrt_pos.2 hpR
  have hsq := rroot_sq h0
  obtain ⟨n, hn1, hn2⟩ := exists_mem_Ico_zpow ht (by norm_num : (1 : ℝ) < 2)
  -- the exponent is in the range of the normal doubles
  have lo : (2 : ℝ) ^ (-1074 : ℤ) ≤ ((val x : ℚ) : ℝ) := by
    have hu : 1 ≤ units x := by
      have h1 : (0 : ℚ) < units x := by rw [← val_eq]; positivity
      have : 0 < units x := by exact_mod_cast h1
      omega
    have hu' : (1 : ℝ) ≤ ((val x : ℚ) : ℝ) * 2 ^ 1074 := by
      have : (1 : ℚ) ≤ val x * 2 ^ 1074 := by rw [val_eq]; exact_mod_cast hu
      exact_mod_cast this
    rw [show (-1074 : ℤ) = -((1074 : Nat) : ℤ) from rfl, zpow_neg, zpow_natCast, inv_le_iff_one_le_mul₀ (pow_pos zero_lt_two _)]
    exact hu'
  have hi : ((val x : ℚ) : ℝ) < (2 : ℝ) ^ (1024 : ℤ) := by
    have h1 := (units_lt_inf hx).2
    rw [inf_units] at h1
    have h2 : val x * 2 ^ 1074 < 2 ^ 1024 * 2 ^ 1074 := by
      rw [val_eq, ← pow_add]
      exact_mod_cast h1
    have h3 : val x < 2 ^ 1024 := lt_of_mul_lt_mul_right h2 (pow_nonneg zero_le_two _)
    rw [show (1024 : ℤ) = ((1024 : Nat) : ℤ) from rfl, zpow_natCast]
    exact_mod_cast h3
  have b1 : -538 ≤ n := by
    have h1 : (2 : ℝ) ^ (-1074 : ℤ) < (2 : ℝ) ^ (n + 1) * (2 : ℝ) ^ (n + 1) := by
      refine lt_of_le_of_lt (lo.trans hsq.ge) (mul_lt_mul'' hn2 hn2 ht.le ht.le)
    rw [← zpow_add₀ (by norm_num)] at h1
    have := (zpow_lt_zpow_iff_right₀ (by norm_num : (1 : ℝ) < 2)).1 h1
    omega
  have b2 : n ≤ 512 := by
    have h1 : (2 : ℝ) ^ n * (2 : ℝ) ^ n < (2 : ℝ) ^ (1024 : ℤ) := by
      refine lt_of_le_of_lt ((mul_le_mul hn1 hn1 (zpow_pos (by norm_num) _).le ht.le).trans hsq.le) hi
    rw [← zpow_add₀ (by norm_num)] at h1
    have := (zpow_lt_zpow_iff_right₀ (by norm_num : (1 : ℝ) < 2)).1 h1
    omega
  have e1 : (2 : ℝ) ^ (n + 1) = 2 ^ 53 * 2 ^ (n - 52) := by
    rw [← zpow_natCast (2 : ℝ) 53, ← zpow_add₀ (by norm_num)]
    congr 1
    push_cast
    omega
  have e2 : (2 : ℝ) ^ n = 2 ^ 52 * 2 ^ (n - 52) := by
    rw [← zpow_natCast (2 : ℝ) 52, ← zpow_add₀ (by norm_num)]
    congr 1
    push_cast
    omega
  rw [e1] at hn2
  rw [e2] at hn1
  have hj : (0 : ℝ) < 2 ^ (n - 52) := zpow_pos (by norm_num) _
  generalize hR : rroot x = t at *
  have hr : |(round (t / 2 ^ (n - 52)) : ℝ) - t / 2 ^ (n - 52)| ≤ 1 / 2 := by
    rw [abs_sub_comm]; exact abs_sub_round _
  have hm : (round (t / 2 ^ (n - 52))).natAbs ≤ 2 ^ 53 := by
    have h3 : |t / 2 ^ (n - 52)| ≤ 2 ^ 53 := by
      rw [abs_of_pos (div_pos ht hj), div_le_iff₀ hj]; exact hn2.le
    have h4 : |(round (t / 2 ^ (n - 52)) : ℝ)| ≤ 2 ^ 53 + 1 / 2 := by
      have := abs_sub_abs_le_abs_sub (round (t / 2 ^ (n - 52)) : ℝ) (t / 2 ^ (n - 52))
      linarith
    have h5 : ((round (t / 2 ^ (n - 52))).natAbs : ℝ) < ((2 ^ 53 + 1 : Nat) : ℝ) := by
      rw [Nat.cast_natAbs, Int.cast_abs]; push_cast; linarith
    have : (round (t / 2 ^ (n - 52))).natAbs < 2 ^ 53 + 1 := by exact_mod_cast h5
    omega
  obtain ⟨z, hz, fz, vz⟩ := (Rp.zgrid _ (n - 52) hm (by omega) (by omega)).rounds
  have h1 := sqrt_nearest hx h0 (sqrt_finite hx h0).1 z fz
  rw [hR] at h1
  refine h1.trans ?_
  have ev : rval z = (round (t / 2 ^ (n - 52)) : ℝ) * 2 ^ (n - 52) := by
    unfold rval; rw [vz]; push_cast; rfl
  have e3 : (round (t / 2 ^ (n - 52)) : ℝ) * 2 ^ (n - 52) - t = (round (t / 2 ^ (n - 52)) - t / 2 ^ (n - 52)) * 2 ^ (n - 52) := by field_simp
  rw [ev, e3, abs_mul, abs_of_pos hj]
  have h4 := mul_le_mul_of_nonneg_right hr hj.le
  refine h4.trans ?_
  rw [le_div_iff₀ (by positivity)]
  linarith

end Verif.Fp
