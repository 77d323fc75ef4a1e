import Verif.Fp.Val
import Mathlib.Algebra.Order.Archimedean.Basic
import Mathlib.Tactic.Linarith
/-
The relative rounding error, and doubles that are determined by their values.
-/
namespace Verif.Fp
open Verif

attribute [local irreducible] Fp.one

/-- a grid point: an integer of at most 53 bits times a power of two -/
theorem Rp.zgrid (m : Int) (j : Int) (hm : m.natAbs ≤ 2 ^ 53) (h1 : -1074 ≤ j) (h2 : j < 971) : Rp ((m : ℚ) * 2 ^ j) := by
  refine ⟨_, rep_grid m (1074 + j).toNat hm (by omega), ?_⟩
  push_cast
  rw [mul_assoc, ← zpow_natCast (2 : ℚ) 1074, ← zpow_add₀ (by norm_num), ← zpow_natCast (2 : ℚ) (1074 + j).toNat]
  congr 2
  omega

/-- the absolute error for numbers below 2^(53+j) -/
theorem Rounds.zerr {r : F64} {e : ℚ} (h : Rounds r e) (j : Int) (h1 : -1074 ≤ j) (h2 : j < 971)
    (he : |e| ≤ 2 ^ 53 * 2 ^ j) : Finite r ∧ |val r - e| ≤ 2 ^ j / 2 := by
  have hp := Rp.zgrid (2 ^ 53) j (by decide) h1 h2
  have hn := hp.neg
  push_cast at hp hn
  obtain ⟨f, -, -⟩ := h.between hn hp (abs_le.1 he).1 (abs_le.1 he).2
  refine ⟨f, ?_⟩
  have hj : (0 : ℚ) < 2 ^ j := zpow_pos (by norm_num) j
  have hr : |(round (e / 2 ^ j) : ℚ) - e / 2 ^ j| ≤ 1 / 2 := by
    rw [abs_sub_comm]; exact abs_sub_round _
  have hm : (round (e / 2 ^ j)).natAbs ≤ 2 ^ 53 := by
    have h3 : |e / 2 ^ j| ≤ 2 ^ 53 := by
      rw [abs_div, abs_of_pos hj, div_le_iff₀ hj]; exact he
    have h4 : |(round (e / 2 ^ j) : ℚ)| ≤ 2 ^ 53 + 1 / 2 := by
      have := abs_sub_abs_le_abs_sub (round (e / 2 ^ j) : ℚ) (e / 2 ^ j)
      linarith
    have h5 : ((round (e / 2 ^ j)).natAbs : ℚ) < ((2 ^ 53 + 1 : Nat) : ℚ) := by
      rw [Nat.cast_natAbs]; push_cast; linarith
    have : (round (e / 2 ^ j)).natAbs < 2 ^ 53 + 1 := by exact_mod_cast h5
    omega
  obtain ⟨z, hz, fz, vz⟩ := (Rp.zgrid _ j hm h1 h2).rounds
  refine (h.nearest f z fz).1.trans ?_
  rw [vz]
  have e1 : (round (e / 2 ^ j) : ℚ) * 2 ^ j - e = (round (e / 2 ^ j) - e / 2 ^ j) * 2 ^ j := by field_simp
  rw [e1, abs_mul, abs_of_pos hj]
  have := mul_le_mul_of_nonneg_right hr hj.le
  linarith

/-- the relative error of rounding a number in the range of the normal doubles -/
theorem Rounds.rel {r : F64} {e : ℚ} (h : Rounds r e) (L N : ℤ) (hL : -1022 ≤ L) (hN : N ≤ 1023) (h1 : (2 : ℚ) ^ L ≤ |e|)
    (h2 : |e| ≤ 2 ^ N) : Finite r ∧ |val r - e| ≤ |e| / 2 ^ 53 := by
  have he : 0 < |e| := lt_of_lt_of_le (zpow_pos (by norm_num) L) h1
  obtain ⟨n, hn1, hn2⟩ := exists_mem_Ico_zpow he (by norm_num : (1 : ℚ) < 2)
  have a1 : -1022 ≤ n := by
    have := (zpow_lt_zpow_iff_right₀ (by norm_num : (1 : ℚ) < 2)).1 (lt_of_le_of_lt h1 hn2)
    omega
  have a2 : n ≤ N := (zpow_le_zpow_iff_right₀ (by norm_num : (1 : ℚ) < 2)).1 (hn1.trans h2)
  have e1 : (2 : ℚ) ^ (n + 1) = 2 ^ 53 * 2 ^ (n - 52) := by
    rw [← zpow_natCast (2 : ℚ) 53, ← zpow_add₀ (by norm_num)]
    congr 1
    push_cast
    omega
  have e2 : (2 : ℚ) ^ n = 2 ^ 52 * 2 ^ (n - 52) := by
    rw [← zpow_natCast (2 : ℚ) 52, ← zpow_add₀ (by norm_num)]
    congr 1
    push_cast
    omega
  have e0 : (2 : ℚ) ^ n = 2 ^ 53 * 2 ^ (n - 53) := by
    rw [← zpow_natCast (2 : ℚ) 53, ← zpow_add₀ (by norm_num)]
    congr 1
    push_cast
    omega
  by_cases h971 : n - 52 < 971
  · rw [e1] at hn2
    rw [e2] at hn1
    obtain ⟨f, hb⟩ := h.zerr (n - 52) (by omega) h971 hn2.le
    refine ⟨f, hb.trans ?_⟩
    rw [le_div_iff₀ (by positivity)]
    linarith
  · -- the largest power of two is a double itself
    have hn : n = N := by omega
    have e3 : |e| = 2 ^ n := le_antisymm (by rw [hn]; exact h2) hn1
    have hp := Rp.zgrid (2 ^ 53) (n - 53) (by decide) (by omega) (by omega)
    have e4 : (((2 ^ 53 : ℤ) : ℚ) * 2 ^ (n - 53)) = |e| := by
      rw [e3, e0]; push_cast; rfl
    rw [e4] at hp
    have hp' : Rp e := by
      rcases abs_choice e with h | h
      · rwa [h] at hp
      · rw [h] at hp; have := hp.neg; rwa [neg_neg] at this
    obtain ⟨f, hv⟩ := h.exact hp'
    exact ⟨f, by rw [hv, sub_self, abs_zero]; positivity⟩

/-- the exact value determines the value of the result -/
theorem Rounds.unique {r r' : F64} {e : ℚ} (h : Rounds r e) (h' : Rounds r' e) : val r = val r' :=
  le_antisymm (h.mono h' le_rfl) (h'.mono h le_rfl)

/-- a finite double that is not zero is determined by its value -/
theorem val_inj {x y : F64} (hx : Finite x) (hy : Finite y) (h : val x = val y) (h0 : val x ≠ 0) : x = y := by
  have hu : units x = units y := by
    have := congrArg (· * (2 : ℚ) ^ 1074) h
    simp only [val_eq] at this
    exact_mod_cast this
  have hu0 : units x ≠ 0 := fun h' => h0 (by unfold val; rw [h']; simp)
  cases x with
  | nan => exact absurd hx id
  | num s a ha =>
    cases y with
    | nan => exact absurd hy id
    | num t b hb =>
      have h1 : sgn s (mag a) = sgn t (mag b) := hu
      have h2 : sgn s (mag a) ≠ 0 := hu0
      have hst : s = t := by
        clear hu0 hu
        cases s <;> cases t <;> simp only [sgn, if_true, Bool.false_eq_true, if_false] at h1 h2 ⊢ <;> omega
      subst hst
      have hm : mag a = mag b := by
        revert h1
        cases s <;> simp only [sgn, if_true, Bool.false_eq_true, if_false] <;> intros <;> omega
      have := mag_inj hm
      subst this
      rfl

/-- the largest double -/
def largest : F64 := mk false (infBits - 1)

theorem largest_fin : Finite largest := by decide +kernel

theorem mag_lt_inf {z : F64} (hz : Finite z) : |val z| ≤ val largest := by
  have key : ∀ (b : Nat), b < infBits → mag b ≤ mag (infBits - 1) := fun b hb => mag_le (by omega)
  have hl : units largest = (mag (infBits - 1) : Int) := by
    unfold largest
    rw [units_mk]
    show sgn false _ = _
    rw [Nat.min_eq_left (by omega)]
    rfl
  have h2 : (0 : ℚ) < 2 ^ 1074 := by positivity
  cases z with
  | nan => exact absurd hz id
  | num s b hb =>
    have h1 := key b hz
    unfold val
    rw [hl, abs_div, abs_of_pos h2, div_le_div_iff_of_pos_right h2]
    show |((sgn s (mag b) : Int) : ℚ)| ≤ _
    have : |((sgn s (mag b) : Int) : ℚ)| = (mag b : ℚ) := by
      cases s <;> simp [sgn]
    rw [this]
    exact_mod_cast h1

end Verif.Fp
