import Verif.UnitTest.Props
import Verif.Fp.Val
import Verif.Fp.Rel
/-
C103: testEquals for doubles.
-/
namespace Verif.UnitTest.Props
open Verif Verif.Fp Verif.UnitTest

theorem resabs_fin : Finite RESABS := by decide +kernel

theorem resabs_rounds : Rounds RESABS (1 / 1000000) := by
  have := lit_rounds 1 1000000 (by norm_num)
  norm_num at this
  exact this

attribute [local irreducible] RESABS Fp.lit Fp.val Fp.units

theorem units_abs (d : F64) : units (Fp.abs d) = |units d| := by
  cases d with
  | nan => unfold Fp.abs units; simp
  | num s b hb =>
    unfold Fp.abs units
    cases s <;> simp [sgn]

theorem val_abs (d : F64) : val (Fp.abs d) = |val d| := by
  have h1 := val_eq (Fp.abs d)
  have h2 := val_eq d
  rw [units_abs] at h1
  have h3 : |val d| * 2 ^ 1074 = ((|units d| : Int) : ℚ) := by
    rw [Int.cast_abs, ← h2, abs_mul, abs_of_pos (a := (2:ℚ) ^ 1074) (by positivity)]
  exact mul_right_cancel₀ (by positivity) (h1.trans h3.symm)

theorem passes_double {a e : F64} (h : a - e ≠ .nan) : passes (.double a e) = true ↔ |val (a - e)| ≤ val RESABS := by
  have h1 : Fp.abs (a - e) ≠ .nan := by
    cases hd : a - e with
    | nan => exact absurd hd h
    | num s b hb => simp [Fp.abs]
  have h2 : RESABS ≠ .nan := resabs_rounds.ne_nan
  simp only [passes]
  rw [le_iff h1 h2, units_le_val, val_abs]

/-- the tolerance as a double: 10^-6 up to half a unit in the last place -/
theorem resabs_near : |val RESABS - 1 / 1000000| ≤ 1 / 1000000 / 2 ^ 53 := by
  have := (resabs_rounds.rel (-20) 0 (by norm_num) (by norm_num) (by norm_num) (by norm_num)).2
  rwa [abs_of_pos (a := (1:ℚ) / 1000000) (by norm_num)] at this

/-- two finite doubles whose difference is at most the tolerance pass -/
theorem near_passes {a e : F64} (ha : Finite a) (he : Finite e) (h : |val a - val e| ≤ val RESABS) : passes (.double a e) = true := by
  have hr := sub_rounds ha he
  rw [passes_double hr.ne_nan]
  have hp : Rp (val RESABS) := Rp.of _ resabs_fin
  rw [abs_le] at h ⊢
  exact (hr.between hp.neg hp h.1 h.2).2

/-- a finite double equals itself -/
theorem same_passes {a : F64} (ha : Finite a) : passes (.double a a) = true := by
  refine near_passes ha ha ?_
  rw [sub_self, abs_zero]
  have h := abs_le.1 resabs_near
  have : (1 : ℚ) / 1000000 / 2 ^ 53 ≤ 1 / 1000000 := by norm_num
  linarith [h.1]

/-- what passes differs by at most the tolerance, up to one rounding -/
theorem passes_near {a e : F64} (ha : Finite a) (he : Finite e) (h : passes (.double a e) = true) :
    |val a - val e| ≤ val RESABS * (1 + 1 / 2 ^ 52) := by
  have hr := sub_rounds ha he
  rw [passes_double hr.ne_nan] at h
  by_contra hc
  rw [not_le] at hc
  have hb := abs_le.1 resabs_near
  have hlow : (1 : ℚ) / 2 ^ 20 ≤ val RESABS := by
    have h0 := hb.1
    have : (1 : ℚ) / 2 ^ 20 ≤ 1 / 1000000 - 1 / 1000000 / 2 ^ 53 := by norm_num
    linarith
  have hhigh : val RESABS ≤ 2 / 1000000 := by
    have h0 := hb.2
    have : (1 : ℚ) / 1000000 + 1 / 1000000 / 2 ^ 53 ≤ 2 / 1000000 := by norm_num
    linarith
  have hbig : (2 : ℚ) ^ (-20 : ℤ) ≤ |val a - val e| := by
    have e1 : (2 : ℚ) ^ (-20 : ℤ) = 1 / 2 ^ 20 := by norm_num
    have e2 : 0 ≤ val RESABS * (1 / 2 ^ 52) := mul_nonneg (le_trans (by norm_num) hlow) (by norm_num)
    rw [e1]
    linarith
  -- the rounded difference is not above the tolerance: neither is it far
  by_cases hN : |val a - val e| ≤ (2 : ℚ) ^ (0 : ℤ)
  · obtain ⟨_, h1⟩ := hr.rel (-20) 0 (by norm_num) (by norm_num) hbig hN
    have h2 : |val a - val e| ≤ |val (a - e)| + |val a - val e| / 2 ^ 53 := by
      have := abs_sub_abs_le_abs_sub (val a - val e) (val (a - e))
      rw [abs_sub_comm] at h1
      linarith
    generalize hx : |val a - val e| = x at *
    generalize val RESABS = t at *
    have h3 : x * (1 - 1 / 2 ^ 53) ≤ t := by linarith
    have ht : 0 < t := lt_of_lt_of_le (by norm_num) hlow
    have h4 : t * (1 + 1 / 2 ^ 52) * (1 - 1 / 2 ^ 53) > t := by
      have : ((1 : ℚ) + 1 / 2 ^ 52) * (1 - 1 / 2 ^ 53) > 1 := by norm_num
      nlinarith
    have h5 : t * (1 + 1 / 2 ^ 52) * (1 - 1 / 2 ^ 53) < x * (1 - 1 / 2 ^ 53) := by
      apply mul_lt_mul_of_pos_right hc
      norm_num
    linarith
  · rw [not_le] at hN
    have hone : Rp 1 := by simpa using Rp.int 1 (by norm_num)
    have : 1 ≤ |val (a - e)| := by
      rcases le_total 0 (val a - val e) with h0 | h0
      · rw [abs_of_nonneg h0] at hN
        obtain ⟨r, hr1, _, hr3⟩ := hone.rounds
        have := hr1.mono hr (by simpa using hN.le)
        rw [hr3] at this
        exact this.trans (le_abs_self _)
      · rw [abs_of_nonpos h0] at hN
        obtain ⟨r, hr1, _, hr3⟩ := hone.neg.rounds
        have := hr.mono hr1 (by simp only [zpow_zero] at hN; linarith)
        rw [hr3] at this
        exact (by linarith : (1:ℚ) ≤ -val (a - e)).trans (neg_le_abs _)
    linarith

/-- Infinity does not equal infinity here, although `inf == inf`: the difference is not a number. -/
theorem infinity_fails (s : Bool) : passes (.double (.num s infBits (Nat.le_refl _)) (.num s infBits (Nat.le_refl _))) = false := by
  cases s <;> rfl

/-- not a number equals nothing -/
theorem nan_fails (e : F64) : passes (.double .nan e) = false ∧ passes (.double e .nan) = false := by
  cases e <;> exact ⟨rfl, rfl⟩

/-- 1 and 1.0000005 pass, 1 and 1.000002 do not -/
example : passes (.double (lit 1 1) (lit 10000005 10000000)) = true ∧ passes (.double (lit 1 1) (lit 1000002 1000000)) = false := by decide +kernel

end Verif.UnitTest.Props
