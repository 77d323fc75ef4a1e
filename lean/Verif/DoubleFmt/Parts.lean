import Verif.DoubleFmt.Lemmas
/-
Lemmas for C94: the parts of a double before and behind the point.
-/
namespace Verif.DoubleFmt
open Verif Verif.Str Verif.Num Verif.Fp Verif.Math.Fl Verif.DoubleFmt.Spec

attribute [local irreducible] Fp.one

theorem mant_lt (b : Nat) : mant b < 2 ^ 53 := by unfold mant; split <;> omega

theorem one_eq : (one : Nat) = 2 ^ 1074 := by unfold Fp.one; rfl
theorem one_pos : 0 < (one : Nat) := by rw [one_eq]; exact Nat.two_pow_pos _

/-- the remainder modulo 1 is a double, and is 0 for numbers from 2^53 on -/
theorem mod_rep (b : Nat) : Rep ((mag b % one : Nat) : Int) ∧ (mag b % one ≠ 0 → mag b < 2 ^ 53 * one) := by
  unfold mag
  rw [one_eq]
  by_cases he : 1074 ≤ expo b
  · have h0 : mant b * 2 ^ expo b % 2 ^ 1074 = 0 :=
      Nat.mod_eq_zero_of_dvd (Dvd.dvd.mul_left (Nat.pow_dvd_pow 2 he) _)
    rw [h0]
    exact ⟨by simpa using rep_grid 0 0 (by decide) (by decide), fun h => absurd rfl h⟩
  · have e : (2 : Nat) ^ 1074 = 2 ^ (1074 - expo b) * 2 ^ expo b := by rw [← Nat.pow_add]; congr 1; omega
    have hm := mant_lt b
    constructor
    · rw [e, Nat.mul_mod_mul_right]
      have h1 : mant b % 2 ^ (1074 - expo b) ≤ mant b := Nat.mod_le _ _
      have := rep_grid ((mant b % 2 ^ (1074 - expo b) : Nat) : Int) (expo b) (by rw [Int.natAbs_natCast]; omega) (by omega)
      simpa using this
    · intro _
      exact Nat.mul_lt_mul'' hm (Nat.pow_lt_pow_right (by decide) (by omega))

theorem abs_val (s : Bool) (b : Nat) (h : b ≤ infBits) : |val (.num s b h)| = (mag b : ℚ) / (one : Nat) := by
  have e : val (.num s b h) = (sgn s (mag b) : ℚ) / (one : Nat) := by unfold val; rw [one_cast]; rfl
  rw [e, abs_div, abs_of_nonneg (by positivity : (0 : ℚ) ≤ ((one : Nat) : ℚ))]
  congr 1
  cases s <;> simp [sgn]

theorem val_neg_iff (s : Bool) (b : Nat) (h : b ≤ infBits) : val (.num s b h) < 0 ↔ sgn s (mag b) < 0 := by
  have e : val (.num s b h) = (sgn s (mag b) : ℚ) / (one : Nat) := by unfold val; rw [one_cast]; rfl
  have hp : (0 : ℚ) < ((one : Nat) : ℚ) := by exact_mod_cast one_pos
  rw [e, div_lt_iff₀ hp, zero_mul]
  exact_mod_cast Iff.rfl

/-- a double, split into the whole part and the part behind the point -/
theorem parts {x : F64} (hx : Finite x) : ∃ (B : Nat) (f : ℚ), 0 ≤ f ∧ f < 1 ∧ |val x| = B + f ∧
    Finite (fmod1 x) ∧ |val (fmod1 x)| = f ∧ (f ≠ 0 → |val x| < 2 ^ 53) ∧
    (|val x| < 2 ^ 63 → toInt64 x = .ok (if val x < 0 then -(B : Int) else B)) := by
  cases x with
  | nan => exact absurd hx id
  | num s b hb =>
    have h1 : b < infBits := hx
    have hp : (0 : ℚ) < ((one : Nat) : ℚ) := by exact_mod_cast one_pos
    obtain ⟨hr, hbig⟩ := mod_rep b
    have hdm : ((mag b : Nat) : ℚ) = one * (mag b / one : Nat) + (mag b % one : Nat) := by
      exact_mod_cast (Nat.div_add_mod (mag b) one).symm
    have hlt : ((mag b % one : Nat) : ℚ) < one := by exact_mod_cast Nat.mod_lt _ one_pos
    have hsum : |val (.num s b hb)| = ((mag b / one : Nat) : ℚ) + ((mag b % one : Nat) : ℚ) / one := by
      rw [abs_val, hdm]
      field_simp
    have htm : Int.tmod (sgn s (mag b)) one = sgn s (mag b % one) := by
      cases s
      · simp only [sgn, Bool.false_eq_true, if_false]
        rw [Int.tmod_eq_emod_of_nonneg (by omega)]; rfl
      · simp only [sgn, if_true]
        rw [Int.neg_tmod, Int.tmod_eq_emod_of_nonneg (by omega)]; rfl
    have hrs : Rep (sgn s (mag b % one)) := by
      cases s
      · simpa [sgn] using hr
      · simpa [sgn] using hr.neg
    have hfm : fmod1 (.num s b hb) = ofUnits s (sgn s (mag b % one)) 1 := by
      show (if b = infBits then F64.nan else ofUnits s (Int.tmod (sgn s (mag b)) one) 1) = _
      rw [if_neg (by omega), htm]
    have hu := units_ofUnits_exact1 s _ hrs
    have hfin : Finite (ofUnits s (sgn s (mag b % one)) 1) := finite_ofUnits (by rw [hu]; exact hrs)
    have hval : |val (ofUnits s (sgn s (mag b % one)) 1)| = ((mag b % one : Nat) : ℚ) / one := by
      unfold val
      rw [hu, ← one_cast, abs_div, abs_of_pos hp]
      congr 1
      generalize mag b % one = R
      cases s <;> simp [sgn]
    refine ⟨mag b / one, ((mag b % one : Nat) : ℚ) / one, by positivity, (div_lt_one hp).2 hlt, hsum, ?_, ?_, ?_, ?_⟩
    · rw [hfm]; exact hfin
    · rw [hfm]; exact hval
    · intro h
      have hne : mag b % one ≠ 0 := by
        intro e; rw [e] at h; simp at h
      rw [abs_val, div_lt_iff₀ hp]
      exact_mod_cast hbig hne
    · intro h63
      have hB : mag b / one < 2 ^ 63 := by
        have : ((mag b / one : Nat) : ℚ) < 2 ^ 63 := by
          have h0 : (0 : ℚ) ≤ ((mag b % one : Nat) : ℚ) / one := by positivity
          rw [hsum] at h63
          linarith
        exact_mod_cast this
      have htd : Int.tdiv (sgn s (mag b)) one = sgn s (mag b / one) := by
        cases s
        · simp only [sgn, Bool.false_eq_true, if_false]
          rw [Int.tdiv_eq_ediv_of_nonneg (by omega)]; rfl
        · simp only [sgn, if_true]
          rw [Int.neg_tdiv, Int.tdiv_eq_ediv_of_nonneg (by omega)]; rfl
      have e : toInt64 (.num s b hb) = if b = infBits then .error .ub else
          if -(2 ^ 63) ≤ Int.tdiv (sgn s (mag b)) one ∧ Int.tdiv (sgn s (mag b)) one ≤ 2 ^ 63 - 1
          then .ok (Int.tdiv (sgn s (mag b)) one) else .error .ub := rfl
      rw [e, if_neg (by omega), htd]
      generalize hQ : mag b / one = Q at *
      have hv := val_neg_iff s b hb
      by_cases hneg : val (.num s b hb) < 0
      · rw [if_pos hneg]
        have hs := hv.1 hneg
        cases s
        · simp only [sgn, Bool.false_eq_true, if_false] at hs; omega
        · simp only [sgn, if_true]
          rw [if_pos (by omega)]
      · rw [if_neg hneg]
        cases s
        · simp only [sgn, Bool.false_eq_true, if_false]
          rw [if_pos (by omega)]
        · have hs : ¬ sgn true (mag b) < 0 := fun h => hneg (hv.2 h)
          simp only [sgn, if_true] at hs ⊢
          have hm0 : mag b = 0 := by omega
          have hQ0 : Q = 0 := by rw [← hQ, hm0, Nat.zero_div]
          subst hQ0
          rw [if_pos (by omega)]
          rfl

end Verif.DoubleFmt
