import Verif.Math.FpTolProps
/-
C55: exactly the finite doubles from 2^34 on and those below -2^34 are less than themselves.
-/
namespace Verif.Math.Fl
open Verif Verif.Fp

attribute [local irreducible] RESABS

/-- a subtrahend below half the distance to the smaller neighbour is lost -/
theorem round_absorb_down (b n : Nat) (h0 : 0 < b) (h1 : n ≤ mag b) (h2 : 2 * mag b < 2 * n + 2 ^ expo (b - 1)) :
    roundBits n 1 = b := by
  have hhi : roundBits n 1 ≤ b := by
    have := round_mono n 1 (mag b) 1 (by omega) (by omega) (by omega)
    have e := round_exact b 1 (by omega)
    rw [Nat.one_mul] at e
    rw [e] at this; exact this
  obtain ⟨⟨hu, -⟩, -⟩ := round_bracket n 1 (by omega)
  by_contra hc
  have hs := mag_succ (b - 1)
  rw [Nat.sub_add_cancel (by omega)] at hs
  generalize roundBits n 1 = B at *
  have a1 : mag B ≤ mag (b - 1) := mag_le (by omega)
  have a2 : mag (B + 1) ≤ mag b := mag_le (by omega)
  omega

theorem mag_border : mag (1057 * 2 ^ 52) = 2 ^ (34 + 1074) := by decide +kernel

theorem expo_small {b : Nat} (h : mag b < 2 ^ (34 + 1074)) : expo b ≤ 1055 := by
  rw [← mag_border, mag_lt_iff] at h
  unfold expo; omega

theorem expo_large {b : Nat} (h : 2 ^ (34 + 1074) < mag b) : 1056 ≤ expo (b - 1) := by
  rw [← mag_border, mag_lt_iff] at h
  unfold expo; omega

theorem val_le_pow {x : F64} {k : Nat} : (2 : ℚ) ^ k ≤ val x ↔ (2 : Int) ^ (k + 1074) ≤ units x := by
  refine ⟨le_of_val, fun h => ?_⟩
  have hp : (0 : ℚ) < 2 ^ 1074 := by positivity
  unfold val
  rw [le_div_iff₀ hp, ← pow_add]
  exact_mod_cast h

theorem val_lt_neg_pow {x : F64} {k : Nat} : val x < -(2 : ℚ) ^ k ↔ units x < -(2 : Int) ^ (k + 1074) := by
  have hp : (0 : ℚ) < 2 ^ 1074 := by positivity
  unfold val
  rw [div_lt_iff₀ hp, neg_mul, ← pow_add]
  exact_mod_cast Iff.rfl

theorem greater_self (x : F64) : isGreater x x = isLess x x := rfl

theorem less_self (x : F64) (hx : Finite x) : isLess x x = true ↔ units (x + RESABS) ≤ units x := by
  unfold isLess
  exact le_iff (add_ne_nan hx finite_R) hx.ne_nan

theorem up_strict (b R : Nat) (h1 : 2 ^ 1054 < R) (hsm : mag b < 2 ^ (34 + 1074)) : b < roundBits (mag b + R) 1 := by
  have hP : (2 : Nat) ^ expo b ≤ 2 ^ 1055 := Nat.pow_le_pow_right (by omega) (expo_small hsm)
  have e5 : (2 : Nat) ^ 1055 = 2 * 2 ^ 1054 := by rw [Nat.pow_succ, Nat.mul_comm]
  have hs := mag_succ b
  have hlo : b ≤ roundBits (mag b + R) 1 := by
    have := round_mono (mag b) 1 (mag b + R) 1 (by omega) (by omega) (by omega)
    have e := round_exact b 1 (by omega)
    rw [Nat.one_mul] at e
    rw [e] at this; exact this
  refine Nat.lt_of_le_of_ne hlo fun he => ?_
  obtain ⟨⟨hu, -⟩, -⟩ := round_bracket (mag b + R) 1 (by omega)
  rw [← he] at hu
  generalize (2 : Nat) ^ 1054 = Q at *
  generalize (2 : Nat) ^ 1055 = Q1 at *
  generalize (2 : Nat) ^ expo b = W at *
  omega

theorem down_far (b R : Nat) (h1 : R < 2 ^ 1055) (hb : 0 < b) (hlt : R < mag b) (hfar : 2 ^ (34 + 1074) < mag b) :
    roundBits (mag b - R) 1 = b := by
  have hP : (2 : Nat) ^ 1056 ≤ 2 ^ expo (b - 1) := Nat.pow_le_pow_right (by omega) (expo_large hfar)
  have e6 : (2 : Nat) ^ 1056 = 2 * 2 ^ 1055 := by rw [Nat.pow_succ, Nat.mul_comm]
  refine round_absorb_down b (mag b - R) hb (by omega) ?_
  generalize (2 : Nat) ^ 1055 = Q1 at *
  generalize (2 : Nat) ^ 1056 = Q2 at *
  generalize (2 : Nat) ^ expo (b - 1) = W at *
  omega

theorem down_near (b R : Nat) (h1 : 2 ^ 1054 < R) (hb : 0 < b) (hlt : R < mag b) (hn : ¬2 ^ (34 + 1074) < mag b) :
    roundBits (mag b - R) 1 < b := by
  have hs := mag_succ (b - 1)
  rw [Nat.sub_add_cancel hb] at hs
  have hlt1 : mag (b - 1) < 2 ^ (34 + 1074) := Nat.lt_of_lt_of_le (mag_lt (by omega)) (Nat.le_of_not_lt hn)
  have hP : (2 : Nat) ^ expo (b - 1) ≤ 2 ^ 1055 := Nat.pow_le_pow_right (by omega) (expo_small hlt1)
  have e5 : (2 : Nat) ^ 1055 = 2 * 2 ^ 1054 := by rw [Nat.pow_succ, Nat.mul_comm]
  have hhi : roundBits (mag b - R) 1 ≤ b := by
    have := round_mono (mag b - R) 1 (mag b) 1 (by omega) (by omega) (by omega)
    have e := round_exact b 1 (by omega)
    rw [Nat.one_mul] at e
    rw [e] at this; exact this
  refine Nat.lt_of_le_of_ne hhi fun he => ?_
  obtain ⟨-, hl2⟩ := round_bracket (mag b - R) 1 (by omega)
  have := (hl2 (by omega)).1
  rw [he] at this
  generalize (2 : Nat) ^ 1054 = Q at *
  generalize (2 : Nat) ^ 1055 = Q1 at *
  generalize (2 : Nat) ^ expo (b - 1) = W at *
  omega

/-- the sum with the tolerance, in units -/
theorem sum_units (x : F64) (hx : Finite x) (b R : Nat) (hb : b < infBits) (hm : mag b = (units x).natAbs) (hR : units RESABS = R)
    (h1 : 2 ^ 1054 < R) (h2 : R < 2 ^ 1055) : units (x + RESABS) ≤ units x ↔ 2 ^ (34 + 1074) ≤ units x ∨ units x < -2 ^ (34 + 1074) := by
  obtain ⟨s, e⟩ := add_finite hx finite_R
  rw [e, units_ofUnits, hR]
  have hW : ((2 ^ (34 + 1074) : Nat) : Int) = 2 ^ (34 + 1074) := Nat.cast_pow 2 _
  have hbig : (2 : Nat) ^ 1055 < 2 ^ (34 + 1074) := Nat.pow_lt_pow_right (by omega) (by omega)
  rw [← hW]
  rcases Int.lt_or_le (units x) 0 with hneg | hpos
  · rcases Nat.lt_or_ge R (mag b) with hlt | hge
    · have n1 : (units x + R).natAbs = mag b - R := by omega
      have n2 : decide (units x + (R : Int) < 0) = true := by rw [decide_eq_true_iff]; omega
      have hb0 : 0 < b := by
        rcases Nat.eq_zero_or_pos b with h | h
        · subst h; rw [mag_zero] at hlt; omega
        · exact h
      rw [n1, n2]
      by_cases hfar : 2 ^ (34 + 1074) < mag b
      · rw [down_far b R h2 hb0 hlt hfar, Nat.min_eq_left (Nat.le_of_lt hb)]
        unfold sgn
        generalize (2 : Nat) ^ (34 + 1074) = W at *
        simp only [if_true]
        omega
      · have hB := down_near b R h1 hb0 hlt hfar
        have hmB := mag_lt hB
        rw [Nat.min_eq_left (by omega)]
        unfold sgn
        generalize (2 : Nat) ^ (34 + 1074) = W at *
        simp only [if_true]
        omega
    · have n2 : decide (units x + (R : Int) < 0) = false := by rw [decide_eq_false_iff_not]; omega
      rw [n2]
      unfold sgn
      generalize (2 : Nat) ^ (34 + 1074) = W at *
      generalize (2 : Nat) ^ 1055 = W1 at *
      simp only [Bool.false_eq_true, if_false]
      omega
  · have n1 : (units x + R).natAbs = mag b + R := by omega
    have n2 : decide (units x + (R : Int) < 0) = false := by rw [decide_eq_false_iff_not]; omega
    rw [n1, n2]
    by_cases hfar : mag b < 2 ^ (34 + 1074)
    · have hB := up_strict b R h1 hfar
      have hmB : mag b < mag (min (roundBits (mag b + R) 1) infBits) := mag_lt (by omega)
      unfold sgn
      generalize (2 : Nat) ^ (34 + 1074) = W at *
      simp only [Bool.false_eq_true, if_false]
      omega
    · have he : 1056 ≤ expo b := expo_gt 1055 (by omega)
      have hP : (2 : Nat) ^ 1056 ≤ 2 ^ expo b := Nat.pow_le_pow_right (by omega) he
      have e6 : (2 : Nat) ^ 1056 = 2 * 2 ^ 1055 := by rw [Nat.pow_succ, Nat.mul_comm]
      have hab := round_absorb b (mag b + R) (by omega) (by
        generalize (2 : Nat) ^ 1055 = Q at *
        generalize (2 : Nat) ^ 1056 = Q' at *
        generalize (2 : Nat) ^ expo b = W at *
        omega)
      rw [hab, Nat.min_eq_left (Nat.le_of_lt hb)]
      unfold sgn
      generalize (2 : Nat) ^ (34 + 1074) = W at *
      simp only [Bool.false_eq_true, if_false]
      omega

/-- A finite double is less (and greater) than itself, in the sense of the tolerant comparisons, exactly if it is at least
2^34 or below -2^34: only there the tolerance is lost in the rounding. -/
theorem less_itself_iff (x : F64) (hx : Finite x) :
    (isLess x x = true ↔ 2 ^ 34 ≤ val x ∨ val x < -(2 ^ 34)) ∧ (isGreater x x = true ↔ 2 ^ 34 ≤ val x ∨ val x < -(2 ^ 34)) := by
  suffices h : isLess x x = true ↔ 2 ^ 34 ≤ val x ∨ val x < -(2 ^ 34) from ⟨h, by rw [greater_self]; exact h⟩
  rw [less_self x hx, val_lt_neg_pow, val_le_pow]
  obtain ⟨b, hb, hm⟩ := hx.rep
  have hR0 := units_R
  have c1 : ((2 ^ 1054 : Nat) : Int) = 2 ^ 1054 := Nat.cast_pow 2 _
  have c2 : ((2 ^ 1055 : Nat) : Int) = 2 ^ 1055 := Nat.cast_pow 2 _
  have r1 := R_bounds.2.1
  have r2 := R_bounds.2.2
  refine sum_units x hx b (units RESABS).natAbs hb hm (by omega) ?_ ?_
  · generalize (2 : Nat) ^ 1054 = P at *
    generalize (2 : Int) ^ 1054 = P' at *
    omega
  · generalize (2 : Nat) ^ 1055 = P at *
    generalize (2 : Int) ^ 1055 = P' at *
    omega

/-- every finite double that is not that large is equal to itself and nothing else -/
theorem itself_only_equal (x : F64) (hx : Finite x) (h1 : -(2 ^ 34) ≤ val x) (h2 : val x < 2 ^ 34) :
    isEqual x x = true ∧ isLess x x = false ∧ isGreater x x = false := by
  obtain ⟨a, b⟩ := less_itself_iff x hx
  have hn : ¬(2 ^ 34 ≤ val x ∨ val x < -(2 ^ 34)) := by push Not; exact ⟨h2, h1⟩
  exact ⟨isEqual_refl x hx, by rw [Bool.eq_false_iff]; exact fun h => hn (a.1 h), by rw [Bool.eq_false_iff]; exact fun h => hn (b.1 h)⟩

example : Finite (lit (-17179869184) 1) ∧ isLess (lit (-17179869184) 1) (lit (-17179869184) 1) = false ∧
    isLess (lit (-17179869185) 1) (lit (-17179869185) 1) = true := by decide +kernel

end Verif.Math.Fl
