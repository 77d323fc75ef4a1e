import Verif.Math.FpTol
/-
C55 for doubles: `isEqual`, `isLess`, `isGreater`, `isLessEqual`, `isGreaterEqual`.

Proved for all doubles: `isEqual_symm`, `isEqual_refl`, `isNotEqual_not`, `isGreater_swap`,
`isLessEqual_not_greater`, `nan_comparisons` (in FpTol.lean) and `tolerance_fp_partial` below.
"Exactly one holds" is false near the tolerance (`tolerance_overlap`) and for all large numbers
(`large_less_itself`).
-/
namespace Verif.Math.Fl
open Verif Verif.Fp

theorem R_le_exact : (10 ^ 6 * units RESABS : Int) ≤ 2 ^ 1074 := by decide +kernel

attribute [local irreducible] RESABS

theorem far_aux (a b : F64) (ha : Finite a) (hb : Finite b) (h : 1 / 10 ^ 6 ≤ val b - val a) :
    isLess a b = true ∧ isEqual a b = false ∧ isGreater a b = false := by
  have hp : (0 : ℚ) < 2 ^ 1074 := by positivity
  have hu : (units RESABS : Int) ≤ units b - units a := by
    have h2 : (2 ^ 1074 : Int) ≤ 10 ^ 6 * (units b - units a) := by
      unfold val at h
      rw [← sub_div, le_div_iff₀ hp] at h
      have : ((2 ^ 1074 : Int) : ℚ) ≤ ((10 ^ 6 * (units b - units a) : Int) : ℚ) := by
        push_cast; linarith
      exact_mod_cast this
    have := R_le_exact
    generalize (2 : Int) ^ 1074 = P at *
    omega
  have hR := units_R
  refine ⟨?_, ?_, ?_⟩
  · show le (a + RESABS) b = true
    rw [le_iff (add_ne_nan ha finite_R) hb.ne_nan]
    exact add_le_of ha finite_R hb.rep (by omega)
  · show (lt (b - a) RESABS && lt (-RESABS) (b - a)) = false
    rw [Bool.and_eq_false_iff]; left
    rw [← Bool.not_eq_true, lt_iff (sub_ne_nan hb ha) R_ne_nan]
    have := le_sub_of hb ha finite_R.rep hu
    omega
  · show le (b + RESABS) a = false
    rw [← Bool.not_eq_true, le_iff (add_ne_nan hb finite_R) ha.ne_nan]
    have := le_add_of hb finite_R hb.rep (by omega)
    omega

/-- Two finite doubles that differ by at least 10^-6 are strictly ordered and nothing else; two
doubles below 2^29 that differ by at most 9·10^-7 are equal and nothing else. Missing: the
remaining differences and larger numbers, where the claim is false. -/
theorem tolerance_fp_partial (a b : F64) (ha : Finite a) (hb : Finite b) :
    (1 / 10 ^ 6 ≤ val b - val a →
      isLess a b = true ∧ isEqual a b = false ∧ isGreater a b = false) ∧
    (1 / 10 ^ 6 ≤ val a - val b →
      isLess a b = false ∧ isEqual a b = false ∧ isGreater a b = true) ∧
    (|val a| < 2 ^ 29 → |val b| < 2 ^ 29 → |val b - val a| ≤ 9 / 10 ^ 7 →
      isLess a b = false ∧ isEqual a b = true ∧ isGreater a b = false) := by
  refine ⟨far_aux a b ha hb, fun h => ?_, fun hA hB h => ?_⟩
  · obtain ⟨h1, h2, h3⟩ := far_aux b a hb ha h
    refine ⟨?_, ?_, ?_⟩
    · rw [← h3]; rfl
    · rw [isEqual_symm]; exact h2
    · rw [isGreater_swap]; exact h1
  · rw [abs_le] at h
    obtain ⟨x1, x2⟩ := near_aux a b ha hb hA hB h.2
    obtain ⟨y1, y2⟩ := near_aux b a hb ha hB hA (by linarith)
    refine ⟨x2, ?_, by rw [isGreater_swap]; exact y2⟩
    show (lt (b - a) RESABS && lt (-RESABS) (b - a)) = true
    rw [Bool.and_eq_true]
    refine ⟨x1, ?_⟩
    rw [lt_iff negR_ne_nan (sub_ne_nan hb ha), units_neg]
    rw [lt_iff (sub_ne_nan ha hb) R_ne_nan] at y1
    rcases sub_anti a b with ⟨e, -⟩ | ⟨-, -, e⟩
    · exact absurd e (sub_ne_nan ha hb)
    · omega

-- all three cases occur
example : isLess (lit 1 10) (lit 2 10) = true ∧ isGreater (lit 2 10) (lit 1 10) = true ∧
    isEqual (lit 1 10 + lit 2 10) (lit 3 10) = true := by decide +kernel

/-- 1 and 1.000001 are equal and ordered at the same time; `isGreaterEqual` does not exclude
`isLess` either. -/
theorem tolerance_overlap : isEqual (lit 1 1) (lit 1000001 1000000) = true ∧
    isLess (lit 1 1) (lit 1000001 1000000) = true ∧
    isGreaterEqual (lit 1 1) (lit 1000001 1000000) = true := by decide +kernel

theorem le_of_val {x : F64} {k : Nat} (h : (2 : ℚ) ^ k ≤ val x) : (2 : Int) ^ (k + 1074) ≤ units x := by
  have hp : (0 : ℚ) < 2 ^ 1074 := by positivity
  unfold val at h
  rw [le_div_iff₀ hp, ← pow_add] at h
  exact_mod_cast h

theorem pow_le_natAbs {u : Int} (k : Nat) (h : (2 : Int) ^ k ≤ u) : 2 ^ k ≤ u.natAbs := by
  have h0 : (0 : Int) < 2 ^ k := by positivity
  have e : ((2 ^ k : Nat) : Int) = 2 ^ k := by push_cast; rfl
  omega

theorem natAbs_lt_pow {u : Int} (k : Nat) (h0 : 0 ≤ u) (h : u < (2 : Int) ^ k) : u.natAbs < 2 ^ k := by
  have e : ((2 ^ k : Nat) : Int) = 2 ^ k := by push_cast; rfl
  omega

/-- Every double from 2^34 on is less and greater than itself: the tolerance is lost in the
rounding. -/
theorem large_less_itself (x : F64) (hx : Finite x) (h : 2 ^ 34 ≤ val x) :
    isLess x x = true ∧ isGreater x x = true ∧ isEqual x x = true := by
  have hu := le_of_val h
  have hx0 : 0 ≤ units x := le_trans (by positivity) hu
  obtain ⟨b, hb, hm⟩ := hx.rep
  have hbig : 2 ^ (34 + 1074) ≤ mag b := by
    rw [hm]; exact pow_le_natAbs _ hu
  have he : 1056 ≤ expo b := expo_gt 1055 hbig
  have hR := R_bounds.2.1
  have hR0 := units_R
  have hP : (2 : Nat) ^ 1056 ≤ 2 ^ expo b := Nat.pow_le_pow_right (by omega) he
  have hab := round_absorb b (mag b + (units RESABS).natAbs) (by omega) (by
    have := natAbs_lt_pow 1055 (Int.le_of_lt hR0) hR
    have e : (2 : Nat) ^ 1056 = 2 * 2 ^ 1055 := by rw [Nat.pow_succ, Nat.mul_comm]
    generalize (2 : Nat) ^ 1055 = Q at *
    generalize (2 : Nat) ^ 1056 = Q' at *
    generalize (2 : Nat) ^ expo b = W at *
    omega)
  have hsum : units (x + RESABS) = units x := by
    obtain ⟨s, e⟩ := add_finite hx finite_R
    rw [e, units_ofUnits]
    have n1 : (units x + units RESABS).natAbs = mag b + (units RESABS).natAbs := by omega
    have n2 : decide (units x + units RESABS < 0) = false := by
      rw [decide_eq_false_iff_not]; omega
    rw [n1, n2, hab, Nat.min_eq_left (Nat.le_of_lt hb)]
    show (mag b : Int) = _
    omega
  have hl : isLess x x = true := by
    show le (x + RESABS) x = true
    rw [le_iff (add_ne_nan hx finite_R) hx.ne_nan, hsum]
  exact ⟨hl, hl, isEqual_refl x hx⟩

example : Finite (lit 17179869184 1) ∧ units (lit 17179869184 1) = 2 ^ 34 * one := by decide +kernel

end Verif.Math.Fl
