import Verif.Math.FpModel
import Verif.Fp.Mono
/-
Tolerant comparisons of doubles (C55), in IEEE arithmetic.
-/
namespace Verif.Math.Fl
open Verif Verif.Fp

theorem finite_R : Finite RESABS := by decide +kernel
theorem units_R : 0 < units RESABS := by decide +kernel
theorem R_bits : RESABS = .num false 0x3EB0C6F7A0B5ED8D (by decide) := by decide +kernel

attribute [local irreducible] RESABS

theorem R_ne_nan : RESABS ≠ .nan := Finite.ne_nan finite_R
theorem negR_ne_nan : -RESABS ≠ .nan := Finite.ne_nan (finite_neg.2 finite_R)

/-- differences in both directions -/
theorem sub_anti (x y : F64) : (x - y = .nan ∧ y - x = .nan) ∨
    (x - y ≠ .nan ∧ y - x ≠ .nan ∧ units (y - x) = -units (x - y)) := by
  show (add x (neg y) = .nan ∧ add y (neg x) = .nan) ∨ (add x (neg y) ≠ .nan ∧ add y (neg x) ≠ .nan ∧
    units (add y (neg x)) = -units (add x (neg y)))
  cases x with
  | nan => left; exact ⟨rfl, by cases y <;> rfl⟩
  | num s a ha => cases y with
    | nan => left; exact ⟨rfl, rfl⟩
    | num t b hb =>
      simp only [neg, add]
      by_cases h1 : a = infBits <;> by_cases h2 : b = infBits
      · subst h1; subst h2
        cases s <;> cases t <;> simp [mk, units, sgn]
      · rw [if_pos h1, if_neg h2, if_pos h1]
        have : ¬ (b = infBits ∧ s ≠ !t) := fun h => h2 h.1
        rw [if_neg this]
        right; cases s <;> simp [mk, units, sgn]
      · rw [if_neg h1, if_pos h2, if_pos h2]
        have : ¬ (a = infBits ∧ t ≠ !s) := fun h => h1 h.1
        rw [if_neg this]
        right; cases t <;> simp [mk, units, sgn]
      · rw [if_neg h1, if_neg h2, if_neg h2, if_neg h1]
        right
        refine ⟨ofUnits_ne_nan _ _ _, ofUnits_ne_nan _ _ _, ?_⟩
        have e : sgn t (mag b) + sgn (!s) (mag a) = -(sgn s (mag a) + sgn (!t) (mag b)) := by
          cases s <;> cases t <;> simp [sgn] <;> omega
        rw [e]; exact units_ofUnits_neg _ _ _ _

/-- `isEqual` is symmetric, for all doubles including infinities and NaN -/
theorem isEqual_symm (a b : F64) : isEqual a b = isEqual b a := by
  unfold isEqual
  have hR := R_ne_nan
  have hR' := negR_ne_nan
  rcases sub_anti b a with ⟨h1, h2⟩ | ⟨h1, h2, h3⟩
  · simp only [h1, h2]
  · have e1 := @lt_iff (b - a) RESABS h1 hR
    have e2 := @lt_iff (-RESABS) (b - a) hR' h1
    have e3 := @lt_iff (a - b) RESABS h2 hR
    have e4 := @lt_iff (-RESABS) (a - b) hR' h2
    rw [units_neg] at e2 e4
    show (lt (b - a) RESABS && lt (-RESABS) (b - a)) = (lt (a - b) RESABS && lt (-RESABS) (a - b))
    rw [Bool.eq_iff_iff, Bool.and_eq_true, Bool.and_eq_true, e1, e2, e3, e4, h3]
    omega

/-- every finite double equals itself -/
theorem isEqual_refl (a : F64) (h : Finite a) : isEqual a a = true := by
  have h0 := sub_exact h h (by rw [Int.sub_self]; exact rep_zero)
  have hR := R_ne_nan
  have hR' := negR_ne_nan
  show (lt (a - a) RESABS && lt (-RESABS) (a - a)) = true
  rw [Bool.and_eq_true, lt_iff h0.1.ne_nan hR, lt_iff hR' h0.1.ne_nan, h0.2, units_neg]
  have := units_R
  omega

/-- NaN and infinity do not equal themselves -/
theorem isEqual_refl_special : isEqual .nan .nan = false ∧
    ∀ s, isEqual (mk s infBits) (mk s infBits) = false := by
  refine ⟨rfl, fun s => ?_⟩
  cases s <;> decide +kernel

theorem isNotEqual_not (a b : F64) : isNotEqual a b = !isEqual a b := rfl

theorem isGreater_swap (a b : F64) : isGreater a b = isLess b a := rfl

theorem add_R_ne_nan (b : F64) (hb : b ≠ .nan) : b + RESABS ≠ .nan := by
  cases b with
  | nan => exact absurd rfl hb
  | num s b h =>
    by_cases h1 : b = infBits
    · subst h1
      rw [R_bits]
      show add _ _ ≠ _
      simp only [add, if_true]
      rw [if_neg (fun h => absurd h.1 (by decide))]
      exact F64.noConfusion
    · exact add_ne_nan (show b < infBits by omega) finite_R

/-- `isLessEqual` is the negation of `isGreater`, for all numbers including infinities -/
theorem isLessEqual_not_greater (a b : F64) (ha : a ≠ .nan) (hb : b ≠ .nan) :
    isLessEqual a b = !isGreater a b := by
  have hs := add_R_ne_nan b hb
  show lt a (b + RESABS) = !le (b + RESABS) a
  rw [Bool.eq_iff_iff, Bool.not_eq_true', ← Bool.not_eq_true, lt_iff ha hs, le_iff hs ha]
  omega

theorem add_nan_left (x : F64) : .nan + x = .nan := rfl
theorem add_nan_right (x : F64) : x + .nan = .nan := by cases x <;> rfl
theorem sub_nan_left (x : F64) : .nan - x = .nan := rfl
theorem sub_nan_right (x : F64) : x - .nan = .nan := by cases x <;> rfl
theorem le_nan_left (y : F64) : le .nan y = false := rfl
theorem le_nan_right (x : F64) : le x .nan = false := by cases x <;> rfl

/-- with NaN nothing holds except `isNotEqual` -/
theorem nan_comparisons (a b : F64) (h : a = .nan ∨ b = .nan) :
    isEqual a b = false ∧ isNotEqual a b = true ∧ isLess a b = false ∧ isLessEqual a b = false ∧
    isGreater a b = false ∧ isGreaterEqual a b = false := by
  rcases h with h | h <;> subst h <;>
    simp only [isEqual, isNotEqual, isLess, isLessEqual, isGreater, isGreaterEqual, add_nan_left,
      add_nan_right, sub_nan_left, sub_nan_right, le_nan_left, le_nan_right, lt_nan_left,
      lt_nan_right] <;> simp

/-- the double nearest to 10^-6 in units, between its neighbours -/
theorem R_bounds : (9 * 2 ^ 1074 + 10 ^ 7 * 2 ^ 1050 : Int) < 10 ^ 7 * units RESABS ∧
    (units RESABS : Int) < 2 ^ 1055 ∧ (2 ^ 1054 : Int) < units RESABS := by decide +kernel

theorem val_le_iff (x y : F64) (c : ℚ) : val x - val y ≤ c ↔ ((units x - units y : Int) : ℚ) ≤ c * 2 ^ 1074 := by
  have hp : (0 : ℚ) < 2 ^ 1074 := by positivity
  unfold val
  rw [← sub_div, div_le_iff₀ hp]
  push_cast; rfl

/-- differences of at most 9·10^-7: only `isEqual` holds -/
theorem near_aux (a b : F64) (ha : Finite a) (hb : Finite b) (hA : |val a| < 2 ^ 29) (hB : |val b| < 2 ^ 29)
    (h1 : val b - val a ≤ 9 / 10 ^ 7) : lt (b - a) RESABS = true ∧ isLess a b = false := by
  have hp : (0 : ℚ) < 2 ^ 1074 := by positivity
  have hu : (10 ^ 7 * (units b - units a) : Int) ≤ 9 * 2 ^ 1074 := by
    rw [val_le_iff] at h1
    have : ((10 ^ 7 * (units b - units a) : Int) : ℚ) ≤ ((9 * 2 ^ 1074 : Int) : ℚ) := by
      push_cast at h1 ⊢
      linarith
    exact_mod_cast this
  obtain ⟨r1, r2, r3⟩ := R_bounds
  have hbr : (units b).natAbs < 2 ^ (1050 + 53) := by
    have e : |val b| * 2 ^ 1074 = ((units b).natAbs : ℚ) := by
      unfold val; rw [abs_div, abs_of_pos hp, div_mul_cancel₀ _ (ne_of_gt hp), Nat.cast_natAbs]; push_cast; rfl
    have : ((units b).natAbs : ℚ) < ((2 ^ (1050 + 53) : Nat) : ℚ) := by
      rw [← e]
      have := mul_lt_mul_of_pos_right hB hp
      calc |val b| * 2 ^ 1074 < 2 ^ 29 * 2 ^ 1074 := this
        _ = ((2 ^ (1050 + 53) : Nat) : ℚ) := by rw [← pow_add]; push_cast; norm_num
    exact_mod_cast this
  obtain ⟨m, hm, hm1, hm2⟩ := rep_succ_le hb.rep 1050 hbr (by omega)
  have hRr := finite_R.rep
  generalize hP : (2 : Int) ^ 1074 = P at *
  generalize hQ : (2 : Int) ^ 1050 = Q at *
  constructor
  · rw [lt_iff (sub_ne_nan hb ha) R_ne_nan]
    -- the difference is at most the double below the tolerance
    have hx : units (b - a) ≤ units RESABS := sub_le_of hb ha hRr (by omega)
    by_contra hc
    have e : units (b - a) = units RESABS := by omega
    -- a representable value strictly between
    have hrep : Rep (2 ^ 1054 : Int) := by
      have := rep_grid 1 1054 (by decide) (by omega)
      simpa using this
    by_cases hd : units b - units a ≤ 2 ^ 1054
    · have := sub_le_of hb ha hrep hd
      omega
    · obtain ⟨c, hc1, hc2, hc3⟩ : ∃ c : Int, Rep c ∧ 10 ^ 7 * c < 10 ^ 7 * units RESABS ∧ 9 * P ≤ 10 ^ 7 * c := by
        refine ⟨units (lit 9 10000000) + 2 ^ 1002, ?_, ?_, ?_⟩
        · refine ⟨(0x3EAE32F0EE144533 : Nat), by decide, ?_⟩; decide +kernel
        · decide +kernel
        · rw [← hP]; decide +kernel
      have := sub_le_of hb ha hc1 (by omega)
      omega
  · rw [← Bool.not_eq_true]
    show ¬ le (a + RESABS) b = true
    rw [le_iff (add_ne_nan ha finite_R) hb.ne_nan]
    have := le_add_of ha finite_R hm (by omega)
    omega

end Verif.Math.Fl
