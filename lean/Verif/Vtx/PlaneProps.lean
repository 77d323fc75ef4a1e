import Verif.Vtx.Props
/-
C76: vectors of the plane; systems of two linear equations.  Without rounding.
-/
namespace Verif.Vtx
open Verif Verif.Exact Verif.Mx Verif.Mx.Mat

namespace P2
theorem plus_toX (a b : R2) : a.toX.plus b.toX = (a + b).toX := rfl
theorem minus_toX (a b : R2) : a.toX.minus b.toX = (a - b).toX := rfl
theorem times_toX (t : ℝ) (a : R2) : V2.times (.r t) a.toX = (t * a).toX := rfl
theorem cross_toX (a b : R2) : a.toX.crossProduct b.toX = .r (R2.det a b) := rfl
theorem dot_toX (a b : R2) : a.toX.dotProduct b.toX = .r (R2.dot a b) := rfl
theorem abs_toX (a : R2) : a.toX.abs = .r (R2.norm a) := by
  unfold V2.abs
  exact X.sqrt_r (R2.dot_self_nonneg a)

theorem lagrange (a b : R2) : R2.dot a b ^ 2 + R2.det a b ^ 2 = (R2.norm a * R2.norm b) ^ 2 := by
  rw [mul_pow, pow_two (R2.norm a), pow_two (R2.norm b), R2.norm_sq, R2.norm_sq]
  simp [R2.dot, R2.det]; ring

theorem dot_bound (a b : R2) : |R2.dot a b| ≤ R2.norm a * R2.norm b := by
  refine abs_le_of_sq_le_sq ?_ (mul_nonneg (R2.norm_nonneg a) (R2.norm_nonneg b))
  have := lagrange a b
  nlinarith [sq_nonneg (R2.det a b)]

theorem norm_smul (t : ℝ) (a : R2) : R2.norm (t * a) = |t| * R2.norm a := by
  have e : R2.dot (t * a) (t * a) = t ^ 2 * R2.dot a a := by simp [R2.dot]; ring
  unfold R2.norm
  rw [e, Real.sqrt_mul (sq_nonneg t), Real.sqrt_sq_eq_abs]
theorem norm_normalized (a : R2) (h : 0 < R2.norm a) : R2.norm ((1 / R2.norm a) * a) = 1 := by
  rw [norm_smul, abs_of_pos (by positivity)]; field_simp

theorem normalized_toX (a : R2) (h : tol ≤ R2.norm a) : a.toX.normalized = ((1 / R2.norm a) * a).toX := by
  unfold V2.normalized
  have hp : 0 < R2.norm a := lt_of_lt_of_le tol_pos h
  rw [abs_toX, if_neg (by rw [isEqual_zero_nonneg (R2.norm_nonneg a)]; linarith), one_r, X.div_r _ (ne_of_gt hp)]
  rfl
theorem normalized_short (a : R2) (h : R2.norm a < tol) : a.toX.normalized = a.toX := by
  unfold V2.normalized
  rw [abs_toX, if_pos ((isEqual_zero_nonneg (R2.norm_nonneg a)).2 h)]

/-- A vector of length at least 10^-6 is normalized to length 1, in the same direction; a shorter one is
not changed. -/
theorem normalized_spec (a : R2) :
    (tol ≤ R2.norm a → ∃ u : R2, a.toX.normalized = u.toX ∧ R2.norm u = 1 ∧ a = R2.norm a * u) ∧
    (R2.norm a < tol → a.toX.normalized = a.toX) := by
  refine ⟨fun h => ?_, normalized_short a⟩
  have hp : 0 < R2.norm a := lt_of_lt_of_le tol_pos h
  refine ⟨(1 / R2.norm a) * a, normalized_toX a h, norm_normalized a hp, ?_⟩
  ext <;> simp <;> field_simp

/-- the vector, turned counterclockwise by the angle -/
noncomputable def rot (t : ℝ) (a : R2) : R2 := ⟨a.x * Real.cos t - a.y * Real.sin t, a.x * Real.sin t + a.y * Real.cos t⟩

/-- Rotating: lengths and signed areas are kept, a unit vector turned from (1, 0) is (cos, sin), angles add up. -/
theorem rotated_spec (a : R2) (t : ℝ) :
    ∃ ρ : ℝ → R2 → R2, (∀ s b, (R2.toX b).rotated (.r s) = (ρ s b).toX) ∧ (∀ b, R2.norm (ρ t b) = R2.norm b) ∧
      (∀ b, R2.det (ρ t a) (ρ t b) = R2.det a b) ∧ ρ t ⟨1, 0⟩ = ⟨Real.cos t, Real.sin t⟩ ∧
      (∀ s, ρ s (ρ t a) = ρ (s + t) a) := by
  have hcs : Real.cos t ^ 2 + Real.sin t ^ 2 = 1 := Real.cos_sq_add_sin_sq t
  refine ⟨rot, fun s b => rfl, ?_, ?_, ?_, ?_⟩
  · intro b
    unfold R2.norm
    congr 1
    simp only [rot, R2.dot_def]
    linear_combination (b.x ^ 2 + b.y ^ 2) * hcs
  · intro b
    simp only [rot, R2.det_def]
    linear_combination (a.x * b.y - a.y * b.x) * hcs
  · ext <;> simp [rot]
  · intro s
    unfold rot
    rw [Real.cos_add, Real.sin_add]
    ext <;> simp only <;> ring

/-- The signed angle: in [-π, π], and turning the first vector by it gives the direction of the second one.
It is positive exactly if the second vector lies to the left.  Of a null vector it is not a number. -/
theorem angleTo_spec (a b : R2) :
    (a ≠ ⟨0, 0⟩ → b ≠ ⟨0, 0⟩ → ∃ θ : ℝ, a.toX.angleTo b.toX = .r θ ∧ -Real.pi ≤ θ ∧ θ ≤ Real.pi ∧
      R2.norm b * rot θ a = R2.norm a * b ∧ (0 < θ ↔ 0 < R2.det a b)) ∧
    (a = ⟨0, 0⟩ ∨ b = ⟨0, 0⟩ → a.toX.angleTo b.toX = .nan) := by
  constructor
  · intro ha hb
    have hpa : 0 < R2.norm a := lt_of_le_of_ne (R2.norm_nonneg a) (fun e => ha (R2.norm_eq_zero.1 e.symm))
    have hpb : 0 < R2.norm b := lt_of_le_of_ne (R2.norm_nonneg b) (fun e => hb (R2.norm_eq_zero.1 e.symm))
    have hpp := mul_pos hpa hpb
    have hbd := abs_le.1 (dot_bound a b)
    have h1 : -1 ≤ R2.dot a b / (R2.norm a * R2.norm b) := by rw [le_div_iff₀ hpp]; linarith [hbd.1]
    have h2 : R2.dot a b / (R2.norm a * R2.norm b) ≤ 1 := by rw [div_le_iff₀ hpp]; linarith [hbd.2]
    have hlag := lagrange a b
    have hq := R2.norm_sq a
    rw [R2.dot_def] at hq
    have hsin : Real.sin (Real.arccos (R2.dot a b / (R2.norm a * R2.norm b))) = |R2.det a b| / (R2.norm a * R2.norm b) := by
      rw [Real.sin_arccos, Real.sqrt_eq_iff_mul_self_eq]
      · rw [div_mul_div_comm, abs_mul_abs_self]
        field_simp
        rw [mul_pow] at hlag
        linear_combination -hlag
      · have := abs_le.1 (abs_le.2 ⟨h1, h2⟩)
        nlinarith
      · positivity
    have hval : ∀ σ : ℝ, (σ = 1 ∨ σ = -1) → |R2.det a b| * σ = R2.det a b →
        R2.norm b * rot (Real.arccos (R2.dot a b / (R2.norm a * R2.norm b)) * σ) a = R2.norm a * b := by
      intro σ hσ hd
      have hc : Real.cos (Real.arccos (R2.dot a b / (R2.norm a * R2.norm b)) * σ) = R2.dot a b / (R2.norm a * R2.norm b) := by
        rcases hσ with rfl | rfl
        · rw [mul_one, Real.cos_arccos h1 h2]
        · rw [mul_neg_one, Real.cos_neg, Real.cos_arccos h1 h2]
      have hs : Real.sin (Real.arccos (R2.dot a b / (R2.norm a * R2.norm b)) * σ) = R2.det a b / (R2.norm a * R2.norm b) := by
        rw [← hd]
        rcases hσ with rfl | rfl
        · rw [mul_one, hsin, mul_one]
        · rw [mul_neg_one, Real.sin_neg, hsin]; ring
      unfold rot
      rw [hc, hs, R2.dot_def, R2.det_def]
      ext <;> simp <;> field_simp
      · linear_combination (-b.x) * hq
      · linear_combination (-b.y) * hq
    have hcr : Arith.lt zero (a.toX.crossProduct b.toX) = true ↔ 0 < R2.det a b := by
      rw [cross_toX, zero_r, X.lt_r]
    have hbase : Libm.acos (a.toX.dotProduct b.toX / (a.toX.abs * b.toX.abs)) =
        .r (Real.arccos (R2.dot a b / (R2.norm a * R2.norm b))) := by
      rw [dot_toX, abs_toX, abs_toX, X.mul_r, X.div_r _ (ne_of_gt hpp), X.acos_r h1 h2]
    have h0 := Real.arccos_nonneg (R2.dot a b / (R2.norm a * R2.norm b))
    have hpi := Real.arccos_le_pi (R2.dot a b / (R2.norm a * R2.norm b))
    by_cases hdet : 0 < R2.det a b
    · refine ⟨Real.arccos (R2.dot a b / (R2.norm a * R2.norm b)) * 1, ?_, by linarith [Real.pi_pos], by linarith, ?_, ?_⟩
      · unfold V2.angleTo
        rw [hbase, if_pos (hcr.2 hdet), one_r, X.mul_r]
      · exact hval 1 (.inl rfl) (by rw [mul_one, abs_of_pos hdet])
      · refine ⟨fun _ => hdet, fun _ => ?_⟩
        rw [mul_one]
        refine lt_of_le_of_ne h0 fun e => ?_
        rw [← e, Real.sin_zero] at hsin
        have : 0 < |R2.det a b| / (R2.norm a * R2.norm b) := by positivity
        rw [← hsin] at this; exact lt_irrefl _ this
    · refine ⟨Real.arccos (R2.dot a b / (R2.norm a * R2.norm b)) * (-1), ?_, by linarith, by linarith [Real.pi_pos], ?_, ?_⟩
      · unfold V2.angleTo
        rw [hbase, if_neg (fun c => hdet (hcr.1 c)), one_r, X.neg_r, X.mul_r]
      · exact hval (-1) (.inr rfl) (by rw [abs_of_nonpos (not_lt.1 hdet)]; ring)
      · exact ⟨fun h => by linarith, fun h => absurd h hdet⟩
  · intro h
    have : R2.norm a * R2.norm b = 0 := by
      rcases h with h | h
      · rw [R2.norm_eq_zero.2 h, zero_mul]
      · rw [R2.norm_eq_zero.2 h, mul_zero]
    unfold V2.angleTo
    rw [dot_toX, abs_toX, abs_toX, X.mul_r, this, X.div_zero]; rfl

/-- `isRightTo`, `isLeftTo`: exactly one of them, or the vectors are parallel. -/
theorem isRightTo_spec (a b : R2) :
    (a.toX.isRightTo b.toX = true ↔ 0 < R2.det a b) ∧ (a.toX.isLeftTo b.toX = true ↔ R2.det a b < 0) := by
  have e : b.toX.x * -a.toX.y + b.toX.y * a.toX.x = .r (R2.det a b) := by
    show X.r (b.x * -a.y + b.y * a.x) = _
    congr 1
    rw [R2.det_def]; ring
  unfold V2.isRightTo V2.isLeftTo
  rw [e, zero_r, X.lt_r, X.lt_r]
  exact ⟨Iff.rfl, Iff.rfl⟩

theorem tests_spec (a b : R2) :
    (a.toX.isOrthogonal b.toX = true ↔ |R2.dot a b| < tol) ∧ (a.toX.isCollinear b.toX = true ↔ |R2.det a b| < tol) ∧
    (a.toX.eq b.toX = true ↔ |a.x - b.x| < tol ∧ |a.y - b.y| < tol) ∧ a.toX.ne b.toX = !(a.toX.eq b.toX) ∧
    a.toX.isValid = true := by
  have h1 : a.toX.eq b.toX = true ↔ |a.x - b.x| < tol ∧ |a.y - b.y| < tol := by
    unfold V2.eq
    simp only [R2.toX, Bool.and_eq_true, X.isEqual_r]; rfl
  refine ⟨?_, ?_, h1, ?_, ?_⟩
  · unfold V2.isOrthogonal
    rw [dot_toX, isEqual_zero]
  · unfold V2.isCollinear
    rw [cross_toX, isEqual_zero]
  · rw [Bool.eq_iff_iff, Bool.not_eq_true', ← Bool.not_eq_true, h1]
    unfold V2.ne
    simp only [R2.toX, Bool.or_eq_true, X.isNotEqual_r]
    rw [not_and_or, not_lt, not_lt]; rfl
  · have : ∀ t, isNaN (X.r t) = false := by
      intro t
      rw [← Bool.not_eq_true, X.isNaN_iff]
      intro e; cases e
    simp [V2.isValid, R2.toX, this]

/-! ### Two linear equations -/

theorem eliminate_r (A1 A2 B1 B2 R1 R2 : ℝ) (h1 : A1 ≠ 0) (hd : A1 * B2 - A2 * B1 ≠ 0) :
    ∃ s t : ℝ, eliminate (X.r A1) (.r A2) (.r B1) (.r B2) (.r R1) (.r R2) = ⟨.r s, .r t⟩ ∧
      s * A1 + t * B1 = R1 ∧ s * A2 + t * B2 = R2 := by
  have hB : B2 - A2 / A1 * B1 ≠ 0 := by
    intro h
    apply hd
    field_simp at h
    linear_combination h
  refine ⟨(R1 - (R2 - A2 / A1 * R1) / (B2 - A2 / A1 * B1) * B1) / A1, (R2 - A2 / A1 * R1) / (B2 - A2 / A1 * B1), ?_, ?_, ?_⟩
  · unfold eliminate
    simp only [X.div_r _ h1, X.mul_r, X.sub_r, X.div_r _ hB]
  · field_simp
    ring
  · have e : (R2 - A2 / A1 * R1) / (B2 - A2 / A1 * B1) * (B2 - A2 / A1 * B1) = R2 - A2 / A1 * R1 := div_mul_cancel₀ _ hB
    generalize (R2 - A2 / A1 * R1) / (B2 - A2 / A1 * B1) = T at e
    field_simp
    field_simp at e
    linear_combination e

/-- `solveLinearSystem` finds the solution of `s a + t b = r` if the determinant is not 0 and the pivot is not
0: `|a.x| ≥ 10^-6` or `a.y ≠ 0`.  Missing: a system with `0 < |a.x| < 10^-6` and `a.y = 0`, see
`solveLinearSystem_pivot` and, for all cases, `solveLinearSystem_iff`. -/
theorem solveLinearSystem_partial (a b r : R2) (hd : R2.det a b ≠ 0) (hp : tol ≤ |a.x| ∨ a.y ≠ 0) :
    ∃ s t : ℝ, solveLinearSystem a.toX b.toX r.toX = ⟨.r s, .r t⟩ ∧ s * a + t * b = r ∧
      ∀ s' t' : ℝ, s' * a + t' * b = r → s' = s ∧ t' = t := by
  have hex : ∃ s t : ℝ, solveLinearSystem a.toX b.toX r.toX = ⟨.r s, .r t⟩ ∧ s * a + t * b = r := by
    rw [R2.det_def] at hd
    unfold solveLinearSystem
    by_cases h : |a.x| < tol
    · have hy : a.y ≠ 0 := by
        rcases hp with hp | hp
        · exact absurd h (not_lt.2 hp)
        · exact hp
      have hc : isEqual a.toX.x zero = true := (isEqual_zero a.x).2 h
      rw [if_pos hc]
      obtain ⟨s, t, e, e1, e2⟩ := eliminate_r a.y a.x b.y b.x r.y r.x hy (fun c => hd (by linear_combination -c))
      exact ⟨s, t, e, R2.ext e2 e1⟩
    · have hx : a.x ≠ 0 := by
        intro c; rw [c, abs_zero] at h; exact h tol_pos
      have hc : ¬ (isEqual a.toX.x zero = true) := fun c => h ((isEqual_zero a.x).1 c)
      rw [if_neg hc]
      obtain ⟨s, t, e, e1, e2⟩ := eliminate_r a.x a.y b.x b.y r.x r.y hx hd
      exact ⟨s, t, e, R2.ext e1 e2⟩
  obtain ⟨s, t, e, h⟩ := hex
  refine ⟨s, t, e, h, ?_⟩
  intro s' t' h'
  have hx := congrArg V2.x h
  have hy := congrArg V2.y h
  have hx' := congrArg V2.x h'
  have hy' := congrArg V2.y h'
  simp only [R2.add_x, R2.add_y, R2.smul_x, R2.smul_y] at hx hy hx' hy'
  rw [R2.det_def] at hd
  constructor
  · have : (s' - s) * (a.x * b.y - a.y * b.x) = 0 := by linear_combination (hx' - hx) * b.y - (hy' - hy) * b.x
    rcases mul_eq_zero.1 this with h | h
    · linarith
    · exact absurd h hd
  · have : (t' - t) * (a.x * b.y - a.y * b.x) = 0 := by linear_combination (hy' - hy) * a.x - (hx' - hx) * a.y
    rcases mul_eq_zero.1 this with h | h
    · linarith
    · exact absurd h hd

/-- The pivot is chosen by the tolerance, not by size: the system 10^-7 s = 1, t = 1 is regular, but the
solution is not found. -/
theorem solveLinearSystem_pivot :
    R2.det ⟨1 / 10 ^ 7, 0⟩ ⟨0, 100⟩ ≠ 0 ∧
    solveLinearSystem (R2.toX ⟨1 / 10 ^ 7, 0⟩) (R2.toX ⟨0, 100⟩) (R2.toX ⟨1, 100⟩) = ⟨.nan, .nan⟩ := by
  refine ⟨by norm_num [R2.det], ?_⟩
  unfold solveLinearSystem
  have hc : isEqual (R2.toX ⟨1 / 10 ^ 7, 0⟩).x zero = true := (isEqual_zero _).2 (by unfold tol; norm_num [abs_lt])
  rw [if_pos hc]
  unfold eliminate
  simp only [R2.toX, X.div_zero]
  rfl

-- cases that meet the hypotheses
example : R2.det ⟨1, 2⟩ ⟨3, 4⟩ ≠ 0 ∧ (tol ≤ |(1 : ℝ)| ∨ (2 : ℝ) ≠ 0) := ⟨by norm_num [R2.det], .inr (by norm_num)⟩
example : tol ≤ R2.norm ⟨3 / 5, 4 / 5⟩ := by
  rw [R2.norm_unit.2 (by norm_num [R2.dot])]; unfold tol; norm_num

end P2
end Verif.Vtx
