import Verif.Vtx.RotProps
import Verif.Vtx.PlaneProps
/-
`rotationUV` and `solveLinearSystem` in all cases: the complements of the theorems in `RotProps` and `PlaneProps`.
-/
namespace Verif.Vtx
open Verif Verif.Exact Verif.Mx Verif.Mx.Mat

theorem cos_bounds (u v : R3) (pu : 0 < R3.norm u) (pv : 0 < R3.norm v) : -1 ≤ cosAngle u v ∧ cosAngle u v ≤ 1 := by
  have hb2 := abs_le.1 (dot_bound u v)
  have hpp := mul_pos pu pv
  unfold cosAngle
  exact ⟨by rw [le_div_iff₀ hpp]; linarith [hb2.1], by rw [div_le_iff₀ hpp]; linarith [hb2.2]⟩

theorem sine_eq (u v : R3) (pu : 0 < R3.norm u) (pv : 0 < R3.norm v) :
    Real.sqrt (1 - cosAngle u v * cosAngle u v) = R3.norm (R3.cross u v) / (R3.norm u * R3.norm v) := by
  obtain ⟨c1, c2⟩ := cos_bounds u v pu pv
  have := R3.norm_nonneg (R3.cross u v)
  rw [Real.sqrt_eq_iff_mul_self_eq (by nlinarith) (by positivity), ← pow_two (_ / _), div_pow]
  obtain ⟨c, e, -, -, -, h⟩ := crossProduct_spec u v
  have ec : c = R3.cross u v := by
    rw [cross_toX] at e
    simp only [R3.toX, V3.mk.injEq, X.r.injEq] at e
    exact R3.ext e.1.symm e.2.1.symm e.2.2.symm
  rw [← ec, h]
  unfold cosAngle
  field_simp

/-- Almost opposite vectors, all of them: the first vector is mapped to its opposite, whatever the second one is; right exactly if
they are exactly opposite. -/
theorem rotationUV_almost_opposite (u v : R3) (hu : tol ≤ R3.norm u) (hv : tol ≤ R3.norm v) (hc : cosAngle u v + 1 < tol) :
    ∃ w : R3, (rotationUV u.toX v.toX).mulV3 u.toX = .ok w.toX ∧ w = (-1 : ℝ) * u ∧
      (R3.norm v * w = R3.norm u * v ↔ ∃ k : ℝ, v = k * u) := by
  have pu : 0 < R3.norm u := lt_of_lt_of_le tol_pos hu
  have pv : 0 < R3.norm v := lt_of_lt_of_le tol_pos hv
  obtain ⟨c1, -⟩ := cos_bounds u v pu pv
  obtain ⟨o, ho1, ho2, ho3⟩ := halfTurn_spec ((1 / R3.norm u) * u) (norm_normalized u pu)
  have hou : R3.dot o u = 0 := by
    have e : R3.dot o ((1 / R3.norm u) * u) = (1 / R3.norm u) * R3.dot o u := by simp [R3.dot]; ring
    rw [e] at ho2
    rcases mul_eq_zero.1 ho2 with h | h
    · have : (1 : ℝ) / R3.norm u ≠ 0 := by positivity
      exact absurd h this
    · exact h
  refine ⟨(-1 : ℝ) * u, ?_, rfl, ?_⟩
  · simp only [rotationUV]
    rw [normalized_toX u hu, normalized_toX _ hv, dot_toX, unit_pair u _ pu pv, if_pos, ho3, hou]
    · congr 2
      ext <;> simp
    · rw [one_r, X.neg_r, X.isEqual_r, sub_neg_eq_add, abs_of_nonneg (by linarith)]
      exact hc
  · constructor
    · intro h
      refine ⟨-(R3.norm v / R3.norm u), ?_⟩
      have hx := congrArg V3.x h
      have hy := congrArg V3.y h
      have hz := congrArg V3.z h
      simp only [R3.smul_x, R3.smul_y, R3.smul_z] at hx hy hz
      ext <;> simp only [R3.smul_x, R3.smul_y, R3.smul_z] <;> field_simp <;> linarith
    · rintro ⟨k, rfl⟩
      have hk : k < 0 := by
        by_contra h
        have hk0 : 0 ≤ k := not_lt.1 h
        have : R3.dot u (k * u) = k * (R3.norm u * R3.norm u) := by rw [R3.norm_sq]; simp [R3.dot]; ring
        have h2 : 0 ≤ cosAngle u (k * u) := by
          unfold cosAngle
          rw [this]
          have := R3.norm_nonneg (k * u)
          positivity
        unfold tol at hc
        norm_num at hc
        linarith
      rw [norm_smul, abs_of_neg hk]
      ext <;> simp <;> ring

/-- Vectors whose cross product is shorter than 10^-6, without being almost opposite, all of them: right exactly if they are parallel.
Two vectors of length 10^-4 at a right angle are among them. -/
theorem rotationUV_short_iff (u v : R3) (hu : tol ≤ R3.norm u) (hv : tol ≤ R3.norm v) (hc : tol ≤ cosAngle u v + 1)
    (hx : R3.norm (R3.cross u v) < tol) :
    ∃ w : R3, (rotationUV u.toX v.toX).mulV3 u.toX = .ok w.toX ∧
      (R3.norm v * w = R3.norm u * v ↔ R3.cross u v = ⟨0, 0, 0⟩) := by
  have pu : 0 < R3.norm u := lt_of_lt_of_le tol_pos hu
  have pv : 0 < R3.norm v := lt_of_lt_of_le tol_pos hv
  have hsine := sine_eq u v pu pv
  have e : ∃ w : R3, (rotationUV u.toX v.toX).mulV3 u.toX = .ok w.toX ∧ w = rodCS (R3.cross u v) (cosAngle u v) (Real.sqrt (1 - cosAngle u v * cosAngle u v)) u := by
    refine ⟨_, ?_, rfl⟩
    rw [rotationUV_turn u v hu hv hc, normalized_short _ hx, turn_spec]
  obtain ⟨w, e1, e2⟩ := e
  refine ⟨w, e1, ?_⟩
  set c := cosAngle u v with hcdef
  set s := Real.sqrt (1 - c * c) with hsdef
  have hsn : s * (R3.norm u * R3.norm v) = R3.norm (R3.cross u v) := by rw [hsine]; field_simp
  constructor
  · intro h
    by_contra hne
    have hX : 0 < R3.norm (R3.cross u v) := lt_of_le_of_ne (R3.norm_nonneg _) fun h0 => hne (R3.norm_eq_zero.1 h0.symm)
    -- both sides along (u × v) × u
    have hd := congrArg (R3.dot (R3.cross (R3.cross u v) u)) h
    have d1 : R3.dot (R3.cross (R3.cross u v) u) (R3.norm v * w) =
        R3.norm v * (s * (R3.dot u u * R3.dot (R3.cross u v) (R3.cross u v))) := by
      rw [e2]; unfold rodCS; simp [R3.dot, R3.cross]; ring
    have d2 : R3.dot (R3.cross (R3.cross u v) u) (R3.norm u * v) = R3.norm u * R3.dot (R3.cross u v) (R3.cross u v) := by
      simp [R3.dot, R3.cross]; ring
    rw [d1, d2, ← R3.norm_sq u] at hd
    have hq : 0 < R3.dot (R3.cross u v) (R3.cross u v) := by rw [← R3.norm_sq]; positivity
    have h1 : R3.norm u * (s * (R3.norm u * R3.norm v)) = R3.norm u * 1 := by
      have := mul_right_cancel₀ hq.ne' (show (R3.norm u * (s * (R3.norm u * R3.norm v))) * R3.dot (R3.cross u v) (R3.cross u v) =
        (R3.norm u * 1) * R3.dot (R3.cross u v) (R3.cross u v) by linarith)
      exact this
    have h2 := mul_left_cancel₀ pu.ne' h1
    rw [hsn] at h2
    rw [h2] at hx
    unfold tol at hx
    norm_num at hx
  · intro h0
    have hs0 : s = 0 := by
      have : R3.norm (R3.cross u v) = 0 := by rw [h0]; exact R3.norm_eq_zero.2 rfl
      rw [this] at hsn
      rcases mul_eq_zero.1 hsn with h | h
      · exact h
      · have := mul_pos pu pv; linarith
    have hc1 : c = 1 := by
      have h1 : 1 - c * c = 0 := by
        have hb := cos_bounds u v pu pv
        exact (Real.sqrt_eq_zero (by nlinarith [hb.1, hb.2])).1 hs0
      have h2 : (c - 1) * (c + 1) = 0 := by linarith
      rcases mul_eq_zero.1 h2 with h | h
      · linarith
      · have := tol_pos; linarith
    have hdot : R3.dot u v = R3.norm u * R3.norm v := by
      have : c * (R3.norm u * R3.norm v) = R3.dot u v := by rw [hcdef]; unfold cosAngle; field_simp
      rw [hc1] at this; linarith
    -- |v| u = |u| v
    have hw : w = u := by
      rw [e2, h0, hs0, hc1]; unfold rodCS
      ext <;> simp
    rw [hw]
    have hz : R3.norm (R3.norm v * u - R3.norm u * v) = 0 := by
      rw [← mul_self_eq_zero, R3.norm_sq]
      have : R3.dot (R3.norm v * u - R3.norm u * v) (R3.norm v * u - R3.norm u * v) =
          R3.norm v * R3.norm v * R3.dot u u + R3.norm u * R3.norm u * R3.dot v v - 2 * (R3.norm u * R3.norm v) * R3.dot u v := by
        simp [R3.dot]; ring
      rw [this, hdot, ← R3.norm_sq u, ← R3.norm_sq v]; ring
    have := R3.norm_eq_zero.1 hz
    have hx' := congrArg V3.x this
    have hy' := congrArg V3.y this
    have hz' := congrArg V3.z this
    simp only [R3.sub_x, R3.sub_y, R3.sub_z, R3.smul_x, R3.smul_y, R3.smul_z] at hx' hy' hz'
    ext <;> simp only [R3.smul_x, R3.smul_y, R3.smul_z] <;> linarith

namespace P2

/-- `solveLinearSystem` in all cases: it has a result exactly if the determinant is not 0 and the pivot is not 0 (|a.x| at least 10^-6,
or a.y not 0); otherwise not both unknowns are numbers. -/
theorem solveLinearSystem_iff (a b r : R2) :
    (∃ s t : ℝ, solveLinearSystem a.toX b.toX r.toX = ⟨.r s, .r t⟩) ↔ R2.det a b ≠ 0 ∧ (tol ≤ |a.x| ∨ a.y ≠ 0) := by
  constructor
  · rintro ⟨s, t, h⟩
    unfold solveLinearSystem at h
    by_cases hx : |a.x| < tol
    · have hc : isEqual a.toX.x zero = true := (isEqual_zero a.x).2 hx
      rw [if_pos hc] at h
      by_cases hy : a.y = 0
      · exfalso
        unfold eliminate at h
        simp only [R2.toX, hy, X.div_zero] at h
        have : (X.nan : X) = .r t := congrArg V2.y h
        cases this
      · refine ⟨fun hd => ?_, .inr hy⟩
        unfold eliminate at h
        simp only [R2.toX, X.div_r _ hy, X.mul_r, X.sub_r] at h
        have hB : b.x - a.x / a.y * b.y = 0 := by
          rw [R2.det_def] at hd
          field_simp; linarith
        rw [hB, X.div_zero] at h
        have := congrArg V2.y h
        exact absurd this (by simp)
    · have hx0 : a.x ≠ 0 := by
        intro c; rw [c, abs_zero] at hx; exact hx tol_pos
      refine ⟨fun hd => ?_, .inl (not_lt.1 hx)⟩
      have hc : ¬ (isEqual a.toX.x zero = true) := fun c => hx ((isEqual_zero a.x).1 c)
      rw [if_neg hc] at h
      unfold eliminate at h
      simp only [R2.toX, X.div_r _ hx0, X.mul_r, X.sub_r] at h
      have hB : b.y - a.y / a.x * b.x = 0 := by
        rw [R2.det_def] at hd
        field_simp; linarith
      rw [hB, X.div_zero] at h
      have := congrArg V2.y h
      exact absurd this (by simp)
  · rintro ⟨h1, h2⟩
    obtain ⟨s, t, e, -, -⟩ := solveLinearSystem_partial a b r h1 h2
    exact ⟨s, t, e⟩

example : ¬ (∃ s t : ℝ, solveLinearSystem (R2.toX ⟨1 / 10 ^ 7, 0⟩) (R2.toX ⟨0, 100⟩) (R2.toX ⟨1, 100⟩) = ⟨.r s, .r t⟩) := by
  rw [solveLinearSystem_iff]
  rintro ⟨-, h | h⟩
  · unfold tol at h; norm_num at h
  · exact h rfl

end P2

/-- a pair with a short cross product that is not parallel -/
example : ∃ u v : R3, tol ≤ R3.norm u ∧ tol ≤ R3.norm v ∧ tol ≤ cosAngle u v + 1 ∧ R3.norm (R3.cross u v) < tol ∧
    R3.cross u v ≠ ⟨0, 0, 0⟩ := by
  have n1 : R3.norm ⟨1 / 10 ^ 4, 0, 0⟩ = 1 / 10 ^ 4 := by
    unfold R3.norm
    rw [show R3.dot ⟨1 / 10 ^ 4, 0, 0⟩ ⟨1 / 10 ^ 4, 0, 0⟩ = (1 / 10 ^ 4) ^ 2 by norm_num [R3.dot], Real.sqrt_sq (by norm_num)]
  have n2 : R3.norm ⟨0, 1 / 10 ^ 4, 0⟩ = 1 / 10 ^ 4 := by
    unfold R3.norm
    rw [show R3.dot ⟨0, 1 / 10 ^ 4, 0⟩ ⟨0, 1 / 10 ^ 4, 0⟩ = (1 / 10 ^ 4) ^ 2 by norm_num [R3.dot], Real.sqrt_sq (by norm_num)]
  have hcos : cosAngle ⟨1 / 10 ^ 4, 0, 0⟩ ⟨0, 1 / 10 ^ 4, 0⟩ = 0 := by unfold cosAngle; norm_num [R3.dot]
  have hcr : R3.cross ⟨1 / 10 ^ 4, 0, 0⟩ ⟨0, 1 / 10 ^ 4, 0⟩ = ⟨0, 0, 1 / 10 ^ 8⟩ := by ext <;> norm_num [R3.cross]
  have n3 : R3.norm ⟨0, 0, 1 / 10 ^ 8⟩ = 1 / 10 ^ 8 := by
    unfold R3.norm
    rw [show R3.dot ⟨0, 0, 1 / 10 ^ 8⟩ ⟨0, 0, 1 / 10 ^ 8⟩ = (1 / 10 ^ 8) ^ 2 by norm_num [R3.dot], Real.sqrt_sq (by norm_num)]
  refine ⟨⟨1 / 10 ^ 4, 0, 0⟩, ⟨0, 1 / 10 ^ 4, 0⟩, ?_, ?_, ?_, ?_, ?_⟩
  · rw [n1]; unfold tol; norm_num
  · rw [n2]; unfold tol; norm_num
  · rw [hcos]; unfold tol; norm_num
  · rw [hcr, n3]; unfold tol; norm_num
  · rw [hcr]; intro h; have := congrArg V3.z h; norm_num at this

end Verif.Vtx
