import Verif.Geom.CircleProps
/-
Short vectors: what `closestPointOnCircle` and `angleBisector` do below the tolerances of the theorems in `CircleProps`.
-/
namespace Verif.Geom
open Verif Verif.Exact Verif.Vtx Verif.Mx

/-- A circle whose normal is shorter than 10^-3 (its square is below 10^-6) has no closest point, no distance and no points at all,
wherever the point lies: together with `closestPointOnCircle_partial`, `closestPointOnCircle_axis` and `closestPointOnCircle_small`
every case is settled. -/
theorem closestPointOnCircle_short_normal (p c n : R3) (r : ℝ) (hn : R3.dot n n < tol) :
    closestPointOnCircle p.toX c.toX (.r r) n.toX = ⟨.nan, .nan, .nan⟩ ∧
      distancePointToCircle p.toX c.toX (.r r) n.toX = .nan ∧ isPointOnCircle p.toX c.toX (.r r) n.toX = false := by
  have e : closestPointOnCircle p.toX c.toX (.r r) n.toX = ⟨.nan, .nan, .nan⟩ := by
    unfold closestPointOnCircle
    split
    · rfl
    · have h : closestPointOnPlane p.toX c.toX n.toX = .invalid := by
        unfold closestPointOnPlane
        exact linePlane_invalid _ _ _ _ _ (.inr (.inr (by rwa [abs_of_nonneg (R3.dot_self_nonneg n)])))
      rw [h]; rfl
  refine ⟨e, ?_, ?_⟩
  · unfold distancePointToCircle; rw [e]; rfl
  · unfold isPointOnCircle distancePointToCircle; rw [e]; rfl

/-- the property holds of the circle around the origin with radius 1 and the normal (0, 0, 1) -/
example : R3.dot (⟨0, 0, 1 / 10 ^ 4⟩ : R3) ⟨0, 0, 1 / 10 ^ 4⟩ < tol := by unfold tol; norm_num [R3.dot]

/-- two sums of multiples have the same angle to both vectors exactly if the multiples are equally long or the vectors point in the
same direction -/
theorem halves_iff {u v d s t : ℝ} (hu : 0 < u) (hv : 0 < v) :
    (s * (u * u) + t * d) / u = (s * d + t * (v * v)) / v ↔ s * u = t * v ∨ d = u * v := by
  rw [div_eq_div_iff hu.ne' hv.ne']
  constructor
  · intro h
    have : (s * u - t * v) * (u * v - d) = 0 := by linarith
    rcases mul_eq_zero.1 this with h | h
    · left; linarith
    · right; linarith
  · rintro (h | h)
    · have : (s * u - t * v) * (u * v - d) = 0 := by rw [h]; ring
      linarith
    · subst h; ring

/-- The bisector of a vector shorter than 10^-6 and a longer one is not normalised on one side: it has the same angle to both only if
they point in the same direction, where there is nothing to bisect. -/
theorem angleBisector_short (a b : R3) (h0 : 0 < R3.norm a) (ha : R3.norm a < tol) (hb : tol ≤ R3.norm b) :
    ∃ w : R3, angleBisector a.toX b.toX = w.toX ∧
      (R3.dot a w / R3.norm a = R3.dot b w / R3.norm b ↔ R3.dot a b = R3.norm a * R3.norm b) := by
  have pb : 0 < R3.norm b := lt_of_lt_of_le tol_pos hb
  refine ⟨a + (1 / R3.norm b) * b, ?_, ?_⟩
  · unfold angleBisector
    rw [normalized_short a ha, normalized_toX b hb, plus_toX]
  · have e1 : R3.dot a (a + (1 / R3.norm b) * b) = 1 * (R3.norm a * R3.norm a) + (1 / R3.norm b) * R3.dot a b := by
      rw [R3.norm_sq]; simp [R3.dot]; ring
    have e2 : R3.dot b (a + (1 / R3.norm b) * b) = 1 * R3.dot a b + (1 / R3.norm b) * (R3.norm b * R3.norm b) := by
      rw [R3.norm_sq]; simp [R3.dot]; ring
    rw [e1, e2, halves_iff h0 pb]
    constructor
    · rintro (h | h)
      · have : 1 / R3.norm b * R3.norm b = 1 := by field_simp
        rw [this] at h
        unfold tol at ha
        norm_num at ha h
        linarith
      · exact h
    · exact .inr

/-- Two short vectors: right exactly if they are equally long or point in the same direction. -/
theorem angleBisector_short_both (a b : R3) (h0 : 0 < R3.norm a) (ha : R3.norm a < tol) (k0 : 0 < R3.norm b) (hb : R3.norm b < tol) :
    ∃ w : R3, angleBisector a.toX b.toX = w.toX ∧
      (R3.dot a w / R3.norm a = R3.dot b w / R3.norm b ↔ R3.norm a = R3.norm b ∨ R3.dot a b = R3.norm a * R3.norm b) := by
  refine ⟨a + b, ?_, ?_⟩
  · unfold angleBisector
    rw [normalized_short a ha, normalized_short b hb, plus_toX]
  · have e1 : R3.dot a (a + b) = 1 * (R3.norm a * R3.norm a) + 1 * R3.dot a b := by
      rw [R3.norm_sq]; simp [R3.dot]; ring
    have e2 : R3.dot b (a + b) = 1 * R3.dot a b + 1 * (R3.norm b * R3.norm b) := by
      rw [R3.norm_sq]; simp [R3.dot]; ring
    rw [e1, e2, halves_iff h0 k0, one_mul, one_mul]

/-- The same in the plane, for one short vector. -/
theorem angleBisector2_short (a b : R2) (h0 : 0 < R2.norm a) (ha : R2.norm a < tol) (hb : tol ≤ R2.norm b) :
    ∃ w : R2, angleBisector2 a.toX b.toX = w.toX ∧
      (R2.dot a w / R2.norm a = R2.dot b w / R2.norm b ↔ R2.dot a b = R2.norm a * R2.norm b) := by
  have pb : 0 < R2.norm b := lt_of_lt_of_le tol_pos hb
  refine ⟨a + (1 / R2.norm b) * b, ?_, ?_⟩
  · unfold angleBisector2
    rw [P2.normalized_short a ha, P2.normalized_toX b hb, P2.plus_toX]
  · have e1 : R2.dot a (a + (1 / R2.norm b) * b) = 1 * (R2.norm a * R2.norm a) + (1 / R2.norm b) * R2.dot a b := by
      rw [R2.norm_sq]; simp [R2.dot]; ring
    have e2 : R2.dot b (a + (1 / R2.norm b) * b) = 1 * R2.dot a b + (1 / R2.norm b) * (R2.norm b * R2.norm b) := by
      rw [R2.norm_sq]; simp [R2.dot]; ring
    rw [e1, e2, halves_iff h0 pb]
    constructor
    · rintro (h | h)
      · have : 1 / R2.norm b * R2.norm b = 1 := by field_simp
        rw [this] at h
        unfold tol at ha
        norm_num at ha h
        linarith
      · exact h
    · exact .inr

/-- the hypotheses are met by perpendicular vectors, for which the result is wrong -/
example : ∃ a b : R3, 0 < R3.norm a ∧ R3.norm a < tol ∧ tol ≤ R3.norm b ∧ R3.dot a b ≠ R3.norm a * R3.norm b := by
  have n1 : R3.norm (⟨1 / 10 ^ 7, 0, 0⟩ : R3) = 1 / 10 ^ 7 := by
    unfold R3.norm R3.dot
    rw [show (1 / 10 ^ 7 : ℝ) * (1 / 10 ^ 7) + 0 * 0 + 0 * 0 = (1 / 10 ^ 7) ^ 2 by ring]
    exact Real.sqrt_sq (by norm_num)
  have n2 : R3.norm (⟨0, 1, 0⟩ : R3) = 1 := by
    unfold R3.norm R3.dot; norm_num
  refine ⟨⟨1 / 10 ^ 7, 0, 0⟩, ⟨0, 1, 0⟩, ?_, ?_, ?_, ?_⟩
  · rw [n1]; norm_num
  · rw [n1]; unfold tol; norm_num
  · rw [n2]; unfold tol; norm_num
  · rw [n1, n2]; norm_num [R3.dot]

/-- The perpendicular on a line whose direction is shorter than 10^-6, but not 0: the result is right exactly if the point lies on the
perpendicular through the given point of the line. -/
theorem closestPointOnLine2_short_iff (p a d : R2) (h0 : 0 < R2.norm d) (hd : R2.norm d < tol) :
    ∃ q : R2, closestPointOnLine2 p.toX a.toX d.toX = q.toX ∧ (Closest2 (Line2 a d) p q ↔ R2.dot (p - a) d = 0) := by
  set k := R2.dot (p - a) d with hk
  refine ⟨a + k * d, ?_, ?_⟩
  · simp only [closestPointOnLine2]
    rw [P2.normalized_short d hd, P2.minus_toX, P2.dot_toX, P2.times_toX, P2.plus_toX]
  have hD : 0 < R2.dot d d := by rw [← R2.norm_sq]; positivity
  have hD1 : R2.dot d d < 1 := by
    rw [← R2.norm_sq]
    unfold tol at hd
    norm_num at hd
    nlinarith
  have f : ∀ t : ℝ, R2.dot (p - (a + t * d)) (p - (a + t * d)) = R2.dot (p - a) (p - a) - 2 * t * k + t ^ 2 * R2.dot d d := by
    intro t; rw [hk]; simp [R2.dot]; ring
  constructor
  · rintro ⟨-, h⟩
    by_contra hk0
    have hne : (a + (k / R2.dot d d) * d : R2) ≠ a + k * d := by
      intro e
      have hx := congrArg V2.x e
      have hy := congrArg V2.y e
      simp only [R2.add_x, R2.add_y, R2.smul_x, R2.smul_y, add_right_inj] at hx hy
      have hc : k / R2.dot d d - k ≠ 0 := by
        intro c
        have : k / R2.dot d d = k := by linarith
        rw [div_eq_iff hD.ne'] at this
        have : k * (1 - R2.dot d d) = 0 := by linarith
        rcases mul_eq_zero.1 this with h | h
        · exact hk0 h
        · linarith
      have zx : d.x = 0 := by
        have : (k / R2.dot d d - k) * d.x = 0 := by linarith
        exact (mul_eq_zero.1 this).resolve_left hc
      have zy : d.y = 0 := by
        have : (k / R2.dot d d - k) * d.y = 0 := by linarith
        exact (mul_eq_zero.1 this).resolve_left hc
      rw [R2.dot_def, zx, zy] at hD
      norm_num at hD
    have := h _ ⟨k / R2.dot d d, rfl⟩ hne
    have h2 := (Real.sqrt_lt_sqrt_iff (R2.dot_self_nonneg _)).1 (show Real.sqrt (R2.dot (p - (a + k * d)) (p - (a + k * d))) <
      Real.sqrt (R2.dot (p - (a + (k / R2.dot d d) * d)) (p - (a + (k / R2.dot d d) * d))) from this)
    rw [f, f] at h2
    have e : (k / R2.dot d d) ^ 2 * R2.dot d d = k * (k / R2.dot d d) := by field_simp
    rw [e] at h2
    have e2 : (k - k / R2.dot d d) ^ 2 * R2.dot d d = k ^ 2 * R2.dot d d - 2 * k * k + k * (k / R2.dot d d) := by field_simp; ring
    have e3 : 0 ≤ (k - k / R2.dot d d) ^ 2 * R2.dot d d := by positivity
    nlinarith
  · intro hk0
    rw [hk0]
    refine ⟨⟨0, rfl⟩, ?_⟩
    rintro x ⟨t, rfl⟩ hne
    refine Real.sqrt_lt_sqrt (R2.dot_self_nonneg _) ?_
    rw [f, f, hk0]
    have ht : t ≠ 0 := by rintro rfl; exact hne rfl
    have := mul_pos (sq_pos_of_ne_zero ht) hD
    linarith

end Verif.Geom
