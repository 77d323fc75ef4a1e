import Verif.Geom.CircleProps
/-
C82: a circle between two tangents.
-/
namespace Verif.Geom
open Verif Verif.Exact Verif.Mx Verif.Mx.Mat Verif.Vtx

/-- A line touches a circle if the distance of the centre, |det| / |d|, is the radius. -/
theorem touches {c p d : R2} {r : ℝ} (hr : 0 ≤ r) (hd : d ≠ ⟨0, 0⟩) (h : R2.det d (c - p) ^ 2 = r ^ 2 * R2.dot d d) :
    ∃ x, Line2 p d ∩ Circle2 c r = {x} := by
  have hp := dot2_pos hd
  have hne : R2.dot d d ≠ 0 := ne_of_gt hp
  have key : ∀ t : ℝ, R2.dot d d * R2.dot (p + t * d - c) (p + t * d - c) = (t * R2.dot d d - R2.dot d (c - p)) ^ 2 + R2.det d (c - p) ^ 2 := by
    intro t; simp [R2.dot, R2.det]; ring
  refine ⟨p + (R2.dot d (c - p) / R2.dot d d) * d, ?_⟩
  ext x
  constructor
  · rintro ⟨⟨t, rfl⟩, h2⟩
    rw [circle2_iff hr] at h2
    have k := key t
    rw [h2, h] at k
    have : t * R2.dot d d - R2.dot d (c - p) = 0 := by
      apply pow_eq_zero_iff (two_ne_zero) |>.1
      linarith
    have ht : t = R2.dot d (c - p) / R2.dot d d := by
      rw [eq_div_iff hne]; linarith
    rw [ht]; rfl
  · rintro rfl
    refine ⟨⟨_, rfl⟩, (circle2_iff hr).2 ?_⟩
    have k := key (R2.dot d (c - p) / R2.dot d d)
    rw [h, div_mul_cancel₀ _ hne, sub_self] at k
    apply mul_left_cancel₀ hne
    rw [k]; ring

theorem ne_zero2 {a : R2} (h : tol ≤ R2.norm a) : a ≠ ⟨0, 0⟩ := by
  rintro rfl
  rw [R2.norm_eq_zero.2 rfl] at h
  exact absurd tol_pos (not_lt.2 h)

theorem unit_lagrange (u v : R2) (hu : R2.dot u u = 1) (hv : R2.dot v v = 1) : R2.det u v ^ 2 = 1 - R2.dot u v ^ 2 := by
  have : R2.dot u v ^ 2 + R2.det u v ^ 2 = R2.dot u u * R2.dot v v := by simp [R2.dot, R2.det]; ring
  rw [hu, hv] at this; linarith

/-- the centre for two unit vectors -/
theorem bisect_units (u v : R2) (hu : R2.dot u u = 1) (hv : R2.dot v v = 1) (hdet : R2.det u v ≠ 0) (r σ : ℝ)
    (hσ : σ ^ 2 = (1 - R2.dot u v) / 2) (hσ0 : 0 < σ) :
    0 < R2.norm (u + v) ∧ |R2.det u v| ≤ R2.norm (u + v) ∧
    R2.det u ((r / σ) * ((1 / R2.norm (u + v)) * (u + v))) ^ 2 = r ^ 2 ∧
    R2.det v ((r / σ) * ((1 / R2.norm (u + v)) * (u + v))) ^ 2 = r ^ 2 := by
  have hl := unit_lagrange u v hu hv
  have hw : R2.norm (u + v) ^ 2 = 2 * (1 + R2.dot u v) := by
    rw [pow_two, R2.norm_sq]
    have : R2.dot (u + v) (u + v) = R2.dot u u + R2.dot v v + 2 * R2.dot u v := by simp [R2.dot]; ring
    rw [this, hu, hv]; ring
  have hd2 : 0 < R2.det u v ^ 2 := by positivity
  have hs2 : 0 < σ ^ 2 := by positivity
  have h1 : 0 < 1 - R2.dot u v := by rw [hσ] at hs2; linarith
  have h2 : 0 < 1 + R2.dot u v := by
    by_contra hc
    rw [not_lt] at hc
    nlinarith
  have hwp : 0 < R2.norm (u + v) := by
    refine lt_of_le_of_ne (R2.norm_nonneg _) fun e => ?_
    rw [← e] at hw
    norm_num at hw
    linarith
  have hne := ne_of_gt hwp
  have hdot : R2.dot u v ^ 2 ≤ 1 := by linarith
  refine ⟨hwp, ?_, ?_, ?_⟩
  · apply abs_le_of_sq_le_sq _ (R2.norm_nonneg _)
    rw [hw, hl]; nlinarith
  · have : R2.det u ((r / σ) * ((1 / R2.norm (u + v)) * (u + v))) = r * R2.det u v / (σ * R2.norm (u + v)) := by
      simp [R2.det]; field_simp; ring
    rw [this, div_pow, mul_pow, mul_pow, hσ, hw, hl, div_eq_iff (by nlinarith)]
    ring
  · have : R2.det v ((r / σ) * ((1 / R2.norm (u + v)) * (u + v))) = -(r * R2.det u v / (σ * R2.norm (u + v))) := by
      simp [R2.det]; field_simp; ring
    rw [this, neg_sq, div_pow, mul_pow, mul_pow, hσ, hw, hl, div_eq_iff (by nlinarith)]
    ring

/-- the half angle -/
theorem half_angle (a b : R2) (ha : 0 < R2.norm a) (hb : 0 < R2.norm b) (hdet : R2.det a b ≠ 0) :
    ∃ φ : ℝ, Arith.abs (a.toX.angleTo b.toX / two) = .r φ ∧ 0 < Real.sin φ ∧
      Real.sin φ ^ 2 = (1 - R2.dot ((1 / R2.norm a) * a) ((1 / R2.norm b) * b)) / 2 := by
  have ha0 : a ≠ ⟨0, 0⟩ := fun e => by rw [R2.norm_eq_zero.2 e] at ha; exact lt_irrefl _ ha
  have hb0 : b ≠ ⟨0, 0⟩ := fun e => by rw [R2.norm_eq_zero.2 e] at hb; exact lt_irrefl _ hb
  obtain ⟨θ, e, h1, h2, h3, -⟩ := (P2.angleTo_spec a b).1 ha0 hb0
  have hq := R2.norm_sq a
  have hx := congrArg (fun w : R2 => R2.dot a w) h3
  have hcos : Real.cos θ = R2.dot ((1 / R2.norm a) * a) ((1 / R2.norm b) * b) := by
    have e1 : R2.dot a (R2.norm b * P2.rot θ a) = R2.norm b * Real.cos θ * (R2.norm a * R2.norm a) := by
      rw [hq]; simp [R2.dot, P2.rot]; ring
    have e2 : R2.dot a (R2.norm a * b) = R2.norm a * R2.dot a b := by simp [R2.dot]; ring
    have e3 : R2.dot ((1 / R2.norm a) * a) ((1 / R2.norm b) * b) = R2.dot a b / (R2.norm a * R2.norm b) := by
      simp [R2.dot]; field_simp
    simp only [e1, e2] at hx
    rw [e3, eq_div_iff (by positivity)]
    apply mul_left_cancel₀ (ne_of_gt ha)
    linarith
  have hsin : Real.sin θ ≠ 0 := by
    intro h0
    apply hdet
    have hy := congrArg (fun w : R2 => R2.det a w) h3
    have e1 : R2.det a (R2.norm b * P2.rot θ a) = R2.norm b * Real.sin θ * (R2.norm a * R2.norm a) := by
      rw [hq]; simp [R2.dot, R2.det, P2.rot]; ring
    have e2 : R2.det a (R2.norm a * b) = R2.norm a * R2.det a b := by simp [R2.det]; ring
    simp only [e1, e2, h0] at hy
    have : R2.norm a * R2.det a b = 0 := by linarith
    rcases mul_eq_zero.1 this with h | h
    · exact absurd h (ne_of_gt ha)
    · exact h
  refine ⟨|θ / 2|, ?_, ?_, ?_⟩
  · rw [e, two_r, X.div_r _ two_ne_zero, X.abs_r]
  · apply Real.sin_pos_of_pos_of_lt_pi
    · rw [abs_pos]
      intro h0
      apply hsin
      rw [show θ = 2 * (θ / 2) by ring, h0]; simp
    · have : |θ| ≤ Real.pi := abs_le.2 ⟨h1, h2⟩
      rw [abs_div, abs_two]
      linarith [Real.pi_pos]
  · have : Real.cos (2 * |θ / 2|) = Real.cos θ := by
      rw [show (2 : ℝ) * |θ / 2| = |θ| by rw [abs_div, abs_two]; ring, Real.cos_abs]
    rw [← hcos, ← this, Real.cos_two_mul']
    have := Real.cos_sq_add_sin_sq |θ / 2|
    linarith

/-- A circle between two tangents that touches both: if both directions have at least the length 10^-6 and the sine of
their angle is at least 10^-6, the circle of radius `r` around the result touches both lines.  If both given points
are farther than 10^-6 from the common point `q`, the centre lies in the angle at `q` between them.
Missing: shorter directions and almost parallel ones (refused by the function only if the area of their
parallelogram is below 10^-6). -/
theorem circleParameterBy2TangentsRadius_partial (r : ℝ) (p1 dir1 p2 dir2 : R2) (hr : 0 < r) (h : Solvable dir1 dir2)
    (h1 : tol ≤ R2.norm dir1) (h2 : tol ≤ R2.norm dir2)
    (hs : tol * (R2.norm dir1 * R2.norm dir2) ≤ |R2.det dir1 dir2|) :
    ∃ q c : R2, Line2 p1 dir1 ∩ Line2 p2 dir2 = {q} ∧
      circleParameterBy2TangentsRadius (.r r) p1.toX dir1.toX p2.toX dir2.toX = some c.toX ∧
      (∃ x, Line2 p1 dir1 ∩ Circle2 c r = {x}) ∧ (∃ x, Line2 p2 dir2 ∩ Circle2 c r = {x}) ∧
      (tol ≤ R2.dist p1 q → tol ≤ R2.dist p2 q → ∃ s t : ℝ, 0 < s ∧ 0 < t ∧ c = q + (s * (p1 - q) + t * (p2 - q))) := by
  obtain ⟨q, hq, eq⟩ := intersectionPoint2_partial p1 dir1 p2 dir2 h
  have hqm : q ∈ Line2 p1 dir1 ∩ Line2 p2 dir2 := by rw [hq]; rfl
  -- the corrected directions
  have fix : ∀ (p dir : R2), tol ≤ R2.norm dir → q ∈ Line2 p dir → ∃ d : R2, ∃ k : ℝ,
      (if isEqual (p.toX.minus q.toX).abs zero then dir.toX else p.toX.minus q.toX) = d.toX ∧ tol ≤ R2.norm d ∧ k ≠ 0 ∧ d = k * dir ∧
      (tol ≤ R2.dist p q → d = p - q) := by
    intro p dir hd hm
    rw [P2.minus_toX, P2.abs_toX]
    by_cases hc : R2.norm (p - q) < tol
    · refine ⟨dir, 1, by rw [if_pos ((isEqual_zero_nonneg (R2.norm_nonneg _)).2 hc)], hd, one_ne_zero, by ext <;> simp, ?_⟩
      intro h'; exact absurd hc (not_lt.2 h')
    · obtain ⟨t, ht⟩ := hm
      refine ⟨p - q, -t, by rw [if_neg (mt (isEqual_zero_nonneg (R2.norm_nonneg _)).1 hc)], not_lt.1 hc, ?_, ?_, fun _ => rfl⟩
      · intro h0
        have : t = 0 := by linarith
        apply hc
        rw [ht, this]
        have : (p - (p + (0 : ℝ) * dir) : R2) = ⟨0, 0⟩ := by ext <;> simp
        rw [this, R2.norm_eq_zero.2 rfl]
        exact tol_pos
      · rw [ht]; ext <;> simp
  obtain ⟨d1, k1, e1, n1, hk1, hd1, g1⟩ := fix p1 dir1 h1 hqm.1
  obtain ⟨d2, k2, e2, n2, hk2, hd2, g2⟩ := fix p2 dir2 h2 hqm.2
  have pd1 : 0 < R2.norm d1 := lt_of_lt_of_le tol_pos n1
  have pd2 : 0 < R2.norm d2 := lt_of_lt_of_le tol_pos n2
  have pr1 : 0 < R2.norm dir1 := lt_of_lt_of_le tol_pos h1
  have pr2 : 0 < R2.norm dir2 := lt_of_lt_of_le tol_pos h2
  have hdet : R2.det d1 d2 = k1 * k2 * R2.det dir1 dir2 := by rw [hd1, hd2]; simp [R2.det]; ring
  have hdetne : R2.det d1 d2 ≠ 0 := by
    rw [hdet]; exact mul_ne_zero (mul_ne_zero hk1 hk2) h.ne
  set u : R2 := (1 / R2.norm d1) * d1 with hu
  set v : R2 := (1 / R2.norm d2) * d2 with hv
  have huu : R2.dot u u = 1 := R2.norm_unit.1 (P2.norm_normalized d1 pd1)
  have hvv : R2.dot v v = 1 := R2.norm_unit.1 (P2.norm_normalized d2 pd2)
  have huv : R2.det u v = R2.det d1 d2 / (R2.norm d1 * R2.norm d2) := by
    rw [hu, hv]; simp [R2.det]; field_simp
  have huvne : R2.det u v ≠ 0 := by
    rw [huv]; exact div_ne_zero hdetne (by positivity)
  obtain ⟨φ, eφ, hφ0, hφ⟩ := half_angle d1 d2 pd1 pd2 hdetne
  obtain ⟨hwp, hwle, ht1, ht2⟩ := bisect_units u v huu hvv huvne r (Real.sin φ) hφ hφ0
  have hw : tol ≤ R2.norm (u + v) := by
    refine le_trans ?_ hwle
    rw [huv, hdet, hd1, hd2, P2.norm_smul, P2.norm_smul, abs_div, abs_mul, abs_mul, abs_of_pos (a := |k1| * R2.norm dir1 * (|k2| * R2.norm dir2)) (by positivity),
      le_div_iff₀ (by positivity)]
    have : 0 < |k1| * |k2| := by positivity
    nlinarith
  set c : R2 := q + (r / Real.sin φ) * ((1 / R2.norm (u + v)) * (u + v)) with hc
  have hcq : c - q = (r / Real.sin φ) * ((1 / R2.norm (u + v)) * (u + v)) := by rw [hc]; ext <;> simp
  have hres : circleParameterBy2TangentsRadius (.r r) p1.toX dir1.toX p2.toX dir2.toX = some c.toX := by
    simp only [circleParameterBy2TangentsRadius]
    rw [if_neg (by rw [(P2.tests_spec dir1 dir2).2.1, not_lt]; exact h.det), eq, e1, e2, eφ, angleBisector2_toX d1 d2 n1 n2,
      P2.normalized_toX _ hw, X.sin_r, X.div_r _ (ne_of_gt hφ0), P2.times_toX, P2.plus_toX]
  -- both lines touch
  have touch : ∀ (p dir d : R2) (k : ℝ), q ∈ Line2 p dir → k ≠ 0 → d = k * dir → 0 < R2.norm d → 0 < R2.norm dir →
      R2.det ((1 / R2.norm d) * d) (c - q) ^ 2 = r ^ 2 → ∃ x, Line2 p dir ∩ Circle2 c r = {x} := by
    intro p dir d k hm hk hd hdp hdirp ht
    apply touches hr.le
    · intro e; rw [R2.norm_eq_zero.2 e] at hdirp; exact lt_irrefl _ hdirp
    · obtain ⟨t, ht'⟩ := hm
      have a1 : R2.det dir (c - p) = R2.det dir (c - q) := by rw [ht']; simp [R2.det]; ring
      have a2 : R2.det ((1 / R2.norm d) * d) (c - q) = (k / R2.norm d) * R2.det dir (c - q) := by
        rw [hd]; simp [R2.det]; ring
      have a3 : R2.norm d ^ 2 = k ^ 2 * R2.dot dir dir := by
        rw [hd, P2.norm_smul, mul_pow, sq_abs, pow_two (R2.norm dir), R2.norm_sq]
      rw [a1]
      rw [a2, mul_pow, div_pow, div_mul_eq_mul_div, div_eq_iff (by positivity), a3] at ht
      apply mul_left_cancel₀ (pow_ne_zero 2 hk)
      linear_combination ht
  refine ⟨q, c, hq, hres, ?_, ?_, ?_⟩
  · exact touch p1 dir1 d1 k1 hqm.1 hk1 hd1 pd1 pr1 (by rw [hcq]; exact ht1)
  · exact touch p2 dir2 d2 k2 hqm.2 hk2 hd2 pd2 pr2 (by rw [hcq]; exact ht2)
  · intro f1 f2
    refine ⟨(r / Real.sin φ) * (1 / R2.norm (u + v)) * (1 / R2.norm d1), (r / Real.sin φ) * (1 / R2.norm (u + v)) * (1 / R2.norm d2), by positivity, by positivity, ?_⟩
    rw [hc]
    congr 1
    rw [← g1 f1, ← g2 f2, hu, hv]
    ext <;> simp <;> ring

/-- Almost parallel directions are refused. -/
theorem circleParameterBy2TangentsRadius_parallel (r : X) (p1 dir1 p2 dir2 : R2) (h : |R2.det dir1 dir2| < tol) :
    circleParameterBy2TangentsRadius r p1.toX dir1.toX p2.toX dir2.toX = none := by
  simp only [circleParameterBy2TangentsRadius]
  rw [if_pos ((P2.tests_spec dir1 dir2).2.1.2 h)]

example : Solvable ⟨1, 0⟩ ⟨0, 1⟩ ∧ tol ≤ R2.norm ⟨1, 0⟩ ∧ tol ≤ R2.norm ⟨0, 1⟩ ∧
    tol * (R2.norm ⟨1, 0⟩ * R2.norm ⟨0, 1⟩) ≤ |R2.det ⟨1, 0⟩ ⟨0, 1⟩| := by
  have e1 : R2.norm ⟨1, 0⟩ = 1 := R2.norm_unit.2 (by norm_num [R2.dot])
  have e2 : R2.norm ⟨0, 1⟩ = 1 := R2.norm_unit.2 (by norm_num [R2.dot])
  rw [e1, e2]
  refine ⟨⟨?_, .inl ?_⟩, ?_, ?_, ?_⟩ <;> unfold tol <;> norm_num [R2.det]

end Verif.Geom
