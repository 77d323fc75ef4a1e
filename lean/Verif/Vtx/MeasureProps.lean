import Verif.Vtx.PlaneProps
import Verif.Vtx.RotProps
/-
C134: transforming lengths and angles.  C75, C76: validity and scaling of vectors.  C77: the matrix of an object coordinate
system.  Without rounding.
-/
namespace Verif.Vtx.MeasureProps
open Verif Verif.Exact Verif.Mx Verif.Mx.Mat

/-! ### Validity -/

/-- Exactly the vectors of real numbers are valid. -/
theorem isValid_spec (v : V3 X) : v.isValid = true ↔ ∃ a : R3, v = a.toX := by
  have h : ∀ a : X, isNaN a = false ↔ ∃ t : ℝ, a = .r t := fun a => by
    cases a with
    | nan => exact ⟨fun h => absurd ((X.isNaN_iff .nan).2 rfl) (by rw [h]; decide), fun ⟨_, h⟩ => by cases h⟩
    | r t =>
      refine ⟨fun _ => ⟨t, rfl⟩, fun _ => ?_⟩
      cases hh : isNaN (X.r t) with
      | false => rfl
      | true => exact absurd ((X.isNaN_iff _).1 hh) (by simp)
  unfold V3.isValid
  rw [Bool.not_eq_true', Bool.or_eq_false_iff, Bool.or_eq_false_iff, h, h, h]
  constructor
  · rintro ⟨⟨⟨x, hx⟩, ⟨y, hy⟩⟩, ⟨z, hz⟩⟩
    exact ⟨⟨x, y, z⟩, by cases v; simp only at hx hy hz; rw [hx, hy, hz]; rfl⟩
  · rintro ⟨a, rfl⟩
    exact ⟨⟨⟨_, rfl⟩, ⟨_, rfl⟩⟩, ⟨_, rfl⟩⟩

theorem isValid2_spec (v : V2 X) : v.isValid = true ↔ ∃ x y : ℝ, v = ⟨.r x, .r y⟩ := by
  have h : (⟨v.x, v.y, .r 0⟩ : V3 X).isValid = v.isValid := by
    unfold V3.isValid V2.isValid
    have : isNaN (X.r 0) = false := by
      cases hh : isNaN (X.r 0) with
      | false => rfl
      | true => exact absurd ((X.isNaN_iff _).1 hh) (by simp)
    rw [this, Bool.or_false]
  rw [← h, isValid_spec]
  constructor
  · rintro ⟨a, ha⟩
    simp only [R3.toX, V3.mk.injEq] at ha
    exact ⟨a.x, a.y, by cases v; simp only at ha; rw [ha.1, ha.2.1]⟩
  · rintro ⟨x, y, rfl⟩
    exact ⟨⟨x, y, 0⟩, rfl⟩

theorem fp_isNaN (a : Fp.F64) : isNaN a = true ↔ a = .nan := by
  unfold isNaN
  show (!Fp.eq a a) = true ↔ _
  cases a <;> simp [Fp.eq]

/-- Of doubles exactly the vectors without a NaN are valid: infinite components are valid. -/
theorem isValid_fp (v : V3 Fp.F64) : v.isValid = true ↔ v.x ≠ .nan ∧ v.y ≠ .nan ∧ v.z ≠ .nan := by
  unfold V3.isValid
  rw [Bool.not_eq_true', Bool.or_eq_false_iff, Bool.or_eq_false_iff]
  simp only [← Bool.not_eq_true, fp_isNaN, and_assoc, ne_eq]
theorem isValid2_fp (v : V2 Fp.F64) : v.isValid = true ↔ v.x ≠ .nan ∧ v.y ≠ .nan := by
  unfold V2.isValid
  rw [Bool.not_eq_true', Bool.or_eq_false_iff]
  simp only [← Bool.not_eq_true, fp_isNaN, ne_eq]

/-! ### Scaling -/

/-- Scaling a vector is what the matrix for scaling does, and scaling by 1/f undoes scaling by f. -/
theorem scale_spec (a f : R3) :
    (scaling f.toX).trans a.toX = .ok (a.toX.scale f.toX) ∧
    (f.x ≠ 0 → f.y ≠ 0 → f.z ≠ 0 → (a.toX.scale f.toX).scale (R3.toX ⟨1 / f.x, 1 / f.y, 1 / f.z⟩) = a.toX) := by
  refine ⟨?_, fun hx hy hz => ?_⟩
  · rw [trans_scaling]
    show Except.ok (⟨_, _, _⟩ : V3 X) = .ok ⟨X.r (a.x * f.x), X.r (a.y * f.y), X.r (a.z * f.z)⟩
    rw [mul_comm a.x, mul_comm a.y, mul_comm a.z]
  · show (⟨X.r (a.x * f.x * (1 / f.x)), X.r (a.y * f.y * (1 / f.y)), X.r (a.z * f.z * (1 / f.z))⟩ : V3 X) = ⟨.r a.x, .r a.y, .r a.z⟩
    rw [mul_one_div, mul_div_cancel_right₀ _ hx, mul_one_div, mul_div_cancel_right₀ _ hy, mul_one_div, mul_div_cancel_right₀ _ hz]
theorem scale2_spec (a f : R2) :
    a.toX.scale f.toX = R2.toX ⟨f.x * a.x, f.y * a.y⟩ := by
  show (⟨X.r (a.x * f.x), X.r (a.y * f.y)⟩ : V2 X) = ⟨.r (f.x * a.x), .r (f.y * a.y)⟩
  rw [mul_comm a.x, mul_comm a.y]

/-! ### Lengths -/

/-- A length becomes the distance of the images of two points at that distance on the x axis. -/
theorem transLength_segment (A : Mat X) (v : ℝ) {p q : R3} (hp : A.trans (R3.toX ⟨0, 0, 0⟩) = .ok p.toX)
    (hq : A.trans (R3.toX ⟨v, 0, 0⟩) = .ok q.toX) : A.transLength (.r v) = .ok (.r (R3.dist p q)) := by
  unfold transLength
  rw [zero_r]
  change (do let p1 ← A.trans (R3.toX ⟨0, 0, 0⟩); let p2 ← A.trans (R3.toX ⟨v, 0, 0⟩); return (p2.minus p1).abs) = _
  rw [hp, hq]
  simp only [bind, Except.bind, pure, Except.pure]
  rw [minus_toX, abs_toX]
  congr 2
  show Real.sqrt _ = Real.sqrt _
  congr 1
  simp only [R3.dot_def, R3.sub_x, R3.sub_y, R3.sub_z]
  ring

/-- the transformation multiplies all distances by `k` -/
def Scales (A : Mat X) (k : ℝ) : Prop :=
  ∀ p q p' q' : R3, A.trans p.toX = .ok p'.toX → A.trans q.toX = .ok q'.toX → R3.dist p' q' = k * R3.dist p q

/-- For a transformation that multiplies all distances by `k`, a length is multiplied by `k`; the sign of a negative one is
lost. -/
theorem transLength_partial {A : Mat X} {M : Matrix (Fin 4) (Fin 4) ℝ} (h : Rep A M) {k : ℝ} (hk : Scales A k) (v : ℝ) :
    A.transLength (.r v) = .ok (.r (k * |v|)) := by
  have h1 := trans_spec h ⟨0, 0, 0⟩
  have h2 := trans_spec h ⟨v, 0, 0⟩
  rw [transLength_segment A v h1 h2, hk _ _ _ _ h1 h2]
  congr 3
  show Real.sqrt _ = _
  simp only [R3.dot_def, R3.sub_x, R3.sub_y, R3.sub_z]
  rw [show (0 - v) * (0 - v) + (0 - 0) * (0 - 0) + (0 - 0) * (0 - 0 : ℝ) = v ^ 2 by ring, Real.sqrt_sq_eq_abs]

theorem toX_inj {a b : R3} (h : (.ok a.toX : Res (V3 X)) = .ok b.toX) : a = b := by
  have := Except.ok.inj h
  simp only [R3.toX, V3.mk.injEq, X.r.injEq] at this
  exact R3.ext this.1 this.2.1 this.2.2

/-- moving keeps all distances, uniform scaling multiplies them by the factor -/
theorem scales_examples (d p : R3) (f : ℝ) (hf : 0 ≤ f) : Scales (moving d.toX) 1 ∧ Scales (scalingAt p.toX (.r f)) f := by
  constructor
  · intro a b a' b' ha hb
    rw [trans_moving] at ha hb
    rw [← toX_inj ha, ← toX_inj hb, one_mul]
    show Real.sqrt _ = Real.sqrt _
    congr 1
    simp only [R3.dot_def, R3.sub_x, R3.sub_y, R3.sub_z, R3.add_x, R3.add_y, R3.add_z]; ring
  · intro a b a' b' ha hb
    rw [trans_scalingAt] at ha hb
    rw [← toX_inj ha, ← toX_inj hb]
    have e : ∀ c : R3, R3.norm (f * c) = f * R3.norm c := fun c => by rw [norm_smul, abs_of_nonneg hf]
    show _ = f * R3.norm _
    rw [← e]
    show Real.sqrt _ = Real.sqrt _
    congr 1
    simp only [R3.dot_def, R3.sub_x, R3.sub_y, R3.sub_z, R3.add_x, R3.add_y, R3.add_z, R3.smul_x, R3.smul_y, R3.smul_z]; ring
example : (moving (R3.toX ⟨1, 2, 3⟩)).transLength (.r 5) = .ok (.r 5) := by
  rw [transLength_partial (moving_rep _) (scales_examples ⟨1, 2, 3⟩ ⟨0, 0, 0⟩ 1 zero_le_one).1]; norm_num

/-- With different factors only segments along x get the right length: this one along y stays as long as it is. -/
theorem transLength_other_direction :
    (scaling (R3.toX ⟨2, 1, 1⟩)).transLength (.r 1) = .ok (.r 2) ∧
    ∃ p q : R3, (scaling (R3.toX ⟨2, 1, 1⟩)).trans (R3.toX ⟨0, 0, 0⟩) = .ok p.toX ∧
      (scaling (R3.toX ⟨2, 1, 1⟩)).trans (R3.toX ⟨0, 1, 0⟩) = .ok q.toX ∧ R3.dist p q = 1 := by
  have d : ∀ a b : R3, R3.dist a b = Real.sqrt ((a.x - b.x) * (a.x - b.x) + (a.y - b.y) * (a.y - b.y) + (a.z - b.z) * (a.z - b.z)) :=
    fun a b => rfl
  refine ⟨?_, _, _, trans_scaling _ _, trans_scaling _ _, ?_⟩
  · rw [transLength_segment _ _ (trans_scaling _ _) (trans_scaling _ _), d]
    congr 2
    norm_num
    rw [show (4 : ℝ) = 2 ^ 2 by norm_num]
    exact Real.sqrt_sq (by norm_num)
  · rw [d]; norm_num

/-! ### Angles -/

/-- `transAngle` is the angle between the image of a line at that angle in the x-y plane and the x axis. -/
theorem transAngle_spec (A : Mat X) (t : ℝ) {p q : R3} (hp : A.trans (R3.toX ⟨0, 0, 0⟩) = .ok p.toX)
    (hq : A.trans (R3.toX ⟨Real.cos t, Real.sin t, 0⟩) = .ok q.toX) (h0 : q - p ≠ ⟨0, 0, 0⟩) :
    ∃ θ : ℝ, A.transAngle (.r t) = .ok (.r θ) ∧ 0 ≤ θ ∧ θ ≤ Real.pi ∧ (q - p).x = R3.norm (q - p) * Real.cos θ := by
  obtain ⟨θ, e, a, b, c⟩ := (angleTo_spec (q - p) ⟨1, 0, 0⟩).1 h0 (fun e => by have := congrArg V3.x e; norm_num at this)
  refine ⟨θ, ?_, a, b, ?_⟩
  · unfold transAngle V3.rotateZ
    rw [zero_r, one_r]
    have hz := (rotationXYZ t ⟨1, 0, 0⟩).2.2
    have hr : rodrigues ⟨0, 0, 1⟩ t ⟨1, 0, 0⟩ = ⟨Real.cos t, Real.sin t, 0⟩ := by
      ext <;> simp [rodrigues, R3.dot]
    rw [hr] at hz
    simp only [show (⟨X.r 1, X.r 0, X.r 0⟩ : V3 X) = R3.toX ⟨1, 0, 0⟩ from rfl,
      show (⟨X.r 0, X.r 0, X.r 0⟩ : V3 X) = R3.toX ⟨0, 0, 0⟩ from rfl]
    rw [hz]
    simp only [bind, Except.bind, pure, Except.pure]
    rw [hq]
    simp only
    rw [hp]
    simp only
    rw [minus_toX, e]
  · rw [R3.norm_unit.2 (show R3.dot ⟨1, 0, 0⟩ ⟨1, 0, 0⟩ = 1 by simp [R3.dot]), mul_one] at c
    rw [← c]
    simp [R3.dot]

/-- If the image of the line lies in the x-y plane, the result is its direction, counted from the x axis against the clock,
exactly if the image does not point downwards: the sign of the angle is lost. -/
theorem transAngle_iff (A : Mat X) (t : ℝ) {p q : R3} (hp : A.trans (R3.toX ⟨0, 0, 0⟩) = .ok p.toX)
    (hq : A.trans (R3.toX ⟨Real.cos t, Real.sin t, 0⟩) = .ok q.toX) (h0 : q - p ≠ ⟨0, 0, 0⟩) (hz : (q - p).z = 0) :
    ∃ θ : ℝ, A.transAngle (.r t) = .ok (.r θ) ∧
      (q - p = R3.norm (q - p) * (⟨Real.cos θ, Real.sin θ, 0⟩ : R3) ↔ 0 ≤ (q - p).y) := by
  obtain ⟨θ, e, a, b, c⟩ := transAngle_spec A t hp hq h0
  refine ⟨θ, e, ?_⟩
  generalize hd : q - p = d at *
  have hn := R3.norm_nonneg d
  have hs := Real.sin_nonneg_of_nonneg_of_le_pi a b
  constructor
  · intro h
    have := congrArg V3.y h
    simp only [R3.smul_y] at this
    rw [this]; exact mul_nonneg hn hs
  · intro hy
    have h2 := R3.norm_sq d
    rw [R3.dot_def, hz] at h2
    have hcs := Real.cos_sq_add_sin_sq θ
    have hsq : d.y ^ 2 = (R3.norm d * Real.sin θ) ^ 2 := by
      have : d.x ^ 2 = (R3.norm d * Real.cos θ) ^ 2 := by rw [← c]
      nlinarith
    have hyy : d.y = R3.norm d * Real.sin θ := by
      have h3 := mul_nonneg hn hs
      exact (sq_eq_sq₀ hy h3).1 hsq
    refine R3.ext ?_ ?_ ?_
    · simpa using c
    · simpa using hyy
    · simpa using hz

/-- For rotations about the z axis the angles add up exactly as long as the sum is on the upper half of the circle. -/
theorem transAngle_rotation_partial (φ t : ℝ) :
    ∃ θ : ℝ, (rotationZ4 (X.r φ)).transAngle (.r t) = .ok (.r θ) ∧
      ((∃ k : ℤ, θ = φ + t + k * (2 * Real.pi)) ↔ 0 ≤ Real.sin (φ + t)) := by
  have hp := trans_rotationZ4 φ ⟨0, 0, 0⟩
  have hq := trans_rotationZ4 φ ⟨Real.cos t, Real.sin t, 0⟩
  have e : rodrigues ⟨0, 0, 1⟩ φ ⟨Real.cos t, Real.sin t, 0⟩ - rodrigues ⟨0, 0, 1⟩ φ ⟨0, 0, 0⟩ =
      ⟨Real.cos (φ + t), Real.sin (φ + t), 0⟩ := by
    rw [Real.cos_add, Real.sin_add]
    ext <;> simp [rodrigues, R3.dot] <;> ring
  have hcs := Real.cos_sq_add_sin_sq (φ + t)
  have hn : R3.norm ⟨Real.cos (φ + t), Real.sin (φ + t), 0⟩ = 1 := by
    rw [R3.norm_unit, R3.dot_def]; simp only; nlinarith
  have h0 : rodrigues ⟨0, 0, 1⟩ φ ⟨Real.cos t, Real.sin t, 0⟩ - rodrigues ⟨0, 0, 1⟩ φ ⟨0, 0, 0⟩ ≠ ⟨0, 0, 0⟩ := by
    rw [e]
    intro c
    rw [R3.norm_eq_zero.2 c] at hn
    exact zero_ne_one hn
  obtain ⟨θ, h, h'⟩ := transAngle_iff _ t hp hq h0 (by rw [e])
  refine ⟨θ, h, ?_⟩
  rw [e, hn] at h'
  simp only at h'
  rw [← h']
  constructor
  · rintro ⟨k, hk⟩
    rw [hk, Real.cos_add_int_mul_two_pi, Real.sin_add_int_mul_two_pi]
    ext <;> simp
  · intro hh
    have hc := congrArg V3.x hh
    have hs := congrArg V3.y hh
    simp only [R3.smul_x, R3.smul_y, one_mul] at hc hs
    have : ((φ + t : ℝ) : Real.Angle) = (θ : ℝ) := Real.Angle.cos_sin_inj hc hs
    obtain ⟨k, hk⟩ := Real.Angle.angle_eq_iff_two_pi_dvd_sub.1 this.symm
    exact ⟨k, by linarith [hk]⟩

/-- The identity turns the angle -90° to 90°. -/
theorem transAngle_identity : (identity : Mat X).transAngle (.r (-(Real.pi / 2))) = .ok (.r (Real.pi / 2)) := by
  have hq := trans_identity ⟨Real.cos (-(Real.pi / 2)), Real.sin (-(Real.pi / 2)), 0⟩
  have e : (⟨Real.cos (-(Real.pi / 2)), Real.sin (-(Real.pi / 2)), 0⟩ : R3) - ⟨0, 0, 0⟩ = ⟨0, -1, 0⟩ := by
    ext <;> simp
  have hne : (⟨Real.cos (-(Real.pi / 2)), Real.sin (-(Real.pi / 2)), 0⟩ : R3) - ⟨0, 0, 0⟩ ≠ ⟨0, 0, 0⟩ := by
    rw [e]
    intro c
    have := congrArg V3.y c
    norm_num at this
  obtain ⟨θ, h, a, b, c⟩ := transAngle_spec _ _ (trans_identity ⟨0, 0, 0⟩) hq hne
  rw [h]
  rw [e, R3.norm_unit.2 (by simp [R3.dot])] at c
  simp only [one_mul] at c
  congr 2
  exact Real.injOn_cos ⟨a, b⟩ ⟨by positivity, by linarith [Real.pi_pos]⟩ (by rw [← c, Real.cos_pi_div_two])

/-! ### The matrix of an object coordinate system -/

/-- For a unit extrusion the matrix of `initWcs` transforms points as `ocsToWcs` does. -/
theorem initWcs_spec (e : R3) (he : R3.norm e = 1) :
    ∃ A, initWcs e.toX = .ok A ∧ ∀ c : R3, A.trans c.toX = ocsToWcs c.toX e.toX := by
  obtain ⟨ox, oy, hm, n1, n2, d1, d2, d3, hc, hk⟩ := ocs_axes e he
  have hrep : Rep (ofVertices ox.toX oy.toX e.toX true)
      (Matrix.of ![![ox.x, ox.y, ox.z], ![oy.x, oy.y, oy.z], ![e.x, e.y, e.z]]) := rep3 _ _ _ _ _ _ _ _ _
  have q1 := R3.norm_unit.1 n1
  have q2 := R3.norm_unit.1 n2
  have q3 := R3.norm_unit.1 he
  rw [R3.dot_def] at q1 q2 q3 d1 d2 d3
  have hmul : (Matrix.of ![![ox.x, ox.y, ox.z], ![oy.x, oy.y, oy.z], ![e.x, e.y, e.z]]) *
      (Matrix.of ![![ox.x, oy.x, e.x], ![ox.y, oy.y, e.y], ![ox.z, oy.z, e.z]]) = 1 := by
    ext i j
    fin_cases i <;> fin_cases j <;> simp [Matrix.mul_apply, Fin.sum_univ_three]
    · exact q1
    · exact d1
    · exact d2
    · linear_combination d1
    · exact q2
    · exact d3
    · linear_combination d2
    · linear_combination d3
    · exact q3
  have hdet : (Matrix.of ![![ox.x, ox.y, ox.z], ![oy.x, oy.y, oy.z], ![e.x, e.y, e.z]]).det ≠ 0 := by
    intro h0
    have := congrArg Matrix.det hmul
    rw [Matrix.det_mul, h0, zero_mul, Matrix.det_one] at this
    exact one_ne_zero this.symm
  obtain ⟨W, hW, hWr⟩ := inverse_spec hrep (by omega) (by omega) hdet
  generalize (Matrix.of ![![ox.x, ox.y, ox.z], ![oy.x, oy.y, oy.z], ![e.x, e.y, e.z]])⁻¹ = N at hWr
  have hw : wcsMatrix e.toX = .ok W := by
    unfold wcsMatrix
    rw [hm, hW]; rfl
  obtain ⟨h0, h1, h2, h3, h4, h5, h6, h7, h8⟩ := cells3 hWr
  refine ⟨mat4 [.r (N 0 0), .r (N 1 0), .r (N 2 0), .r 0, .r (N 0 1), .r (N 1 1), .r (N 2 1), .r 0, .r (N 0 2), .r (N 1 2),
    .r (N 2 2), .r 0, .r 0, .r 0, .r 0, .r 1], ?_, fun c => ?_⟩
  · unfold initWcs
    rw [hw]
    simp only [bind, Except.bind, pure, Except.pure, h0, h1, h2, h3, h4, h5, h6, h7, h8, zero_r, one_r]
  · have h4 : Rep (mat4 [X.r (N 0 0), .r (N 1 0), .r (N 2 0), .r 0, .r (N 0 1), .r (N 1 1), .r (N 2 1), .r 0, .r (N 0 2), .r (N 1 2),
        .r (N 2 2), .r 0, .r 0, .r 0, .r 0, .r 1]) (Matrix.of ![![N 0 0, N 0 1, N 0 2, 0], ![N 1 0, N 1 1, N 1 2, 0],
        ![N 2 0, N 2 1, N 2 2, 0], ![0, 0, 0, 1]]) := rep4 _ _ _ _ _ _ _ _ _ _ _ _ _ _ _ _
    rw [trans_spec h4]
    unfold ocsToWcs
    rw [hw]
    simp only [bind, Except.bind]
    rw [mulV3_spec hWr]
    congr 2
    ext <;> simp [affine]

/-- a unit vector -/
example : R3.norm ⟨3 / 5, 0, 4 / 5⟩ = 1 := R3.norm_unit.2 (by norm_num [R3.dot])

end Verif.Vtx.MeasureProps
