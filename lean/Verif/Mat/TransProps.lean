import Verif.Mat.ExactProps
import Verif.Vtx.Spec
/-
C74: the 4 × 4 transformation matrices, without rounding.
-/
namespace Verif.Mx.Mat
open Verif Verif.Exact Verif.Vtx

/-- the affine map of a 4 × 4 matrix: the upper three rows, applied to (x, y, z, 1) -/
def affine (M : Matrix (Fin 4) (Fin 4) ℝ) (v : R3) : R3 :=
  ⟨M 0 0 * v.x + M 0 1 * v.y + M 0 2 * v.z + M 0 3, M 1 0 * v.x + M 1 1 * v.y + M 1 2 * v.z + M 1 3,
   M 2 0 * v.x + M 2 1 * v.y + M 2 2 * v.z + M 2 3⟩

/-- `trans` applies the affine map. -/
theorem trans_spec {A : Mat X} {M : Matrix (Fin 4) (Fin 4) ℝ} (h : Rep A M) (v : R3) :
    A.trans v.toX = .ok (affine M v).toX := by
  obtain ⟨c, e, hm, hl, hc⟩ := mulVec_spec h.is ⟨4, [.r v.x, .r v.y, .r v.z, .r 1]⟩ rfl rfl
  have key : ∀ i : Fin 4, Verif.rd c.data i.val = .ok (.r (M i 0 * v.x + M i 1 * v.y + M i 2 * v.z + M i 3)) := by
    intro i
    rw [rd_some, hc i i.2]
    congr 1
    have e1 : sumOf 4 (fun k => Mat.elems [X.r v.x, .r v.y, .r v.z, .r 1] k * .r (ext M i k)) =
        sumOf 4 (fun k => .r ((if k = 0 then v.x else if k = 1 then v.y else if k = 2 then v.z else if k = 3 then 1 else 0) * ext M i k)) := by
      rfl
    rw [e1, sumOf_r, Fin.sum_univ_four, ext_fin, ext_fin, ext_fin, ext_fin]
    simp
    ring
  unfold trans
  rw [copy_eq A (by rw [h.rows, h.cols]; exact h.size)]
  simp only [bind, Except.bind]
  rw [one_r]
  have k0 := key 0
  have k1 := key 1
  have k2 := key 2
  simp only [Fin.val_zero, Fin.val_one, Fin.val_two] at k0 k1 k2
  simp only [R3.toX, e, k0, k1, k2]
  rfl

/-- With another number of columns the call fails with an exception; with 4 columns and fewer than 3 rows
memory behind the block of the result is read. -/
theorem trans_rejects {K : Type} [Arith K] {A : Mat K} {m n : Nat} {f : Nat → Nat → K} (h : Is A m n f) (v : V3 K) :
    (n ≠ 4 → A.trans v = .error .thrown) ∧ (n = 4 → m < 3 → A.trans v = .error .ub) := by
  unfold trans
  rw [copy_eq A (by rw [h.rows, h.cols]; exact h.size)]
  simp only [bind, Except.bind]
  constructor
  · intro hn
    unfold mulVec
    rw [h.cols, if_pos hn]
  · intro hn hm
    subst hn
    obtain ⟨c, e, hcm, hl, hc⟩ := mulVec_spec h ⟨4, [v.x, v.y, v.z, one]⟩ rfl rfl
    rw [e]
    simp only
    obtain rfl | rfl | rfl : m = 0 ∨ m = 1 ∨ m = 2 := by omega
    · rw [rd_ub (by omega)]
    · rw [rd_ok (by omega)]
      simp only
      rw [rd_ub (by omega)]
    · rw [rd_ok (by omega), rd_ok (by omega)]
      simp only
      rw [rd_ub (by omega)]

/-! ### The matrices -/

theorem identity_rep : Rep (identity : Mat X) (1 : Matrix (Fin 4) (Fin 4) ℝ) := by
  unfold identity mat4
  rw [one_r, zero_r]
  have := rep4 1 0 0 0 0 1 0 0 0 0 1 0 0 0 0 1
  have e : (1 : Matrix (Fin 4) (Fin 4) ℝ) = Matrix.of ![![1, 0, 0, 0], ![0, 1, 0, 0], ![0, 0, 1, 0], ![0, 0, 0, 1]] := by
    ext i j; fin_cases i <;> fin_cases j <;> rfl
  rw [e]; exact this

/-- The identity changes nothing. -/
theorem trans_identity (v : R3) : identity.trans v.toX = .ok v.toX := by
  rw [trans_spec identity_rep]
  congr 2
  ext <;> simp [affine]

/-- the matrix of a translation -/
def movingM (d : R3) : Matrix (Fin 4) (Fin 4) ℝ := Matrix.of ![![1, 0, 0, d.x], ![0, 1, 0, d.y], ![0, 0, 1, d.z], ![0, 0, 0, 1]]
theorem moving_rep (d : R3) : Rep (moving d.toX) (movingM d) := by
  unfold moving mat4
  rw [one_r, zero_r]
  exact rep4 1 0 0 0 0 1 0 0 0 0 1 0 d.x d.y d.z 1
/-- Moving adds the vector. -/
theorem trans_moving (d v : R3) : (moving d.toX).trans v.toX = .ok (v + d).toX := by
  rw [trans_spec (moving_rep d)]
  congr 2
  ext <;> simp [affine, movingM]

def scalingM (f : R3) : Matrix (Fin 4) (Fin 4) ℝ := Matrix.of ![![f.x, 0, 0, 0], ![0, f.y, 0, 0], ![0, 0, f.z, 0], ![0, 0, 0, 1]]
theorem scaling_rep (f : R3) : Rep (scaling f.toX) (scalingM f) := by
  unfold scaling mat4
  rw [one_r, zero_r]
  exact rep4 f.x 0 0 0 0 f.y 0 0 0 0 f.z 0 0 0 0 1
/-- Scaling multiplies each coordinate with its factor. -/
theorem trans_scaling (f v : R3) : (scaling f.toX).trans v.toX = .ok (R3.toX ⟨f.x * v.x, f.y * v.y, f.z * v.z⟩) := by
  rw [trans_spec (scaling_rep f)]
  congr 2
  ext <;> simp [affine, scalingM]

def scalingAtM (p : R3) (f : ℝ) : Matrix (Fin 4) (Fin 4) ℝ :=
  Matrix.of ![![f, 0, 0, p.x - f * p.x], ![0, f, 0, p.y - f * p.y], ![0, 0, f, p.z - f * p.z], ![0, 0, 0, 1]]
theorem scalingAt_rep (p : R3) (f : ℝ) : Rep (scalingAt p.toX (.r f)) (scalingAtM p f) := by
  unfold scalingAt mat4
  rw [one_r, zero_r]
  exact rep4 f 0 0 0 0 f 0 0 0 0 f 0 (p.x - f * p.x) (p.y - f * p.y) (p.z - f * p.z) 1
/-- Scaling at a point: the point is fixed, and distances from it are multiplied. -/
theorem trans_scalingAt (p v : R3) (f : ℝ) : (scalingAt p.toX (.r f)).trans v.toX = .ok (p + f * (v - p)).toX := by
  rw [trans_spec (scalingAt_rep p f)]
  congr 2
  ext <;> simp [affine, scalingAtM] <;> ring

noncomputable def mirrorM (p n : R3) : Matrix (Fin 4) (Fin 4) ℝ :=
  let d := -p.x * n.x - p.y * n.y - p.z * n.z
  Matrix.of ![![1 - 2 * n.x * n.x, -2 * n.y * n.x, -2 * n.x * n.z, -2 * n.x * d],
    ![-2 * n.x * n.y, 1 - 2 * n.y * n.y, -2 * n.y * n.z, -2 * n.y * d],
    ![-2 * n.x * n.z, -2 * n.y * n.z, 1 - 2 * n.z * n.z, -2 * n.z * d], ![0, 0, 0, 1]]
theorem mirroring_rep (p n : R3) : Rep (mirroring p.toX n.toX) (mirrorM p n) := by
  unfold mirroring mat4
  rw [one_r, zero_r, two_r]
  exact rep4 _ _ _ 0 _ _ _ 0 _ _ _ 0 _ _ _ 1
/-- Mirroring at the plane through `p` with the normal `n`: `v - 2 ((v - p) · n) n`. -/
theorem trans_mirroring (p n v : R3) :
    (mirroring p.toX n.toX).trans v.toX = .ok (v - (2 * R3.dot (v - p) n) * n).toX := by
  rw [trans_spec (mirroring_rep p n)]
  congr 2
  ext <;> simp [affine, mirrorM, R3.dot] <;> ring

/-- For a unit normal this is the reflection: twice gives the point back, distances are kept, exactly the
points of the plane are fixed, and the midpoint of a point and its image lies in the plane. -/
theorem mirroring_reflection (p n : R3) (hn : R3.norm n = 1) :
    ∃ σ : R3 → R3, (∀ v, (mirroring p.toX n.toX).trans v.toX = .ok (σ v).toX) ∧ (∀ v, σ (σ v) = v) ∧
      (∀ v w, R3.dist (σ v) (σ w) = R3.dist v w) ∧ (∀ v, σ v = v ↔ R3.dot (v - p) n = 0) ∧
      (∀ v, R3.dot ((1 / 2 : ℝ) * (v + σ v) - p) n = 0) := by
  have h1 := R3.norm_unit.1 hn
  rw [R3.dot_def] at h1
  refine ⟨fun v => v - (2 * R3.dot (v - p) n) * n, fun v => trans_mirroring p n v, ?_, ?_, ?_, ?_⟩
  · intro v
    ext <;> simp only [R3.dot_def, R3.sub_x, R3.sub_y, R3.sub_z, R3.smul_x, R3.smul_y, R3.smul_z]
    · linear_combination 4 * n.x * ((v.x - p.x) * n.x + (v.y - p.y) * n.y + (v.z - p.z) * n.z) * h1
    · linear_combination 4 * n.y * ((v.x - p.x) * n.x + (v.y - p.y) * n.y + (v.z - p.z) * n.z) * h1
    · linear_combination 4 * n.z * ((v.x - p.x) * n.x + (v.y - p.y) * n.y + (v.z - p.z) * n.z) * h1
  · intro v w
    unfold R3.dist R3.norm
    congr 1
    simp only [R3.dot_def, R3.sub_x, R3.sub_y, R3.sub_z, R3.smul_x, R3.smul_y, R3.smul_z]
    linear_combination 4 * ((v.x - w.x) * n.x + (v.y - w.y) * n.y + (v.z - w.z) * n.z) ^ 2 * h1
  · intro v
    constructor
    · intro h
      have hx := congrArg V3.x h
      have hy := congrArg V3.y h
      have hz := congrArg V3.z h
      simp only [R3.sub_x, R3.sub_y, R3.sub_z, R3.smul_x, R3.smul_y, R3.smul_z] at hx hy hz
      linear_combination (-1 / 2) * (n.x * hx + n.y * hy + n.z * hz) - R3.dot (v - p) n * h1
    · intro h
      simp only [h]
      ext <;> simp
  · intro v
    simp only [R3.dot_def, R3.sub_x, R3.sub_y, R3.sub_z, R3.smul_x, R3.smul_y, R3.smul_z, R3.add_x, R3.add_y, R3.add_z]
    linear_combination -((v.x - p.x) * n.x + (v.y - p.y) * n.y + (v.z - p.z) * n.z) * h1

/-- The normal must have length 1: with the normal (0, 0, 2) the point (0, 0, 1) is mapped to (0, 0, -7)
instead of (0, 0, -1). -/
theorem mirroring_needs_unit : (mirroring (R3.toX ⟨0, 0, 0⟩) (R3.toX ⟨0, 0, 2⟩)).trans (R3.toX ⟨0, 0, 1⟩) =
    .ok (R3.toX ⟨0, 0, -7⟩) := by
  rw [trans_mirroring]
  congr 2
  ext <;> norm_num [R3.dot]

/-! ### Rotations -/

/-- Rodrigues' formula: the vector `w`, rotated around the unit vector `a` -/
noncomputable def rodrigues (a : R3) (t : ℝ) (w : R3) : R3 :=
  Real.cos t * w + Real.sin t * R3.cross a w + ((1 - Real.cos t) * R3.dot a w) * a

noncomputable def rotM (a : R3) (t : ℝ) : Matrix (Fin 3) (Fin 3) ℝ :=
  let c := Real.cos t
  let s := Real.sin t
  Matrix.of ![![c + a.x * a.x * (1 - c), a.x * a.y * (1 - c) - a.z * s, a.x * a.z * (1 - c) + a.y * s],
    ![a.y * a.x * (1 - c) + a.z * s, c + a.y * a.y * (1 - c), a.y * a.z * (1 - c) - a.x * s],
    ![a.z * a.x * (1 - c) - a.y * s, a.y * a.z * (1 - c) + a.x * s, c + a.z * a.z * (1 - c)]]
theorem rotation_rep (a : R3) (t : ℝ) : Rep (rotation (.r t) a.toX) (rotM a t) := by
  unfold rotation
  rw [one_r]
  exact rep3 _ _ _ _ _ _ _ _ _

/-- the product of a 3 × 3 matrix and a vector -/
theorem mulV3_spec {A : Mat X} {M : Matrix (Fin 3) (Fin 3) ℝ} (h : Rep A M) (v : R3) :
    A.mulV3 v.toX = .ok (R3.toX ⟨M 0 0 * v.x + M 0 1 * v.y + M 0 2 * v.z, M 1 0 * v.x + M 1 1 * v.y + M 1 2 * v.z,
      M 2 0 * v.x + M 2 1 * v.y + M 2 2 * v.z⟩) := by
  unfold mulV3
  rw [h.rows, h.cols, if_neg (by simp), h.readAll 9 rfl]
  obtain ⟨h0, h1, h2, h3, h4, h5, h6, h7, h8⟩ := cells3 h
  simp only [Except.map, h0, h1, h2, h3, h4, h5, h6, h7, h8, R3.toX, X.mul_r, X.add_r]

/-- The rotation matrix applies Rodrigues' formula. -/
theorem rotation_spec (a : R3) (t : ℝ) (w : R3) : (rotation (.r t) a.toX).mulV3 w.toX = .ok (rodrigues a t w).toX := by
  rw [mulV3_spec (rotation_rep a t)]
  congr 2
  ext <;> simp [rodrigues, rotM, R3.dot] <;> ring

/-- What this means for a unit axis: lengths and angles are kept, the axis is fixed, right-angled vectors
turn by `t` in the plane across the axis, and rotations add up. -/
theorem rodrigues_rotation (a : R3) (ha : R3.norm a = 1) (t : ℝ) :
    (∀ v w, R3.dot (rodrigues a t v) (rodrigues a t w) = R3.dot v w) ∧ rodrigues a t a = a ∧
    (∀ v, R3.dot a v = 0 → rodrigues a t v = Real.cos t * v + Real.sin t * R3.cross a v) ∧
    (∀ u v, rodrigues a t (rodrigues a u v) = rodrigues a (t + u) v) ∧ (∀ v, rodrigues a 0 v = v) := by
  have h1 := R3.norm_unit.1 ha
  rw [R3.dot_def] at h1
  have hcs : Real.cos t ^ 2 + Real.sin t ^ 2 = 1 := Real.cos_sq_add_sin_sq t
  refine ⟨?_, ?_, ?_, ?_, ?_⟩
  · intro v w
    generalize hc : Real.cos t = c at hcs
    generalize hs : Real.sin t = s at hcs
    simp only [rodrigues, hc, hs, R3.dot_def, R3.add_x, R3.add_y, R3.add_z, R3.smul_x, R3.smul_y, R3.smul_z, R3.cross_x, R3.cross_y, R3.cross_z]
    have hlag : (a.y * v.z - a.z * v.y) * (a.y * w.z - a.z * w.y) + (a.z * v.x - a.x * v.z) * (a.z * w.x - a.x * w.z) +
        (a.x * v.y - a.y * v.x) * (a.x * w.y - a.y * w.x) = (v.x * w.x + v.y * w.y + v.z * w.z) -
        (a.x * v.x + a.y * v.y + a.z * v.z) * (a.x * w.x + a.y * w.y + a.z * w.z) := by
      linear_combination (v.x * w.x + v.y * w.y + v.z * w.z) * h1
    linear_combination ((v.x * w.x + v.y * w.y + v.z * w.z) - (a.x * v.x + a.y * v.y + a.z * v.z) * (a.x * w.x + a.y * w.y + a.z * w.z)) * hcs +
      s ^ 2 * hlag + (1 - c) ^ 2 * (a.x * v.x + a.y * v.y + a.z * v.z) * (a.x * w.x + a.y * w.y + a.z * w.z) * h1
  · ext <;> simp only [rodrigues, R3.dot_def, R3.add_x, R3.add_y, R3.add_z, R3.smul_x, R3.smul_y, R3.smul_z, R3.cross_x, R3.cross_y, R3.cross_z]
    · linear_combination (1 - Real.cos t) * a.x * h1
    · linear_combination (1 - Real.cos t) * a.y * h1
    · linear_combination (1 - Real.cos t) * a.z * h1
  · intro v hv
    unfold rodrigues
    rw [hv]
    ext <;> simp
  · intro u v
    unfold rodrigues
    rw [Real.cos_add, Real.sin_add]
    generalize Real.cos t = c
    generalize Real.sin t = s
    generalize Real.cos u = c'
    generalize Real.sin u = s'
    ext <;> simp only [R3.dot_def, R3.add_x, R3.add_y, R3.add_z, R3.smul_x, R3.smul_y, R3.smul_z, R3.cross_x, R3.cross_y, R3.cross_z]
    · linear_combination (-s * s' * v.x + (1 - c) * (1 - c') * (a.x * v.x + a.y * v.y + a.z * v.z) * a.x) * h1
    · linear_combination (-s * s' * v.y + (1 - c) * (1 - c') * (a.x * v.x + a.y * v.y + a.z * v.z) * a.y) * h1
    · linear_combination (-s * s' * v.z + (1 - c) * (1 - c') * (a.x * v.x + a.y * v.y + a.z * v.z) * a.z) * h1
  · intro v
    unfold rodrigues
    rw [Real.cos_zero, Real.sin_zero]
    ext <;> simp

/-- The three special matrices are rotations around the axes. -/
theorem rotationXYZ (t : ℝ) (w : R3) :
    (rotationX (.r t)).mulV3 w.toX = .ok (rodrigues ⟨1, 0, 0⟩ t w).toX ∧
    (rotationY (.r t)).mulV3 w.toX = .ok (rodrigues ⟨0, 1, 0⟩ t w).toX ∧
    (rotationZ (.r t)).mulV3 w.toX = .ok (rodrigues ⟨0, 0, 1⟩ t w).toX := by
  have hx : Rep (rotationX (.r t)) (Matrix.of ![![1, 0, 0], ![0, Real.cos t, -Real.sin t], ![0, Real.sin t, Real.cos t]]) := by
    unfold rotationX; rw [one_r, zero_r]; exact rep3 _ _ _ _ _ _ _ _ _
  have hy : Rep (rotationY (.r t)) (Matrix.of ![![Real.cos t, 0, Real.sin t], ![0, 1, 0], ![-Real.sin t, 0, Real.cos t]]) := by
    unfold rotationY; rw [one_r, zero_r]; exact rep3 _ _ _ _ _ _ _ _ _
  have hz : Rep (rotationZ (.r t)) (Matrix.of ![![Real.cos t, -Real.sin t, 0], ![Real.sin t, Real.cos t, 0], ![0, 0, 1]]) := by
    unfold rotationZ; rw [one_r, zero_r]; exact rep3 _ _ _ _ _ _ _ _ _
  refine ⟨?_, ?_, ?_⟩
  · rw [mulV3_spec hx]
    congr 2
    ext <;> simp [rodrigues, R3.dot] <;> ring
  · rw [mulV3_spec hy]
    congr 2
    ext <;> simp [rodrigues, R3.dot] <;> ring
  · rw [mulV3_spec hz]
    congr 2
    ext <;> simp [rodrigues, R3.dot] <;> ring

noncomputable def rotationAtM (p a : R3) (t : ℝ) : Matrix (Fin 4) (Fin 4) ℝ :=
  let M := rotM a t
  Matrix.of ![![M 0 0, M 0 1, M 0 2, p.x - p.x * M 0 0 - p.y * M 0 1 - p.z * M 0 2],
    ![M 1 0, M 1 1, M 1 2, p.y - p.x * M 1 0 - p.y * M 1 1 - p.z * M 1 2],
    ![M 2 0, M 2 1, M 2 2, p.z - p.x * M 2 0 - p.y * M 2 1 - p.z * M 2 2], ![0, 0, 0, 1]]
theorem rotationAt_rep (p a : R3) (t : ℝ) : Rep (rotationAt p.toX a.toX (.r t)) (rotationAtM p a t) := by
  unfold rotationAt mat4
  rw [one_r, zero_r]
  obtain ⟨h0, h1, h2, h3, h4, h5, h6, h7, h8⟩ := cells3 (rotation_rep a t)
  simp only [h0, h1, h2, h3, h4, h5, h6, h7, h8]
  exact rep4 _ _ _ 0 _ _ _ 0 _ _ _ 0 _ _ _ 1
/-- The rotation around the line through `p` in the direction of the unit vector `a`. -/
theorem trans_rotationAt (p a v : R3) (t : ℝ) :
    (rotationAt p.toX a.toX (.r t)).trans v.toX = .ok (p + rodrigues a t (v - p)).toX := by
  rw [trans_spec (rotationAt_rep p a t)]
  congr 2
  ext <;> simp [affine, rotationAtM, rodrigues, rotM, R3.dot] <;> ring

theorem trans_rotationZ4 (t : ℝ) (v : R3) : (rotationZ4 (.r t)).trans v.toX = .ok (rodrigues ⟨0, 0, 1⟩ t v).toX := by
  have h : Rep (rotationZ4 (.r t)) (Matrix.of ![![Real.cos t, -Real.sin t, 0, 0], ![Real.sin t, Real.cos t, 0, 0],
      ![0, 0, 1, 0], ![0, 0, 0, 1]]) := by
    unfold rotationZ4 rotationZ mat4
    rw [one_r, zero_r]
    exact rep4 _ _ _ _ _ _ _ _ _ _ _ _ _ _ _ _
  rw [trans_spec h]
  congr 2
  ext <;> simp [affine, rodrigues, R3.dot] <;> ring

/-! ### Composition -/

/-- the last row of a transformation matrix -/
def LastRow (M : Matrix (Fin 4) (Fin 4) ℝ) : Prop := M 3 0 = 0 ∧ M 3 1 = 0 ∧ M 3 2 = 0 ∧ M 3 3 = 1

theorem lastRow_all (d f p n a : R3) (k t : ℝ) : LastRow (movingM d) ∧ LastRow (scalingM f) ∧ LastRow (scalingAtM p k) ∧
    LastRow (mirrorM p n) ∧ LastRow (rotationAtM p a t) ∧ LastRow 1 := by
  refine ⟨?_, ?_, ?_, ?_, ?_, ?_⟩ <;> refine ⟨?_, ?_, ?_, ?_⟩ <;> rfl

/-- The product of two transformation matrices is the composition: first the right, then the left. -/
theorem trans_mul {A B : Mat X} {M N : Matrix (Fin 4) (Fin 4) ℝ} (h : Rep A M) (h' : Rep B N) (hl : LastRow N) (v : R3) :
    ∃ C w u, mul A B = .ok C ∧ B.trans v.toX = .ok (R3.toX w) ∧ A.trans w.toX = .ok (R3.toX u) ∧ C.trans v.toX = .ok u.toX := by
  obtain ⟨C, e, hC⟩ := mul_matrix h h'
  refine ⟨C, affine N v, affine M (affine N v), e, trans_spec h' v, trans_spec h _, ?_⟩
  rw [trans_spec hC]
  congr 2
  obtain ⟨l0, l1, l2, l3⟩ := hl
  ext <;> simp only [affine, Matrix.mul_apply, Fin.sum_univ_four, l0, l1, l2, l3] <;> ring

-- a case that meets the hypotheses: move, then mirror
example (v : R3) : ∃ C, mul (mirroring (R3.toX ⟨0, 0, 0⟩) (R3.toX ⟨0, 0, 1⟩)) (moving (R3.toX ⟨1, 2, 3⟩)) = .ok C ∧
    C.trans v.toX = .ok (R3.toX ⟨v.x + 1, v.y + 2, -(v.z + 3)⟩) := by
  obtain ⟨C, w, u, e, e1, e2, e3⟩ := trans_mul (mirroring_rep ⟨0, 0, 0⟩ ⟨0, 0, 1⟩) (moving_rep ⟨1, 2, 3⟩)
    (lastRow_all ⟨1, 2, 3⟩ ⟨1, 2, 3⟩ ⟨1, 2, 3⟩ ⟨1, 2, 3⟩ ⟨1, 2, 3⟩ 0 0).1 v
  refine ⟨C, e, ?_⟩
  rw [trans_moving] at e1
  have hw : w = v + ⟨1, 2, 3⟩ := by
    have : (R3.toX (v + ⟨1, 2, 3⟩)) = R3.toX w := Except.ok.inj e1
    simp only [R3.toX, V3.mk.injEq, X.r.injEq] at this
    exact R3.ext this.1.symm this.2.1.symm this.2.2.symm
  rw [trans_mirroring, hw] at e2
  rw [e3, ← e2]
  congr 2
  ext
  · simp [R3.dot]
  · simp [R3.dot]
  · simp [R3.dot]; ring
example : R3.norm ⟨0, 0, 1⟩ = 1 := R3.norm_unit.2 (by norm_num [R3.dot])

end Verif.Mx.Mat
