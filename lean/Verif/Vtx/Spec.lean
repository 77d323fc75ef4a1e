import Verif.Vtx.Model
import Mathlib.Analysis.SpecialFunctions.Trigonometric.Inverse
/-
Specification: vectors of real numbers, with the usual operations.
-/
namespace Verif.Vtx
open Verif Verif.Exact Verif.Mx

/-- points and vectors of space -/
abbrev R3 := V3 ℝ

namespace R3
def dot (a b : R3) : ℝ := a.x * b.x + a.y * b.y + a.z * b.z
def cross (a b : R3) : R3 := ⟨a.y * b.z - a.z * b.y, a.z * b.x - a.x * b.z, a.x * b.y - a.y * b.x⟩
instance : Add R3 := ⟨fun a b => ⟨a.x + b.x, a.y + b.y, a.z + b.z⟩⟩
instance : Sub R3 := ⟨fun a b => ⟨a.x - b.x, a.y - b.y, a.z - b.z⟩⟩
instance : Neg R3 := ⟨fun a => ⟨-a.x, -a.y, -a.z⟩⟩
instance : HMul ℝ R3 R3 := ⟨fun t a => ⟨t * a.x, t * a.y, t * a.z⟩⟩
/-- the length -/
noncomputable def norm (a : R3) : ℝ := Real.sqrt (dot a a)
/-- the distance of two points -/
noncomputable def dist (a b : R3) : ℝ := norm (a - b)
/-- as the argument of the program -/
def toX (a : R3) : V3 X := ⟨.r a.x, .r a.y, .r a.z⟩

@[simp] theorem add_x (a b : R3) : (a + b).x = a.x + b.x := rfl
@[simp] theorem add_y (a b : R3) : (a + b).y = a.y + b.y := rfl
@[simp] theorem add_z (a b : R3) : (a + b).z = a.z + b.z := rfl
@[simp] theorem sub_x (a b : R3) : (a - b).x = a.x - b.x := rfl
@[simp] theorem sub_y (a b : R3) : (a - b).y = a.y - b.y := rfl
@[simp] theorem sub_z (a b : R3) : (a - b).z = a.z - b.z := rfl
@[simp] theorem neg_x (a : R3) : (-a).x = -a.x := rfl
@[simp] theorem neg_y (a : R3) : (-a).y = -a.y := rfl
@[simp] theorem neg_z (a : R3) : (-a).z = -a.z := rfl
@[simp] theorem smul_x (t : ℝ) (a : R3) : (t * a).x = t * a.x := rfl
@[simp] theorem smul_y (t : ℝ) (a : R3) : (t * a).y = t * a.y := rfl
@[simp] theorem smul_z (t : ℝ) (a : R3) : (t * a).z = t * a.z := rfl
@[simp] theorem cross_x (a b : R3) : (cross a b).x = a.y * b.z - a.z * b.y := rfl
@[simp] theorem cross_y (a b : R3) : (cross a b).y = a.z * b.x - a.x * b.z := rfl
@[simp] theorem cross_z (a b : R3) : (cross a b).z = a.x * b.y - a.y * b.x := rfl
@[ext] theorem ext {a b : R3} (h1 : a.x = b.x) (h2 : a.y = b.y) (h3 : a.z = b.z) : a = b := by
  cases a; cases b; simp_all
theorem dot_def (a b : R3) : dot a b = a.x * b.x + a.y * b.y + a.z * b.z := rfl
theorem dot_self_nonneg (a : R3) : 0 ≤ dot a a := by
  unfold dot; nlinarith [mul_self_nonneg a.x, mul_self_nonneg a.y, mul_self_nonneg a.z]
theorem norm_nonneg (a : R3) : 0 ≤ norm a := Real.sqrt_nonneg _
theorem norm_sq (a : R3) : norm a * norm a = dot a a := Real.mul_self_sqrt (dot_self_nonneg a)
theorem norm_eq_zero {a : R3} : norm a = 0 ↔ a = ⟨0, 0, 0⟩ := by
  constructor
  · intro h
    have := norm_sq a
    rw [h, dot_def] at this
    have hx := mul_self_nonneg a.x
    have hy := mul_self_nonneg a.y
    have hz := mul_self_nonneg a.z
    refine ext ?_ ?_ ?_
    · exact mul_self_eq_zero.1 (by linarith)
    · exact mul_self_eq_zero.1 (by linarith)
    · exact mul_self_eq_zero.1 (by linarith)
  · rintro rfl; simp [norm, dot]
theorem norm_unit {a : R3} : norm a = 1 ↔ dot a a = 1 := by
  constructor
  · intro h; rw [← norm_sq, h, one_mul]
  · intro h; rw [norm, h, Real.sqrt_one]
end R3

/-- points and vectors of the plane -/
abbrev R2 := V2 ℝ

namespace R2
def dot (a b : R2) : ℝ := a.x * b.x + a.y * b.y
/-- the signed area of the parallelogram: positive if `b` is to the left of `a` -/
def det (a b : R2) : ℝ := a.x * b.y - a.y * b.x
instance : Add R2 := ⟨fun a b => ⟨a.x + b.x, a.y + b.y⟩⟩
instance : Sub R2 := ⟨fun a b => ⟨a.x - b.x, a.y - b.y⟩⟩
instance : Neg R2 := ⟨fun a => ⟨-a.x, -a.y⟩⟩
instance : HMul ℝ R2 R2 := ⟨fun t a => ⟨t * a.x, t * a.y⟩⟩
noncomputable def norm (a : R2) : ℝ := Real.sqrt (dot a a)
noncomputable def dist (a b : R2) : ℝ := norm (a - b)
def toX (a : R2) : V2 X := ⟨.r a.x, .r a.y⟩

@[simp] theorem add_x (a b : R2) : (a + b).x = a.x + b.x := rfl
@[simp] theorem add_y (a b : R2) : (a + b).y = a.y + b.y := rfl
@[simp] theorem sub_x (a b : R2) : (a - b).x = a.x - b.x := rfl
@[simp] theorem sub_y (a b : R2) : (a - b).y = a.y - b.y := rfl
@[simp] theorem neg_x (a : R2) : (-a).x = -a.x := rfl
@[simp] theorem neg_y (a : R2) : (-a).y = -a.y := rfl
@[simp] theorem smul_x (t : ℝ) (a : R2) : (t * a).x = t * a.x := rfl
@[simp] theorem smul_y (t : ℝ) (a : R2) : (t * a).y = t * a.y := rfl
@[ext] theorem ext {a b : R2} (h1 : a.x = b.x) (h2 : a.y = b.y) : a = b := by
  cases a; cases b; simp_all
theorem dot_def (a b : R2) : dot a b = a.x * b.x + a.y * b.y := rfl
theorem det_def (a b : R2) : det a b = a.x * b.y - a.y * b.x := rfl
theorem dot_self_nonneg (a : R2) : 0 ≤ dot a a := by
  unfold dot; nlinarith [mul_self_nonneg a.x, mul_self_nonneg a.y]
theorem norm_nonneg (a : R2) : 0 ≤ norm a := Real.sqrt_nonneg _
theorem norm_sq (a : R2) : norm a * norm a = dot a a := Real.mul_self_sqrt (dot_self_nonneg a)
theorem norm_eq_zero {a : R2} : norm a = 0 ↔ a = ⟨0, 0⟩ := by
  constructor
  · intro h
    have := norm_sq a
    rw [h, dot_def] at this
    have hx := mul_self_nonneg a.x
    have hy := mul_self_nonneg a.y
    refine ext ?_ ?_
    · exact mul_self_eq_zero.1 (by linarith)
    · exact mul_self_eq_zero.1 (by linarith)
  · rintro rfl; simp [norm, dot]
theorem norm_unit {a : R2} : norm a = 1 ↔ dot a a = 1 := by
  constructor
  · intro h; rw [← norm_sq, h, one_mul]
  · intro h; rw [norm, h, Real.sqrt_one]
end R2

end Verif.Vtx
