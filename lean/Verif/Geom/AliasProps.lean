import Verif.Geom.CircleProps
/-
C82: `circleParameterBy3Points` when the variable that receives the centre is one of the three points – `circleParameterBy3Points(p, r, p, q, s)`.
The other functions of Geometry.cpp with results by reference read their arguments before they write the first result:
`intersectionPointsOfCircles` (Geometry.cpp:85-87) and `circleParameterBy2TangentsRadius` (Geometry.cpp:763-765).
-/
namespace Verif.Geom
open Verif Verif.Exact Verif.Mx Verif.Mx.Mat Verif.Vtx

section
variable {L : Type} [Libm L]
/-- which variable `centre` refers to -/
inductive Target where
  | other | first | second | third
deriving DecidableEq

/-- Geometry.cpp:695-740 with `centre` referring to `t`: the radius is computed from `p1` after the centre has been written (lines 735-737);
`p2` and `p3` are not read again -/
def circleInto (t : Target) (p1 p2 p3 : V2 L) : Res (Status × V2 L × L) := do
  let sq := fun p : V2 L => p.x * p.x + p.y * p.y
  let (_, m11) ← (minor (·.x) (·.y) p1 p2 p3).det zero
  let (_, m12) ← (minor sq (·.y) p1 p2 p3).det zero
  let (_, m13) ← (minor sq (·.x) p1 p2 p3).det zero
  let c : V2 L := ⟨Arith.lit 1 2 * m12 / m11, -(Arith.lit 1 2 : L) * m13 / m11⟩
  let p1 := if t = .first then c else p1
  return (.ok, c, (p1.minus c).abs)

/-- With any other variable than the first point the result is the one of separate variables. -/
theorem circleInto_other {t : Target} (h : t ≠ .first) (p1 p2 p3 : V2 L) : circleInto t p1 p2 p3 = circleParameterBy3Points p1 p2 p3 := by
  unfold circleInto circleParameterBy3Points
  simp only [if_neg h]
end

/-- Violation: with the first point as the variable for the centre the centre is right, the radius is always zero – the true one never is. -/
theorem circleInto_first (p1 p2 p3 : R2) (h : R2.det (p2 - p1) (p3 - p1) ≠ 0) :
    ∃ (c : R2) (r : ℝ), circleParameterBy3Points p1.toX p2.toX p3.toX = .ok (.ok, c.toX, .r r) ∧ 0 < r ∧
      circleInto .first p1.toX p2.toX p3.toX = .ok (.ok, c.toX, .r 0) := by
  obtain ⟨c, r, e, h1, h2, _, _⟩ := circleParameterBy3Points_spec p1 p2 p3 h
  refine ⟨c, r, e, ?_, ?_⟩
  · have h1' : R2.dist p1 c = r := h1
    have h2' : R2.dist p2 c = r := h2
    refine lt_of_le_of_ne (h1' ▸ dist2_nonneg p1 c) fun e0 => h ?_
    have q1 := dist2_sq p1 c
    have q2 := dist2_sq p2 c
    rw [h1', ← e0, R2.dot_def] at q1
    rw [h2', ← e0, R2.dot_def] at q2
    simp only [R2.sub_x, R2.sub_y] at q1 q2
    have a1 : p1.x - c.x = 0 := by nlinarith [mul_self_nonneg (p1.x - c.x), mul_self_nonneg (p1.y - c.y)]
    have a2 : p1.y - c.y = 0 := by nlinarith [mul_self_nonneg (p1.x - c.x), mul_self_nonneg (p1.y - c.y)]
    have b1 : p2.x - c.x = 0 := by nlinarith [mul_self_nonneg (p2.x - c.x), mul_self_nonneg (p2.y - c.y)]
    have b2 : p2.y - c.y = 0 := by nlinarith [mul_self_nonneg (p2.x - c.x), mul_self_nonneg (p2.y - c.y)]
    rw [R2.det_def]; simp only [R2.sub_x, R2.sub_y]
    rw [show p2.x - p1.x = 0 by linarith, show p2.y - p1.y = 0 by linarith]; ring
  · have d11 := minor_det (·.x) (·.y) (·.x) (·.y) (fun _ => rfl) (fun _ => rfl) p1 p2 p3
    have d12 := minor_det (fun p => p.x * p.x + p.y * p.y) (·.y) (fun p => p.x * p.x + p.y * p.y) (·.y) (fun _ => rfl) (fun _ => rfl) p1 p2 p3
    have d13 := minor_det (fun p => p.x * p.x + p.y * p.y) (·.x) (fun p => p.x * p.x + p.y * p.y) (·.x) (fun _ => rfl) (fun _ => rfl) p1 p2 p3
    simp only [circleParameterBy3Points, d11, d12, d13, bind, Except.bind, pure, Except.pure, Except.ok.injEq, Prod.mk.injEq, true_and] at e
    simp only [circleInto, d11, d12, d13, bind, Except.bind, pure, Except.pure, if_true, e.1, Except.ok.injEq, Prod.mk.injEq, true_and]
    rw [P2.minus_toX, P2.abs_toX]
    congr 1
    unfold R2.norm R2.dot
    simp

example : R2.det ((⟨1, 0⟩ : R2) - ⟨0, 0⟩) (⟨0, 1⟩ - ⟨0, 0⟩) ≠ 0 := by norm_num [R2.det]

end Verif.Geom
