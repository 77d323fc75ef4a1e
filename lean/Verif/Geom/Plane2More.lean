import Verif.Geom.Plane2Props
/-
C81: the common point of two lines and the crossing of two segments for all arguments.
-/
namespace Verif.Geom
open Verif Verif.Exact Verif.Mx Verif.Mx.Mat Verif.Vtx

/-- No pivot: a first vector that is horizontal and shorter than 10^-6. -/
theorem solve_flat (a b r : R2) (hx : |a.x| < tol) (hy : a.y = 0) :
    solveLinearSystem a.toX b.toX r.toX = ⟨.nan, .nan⟩ := by
  unfold solveLinearSystem
  have hc : isEqual a.toX.x zero = true := (isEqual_zero a.x).2 hx
  rw [if_pos hc]
  unfold eliminate
  simp only [R2.toX, hy, X.div_zero]
  rfl

theorem not_solvable {d1 d2 : R2} (h : tol ≤ |R2.det d1 d2|) (hs : ¬ Solvable d1 d2) : |d1.x| < tol ∧ d1.y = 0 := by
  by_contra hc
  rw [not_and_or, not_lt] at hc
  exact hs ⟨h, hc⟩

/-- The common point of two lines in all cases: found exactly for solvable directions, otherwise not a number, although lines that are
not parallel always have one. -/
theorem intersectionPoint2_iff (p1 d1 p2 d2 : R2) :
    (∃ q : R2, intersectionPoint2 p1.toX d1.toX p2.toX d2.toX = q.toX ∧ Line2 p1 d1 ∩ Line2 p2 d2 = {q}) ↔ Solvable d1 d2 := by
  refine ⟨?_, fun h => ?_⟩
  · rintro ⟨q, h, -⟩
    by_contra hs
    by_cases hd : |R2.det d1 d2| < tol
    · rw [intersectionPoint2_parallel p1 d1 p2 d2 hd] at h
      exact X.noConfusion (congrArg V2.x h)
    · obtain ⟨hx, hy⟩ := not_solvable (not_lt.1 hd) hs
      simp only [intersectionPoint2] at h
      rw [if_neg (by rw [(P2.tests_spec d1 d2).2.1]; exact hd), neg_times_toX, P2.minus_toX, solve_flat _ _ _ hx hy] at h
      exact X.noConfusion (congrArg V2.x h)
  · obtain ⟨q, h1, h2⟩ := intersectionPoint2_partial p1 d1 p2 d2 h
    exact ⟨q, h2, h1⟩

theorem intersectionPoint2_invalid (p1 d1 p2 d2 : R2) (hs : ¬ Solvable d1 d2) :
    intersectionPoint2 p1.toX d1.toX p2.toX d2.toX = .invalid := by
  by_cases hd : |R2.det d1 d2| < tol
  · exact intersectionPoint2_parallel p1 d1 p2 d2 hd
  · obtain ⟨hx, hy⟩ := not_solvable (not_lt.1 hd) hs
    simp only [intersectionPoint2]
    rw [if_neg (by rw [(P2.tests_spec d1 d2).2.1]; exact hd), neg_times_toX, P2.minus_toX, solve_flat _ _ _ hx hy]
    rfl

/-- Two segments "cross", for all segments, exactly if the parallelogram of their directions has at least the area 10^-6 and the lines
meet within both segments up to 10^-6 of their lengths - or the first segment is horizontal and shorter than 10^-6, wherever the other
one lies. -/
theorem crosses_iff (s1 e1 s2 e2 : R2) :
    crosses s1.toX e1.toX s2.toX e2.toX = true ↔
      tol ≤ |R2.det (e1 - s1) (e2 - s2)| ∧ ((|(e1 - s1).x| < tol ∧ (e1 - s1).y = 0) ∨
        ∃ s t : ℝ, s1 + s * (e1 - s1) = s2 + t * (e2 - s2) ∧ -tol < s ∧ s < 1 + tol ∧ -tol < t ∧ t < 1 + tol) := by
  by_cases hd : tol ≤ |R2.det (e1 - s1) (e2 - s2)|
  · by_cases hf : |(e1 - s1).x| < tol ∧ (e1 - s1).y = 0
    · refine ⟨fun _ => ⟨hd, .inl hf⟩, fun _ => ?_⟩
      simp only [crosses]
      rw [P2.minus_toX, P2.minus_toX, P2.minus_toX, neg_times_toX, if_neg (by rw [(P2.tests_spec _ _).2.1, not_lt]; exact hd),
        solve_flat _ _ _ hf.1 hf.2]
      rfl
    · have hs : Solvable (e1 - s1) (e2 - s2) := by
        by_contra hc
        exact hf (not_solvable hd hc)
      rw [crosses_partial s1 e1 s2 e2 hs]
      exact ⟨fun h => ⟨hd, .inr h⟩, fun h => h.2.resolve_left hf⟩
  · refine ⟨fun h => ?_, fun h => absurd h.1 hd⟩
    simp only [crosses] at h
    rw [P2.minus_toX, P2.minus_toX, if_pos ((P2.tests_spec _ _).2.1.2 (not_le.1 hd))] at h
    exact absurd h Bool.false_ne_true

/-- The order of the segments matters: the second one may be short and horizontal. -/
theorem crosses_order : crosses (R2.toX ⟨0, 0⟩) (R2.toX ⟨1 / 10 ^ 7, 0⟩) (R2.toX ⟨5, 1⟩) (R2.toX ⟨5, 101⟩) = true ∧
    crosses (R2.toX ⟨5, 1⟩) (R2.toX ⟨5, 101⟩) (R2.toX ⟨0, 0⟩) (R2.toX ⟨1 / 10 ^ 7, 0⟩) = false := by
  refine ⟨crosses_pivot, ?_⟩
  rw [← Bool.not_eq_true, crosses_iff]
  rintro ⟨-, ⟨-, h⟩ | ⟨s, t, h, h1, h2, h3, h4⟩⟩
  · norm_num at h
  · have hx := congrArg V2.x h
    simp only [R2.add_x, R2.smul_x, R2.sub_x] at hx
    unfold tol at h4
    norm_num at hx h4
    linarith

/-- A ray whose direction is horizontal and shorter than 10^-6 meets no segment. -/
theorem extensionPointOnLine_flat (o d s e : R2) (hx : |d.x| < tol) (hy : d.y = 0) :
    extensionPointOnLine o.toX d.toX s.toX e.toX = .invalid := by
  simp only [extensionPointOnLine]
  rw [P2.minus_toX e s]
  split
  · rfl
  · rw [neg_times_toX, P2.minus_toX, solve_flat _ _ _ hx hy]
    rfl

/-- A ray whose direction is shorter than 10^-6 meets no segment at all. -/
theorem extensionPointOnLine_short (o d s e : R2) (hd : R2.norm d < tol) :
    extensionPointOnLine o.toX d.toX s.toX e.toX = .invalid := by
  by_cases hdet : |R2.det d (e - s)| < tol
  · simp only [extensionPointOnLine]
    rw [P2.minus_toX e s, if_pos ((P2.tests_spec _ _).2.1.2 hdet)]
  by_cases hs : Solvable d (e - s)
  swap
  · obtain ⟨hx, hy⟩ := not_solvable (not_lt.1 hdet) hs
    exact extensionPointOnLine_flat o d s e hx hy
  obtain ⟨u, t, es, h1, -⟩ := solve_lines o d s (e - s) hs
  have hval : isNaN (o + u * d).toX.x = false ∧ isNaN (o + u * d).toX.y = false := by
    constructor <;> rw [← Bool.not_eq_true, X.isNaN_iff] <;> exact fun c => X.noConfusion c
  simp only [extensionPointOnLine]
  rw [P2.minus_toX e s, if_neg (by rw [(P2.tests_spec _ _).2.1]; exact hdet), es, P2.times_toX, P2.plus_toX, ← h1,
    if_neg (by rw [hval.1, hval.2]; simp), P2.minus_toX (o + u * d) o]
  have hsub : (o + u * d : R2) - o = u * d := by ext <;> simp
  rw [hsub]
  have hdx : |d.x| < tol ∧ |d.y| < tol := by
    have hsq := R2.norm_sq d
    rw [R2.dot_def] at hsq
    have h0 := R2.norm_nonneg d
    exact ⟨lt_of_le_of_lt (abs_le_of_sq_le_sq (by nlinarith [mul_self_nonneg d.y]) h0) hd,
      lt_of_le_of_lt (abs_le_of_sq_le_sq (by nlinarith [mul_self_nonneg d.x]) h0) hd⟩
  split
  · rfl
  · rename_i hnear
    split
    · rfl
    · rw [if_neg]
      rw [P2.normalized_short d hd]
      have hn : tol ≤ R2.norm (u * d) := by
        by_contra hc
        rw [not_le] at hc
        apply hnear
        simp only [R2.toX, Bool.and_eq_true, X.isEqual_r, R2.add_x, R2.add_y, R2.smul_x, R2.smul_y, add_sub_cancel_left]
        have hsq := R2.norm_sq (u * d)
        rw [R2.dot_def] at hsq
        simp only [R2.smul_x, R2.smul_y] at hsq
        have h0 := R2.norm_nonneg (u * d)
        exact ⟨lt_of_le_of_lt (abs_le_of_sq_le_sq (by nlinarith [mul_self_nonneg (u * d.y)]) h0) hc,
          lt_of_le_of_lt (abs_le_of_sq_le_sq (by nlinarith [mul_self_nonneg (u * d.x)]) h0) hc⟩
      have hp : 0 < R2.norm (u * d) := lt_of_lt_of_le tol_pos hn
      rw [P2.normalized_toX _ hn]
      have hu1 := R2.norm_unit.1 (P2.norm_normalized (u * d) hp)
      generalize (1 / R2.norm (u * d)) * (u * d) = n at hu1
      rw [R2.dot_def] at hu1
      simp only [R2.toX, Bool.and_eq_true, X.isEqual_r]
      rintro ⟨a, b⟩
      rw [abs_lt] at a b
      obtain ⟨hx, hy⟩ := hdx
      rw [abs_lt] at hx hy
      unfold tol at hx hy
      have ax : -(1 / 2) < n.x ∧ n.x < 1 / 2 := by constructor <;> linarith [a.1, a.2, hx.1, hx.2]
      have ay : -(1 / 2) < n.y ∧ n.y < 1 / 2 := by constructor <;> linarith [b.1, b.2, hy.1, hy.2]
      nlinarith [mul_pos (sub_pos.2 ax.2) (by linarith [ax.1] : (0 : ℝ) < n.x + 1 / 2),
        mul_pos (sub_pos.2 ay.2) (by linarith [ay.1] : (0 : ℝ) < n.y + 1 / 2)]

example : |(1 / 10 ^ 7 : ℝ)| < tol := by unfold tol; norm_num [abs_lt]
example : Solvable ⟨1, 0⟩ ⟨0, 1⟩ := ⟨by unfold tol; norm_num [R2.det], .inl (by unfold tol; norm_num)⟩

end Verif.Geom
