import Verif.Geom.PlaneProps
/-
C79: the tests for points on lines, planes and segments for all vectors, also short ones.
-/
namespace Verif.Geom
open Verif Verif.Exact Verif.Mx Verif.Mx.Mat Verif.Vtx

/-- A direction shorter than 10^-3 has no perpendicular and no distance. -/
theorem closestPointOnLine_short (p a d : R3) (hd : R3.dot d d < tol) :
    closestPointOnLine p.toX a.toX d.toX = .invalid ∧ distancePointToLine p.toX a.toX d.toX = .nan := by
  have e : closestPointOnLine p.toX a.toX d.toX = .invalid :=
    linePlane_invalid p d a d true (.inr (.inr (by rwa [abs_of_nonneg (R3.dot_self_nonneg d)])))
  exact ⟨e, by unfold distancePointToLine; rw [e]; rfl⟩

/-- A segment shorter than 10^-3 has no foot and no distance. -/
theorem closestPointSegment_short (p s e : R3) (extend : Bool) (hd : R3.dot (e - s) (e - s) < tol) :
    closestPointSegment p.toX s.toX e.toX extend = .invalid ∧ distancePointToSegment p.toX s.toX e.toX extend = .nan := by
  have h : closestPointSegment p.toX s.toX e.toX extend = .invalid := by
    unfold closestPointSegment
    rw [minus_toX]
    exact linePlane_invalid p (e - s) s (e - s) extend (.inr (.inr (by rwa [abs_of_nonneg (R3.dot_self_nonneg _)])))
  exact ⟨h, by unfold distancePointToSegment; rw [h]; rfl⟩

/-- The test for a line, for every direction: the direction is at least 10^-3 long and some point of the line is closer than 10^-6. -/
theorem isPointOnLine_iff (p a d : R3) :
    isPointOnLine p.toX a.toX d.toX = true ↔ tol ≤ R3.dot d d ∧ ∃ x ∈ Line a d, R3.dist p x < tol := by
  by_cases hd : tol ≤ R3.dot d d
  · rw [isPointOnLine_partial p a d hd]
    exact ⟨fun h => ⟨hd, h⟩, fun h => h.2⟩
  · refine ⟨fun h => ?_, fun h => absurd h.1 hd⟩
    unfold isPointOnLine at h
    rw [(closestPointOnLine_short p a d (not_le.1 hd)).2] at h
    exact absurd h Bool.false_ne_true

/-- The test for a plane, for every normal. -/
theorem isPointOnPlane_iff (p a n : R3) (m : ℝ) :
    isPointOnPlane p.toX a.toX n.toX (.r m) = true ↔ tol ≤ R3.dot n n ∧ ∃ x ∈ Plane a n, R3.dist p x + tol ≤ m := by
  by_cases hn : tol ≤ R3.dot n n
  · rw [isPointOnPlane_spec p a n hn m]
    exact ⟨fun h => ⟨hn, h⟩, fun h => h.2⟩
  · refine ⟨fun h => ?_, fun h => absurd h.1 hn⟩
    unfold isPointOnPlane at h
    rw [(closestPointOnPlane_short p a n (not_le.1 hn)).2] at h
    exact absurd h Bool.false_ne_true

/-- The test for a segment: the segment is at least 10^-3 long, the foot of the perpendicular on its line is closer than 10^-6 and
lies between the ends, up to 10^-6 of the length; with `extend` anywhere on the line. -/
theorem isPointOnSegment_iff (p s e : R3) (extend : Bool) :
    isPointOnSegment p.toX s.toX e.toX extend = true ↔ tol ≤ R3.dot (e - s) (e - s) ∧
      ∃ t : ℝ, Closest (Line s (e - s)) p (s + t * (e - s)) ∧ R3.dist p (s + t * (e - s)) < tol ∧
        (extend = true ∨ (-tol < t ∧ t < 1 + tol)) := by
  by_cases hd : tol ≤ R3.dot (e - s) (e - s)
  · obtain ⟨t, hc, -, h1, h2, h3⟩ := closestPointSegment_partial p s e hd
    have huniq : ∀ u : ℝ, Closest (Line s (e - s)) p (s + u * (e - s)) → u = t := by
      intro u hu
      by_contra hne
      have hpos : 0 < R3.dot (e - s) (e - s) := lt_of_lt_of_le tol_pos hd
      have hdiff : s + u * (e - s) ≠ s + t * (e - s) := by
        intro he
        have hx := congrArg V3.x he
        have hy := congrArg V3.y he
        have hz := congrArg V3.z he
        simp only [R3.add_x, R3.add_y, R3.add_z, R3.smul_x, R3.smul_y, R3.smul_z] at hx hy hz
        have hut : u - t ≠ 0 := sub_ne_zero.2 hne
        have ex : (e - s).x = 0 := by
          have : (u - t) * (e - s).x = 0 := by linarith
          exact (mul_eq_zero.1 this).resolve_left hut
        have ey : (e - s).y = 0 := by
          have : (u - t) * (e - s).y = 0 := by linarith
          exact (mul_eq_zero.1 this).resolve_left hut
        have ez : (e - s).z = 0 := by
          have : (u - t) * (e - s).z = 0 := by linarith
          exact (mul_eq_zero.1 this).resolve_left hut
        rw [R3.dot_def, ex, ey, ez] at hpos
        simp at hpos
      have a1 := hc.2 _ hu.1 hdiff
      have a2 := hu.2 _ hc.1 (Ne.symm hdiff)
      exact absurd a1 (not_lt.2 a2.le)
    unfold isPointOnSegment
    cases extend with
    | true =>
      rw [h1, isEqual_zero_nonneg (dist_nonneg _ _)]
      refine ⟨fun h => ⟨hd, t, hc, h, .inl rfl⟩, ?_⟩
      rintro ⟨-, u, hu, h, -⟩
      rwa [huniq u hu] at h
    | false =>
      by_cases hr : -tol < t ∧ t < 1 + tol
      · rw [(h2 hr.1 hr.2).2, isEqual_zero_nonneg (dist_nonneg _ _)]
        refine ⟨fun h => ⟨hd, t, hc, h, .inr hr⟩, ?_⟩
        rintro ⟨-, u, hu, h, -⟩
        rwa [huniq u hu] at h
      · have hout : t ≤ -tol ∨ 1 + tol ≤ t := by
          rw [not_and_or, not_lt, not_lt] at hr; exact hr
        rw [(h3 hout).2]
        refine ⟨fun h => absurd h Bool.false_ne_true, ?_⟩
        rintro ⟨-, u, hu, -, h⟩
        rw [huniq u hu] at h
        rcases h with h | h
        · exact absurd h (by decide)
        · exact absurd h hr
  · refine ⟨fun h => ?_, fun h => absurd h.1 hd⟩
    unfold isPointOnSegment at h
    rw [(closestPointSegment_short p s e extend (not_le.1 hd)).2] at h
    exact absurd h Bool.false_ne_true

example : tol ≤ R3.dot (⟨0, 0, 2⟩ : R3) ⟨0, 0, 2⟩ ∧ ¬ tol ≤ R3.dot (⟨0, 0, 1 / 10 ^ 4⟩ : R3) ⟨0, 0, 1 / 10 ^ 4⟩ := by
  unfold tol; constructor <;> norm_num [R3.dot]

end Verif.Geom
