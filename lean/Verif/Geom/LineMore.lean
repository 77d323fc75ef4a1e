import Verif.Geom.LineProps
/-
C80: the distance and the common point of two lines for all directions: the three cases are exhaustive.
-/
namespace Verif.Geom
open Verif Verif.Exact Verif.Mx Verif.Mx.Mat Verif.Vtx

theorem point_invalid_left (v : V3 X) : distancePointToPoint .invalid v = .nan := by
  unfold distancePointToPoint V3.abs V3.minus
  obtain ⟨x, y, z⟩ := v
  rcases x with x | _ <;> rcases y with y | _ <;> rcases z with z | _ <;> rfl

theorem point_invalid_right (v : V3 X) : distancePointToPoint v .invalid = .nan := by
  unfold distancePointToPoint V3.abs V3.minus
  obtain ⟨x, y, z⟩ := v
  rcases x with x | _ <;> rcases y with y | _ <;> rcases z with z | _ <;> rfl

/-- Directions that count as parallel: the result is the exact distance of the point of the second line from the first line, whatever
the second direction is; without a first direction there is no result. -/
theorem distanceLineToLine_parallel_all (p1 d1 p2 d2 : R3) (h : R3.norm (R3.cross d1 d2) < tol) :
    (d1 ≠ ⟨0, 0, 0⟩ → ∃ v : ℝ, distanceLineToLine p1.toX d1.toX p2.toX d2.toX = .r v ∧ IsLeast {l | ∃ x ∈ Line p1 d1, l = R3.dist p2 x} v) ∧
    (d1 = ⟨0, 0, 0⟩ → distanceLineToLine p1.toX d1.toX p2.toX d2.toX = .nan) := by
  have key : distanceLineToLine p1.toX d1.toX p2.toX d2.toX = .r (R3.norm (R3.cross d1 (p2 - p1))) / .r (R3.norm d1) := by
    unfold distanceLineToLine
    rw [if_pos ((tests_spec d1 d2).2.2.1.2 h), minus_toX, cross_toX, abs_toX, abs_toX]
  refine ⟨fun hd => ?_, fun hd => ?_⟩
  · obtain ⟨v, hv, hl⟩ := distanceLineToLine_parallel p1 d1 p2 0 hd
    refine ⟨v, ?_, ?_⟩
    · have key2 : distanceLineToLine p1.toX d1.toX p2.toX ((0 : ℝ) * d1).toX = .r (R3.norm (R3.cross d1 (p2 - p1))) / .r (R3.norm d1) := by
        have hc : R3.cross d1 ((0 : ℝ) * d1) = ⟨0, 0, 0⟩ := by ext <;> simp
        unfold distanceLineToLine
        rw [if_pos, minus_toX, cross_toX, abs_toX, abs_toX]
        rw [(tests_spec _ _).2.2.1, hc, R3.norm_eq_zero.2 rfl]
        exact tol_pos
      rw [key, ← key2, hv]
    · exact hl p2 ⟨0, by ext <;> simp⟩
  · rw [key, hd, R3.norm_eq_zero.2 rfl, X.div_zero]

/-- All other directions that are not usable: no distance and no common point. -/
theorem distanceLineToLine_unusable (p1 d1 p2 d2 : R3) (h : tol ≤ R3.norm (R3.cross d1 d2)) (hu : ¬ Usable d1 d2) :
    distanceLineToLine p1.toX d1.toX p2.toX d2.toX = .nan ∧ intersectionPoint3 p1.toX d1.toX p2.toX d2.toX = .invalid := by
  have hnot : ¬ d1.toX.isCollinear d2.toX = true := by rw [(tests_spec d1 d2).2.2.1, not_lt]; exact h
  have hn : distanceLineToLine p1.toX d1.toX p2.toX d2.toX = .nan := by
    unfold distanceLineToLine
    rw [if_neg hnot]
    have hx : ∀ a b : R3, |R3.dot (cross2 a b) b| = R3.dot (R3.cross a b) (R3.cross a b) := by
      intro a b
      rw [dot_cross2, abs_neg, abs_of_nonneg (R3.dot_self_nonneg _)]
    have inv : ∀ a u b w : R3, (Tiny (cross2 u w) ∨ Tiny w ∨ R3.dot (R3.cross u w) (R3.cross u w) < tol) →
        closestPointLines a.toX u.toX b.toX w.toX = .invalid := by
      intro a u b w hh
      simp only [closestPointLines]
      rw [cross_toX, cross_toX]
      exact linePlane_invalid a (cross2 u w) b w true (by rcases hh with hh | hh | hh
                                                          · exact .inl hh
                                                          · exact .inr (.inl hh)
                                                          · exact .inr (.inr (by rw [hx]; exact hh)))
    by_cases h1 : Tiny (cross2 d1 d2) ∨ Tiny d2 ∨ R3.dot (R3.cross d1 d2) (R3.cross d1 d2) < tol
    · rw [inv p1 d1 p2 d2 h1, point_invalid_right]
    · by_cases h2 : Tiny (cross2 d2 d1) ∨ Tiny d1 ∨ R3.dot (R3.cross d2 d1) (R3.cross d2 d1) < tol
      · rw [inv p2 d2 p1 d1 h2, point_invalid_left]
      · rw [not_or, not_or] at h1 h2
        exact absurd ⟨not_lt.1 h1.2.2, h2.2.1, h1.2.1, h1.1, h2.1⟩ hu
  refine ⟨hn, ?_⟩
  unfold intersectionPoint3
  rw [hn]
  rfl

/-- The distance is a number exactly for directions that count as parallel, the first not being null, and for usable ones. -/
theorem distanceLineToLine_nan_iff (p1 d1 p2 d2 : R3) :
    distanceLineToLine p1.toX d1.toX p2.toX d2.toX = .nan ↔
      (R3.norm (R3.cross d1 d2) < tol ∧ d1 = ⟨0, 0, 0⟩) ∨ (tol ≤ R3.norm (R3.cross d1 d2) ∧ ¬ Usable d1 d2) := by
  by_cases h : R3.norm (R3.cross d1 d2) < tol
  · obtain ⟨h1, h2⟩ := distanceLineToLine_parallel_all p1 d1 p2 d2 h
    by_cases hd : d1 = ⟨0, 0, 0⟩
    · exact ⟨fun _ => .inl ⟨h, hd⟩, fun _ => h2 hd⟩
    · obtain ⟨v, hv, -⟩ := h1 hd
      rw [hv]
      refine ⟨fun e => absurd e (by intro hh; cases hh), ?_⟩
      rintro (⟨-, e⟩ | ⟨e, -⟩)
      · exact absurd e hd
      · exact absurd h (not_lt.2 e)
  · by_cases hu : Usable d1 d2
    · obtain ⟨q1, q2, -, -, -, e⟩ := distanceLineToLine_skew_partial p1 d1 p2 d2 hu
      rw [e]
      refine ⟨fun e => absurd e (by intro hh; cases hh), ?_⟩
      rintro (⟨e, -⟩ | ⟨-, e⟩)
      · exact absurd e h
      · exact absurd hu e
    · exact ⟨fun _ => .inr ⟨not_lt.1 h, hu⟩, fun _ => (distanceLineToLine_unusable p1 d1 p2 d2 (not_lt.1 h) hu).1⟩

-- the second case: the directions (1, 0, 0) and (1, 10^-4, 0)
example : ¬ Usable ⟨1, 0, 0⟩ ⟨1, 1 / 10 ^ 4, 0⟩ := by
  intro h
  have := h.cross
  unfold tol at this
  norm_num [R3.dot] at this

end Verif.Geom
