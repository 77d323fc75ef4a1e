import Verif.Geom.PlaneProps
/-
C80: two lines in space.
-/
namespace Verif.Geom
open Verif Verif.Exact Verif.Mx Verif.Mx.Mat Verif.Vtx

/-- `q1` on the first and `q2` on the second set have the least distance of all pairs, and no other pair has it. -/
def ClosestPair (S T : Set R3) (q1 q2 : R3) : Prop :=
  q1 ∈ S ∧ q2 ∈ T ∧ ∀ x ∈ S, ∀ y ∈ T, x ≠ q1 ∨ y ≠ q2 → R3.dist q1 q2 < R3.dist x y

/-- the double cross product -/
def cross2 (a b : R3) : R3 := R3.cross a (R3.cross a b)

theorem dot_cross2 (a b : R3) : R3.dot (cross2 a b) b = -(R3.dot (R3.cross a b) (R3.cross a b)) := by
  simp [cross2, R3.dot]; ring
theorem cross_anti (a b : R3) : R3.dot (R3.cross b a) (R3.cross b a) = R3.dot (R3.cross a b) (R3.cross a b) := by
  simp [R3.dot]; ring
theorem lagrange3 (a b : R3) : R3.dot (R3.cross a b) (R3.cross a b) = R3.dot a a * R3.dot b b - R3.dot a b ^ 2 := by
  simp [R3.dot]; ring

/-- a common perpendicular of two lines that are not parallel joins the closest pair -/
theorem closestPair_of_perp {p1 d1 p2 d2 q1 q2 : R3} (h1 : q1 ∈ Line p1 d1) (h2 : q2 ∈ Line p2 d2)
    (hx : 0 < R3.dot (R3.cross d1 d2) (R3.cross d1 d2)) (e1 : R3.dot (q2 - q1) d1 = 0) (e2 : R3.dot (q2 - q1) d2 = 0) :
    ClosestPair (Line p1 d1) (Line p2 d2) q1 q2 := by
  refine ⟨h1, h2, ?_⟩
  obtain ⟨t1, rfl⟩ := h1
  obtain ⟨t2, rfl⟩ := h2
  rintro x ⟨u, rfl⟩ y ⟨v, rfl⟩ hne
  refine Real.sqrt_lt_sqrt (R3.dot_self_nonneg _) ?_
  generalize hw : (p2 + t2 * d2 : R3) - (p1 + t1 * d1) = w at e1 e2
  have hL : R3.dot (p1 + t1 * d1 - (p2 + t2 * d2)) (p1 + t1 * d1 - (p2 + t2 * d2)) = R3.dot w w := by
    rw [← hw]; simp [R3.dot]; ring
  have hR : R3.dot (p1 + u * d1 - (p2 + v * d2)) (p1 + u * d1 - (p2 + v * d2)) =
      R3.dot w w - 2 * (u - t1) * R3.dot w d1 + 2 * (v - t2) * R3.dot w d2 +
        R3.dot ((u - t1) * d1 - (v - t2) * d2) ((u - t1) * d1 - (v - t2) * d2) := by
    rw [← hw]; simp [R3.dot]; ring
  rw [hL, hR, e1, e2]
  have : 0 < R3.dot ((u - t1) * d1 - (v - t2) * d2) ((u - t1) * d1 - (v - t2) * d2) := by
    apply dot_pos
    intro e
    -- the cross products with d1 and d2
    have ex := congrArg V3.x e
    have ey := congrArg V3.y e
    have ez := congrArg V3.z e
    simp at ex ey ez
    have hv : (v - t2) * R3.dot (R3.cross d1 d2) (R3.cross d1 d2) = 0 := by
      simp only [R3.dot, R3.cross_x, R3.cross_y, R3.cross_z]
      linear_combination (d1.y * (d1.x * d2.y - d1.y * d2.x) - d1.z * (d1.z * d2.x - d1.x * d2.z)) * ex
        + (d1.z * (d1.y * d2.z - d1.z * d2.y) - d1.x * (d1.x * d2.y - d1.y * d2.x)) * ey
        + (d1.x * (d1.z * d2.x - d1.x * d2.z) - d1.y * (d1.y * d2.z - d1.z * d2.y)) * ez
    have hu : (u - t1) * R3.dot (R3.cross d1 d2) (R3.cross d1 d2) = 0 := by
      simp only [R3.dot, R3.cross_x, R3.cross_y, R3.cross_z]
      linear_combination (d2.y * (d1.x * d2.y - d1.y * d2.x) - d2.z * (d1.z * d2.x - d1.x * d2.z)) * ex
        + (d2.z * (d1.y * d2.z - d1.z * d2.y) - d2.x * (d1.x * d2.y - d1.y * d2.x)) * ey
        + (d2.x * (d1.z * d2.x - d1.x * d2.z) - d2.y * (d1.y * d2.z - d1.z * d2.y)) * ez
    have hv' : v = t2 := by rcases mul_eq_zero.1 hv with h | h <;> linarith
    have hu' : u = t1 := by rcases mul_eq_zero.1 hu with h | h <;> linarith
    subst hv' hu'
    rcases hne with h | h <;> exact h rfl
  nlinarith

/-- The point of the second line next to the first one. -/
theorem closestPointLines_partial (p1 d1 p2 d2 : R3) (hx : tol ≤ R3.dot (R3.cross d1 d2) (R3.cross d1 d2))
    (h2 : ¬ Tiny d2) (hn : ¬ Tiny (cross2 d1 d2)) :
    ∃ q1 q2 : R3, closestPointLines p1.toX d1.toX p2.toX d2.toX = q2.toX ∧
      ClosestPair (Line p1 d1) (Line p2 d2) q1 q2 := by
  have hpos : 0 < R3.dot (R3.cross d1 d2) (R3.cross d1 d2) := lt_of_lt_of_le tol_pos hx
  obtain ⟨t, hs, e, -, -⟩ := linePlane_partial p1 (cross2 d1 d2) p2 d2 hn h2 (by rwa [dot_cross2, abs_neg, abs_of_pos hpos])
  have hq : p2 + t * d2 ∈ Plane p1 (cross2 d1 d2) ∩ Line p2 d2 := by rw [hs]; rfl
  have hd1 : 0 < R3.dot d1 d1 := by
    apply dot_pos
    rintro rfl
    simp [R3.dot] at hpos
  generalize p2 + t * d2 = q2 at hq e
  refine ⟨p1 + (R3.dot (q2 - p1) d1 / R3.dot d1 d1) * d1, q2, ?_, closestPair_of_perp ⟨_, rfl⟩ hq.2 hpos ?_ ?_⟩
  · simp only [closestPointLines]
    rw [cross_toX, cross_toX]
    exact e
  · generalize hs' : R3.dot (q2 - p1) d1 / R3.dot d1 d1 = s
    have hs'' : s * R3.dot d1 d1 = R3.dot (q2 - p1) d1 := by rw [← hs']; field_simp
    have : R3.dot (q2 - (p1 + s * d1)) d1 = R3.dot (q2 - p1) d1 - s * R3.dot d1 d1 := by simp [R3.dot]; ring
    rw [this, hs'']; ring
  · generalize hs' : R3.dot (q2 - p1) d1 / R3.dot d1 d1 = s
    have hs'' : s * R3.dot d1 d1 = R3.dot (q2 - p1) d1 := by rw [← hs']; field_simp
    have h0 : R3.dot (cross2 d1 d2) (q2 - p1) = 0 := hq.1
    have h1 : R3.dot d1 d1 * R3.dot (q2 - (p1 + s * d1)) d2 = -(R3.dot (cross2 d1 d2) (q2 - p1)) +
        R3.dot d1 d2 * (R3.dot (q2 - p1) d1 - s * R3.dot d1 d1) := by
      simp [R3.dot, cross2]; ring
    rw [h0, hs'', sub_self, mul_zero, neg_zero, add_zero] at h1
    rcases mul_eq_zero.1 h1 with h | h
    · exact absurd h (ne_of_gt hd1)
    · exact h

theorem ClosestPair.unique {S T : Set R3} {q1 q2 r1 r2 : R3} (h : ClosestPair S T q1 q2) (h' : ClosestPair S T r1 r2) :
    q1 = r1 ∧ q2 = r2 := by
  by_contra hc
  have hor : r1 ≠ q1 ∨ r2 ≠ q2 := by
    by_contra hn
    rw [not_or, not_not, not_not] at hn
    exact hc ⟨hn.1.symm, hn.2.symm⟩
  have a := h.2.2 r1 h'.1 r2 h'.2.1 hor
  have b := h'.2.2 q1 h.1 q2 h.2.1 (hor.imp Ne.symm Ne.symm)
  exact lt_asymm a b

theorem ClosestPair.symm {S T : Set R3} {q1 q2 : R3} (h : ClosestPair S T q1 q2) : ClosestPair T S q2 q1 :=
  ⟨h.2.1, h.1, fun x hx y hy hne => by
    rw [dist_comm q2, dist_comm x]; exact h.2.2 y hy x hx hne.symm⟩

/-- The vectors are long enough and the lines differ enough in their directions. -/
structure Usable (d1 d2 : R3) : Prop where
  cross : tol ≤ R3.dot (R3.cross d1 d2) (R3.cross d1 d2)
  t1 : ¬ Tiny d1
  t2 : ¬ Tiny d2
  n1 : ¬ Tiny (cross2 d1 d2)
  n2 : ¬ Tiny (cross2 d2 d1)

/-- That is so for two unit vectors whose angle has a sine of at least 1/1000. -/
theorem usable_unit (d1 d2 : R3) (h1 : R3.norm d1 = 1) (h2 : R3.norm d2 = 1) (h : 1 / 1000 ≤ R3.norm (R3.cross d1 d2)) :
    Usable d1 d2 := by
  have e1 := R3.norm_unit.1 h1
  have e2 := R3.norm_unit.1 h2
  have hx : tol ≤ R3.dot (R3.cross d1 d2) (R3.cross d1 d2) := by
    rw [← R3.norm_sq]; unfold tol
    have := mul_le_mul h h (by norm_num) (R3.norm_nonneg _)
    calc (1 : ℝ) / 10 ^ 6 = 1 / 1000 * (1 / 1000) := by norm_num
      _ ≤ _ := this
  have n : ∀ a b : R3, R3.dot (cross2 a b) (cross2 a b) = R3.dot a a * R3.dot (R3.cross a b) (R3.cross a b) := by
    intro a b; simp [cross2, R3.dot]; ring
  refine ⟨hx, not_tiny (by rw [e1]; unfold tol; norm_num), not_tiny (by rw [e2]; unfold tol; norm_num),
    not_tiny (by rw [n, e1, one_mul]; exact hx), not_tiny (by rw [n, e2, one_mul, cross_anti]; exact hx)⟩

/-- The distance of two lines that are not parallel. -/
theorem distanceLineToLine_skew_partial (p1 d1 p2 d2 : R3) (h : Usable d1 d2) :
    ∃ q1 q2 : R3, ClosestPair (Line p1 d1) (Line p2 d2) q1 q2 ∧
      closestPointLines p1.toX d1.toX p2.toX d2.toX = q2.toX ∧ closestPointLines p2.toX d2.toX p1.toX d1.toX = q1.toX ∧
      distanceLineToLine p1.toX d1.toX p2.toX d2.toX = .r (R3.dist q1 q2) := by
  obtain ⟨q1, q2, e1, hc⟩ := closestPointLines_partial p1 d1 p2 d2 h.cross h.t2 h.n1
  obtain ⟨r2, r1, e2, hc'⟩ := closestPointLines_partial p2 d2 p1 d1 (by rw [cross_anti]; exact h.cross) h.t1 h.n2
  obtain ⟨rfl, rfl⟩ := hc.unique hc'.symm
  refine ⟨q1, q2, hc, e1, e2, ?_⟩
  unfold distanceLineToLine
  rw [if_neg, e1, e2, distancePointToPoint_spec]
  rw [(tests_spec d1 d2).2.2.1, not_lt]
  have := h.cross
  rw [← R3.norm_sq] at this
  have h0 := R3.norm_nonneg (R3.cross d1 d2)
  by_contra hc
  rw [not_le] at hc
  have h1 := mul_lt_mul'' hc hc h0 h0
  have : tol * tol ≤ tol := by unfold tol; norm_num
  linarith

/-- The distance of two parallel lines. -/
theorem distanceLineToLine_parallel (p1 d1 p2 : R3) (k : ℝ) (hd : d1 ≠ ⟨0, 0, 0⟩) :
    ∃ v : ℝ, distanceLineToLine p1.toX d1.toX p2.toX (k * d1).toX = .r v ∧
      ∀ y ∈ Line p2 (k * d1), IsLeast {l | ∃ x ∈ Line p1 d1, l = R3.dist y x} v := by
  have hp := dot_pos hd
  have hn : 0 < R3.norm d1 := Real.sqrt_pos.2 hp
  have hc : R3.cross d1 (k * d1) = ⟨0, 0, 0⟩ := by ext <;> simp <;> ring
  refine ⟨R3.norm (R3.cross d1 (p2 - p1)) / R3.norm d1, ?_, ?_⟩
  · unfold distanceLineToLine
    rw [if_pos, minus_toX, cross_toX, abs_toX, abs_toX, X.div_r _ (ne_of_gt hn)]
    rw [(tests_spec _ _).2.2.1, hc, R3.norm_eq_zero.2 rfl]
    exact tol_pos
  · rintro y ⟨t, rfl⟩
    -- the foot
    set q : R3 := p1 + (R3.dot (p2 + t * (k * d1) - p1) d1 / R3.dot d1 d1) * d1 with hq
    have hcl : Closest (Line p1 d1) (p2 + t * (k * d1)) q := by
      refine closest_of_foot ⟨_, rfl⟩ ?_
      rintro x ⟨u, rfl⟩
      rw [hq]
      generalize hs' : R3.dot (p2 + t * (k * d1) - p1) d1 / R3.dot d1 d1 = s
      have hs'' : s * R3.dot d1 d1 = R3.dot (p2 + t * (k * d1) - p1) d1 := by rw [← hs']; field_simp
      generalize p2 + t * (k * d1) = y at hs''
      have : R3.dot (y - (p1 + s * d1)) (p1 + u * d1 - (p1 + s * d1)) = (u - s) * (R3.dot (y - p1) d1 - s * R3.dot d1 d1) := by
        simp [R3.dot]; ring
      rw [this, hs'']; ring
    have hl := closest_least hcl
    have e : R3.dist (p2 + t * (k * d1)) q = R3.norm (R3.cross d1 (p2 - p1)) / R3.norm d1 := by
      rw [eq_div_iff (ne_of_gt hn)]
      apply (sq_eq_sq₀ (mul_nonneg (dist_nonneg _ _) hn.le) (R3.norm_nonneg _)).1
      rw [mul_pow, pow_two, dist_sq, pow_two (R3.norm d1), R3.norm_sq, pow_two, R3.norm_sq]
      have hcr : R3.cross d1 (p2 - p1) = R3.cross d1 (p2 + t * (k * d1) - p1) := by ext <;> simp <;> ring
      rw [hcr, lagrange3, hq]
      generalize p2 + t * (k * d1) = y
      generalize hs' : R3.dot (y - p1) d1 / R3.dot d1 d1 = s
      have hs'' : s * R3.dot d1 d1 = R3.dot (y - p1) d1 := by rw [← hs']; field_simp
      have : R3.dot (y - (p1 + s * d1)) (y - (p1 + s * d1)) =
          R3.dot (y - p1) (y - p1) - 2 * s * R3.dot (y - p1) d1 + s * (s * R3.dot d1 d1) := by
        simp [R3.dot]; ring
      have hcomm : R3.dot d1 (y - p1) = R3.dot (y - p1) d1 := by simp [R3.dot]; ring
      rw [this, hs'', hcomm]
      linear_combination (-R3.dot (y - p1) d1) * hs''
    rw [e] at hl
    exact hl

/-- Between "parallel" and "usable" there is a gap: for the directions (1, 0, 0) and (1, 10^-4, 0) no distance
is calculated. -/
theorem distanceLineToLine_gap :
    distanceLineToLine (R3.toX ⟨0, 0, 0⟩) (R3.toX ⟨1, 0, 0⟩) (R3.toX ⟨0, 0, 1⟩) (R3.toX ⟨1, 1 / 10 ^ 4, 0⟩) = .nan := by
  unfold distanceLineToLine
  rw [if_neg]
  · have e : closestPointLines (R3.toX ⟨0, 0, 1⟩) (R3.toX ⟨1, 1 / 10 ^ 4, 0⟩) (R3.toX ⟨0, 0, 0⟩) (R3.toX ⟨1, 0, 0⟩) = .invalid := by
      simp only [closestPointLines]
      rw [cross_toX, cross_toX]
      apply linePlane_invalid
      right; right
      unfold tol
      norm_num [R3.dot, abs_lt]
    have e2 : closestPointLines (R3.toX ⟨0, 0, 0⟩) (R3.toX ⟨1, 0, 0⟩) (R3.toX ⟨0, 0, 1⟩) (R3.toX ⟨1, 1 / 10 ^ 4, 0⟩) = .invalid := by
      simp only [closestPointLines]
      rw [cross_toX, cross_toX]
      apply linePlane_invalid
      right; right
      unfold tol
      norm_num [R3.dot, abs_lt]
    rw [e, e2]; rfl
  · rw [(tests_spec _ _).2.2.1, not_lt]
    have : R3.norm (R3.cross ⟨1, 0, 0⟩ ⟨1, 1 / 10 ^ 4, 0⟩) = 1 / 10 ^ 4 := by
      unfold R3.norm
      rw [show R3.dot (R3.cross ⟨1, 0, 0⟩ ⟨1, 1 / 10 ^ 4, 0⟩) (R3.cross ⟨1, 0, 0⟩ ⟨1, 1 / 10 ^ 4, 0⟩) = (1 / 10 ^ 4) ^ 2 by
        norm_num [R3.dot], Real.sqrt_sq (by norm_num)]
    rw [this]; unfold tol; norm_num

/-- Lines at a smaller angle count as parallel: these two lines meet, but the distance is 1. -/
theorem distanceLineToLine_almost_parallel :
    (⟨10 ^ 7, 0, 0⟩ : R3) ∈ Line ⟨0, 0, 0⟩ ⟨1, 0, 0⟩ ∩ Line ⟨0, 1, 0⟩ ⟨1, -1 / 10 ^ 7, 0⟩ ∧
    distanceLineToLine (R3.toX ⟨0, 0, 0⟩) (R3.toX ⟨1, 0, 0⟩) (R3.toX ⟨0, 1, 0⟩) (R3.toX ⟨1, -1 / 10 ^ 7, 0⟩) = .r 1 := by
  refine ⟨⟨⟨10 ^ 7, by ext <;> norm_num⟩, ⟨10 ^ 7, by ext <;> norm_num⟩⟩, ?_⟩
  unfold distanceLineToLine
  have h1 : R3.norm ⟨1, 0, 0⟩ = 1 := R3.norm_unit.2 (by norm_num [R3.dot])
  rw [if_pos, minus_toX, cross_toX, abs_toX, abs_toX, h1, X.div_r _ one_ne_zero]
  · have : R3.norm (R3.cross ⟨1, 0, 0⟩ ((⟨0, 1, 0⟩ : R3) - ⟨0, 0, 0⟩)) = 1 := R3.norm_unit.2 (by norm_num [R3.dot])
    rw [this]; norm_num
  · rw [(tests_spec _ _).2.2.1]
    have : R3.norm (R3.cross ⟨1, 0, 0⟩ ⟨1, -1 / 10 ^ 7, 0⟩) = 1 / 10 ^ 7 := by
      unfold R3.norm
      rw [show R3.dot (R3.cross ⟨1, 0, 0⟩ ⟨1, -1 / 10 ^ 7, 0⟩) (R3.cross ⟨1, 0, 0⟩ ⟨1, -1 / 10 ^ 7, 0⟩) = (1 / 10 ^ 7) ^ 2 by
        norm_num [R3.dot], Real.sqrt_sq (by norm_num)]
    rw [this]; unfold tol; norm_num

/-! ### The common point -/

/-- Two lines with a common point: it is found.  Two lines at a distance of at least 10^-6: there is no result. -/
theorem intersectionPoint3_partial (p1 d1 p2 d2 : R3) (h : Usable d1 d2) :
    (∀ x, x ∈ Line p1 d1 → x ∈ Line p2 d2 → intersectionPoint3 p1.toX d1.toX p2.toX d2.toX = x.toX) ∧
    ((∀ x ∈ Line p1 d1, ∀ y ∈ Line p2 d2, tol ≤ R3.dist x y) → intersectionPoint3 p1.toX d1.toX p2.toX d2.toX = .invalid) := by
  obtain ⟨q1, q2, hc, e1, -, e⟩ := distanceLineToLine_skew_partial p1 d1 p2 d2 h
  unfold intersectionPoint3
  rw [e, zero_r]
  constructor
  · intro x hx hy
    have hself : R3.dist x x = 0 := by
      unfold R3.dist
      rw [R3.norm_eq_zero]; ext <;> simp
    have : x = q1 ∧ x = q2 := by
      by_contra hn
      have := hc.2.2 x hx x hy (by
        by_contra h'
        rw [not_or, not_not, not_not] at h'
        exact hn h')
      rw [hself] at this
      exact absurd (dist_nonneg q1 q2) (not_le.2 this)
    obtain ⟨rfl, rfl⟩ := this
    rw [hself, if_pos, e1]
    rw [X.isLessEqual_r]; norm_num
  · intro hfar
    have := hfar q1 hc.1 q2 hc.2.1
    rw [if_neg]
    rw [X.isLessEqual_r, not_lt]
    unfold tol at this
    linarith

/-- Parallel lines have no result, even if they are the same line. -/
theorem intersectionPoint3_parallel (p1 d1 p2 : R3) (k : ℝ) :
    intersectionPoint3 p1.toX d1.toX p2.toX (k * d1).toX = .invalid := by
  unfold intersectionPoint3
  have hc : cross2 d1 (k * d1) = ⟨0, 0, 0⟩ := by ext <;> simp [cross2] <;> ring
  have : closestPointLines p1.toX d1.toX p2.toX (k * d1).toX = .invalid := by
    simp only [closestPointLines]
    rw [cross_toX, cross_toX]
    apply linePlane_invalid
    left
    have : R3.cross d1 (R3.cross d1 (k * d1)) = ⟨0, 0, 0⟩ := hc
    rw [this]
    refine ⟨?_, ?_, ?_⟩ <;> simp [tol_pos]
  rw [this]
  split <;> rfl

-- a case that meets the hypotheses
example : Usable ⟨1, 0, 0⟩ ⟨0, 1, 0⟩ := by
  have h1 : R3.norm ⟨1, 0, 0⟩ = 1 := R3.norm_unit.2 (by norm_num [R3.dot])
  have h2 : R3.norm ⟨0, 1, 0⟩ = 1 := R3.norm_unit.2 (by norm_num [R3.dot])
  refine usable_unit _ _ h1 h2 ?_
  have : R3.norm (R3.cross ⟨1, 0, 0⟩ ⟨0, 1, 0⟩) = 1 := R3.norm_unit.2 (by norm_num [R3.dot])
  rw [this]; norm_num

end Verif.Geom
