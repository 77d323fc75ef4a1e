import Verif.Geom.Model
import Verif.Geom.Spec
import Verif.Vtx.RotProps
/-
C79: points, lines and planes in space.
-/
namespace Verif.Geom
open Verif Verif.Exact Verif.Mx Verif.Mx.Mat Verif.Vtx

/-- the vector counts as null: every component is below 10^-6 -/
def Tiny (a : R3) : Prop := |a.x| < tol ∧ |a.y| < tol ∧ |a.z| < tol

theorem lambda_toX (p n q d : R3) (h : R3.dot n d ≠ 0) :
    lambda p.toX n.toX q.toX d.toX = .r (R3.dot n (p - q) / R3.dot n d) := by
  have e : R3.dot n d = d.x * n.x + d.y * n.y + d.z * n.z := by rw [R3.dot_def]; ring
  rw [e] at h ⊢
  exact X.div_r _ h

theorem linePlane_eq (p n q d : R3) (extend : Bool) (hn : ¬ Tiny n) (hd : ¬ Tiny d) (h : tol ≤ |R3.dot n d|) :
    intersectionPointLineAndPlane p.toX n.toX q.toX d.toX extend =
      (if !extend && (isLess (X.r (R3.dot n (p - q) / R3.dot n d)) zero || isGreater (X.r (R3.dot n (p - q) / R3.dot n d)) one)
        then .invalid else (q + (R3.dot n (p - q) / R3.dot n d) * d).toX) := by
  have hne : R3.dot n d ≠ 0 := by
    intro e; rw [e, abs_zero] at h; exact absurd tol_pos (not_lt.2 h)
  simp only [intersectionPointLineAndPlane]
  rw [if_neg (by rw [(tests_spec n d).1]; exact hn), if_neg (by rw [(tests_spec d n).1]; exact hd),
    if_neg (by rw [(tests_spec n d).2.1]; exact not_lt.2 h), lambda_toX p n q d hne]
  rfl

/-- The point of a line in a plane: if neither vector counts as null and their scalar product is at least 10^-6
in size, it is the only common point; with `extend = false` the parameter must be in [0, 1], up to 10^-6.
Missing: vectors with a smaller product, see `linePlane_small`. -/
theorem linePlane_partial (p n q d : R3) (hn : ¬ Tiny n) (hd : ¬ Tiny d) (h : tol ≤ |R3.dot n d|) :
    ∃ t : ℝ, Plane p n ∩ Line q d = {q + t * d} ∧
      intersectionPointLineAndPlane p.toX n.toX q.toX d.toX true = (q + t * d).toX ∧
      (-tol < t → t < 1 + tol → intersectionPointLineAndPlane p.toX n.toX q.toX d.toX false = (q + t * d).toX) ∧
      (t ≤ -tol ∨ 1 + tol ≤ t → intersectionPointLineAndPlane p.toX n.toX q.toX d.toX false = .invalid) := by
  have hne : R3.dot n d ≠ 0 := by
    intro e; rw [e, abs_zero] at h; exact absurd tol_pos (not_lt.2 h)
  refine ⟨R3.dot n (p - q) / R3.dot n d, ?_, ?_, ?_, ?_⟩
  · have key : ∀ t : ℝ, R3.dot n (q + t * d - p) = t * R3.dot n d - R3.dot n (p - q) := by
      intro t; simp [R3.dot]; ring
    ext x
    constructor
    · rintro ⟨h1, t, rfl⟩
      have h1' : R3.dot n (q + t * d - p) = 0 := h1
      rw [key] at h1'
      have : t = R3.dot n (p - q) / R3.dot n d := by field_simp; linarith
      rw [this]; rfl
    · rintro rfl
      refine ⟨?_, _, rfl⟩
      show R3.dot n _ = 0
      rw [key]; field_simp; ring
  · rw [linePlane_eq p n q d true hn hd h]; rfl
  · intro h1 h2
    rw [linePlane_eq p n q d false hn hd h, if_neg]
    rw [zero_r, one_r]
    simp only [Bool.not_false, Bool.true_and, Bool.or_eq_true, X.isLess_r, X.isGreater_r, not_or, not_le]
    unfold tol at h1 h2
    exact ⟨by linarith, by linarith⟩
  · intro h1
    rw [linePlane_eq p n q d false hn hd h, if_pos]
    rw [zero_r, one_r]
    simp only [Bool.not_false, Bool.true_and, Bool.or_eq_true, X.isLess_r, X.isGreater_r]
    unfold tol at h1
    rcases h1 with h1 | h1
    · left; linarith
    · right; linarith

/-- In all other cases there is no result. -/
theorem linePlane_invalid (p n q d : R3) (extend : Bool) (h : Tiny n ∨ Tiny d ∨ |R3.dot n d| < tol) :
    intersectionPointLineAndPlane p.toX n.toX q.toX d.toX extend = .invalid := by
  simp only [intersectionPointLineAndPlane]
  rcases h with h | h | h
  · rw [if_pos ((tests_spec n d).1.2 h)]
  · rw [if_pos (c := d.toX.isNull = true) ((tests_spec d n).1.2 h)]
    split <;> rfl
  · rw [if_pos (c := n.toX.isOrthogonal d.toX = true) ((tests_spec n d).2.1.2 h)]
    split
    · rfl
    · split <;> rfl

theorem sq_le_of_abs {x y : ℝ} (h : |x| < y) : x * x ≤ y * y := by
  rw [← abs_mul_abs_self x]
  exact mul_le_mul h.le h.le (abs_nonneg x) (le_trans (abs_nonneg x) h.le)

theorem not_tiny {a : R3} (h : tol ≤ R3.dot a a) : ¬ Tiny a := by
  rintro ⟨h1, h2, h3⟩
  have := sq_le_of_abs h1
  have := sq_le_of_abs h2
  have := sq_le_of_abs h3
  rw [R3.dot_def] at h
  have : tol * tol * 3 < tol := by unfold tol; norm_num
  linarith

/-- The line through (0, 0, 1) in the direction (0, 0, 1/10^4) is perpendicular to the plane with the normal
(0, 0, 1/10^3), but no common point is found. -/
theorem linePlane_small : intersectionPointLineAndPlane (R3.toX ⟨0, 0, 0⟩) (R3.toX ⟨0, 0, 1 / 10 ^ 3⟩) (R3.toX ⟨0, 0, 1⟩)
    (R3.toX ⟨0, 0, 1 / 10 ^ 4⟩) true = .invalid := by
  apply linePlane_invalid
  right; right
  unfold tol
  norm_num [R3.dot, abs_lt]

/-! ### Distances -/

theorem dist_sq (a b : R3) : R3.dist a b * R3.dist a b = R3.dot (a - b) (a - b) := R3.norm_sq _
theorem dist_nonneg (a b : R3) : 0 ≤ R3.dist a b := R3.norm_nonneg _
theorem dist_comm (a b : R3) : R3.dist a b = R3.dist b a := by
  unfold R3.dist R3.norm
  congr 1
  simp [R3.dot]; ring
theorem dist_lt {a b c : R3} (h : R3.dot (a - b) (a - b) < R3.dot (a - c) (a - c)) : R3.dist a b < R3.dist a c :=
  Real.sqrt_lt_sqrt (R3.dot_self_nonneg _) h
theorem dot_pos {a : R3} (h : a ≠ ⟨0, 0, 0⟩) : 0 < R3.dot a a := by
  have := R3.dot_self_nonneg a
  rcases this.lt_or_eq with h1 | h1
  · exact h1
  · exfalso
    exact h (R3.norm_eq_zero.1 (by unfold R3.norm; rw [← h1, Real.sqrt_zero]))

/-- Pythagoras: a foot of the perpendicular is the closest point -/
theorem closest_of_foot {S : Set R3} {p q : R3} (hq : q ∈ S) (h : ∀ x ∈ S, R3.dot (p - q) (x - q) = 0) : Closest S p q := by
  refine ⟨hq, fun x hx hne => dist_lt ?_⟩
  have h0 := h x hx
  have h1 : 0 < R3.dot (x - q) (x - q) := by
    apply dot_pos
    intro e
    apply hne
    have e1 := congrArg V3.x e
    have e2 := congrArg V3.y e
    have e3 := congrArg V3.z e
    simp at e1 e2 e3
    ext <;> linarith
  have : R3.dot (p - x) (p - x) = R3.dot (p - q) (p - q) + R3.dot (x - q) (x - q) - 2 * R3.dot (p - q) (x - q) := by
    simp [R3.dot]; ring
  rw [this, h0]; linarith

theorem closest_least {S : Set R3} {p q : R3} (h : Closest S p q) : IsLeast {l | ∃ x ∈ S, l = R3.dist p x} (R3.dist p q) := by
  refine ⟨⟨q, h.1, rfl⟩, ?_⟩
  rintro l ⟨x, hx, rfl⟩
  by_cases e : x = q
  · rw [e]
  · exact (h.2 x hx e).le

/-- The perpendicular on a plane: the closest point, if the normal has at least the length 10^-3.  Missing:
shorter normals, see `closestPointOnPlane_short`. -/
theorem closestPointOnPlane_partial (p a n : R3) (hn : tol ≤ R3.dot n n) :
    ∃ q : R3, closestPointOnPlane p.toX a.toX n.toX = q.toX ∧ Closest (Plane a n) p q ∧
      distancePointToPlane p.toX a.toX n.toX = .r (R3.dist p q) := by
  obtain ⟨t, hs, e, -, -⟩ := linePlane_partial a n p n (not_tiny hn) (not_tiny hn) (by rwa [abs_of_nonneg (R3.dot_self_nonneg n)])
  have hq : p + t * n ∈ Plane a n ∩ Line p n := by rw [hs]; rfl
  refine ⟨p + t * n, e, closest_of_foot hq.1 ?_, ?_⟩
  · intro x hx
    have h1 : R3.dot n (p + t * n - a) = 0 := hq.1
    have h2 : R3.dot n (x - a) = 0 := hx
    have : R3.dot (p - (p + t * n)) (x - (p + t * n)) = t * (R3.dot n (p + t * n - a) - R3.dot n (x - a)) := by
      simp [R3.dot]; ring
    rw [this, h1, h2]; ring
  · unfold distancePointToPlane
    have e' : closestPointOnPlane p.toX a.toX n.toX = (p + t * n).toX := e
    rw [e', minus_toX, abs_toX, dist_comm]; rfl

/-- With a shorter normal there is no result. -/
theorem closestPointOnPlane_short (p a n : R3) (hn : R3.dot n n < tol) :
    closestPointOnPlane p.toX a.toX n.toX = .invalid ∧ distancePointToPlane p.toX a.toX n.toX = .nan := by
  have e : closestPointOnPlane p.toX a.toX n.toX = .invalid :=
    linePlane_invalid a n p n true (.inr (.inr (by rwa [abs_of_nonneg (R3.dot_self_nonneg n)])))
  exact ⟨e, by unfold distancePointToPlane; rw [e]; rfl⟩

/-- The perpendicular on a line. -/
theorem closestPointOnLine_partial (p a d : R3) (hd : tol ≤ R3.dot d d) :
    ∃ q : R3, closestPointOnLine p.toX a.toX d.toX = q.toX ∧ Closest (Line a d) p q ∧
      distancePointToLine p.toX a.toX d.toX = .r (R3.dist p q) := by
  obtain ⟨t, hs, e, -, -⟩ := linePlane_partial p d a d (not_tiny hd) (not_tiny hd) (by rwa [abs_of_nonneg (R3.dot_self_nonneg d)])
  have hq : a + t * d ∈ Plane p d ∩ Line a d := by rw [hs]; rfl
  refine ⟨a + t * d, e, closest_of_foot hq.2 ?_, ?_⟩
  · rintro x ⟨u, rfl⟩
    have h1 : R3.dot d (a + t * d - p) = 0 := hq.1
    have : R3.dot (p - (a + t * d)) (a + u * d - (a + t * d)) = (t - u) * R3.dot d (a + t * d - p) := by
      simp [R3.dot]; ring
    rw [this, h1]; ring
  · unfold distancePointToLine
    have e' : closestPointOnLine p.toX a.toX d.toX = (a + t * d).toX := e
    rw [e', minus_toX, abs_toX, dist_comm]; rfl

/-- The foot on a segment of at least the length 10^-3.  With `extend` it is the closest point of the line; without,
it is only found if it lies between the ends (up to 10^-6 of the length), and otherwise there is neither a point
nor a distance.  Missing: the documentation of the distance promises an end point in that case. -/
theorem closestPointSegment_partial (p s e : R3) (hd : tol ≤ R3.dot (e - s) (e - s)) :
    ∃ t : ℝ, Closest (Line s (e - s)) p (s + t * (e - s)) ∧
      closestPointSegment p.toX s.toX e.toX true = (s + t * (e - s)).toX ∧
      distancePointToSegment p.toX s.toX e.toX true = .r (R3.dist p (s + t * (e - s))) ∧
      (-tol < t → t < 1 + tol → closestPointSegment p.toX s.toX e.toX false = (s + t * (e - s)).toX ∧
        distancePointToSegment p.toX s.toX e.toX false = .r (R3.dist p (s + t * (e - s)))) ∧
      (t ≤ -tol ∨ 1 + tol ≤ t → closestPointSegment p.toX s.toX e.toX false = .invalid ∧
        distancePointToSegment p.toX s.toX e.toX false = .nan) := by
  set d := e - s with hdd
  obtain ⟨t, hs, e1, e2, e3⟩ := linePlane_partial p d s d (not_tiny hd) (not_tiny hd) (by rwa [abs_of_nonneg (R3.dot_self_nonneg d)])
  have hq : s + t * d ∈ Plane p d ∩ Line s d := by rw [hs]; rfl
  have hm : ∀ b, closestPointSegment p.toX s.toX e.toX b = intersectionPointLineAndPlane p.toX d.toX s.toX d.toX b := by
    intro b; unfold closestPointSegment; rw [minus_toX]
  have hdist : ∀ b, closestPointSegment p.toX s.toX e.toX b = (s + t * d).toX →
      distancePointToSegment p.toX s.toX e.toX b = .r (R3.dist p (s + t * d)) := by
    intro b hb
    unfold distancePointToSegment
    rw [hb, minus_toX, abs_toX, dist_comm]; rfl
  refine ⟨t, closest_of_foot hq.2 ?_, by rw [hm, e1], hdist true (by rw [hm, e1]), ?_, ?_⟩
  · rintro x ⟨u, rfl⟩
    have h1 : R3.dot d (s + t * d - p) = 0 := hq.1
    have : R3.dot (p - (s + t * d)) (s + u * d - (s + t * d)) = (t - u) * R3.dot d (s + t * d - p) := by
      simp [R3.dot]; ring
    rw [this, h1]; ring
  · intro h1 h2
    have := e2 h1 h2
    exact ⟨by rw [hm, this], hdist false (by rw [hm, this])⟩
  · intro h
    have := e3 h
    refine ⟨by rw [hm, this], ?_⟩
    unfold distancePointToSegment
    rw [hm, this]; rfl

/-- The distance of (2, 1, 0) from the segment between (0, 0, 0) and (1, 0, 0) is √2, but the result is NaN. -/
theorem segment_distance_nan : distancePointToSegment (R3.toX ⟨2, 1, 0⟩) (R3.toX ⟨0, 0, 0⟩) (R3.toX ⟨1, 0, 0⟩) false = .nan ∧
    isPointOnSegment (R3.toX ⟨2, 1, 0⟩) (R3.toX ⟨0, 0, 0⟩) (R3.toX ⟨1, 0, 0⟩) false = false := by
  have ht : tol ≤ R3.dot ((⟨1, 0, 0⟩ : R3) - ⟨0, 0, 0⟩) (⟨1, 0, 0⟩ - ⟨0, 0, 0⟩) := by unfold tol; norm_num [R3.dot]
  obtain ⟨t, hc, -, -, -, h⟩ := closestPointSegment_partial ⟨2, 1, 0⟩ ⟨0, 0, 0⟩ ⟨1, 0, 0⟩ ht
  have e : t = 2 := by
    by_contra hne
    have h2 := hc.2 (⟨0, 0, 0⟩ + (2 : ℝ) * ((⟨1, 0, 0⟩ : R3) - ⟨0, 0, 0⟩)) ⟨2, rfl⟩ (by
      intro e
      have := congrArg V3.x e
      simp at this
      exact hne this.symm)
    unfold R3.dist R3.norm at h2
    rw [Real.sqrt_lt_sqrt_iff (R3.dot_self_nonneg _)] at h2
    simp [R3.dot] at h2
    nlinarith [mul_self_nonneg (2 - t)]
  have := h (.inr (by rw [e]; unfold tol; norm_num))
  refine ⟨this.2, ?_⟩
  unfold isPointOnSegment
  rw [this.2]; rfl

/-! ### Tests -/

theorem distancePointToPoint_spec (p q : R3) : distancePointToPoint p.toX q.toX = .r (R3.dist p q) := by
  unfold distancePointToPoint
  rw [minus_toX, abs_toX, dist_comm]; rfl

/-- The same point: the distance is below 10^-6. -/
theorem isSamePoint_spec (p q : R3) : isSamePoint p.toX q.toX = true ↔ R3.dist p q < tol := by
  unfold isSamePoint
  rw [distancePointToPoint_spec, isEqual_zero_nonneg (dist_nonneg p q)]

/-- On a line: some point of the line is closer than 10^-6. -/
theorem isPointOnLine_partial (p a d : R3) (hd : tol ≤ R3.dot d d) :
    isPointOnLine p.toX a.toX d.toX = true ↔ ∃ x ∈ Line a d, R3.dist p x < tol := by
  obtain ⟨q, -, hc, e⟩ := closestPointOnLine_partial p a d hd
  unfold isPointOnLine
  rw [e, isEqual_zero_nonneg (dist_nonneg p q)]
  constructor
  · intro h; exact ⟨q, hc.1, h⟩
  · rintro ⟨x, hx, h⟩
    exact lt_of_le_of_lt ((closest_least hc).2 ⟨x, hx, rfl⟩) h

/-- On a plane: the distance must be below the given one by at least 10^-6. -/
theorem isPointOnPlane_spec (p a n : R3) (hn : tol ≤ R3.dot n n) (m : ℝ) :
    isPointOnPlane p.toX a.toX n.toX (.r m) = true ↔ ∃ x ∈ Plane a n, R3.dist p x + tol ≤ m := by
  obtain ⟨q, -, hc, e⟩ := closestPointOnPlane_partial p a n hn
  unfold isPointOnPlane
  rw [e, X.isLess_r]
  constructor
  · intro h; exact ⟨q, hc.1, h⟩
  · rintro ⟨x, hx, h⟩
    have := (closest_least hc).2 ⟨x, hx, rfl⟩
    unfold tol at h
    linarith

/-- With the default of the tolerance the answer is always "no", even for the points of the plane. -/
theorem isPointOnPlane_default (p a n : R3) : isPointOnPlane p.toX a.toX n.toX = false := by
  rw [← Bool.not_eq_true]
  by_cases hn : tol ≤ R3.dot n n
  · rw [zero_r, isPointOnPlane_spec p a n hn]
    rintro ⟨x, -, h⟩
    have := dist_nonneg p x
    have := tol_pos
    linarith
  · unfold isPointOnPlane
    rw [(closestPointOnPlane_short p a n (not_le.1 hn)).2]
    exact Bool.false_ne_true

-- cases that meet the hypotheses
example : tol ≤ R3.dot ⟨0, 0, 2⟩ ⟨0, 0, 2⟩ ∧ ¬ Tiny ⟨0, 0, 2⟩ ∧ (⟨5, 6, 1⟩ : R3) ∈ Plane ⟨3, 4, 1⟩ ⟨0, 0, 2⟩ := by
  refine ⟨by unfold tol; norm_num [R3.dot], ?_, ?_⟩
  · exact not_tiny (by unfold tol; norm_num [R3.dot])
  · show R3.dot _ _ = 0
    norm_num [R3.dot]

end Verif.Geom
