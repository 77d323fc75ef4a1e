import Verif.Geom.PlaneProps
import Verif.Vtx.PlaneProps
/-
C81: points and lines in the plane.
-/
namespace Verif.Geom
open Verif Verif.Exact Verif.Mx Verif.Mx.Mat Verif.Vtx

theorem dist2_sq (a b : R2) : R2.dist a b * R2.dist a b = R2.dot (a - b) (a - b) := R2.norm_sq _
theorem dist2_nonneg (a b : R2) : 0 ≤ R2.dist a b := R2.norm_nonneg _
theorem dist2_comm (a b : R2) : R2.dist a b = R2.dist b a := by
  unfold R2.dist R2.norm
  congr 1
  simp [R2.dot]; ring
theorem dot2_pos {a : R2} (h : a ≠ ⟨0, 0⟩) : 0 < R2.dot a a := by
  have := R2.dot_self_nonneg a
  rcases this.lt_or_eq with h1 | h1
  · exact h1
  · exfalso
    exact h (R2.norm_eq_zero.1 (by unfold R2.norm; rw [← h1, Real.sqrt_zero]))

theorem distancePointToPoint2_spec (p q : R2) : distancePointToPoint2 p.toX q.toX = .r (R2.dist p q) := by
  unfold distancePointToPoint2
  rw [P2.minus_toX, P2.abs_toX, dist2_comm]; rfl

/-- The closest point of a line whose direction has at least the length 10^-6.  Missing: shorter directions, see
`closestPointOnLine2_short`. -/
theorem closestPointOnLine2_partial (p a d : R2) (hd : tol ≤ R2.norm d) :
    ∃ q : R2, closestPointOnLine2 p.toX a.toX d.toX = q.toX ∧ Closest2 (Line2 a d) p q := by
  have hp : 0 < R2.norm d := lt_of_lt_of_le tol_pos hd
  have hu := P2.norm_normalized d hp
  have hu1 := R2.norm_unit.1 hu
  refine ⟨a + (R2.dot (p - a) ((1 / R2.norm d) * d)) * ((1 / R2.norm d) * d), ?_, ⟨R2.dot (p - a) ((1 / R2.norm d) * d) / R2.norm d, ?_⟩, ?_⟩
  · simp only [closestPointOnLine2]
    rw [P2.normalized_toX d hd, P2.minus_toX, P2.dot_toX, P2.times_toX, P2.plus_toX]
  · ext <;> simp <;> ring
  · rintro x ⟨t, rfl⟩ hne
    refine Real.sqrt_lt_sqrt (R2.dot_self_nonneg _) ?_
    have hd' : d = R2.norm d * ((1 / R2.norm d) * d) := by ext <;> simp <;> field_simp
    have hx : (a + t * d : R2) = a + (t * R2.norm d) * ((1 / R2.norm d) * d) := by ext <;> simp <;> field_simp
    rw [hx] at hne ⊢
    generalize (1 / R2.norm d) * d = u at *
    generalize t * R2.norm d = s at *
    have key : R2.dot (p - (a + s * u)) (p - (a + s * u)) =
        R2.dot (p - (a + R2.dot (p - a) u * u)) (p - (a + R2.dot (p - a) u * u)) + (s - R2.dot (p - a) u) ^ 2 := by
      have h1 : ∀ r : ℝ, R2.dot (p - (a + r * u)) (p - (a + r * u)) = R2.dot (p - a) (p - a) - 2 * r * R2.dot (p - a) u + r ^ 2 := by
        intro r
        have : R2.dot (p - (a + r * u)) (p - (a + r * u)) = R2.dot (p - a) (p - a) - 2 * r * R2.dot (p - a) u + r ^ 2 * R2.dot u u := by
          simp [R2.dot]; ring
        rw [this, hu1, mul_one]
      rw [h1, h1]; ring
    rw [key]
    have : s - R2.dot (p - a) u ≠ 0 := by
      intro e
      apply hne
      have : s = R2.dot (p - a) u := by linarith
      rw [this]
    have := sq_pos_of_ne_zero this
    linarith

/-- With a shorter direction the result is wrong: next to the point (1, 0) on the x axis, with the direction
(10^-7, 0), the result is (10^-14, 0). -/
theorem closestPointOnLine2_short : closestPointOnLine2 (R2.toX ⟨1, 0⟩) (R2.toX ⟨0, 0⟩) (R2.toX ⟨1 / 10 ^ 7, 0⟩) =
    R2.toX ⟨1 / 10 ^ 14, 0⟩ := by
  have hn : R2.norm ⟨1 / 10 ^ 7, 0⟩ < tol := by
    unfold R2.norm
    rw [show R2.dot ⟨1 / 10 ^ 7, 0⟩ ⟨1 / 10 ^ 7, 0⟩ = (1 / 10 ^ 7) ^ 2 by norm_num [R2.dot], Real.sqrt_sq (by norm_num)]
    unfold tol; norm_num
  simp only [closestPointOnLine2]
  rw [P2.normalized_short _ hn, P2.minus_toX, P2.dot_toX, P2.times_toX, P2.plus_toX]
  congr 1
  ext <;> norm_num [R2.dot]

/-! ### Two lines -/

/-- The system of equations of two lines can be solved: the directions differ enough, and the first one is no
horizontal vector shorter than 10^-6. -/
structure Solvable (d1 d2 : R2) : Prop where
  det : tol ≤ |R2.det d1 d2|
  pivot : tol ≤ |d1.x| ∨ d1.y ≠ 0

theorem Solvable.ne {d1 d2 : R2} (h : Solvable d1 d2) : R2.det d1 d2 ≠ 0 := by
  intro e
  have := h.det
  rw [e, abs_zero] at this
  exact absurd tol_pos (not_lt.2 this)

theorem neg_times_toX (d : R2) : V2.times (-(one : X)) d.toX = (-d).toX := by
  rw [one_r, X.neg_r, P2.times_toX]
  congr 1
  ext <;> simp

theorem solve_lines (p1 d1 p2 d2 : R2) (h : Solvable d1 d2) :
    ∃ s t : ℝ, solveLinearSystem d1.toX (V2.times (-(one : X)) d2.toX) (p2.toX.minus p1.toX) = ⟨.r s, .r t⟩ ∧
      p1 + s * d1 = p2 + t * d2 ∧ ∀ s' t' : ℝ, p1 + s' * d1 = p2 + t' * d2 → s' = s ∧ t' = t := by
  have hdet : R2.det d1 (-d2) ≠ 0 := by
    have : R2.det d1 (-d2) = -R2.det d1 d2 := by simp [R2.det]; ring
    rw [this]; exact neg_ne_zero.2 h.ne
  obtain ⟨s, t, e, h1, h2⟩ := P2.solveLinearSystem_partial d1 (-d2) (p2 - p1) hdet h.pivot
  have conv : ∀ s t : ℝ, s * d1 + t * (-d2) = p2 - p1 ↔ p1 + s * d1 = p2 + t * d2 := by
    intro s t
    constructor
    · intro h
      have hx := congrArg V2.x h
      have hy := congrArg V2.y h
      simp at hx hy
      ext <;> simp <;> linarith
    · intro h
      have hx := congrArg V2.x h
      have hy := congrArg V2.y h
      simp at hx hy
      ext <;> simp <;> linarith
  refine ⟨s, t, ?_, (conv s t).1 h1, fun s' t' h' => h2 s' t' ((conv s' t').2 h')⟩
  rw [neg_times_toX, P2.minus_toX, e]

/-- The common point of two lines. -/
theorem intersectionPoint2_partial (p1 d1 p2 d2 : R2) (h : Solvable d1 d2) :
    ∃ q : R2, Line2 p1 d1 ∩ Line2 p2 d2 = {q} ∧ intersectionPoint2 p1.toX d1.toX p2.toX d2.toX = q.toX := by
  obtain ⟨s, t, e, h1, h2⟩ := solve_lines p1 d1 p2 d2 h
  refine ⟨p2 + t * d2, ?_, ?_⟩
  · ext x
    constructor
    · rintro ⟨⟨u, hu⟩, ⟨v, hv⟩⟩
      obtain ⟨-, rfl⟩ := h2 u v (by rw [← hu, ← hv])
      exact hv
    · rintro rfl
      exact ⟨⟨s, h1.symm⟩, ⟨t, rfl⟩⟩
  · simp only [intersectionPoint2]
    rw [if_neg (by rw [(P2.tests_spec d1 d2).2.1, not_lt]; exact h.det), e, P2.times_toX, P2.plus_toX]

/-- Lines that count as parallel have no common point, whatever their position. -/
theorem intersectionPoint2_parallel (p1 d1 p2 d2 : R2) (h : |R2.det d1 d2| < tol) :
    intersectionPoint2 p1.toX d1.toX p2.toX d2.toX = .invalid := by
  simp only [intersectionPoint2]
  rw [if_pos ((P2.tests_spec d1 d2).2.1.2 h)]

/-! ### Segments -/

/-- Two segments cross exactly if their lines meet at parameters between 0 and 1, up to 10^-6. -/
theorem crosses_partial (s1 e1 s2 e2 : R2) (h : Solvable (e1 - s1) (e2 - s2)) :
    crosses s1.toX e1.toX s2.toX e2.toX = true ↔
      ∃ s t : ℝ, s1 + s * (e1 - s1) = s2 + t * (e2 - s2) ∧ -tol < s ∧ s < 1 + tol ∧ -tol < t ∧ t < 1 + tol := by
  obtain ⟨s, t, e, h1, h2⟩ := solve_lines s1 (e1 - s1) s2 (e2 - s2) h
  simp only [crosses]
  rw [P2.minus_toX, P2.minus_toX, if_neg (by rw [(P2.tests_spec _ _).2.1, not_lt]; exact h.det), e, zero_r, one_r]
  rw [Bool.not_eq_true', ← Bool.not_eq_true]
  simp only [Bool.or_eq_true, X.isLess_r, X.isGreater_r, not_or, not_le]
  constructor
  · rintro ⟨⟨⟨a, b⟩, c⟩, d⟩
    refine ⟨s, t, h1, ?_, ?_, ?_, ?_⟩ <;> unfold tol <;> linarith
  · rintro ⟨s', t', h', a, b, c, d⟩
    obtain ⟨rfl, rfl⟩ := h2 s' t' h'
    unfold tol at a b c d
    refine ⟨⟨⟨?_, ?_⟩, ?_⟩, ?_⟩ <;> linarith

/-- Parallel segments never cross, even if they overlap. -/
theorem crosses_overlap (s e : R2) : crosses s.toX e.toX s.toX e.toX = false := by
  simp only [crosses]
  rw [P2.minus_toX, if_pos]
  rw [(P2.tests_spec _ _).2.1]
  have : R2.det (e - s) (e - s) = 0 := by simp [R2.det]; ring
  rw [this, abs_zero]
  exact tol_pos

/-- A short horizontal segment "crosses" every steep long segment, wherever that is: here from (0, 0) to
(10^-7, 0), and from (5, 1) to (5, 101). -/
theorem crosses_pivot : crosses (R2.toX ⟨0, 0⟩) (R2.toX ⟨1 / 10 ^ 7, 0⟩) (R2.toX ⟨5, 1⟩) (R2.toX ⟨5, 101⟩) = true := by
  simp only [crosses]
  rw [P2.minus_toX, P2.minus_toX, P2.minus_toX, neg_times_toX]
  have ha : ((⟨1 / 10 ^ 7, 0⟩ : R2) - ⟨0, 0⟩) = ⟨1 / 10 ^ 7, 0⟩ := by ext <;> simp
  have hb : ((⟨5, 101⟩ : R2) - ⟨5, 1⟩) = ⟨0, 100⟩ := by ext <;> norm_num
  rw [ha, hb]
  rw [if_neg]
  · have e : solveLinearSystem (R2.toX ⟨1 / 10 ^ 7, 0⟩) (R2.toX (-⟨0, 100⟩)) (R2.toX ((⟨5, 1⟩ : R2) - ⟨0, 0⟩)) = ⟨.nan, .nan⟩ := by
      unfold solveLinearSystem
      have hc : isEqual (R2.toX ⟨1 / 10 ^ 7, 0⟩).x zero = true := (isEqual_zero _).2 (by unfold tol; norm_num [abs_lt])
      rw [if_pos hc]
      unfold eliminate
      simp only [R2.toX, X.div_zero]
      rfl
    rw [e]; rfl
  · rw [(P2.tests_spec _ _).2.1, not_lt]
    unfold tol
    norm_num [R2.det]

/-! ### A ray and a segment -/

/-- The point of a ray on a segment: where the lines meet, if that is on the segment (up to 10^-6 of its length)
and at a positive parameter of the ray, but not within 10^-6 of its origin; otherwise there is no result. -/
theorem extensionPointOnLine_partial (o d s e : R2) (h : Solvable d (e - s)) (hd : tol ≤ R2.norm d) :
    ∃ u t : ℝ, Line2 o d ∩ Line2 s (e - s) = {o + u * d} ∧ o + u * d = s + t * (e - s) ∧
      (0 < u ∧ -tol < t ∧ t < 1 + tol ∧ ¬ (|u * d.x| < tol ∧ |u * d.y| < tol) →
        extensionPointOnLine o.toX d.toX s.toX e.toX = (o + u * d).toX) ∧
      (¬ (0 < u ∧ -tol < t ∧ t < 1 + tol ∧ ¬ (|u * d.x| < tol ∧ |u * d.y| < tol)) →
        extensionPointOnLine o.toX d.toX s.toX e.toX = .invalid) := by
  obtain ⟨u, t, es, h1, h2⟩ := solve_lines o d s (e - s) h
  have hp : 0 < R2.norm d := lt_of_lt_of_le tol_pos hd
  refine ⟨u, t, ?_, h1, ?_⟩
  · ext x
    constructor
    · rintro ⟨⟨u', hu⟩, ⟨v, hv⟩⟩
      obtain ⟨rfl, -⟩ := h2 u' v (by rw [← hu, ← hv])
      exact hu
    · rintro rfl
      exact ⟨⟨u, rfl⟩, ⟨t, h1⟩⟩
  have hval : isNaN (o + u * d).toX.x = false ∧ isNaN (o + u * d).toX.y = false := by
    constructor <;> rw [← Bool.not_eq_true, X.isNaN_iff] <;> exact fun c => X.noConfusion c
  -- the steps of the program
  have prog : extensionPointOnLine o.toX d.toX s.toX e.toX =
      if (isEqual (o + u * d).toX.x o.toX.x && isEqual (o + u * d).toX.y o.toX.y) = true then V2.invalid
      else if (isLess (X.r t) zero || isGreater (X.r t) one) = true then .invalid
      else if (isEqual d.toX.normalized.x (u * d).toX.normalized.x && isEqual d.toX.normalized.y (u * d).toX.normalized.y) = true
        then (o + u * d).toX else .invalid := by
    simp only [extensionPointOnLine]
    rw [P2.minus_toX e s, if_neg (by rw [(P2.tests_spec _ _).2.1, not_lt]; exact h.det), es, P2.times_toX, P2.plus_toX, ← h1,
      if_neg (by rw [hval.1, hval.2]; simp), P2.minus_toX (o + u * d) o]
    have : (o + u * d : R2) - o = u * d := by ext <;> simp
    rw [this]
  rw [prog]
  have hnear : (isEqual (o + u * d).toX.x o.toX.x && isEqual (o + u * d).toX.y o.toX.y) = true ↔ |u * d.x| < tol ∧ |u * d.y| < tol := by
    simp only [R2.toX, Bool.and_eq_true, X.isEqual_r, R2.add_x, R2.add_y, R2.smul_x, R2.smul_y, add_sub_cancel_left]
    rfl
  have hseg : (isLess (X.r t) zero || isGreater (X.r t) one) = true ↔ ¬ (-tol < t ∧ t < 1 + tol) := by
    rw [zero_r, one_r]
    simp only [Bool.or_eq_true, X.isLess_r, X.isGreater_r]
    unfold tol
    constructor
    · rintro (h | h) ⟨a, b⟩ <;> linarith
    · intro h
      by_contra hc
      rw [not_or, not_le, not_le] at hc
      exact h ⟨by linarith, by linarith⟩
  have hdir : ¬ (|u * d.x| < tol ∧ |u * d.y| < tol) →
      ((isEqual d.toX.normalized.x (u * d).toX.normalized.x && isEqual d.toX.normalized.y (u * d).toX.normalized.y) = true ↔ 0 < u) := by
    intro hfar
    have hnorm : tol ≤ R2.norm (u * d) := by
      by_contra hc
      rw [not_le] at hc
      apply hfar
      have hsq := R2.norm_sq (u * d)
      rw [R2.dot_def] at hsq
      simp only [R2.smul_x, R2.smul_y] at hsq
      have h0 := R2.norm_nonneg (u * d)
      constructor
      · refine lt_of_le_of_lt (abs_le_of_sq_le_sq ?_ h0) hc
        nlinarith [mul_self_nonneg (u * d.y)]
      · refine lt_of_le_of_lt (abs_le_of_sq_le_sq ?_ h0) hc
        nlinarith [mul_self_nonneg (u * d.x)]
    have hu0 : u ≠ 0 := by
      rintro rfl
      apply hfar
      simp [tol_pos]
    rw [P2.normalized_toX d hd, P2.normalized_toX _ hnorm, P2.norm_smul]
    have hu1 := R2.norm_unit.1 (P2.norm_normalized d hp)
    simp only [R2.toX, Bool.and_eq_true, X.isEqual_r, R2.smul_x, R2.smul_y]
    rw [R2.dot_def] at hu1
    simp only [R2.smul_x, R2.smul_y] at hu1
    constructor
    · rintro ⟨a, b⟩
      by_contra hneg
      have hn : u < 0 := lt_of_le_of_ne (not_lt.1 hneg) hu0
      rw [abs_of_neg hn] at a b
      have ex : 1 / (-u * R2.norm d) * (u * d.x) = -(1 / R2.norm d * d.x) := by field_simp
      have ey : 1 / (-u * R2.norm d) * (u * d.y) = -(1 / R2.norm d * d.y) := by field_simp
      rw [ex, sub_neg_eq_add] at a
      rw [ey, sub_neg_eq_add] at b
      rw [abs_lt] at a b
      generalize 1 / R2.norm d * d.x = x at *
      generalize 1 / R2.norm d * d.y = y at *
      nlinarith
    · intro hpos
      rw [abs_of_pos hpos]
      have ex : 1 / (u * R2.norm d) * (u * d.x) = 1 / R2.norm d * d.x := by field_simp
      have ey : 1 / (u * R2.norm d) * (u * d.y) = 1 / R2.norm d * d.y := by field_simp
      rw [ex, ey, sub_self, sub_self, abs_zero]
      norm_num
  constructor
  · rintro ⟨a, b, c, hfar⟩
    rw [if_neg (fun hc => hfar (hnear.1 hc)), if_neg (fun hc => hseg.1 hc ⟨b, c⟩), if_pos ((hdir hfar).2 a)]
  · intro hno
    by_cases hn : |u * d.x| < tol ∧ |u * d.y| < tol
    · rw [if_pos (hnear.2 hn)]
    · rw [if_neg (fun hc => hn (hnear.1 hc))]
      by_cases hs : -tol < t ∧ t < 1 + tol
      · rw [if_neg (fun hc => hseg.1 hc hs), if_neg]
        rw [hdir hn]
        intro hu
        exact hno ⟨hu, hs.1, hs.2, hn⟩
      · rw [if_pos (hseg.2 hs)]

-- a case that meets the hypotheses
example : Solvable ⟨1, 1⟩ ⟨0, 2⟩ := ⟨by unfold tol; norm_num [R2.det], .inr (by norm_num)⟩

end Verif.Geom
