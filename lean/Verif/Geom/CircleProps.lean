import Verif.Geom.Plane2Props
import Verif.Mat.ExactProps
/-
C82: circles.
-/
namespace Verif.Geom
open Verif Verif.Exact Verif.Mx Verif.Mx.Mat Verif.Vtx

/-! ### Two circles in the plane -/

theorem circle2_iff {c x : R2} {r : ℝ} (hr : 0 ≤ r) : x ∈ Circle2 c r ↔ R2.dot (x - c) (x - c) = r * r := by
  show R2.dist x c = r ↔ _
  rw [← dist2_sq]
  constructor
  · intro h; rw [h]
  · intro h; exact (mul_self_inj (dist2_nonneg x c) hr).1 h

theorem triangle2 (a b c : R2) : R2.dist a c ≤ R2.dist a b + R2.dist b c := by
  have h1 := dist2_sq a b
  have h2 := dist2_sq b c
  have h3 := dist2_sq a c
  have h4 := (abs_le.1 (P2.dot_bound (a - b) (b - c))).2
  have e1 : R2.norm (a - b) = R2.dist a b := rfl
  have e2 : R2.norm (b - c) = R2.dist b c := rfl
  rw [e1, e2] at h4
  have hs : R2.dot (a - c) (a - c) = R2.dot (a - b) (a - b) + R2.dot (b - c) (b - c) + 2 * R2.dot (a - b) (b - c) := by
    simp [R2.dot]; ring
  have n1 := dist2_nonneg a b
  have n2 := dist2_nonneg b c
  have n3 := dist2_nonneg a c
  by_contra hc
  rw [not_le] at hc
  nlinarith

/-- The circles around `c1` and `c2`: the two results are all their common points (the same point twice if the circles
touch), or there is none and both results are invalid.  The only exception are equal circles: they have the
result invalid. -/
theorem intersectionPointsOfCircles_spec (c1 : R2) (r1 : ℝ) (c2 : R2) (r2 : ℝ) :
    ((c1, r1) ≠ (c2, r2) →
      (Circle2 c1 r1 ∩ Circle2 c2 r2 = ∅ ∧ intersectionPointsOfCircles c1.toX (.r r1) c2.toX (.r r2) = (.invalid, .invalid)) ∨
      ∃ p q : R2, Circle2 c1 r1 ∩ Circle2 c2 r2 = {p, q} ∧
        intersectionPointsOfCircles c1.toX (.r r1) c2.toX (.r r2) = (p.toX, q.toX)) ∧
    intersectionPointsOfCircles c1.toX (.r r1) c1.toX (.r r1) = (.invalid, .invalid) := by
  have hd : ∀ c1 c2 : R2, Libm.sqrt ((c2.toX.x - c1.toX.x) * (c2.toX.x - c1.toX.x) + (c2.toX.y - c1.toX.y) * (c2.toX.y - c1.toX.y)) =
      X.r (R2.dist c2 c1) := by
    intro c1 c2
    show Libm.sqrt (X.r ((c2.x - c1.x) * (c2.x - c1.x) + (c2.y - c1.y) * (c2.y - c1.y))) = _
    rw [X.sqrt_r (by nlinarith [mul_self_nonneg (c2.x - c1.x), mul_self_nonneg (c2.y - c1.y)])]
    rfl
  have htest : ∀ (c1 c2 : R2) (r1 r2 : ℝ), (Arith.lt (X.r r1 + X.r r2) (X.r (R2.dist c2 c1)) || Arith.lt (X.r (R2.dist c2 c1)) (Arith.abs (X.r r1 - X.r r2)) ||
      (Arith.eq (X.r (R2.dist c2 c1)) zero && Arith.eq (X.r r1) (X.r r2))) = true ↔
      (r1 + r2 < R2.dist c2 c1 ∨ R2.dist c2 c1 < |r1 - r2|) ∨ (R2.dist c2 c1 = 0 ∧ r1 = r2) := by
    intro c1 c2 r1 r2
    simp only [Bool.or_eq_true, Bool.and_eq_true, zero_r, X.add_r, X.sub_r, X.abs_r, X.lt_r, X.eq_r]
  constructor
  · intro hne
    by_cases hbad : (r1 + r2 < R2.dist c2 c1 ∨ R2.dist c2 c1 < |r1 - r2|) ∨ (R2.dist c2 c1 = 0 ∧ r1 = r2)
    · left
      constructor
      · rw [Set.eq_empty_iff_forall_notMem]
        rintro x ⟨h1, h2⟩
        have h1' : R2.dist x c1 = r1 := h1
        have h2' : R2.dist x c2 = r2 := h2
        have t1 := triangle2 c2 x c1
        have t2 := triangle2 x c2 c1
        have t3 := triangle2 x c1 c2
        rw [dist2_comm c2 x] at t1
        rw [dist2_comm c1 c2] at t3
        rcases hbad with (h | h) | ⟨h, h'⟩
        · linarith
        · rcases abs_cases (r1 - r2) with ⟨e, -⟩ | ⟨e, -⟩ <;> rw [e] at h <;> linarith
        · apply hne
          have := R2.norm_eq_zero.1 h
          have ex := congrArg V2.x this
          have ey := congrArg V2.y this
          simp at ex ey
          rw [h', show c1 = c2 from R2.ext (by linarith) (by linarith)]
      · simp only [intersectionPointsOfCircles]
        rw [hd, if_pos ((htest c1 c2 r1 r2).2 hbad)]
    · right
      have hgood := hbad
      rw [not_or, not_or, not_lt, not_lt] at hgood
      obtain ⟨⟨g1, g2⟩, g3⟩ := hgood
      have hr : 0 ≤ r1 ∧ 0 ≤ r2 := by
        have g := abs_le.1 g2
        constructor <;> linarith [g.1, g.2]
      obtain ⟨hr1, hr2⟩ := hr
      have g2' := abs_le.1 g2
      have hpos : 0 < R2.dist c2 c1 := by
        refine lt_of_le_of_ne (dist2_nonneg _ _) fun e => g3 ⟨e.symm, ?_⟩
        rw [← e] at g2'
        linarith [g2'.1, g2'.2]
      have hsq := dist2_sq c2 c1
      rw [R2.dot_def] at hsq
      simp only [R2.sub_x, R2.sub_y] at hsq
      have hdne : R2.dist c2 c1 ≠ 0 := ne_of_gt hpos
      have hdd : Libm.sqrt ((c2.toX.x - c1.toX.x) * (c2.toX.x - c1.toX.x) + (c2.toX.y - c1.toX.y) * (c2.toX.y - c1.toX.y)) =
          X.r (R2.dist c2 c1) := hd c1 c2
      have hcond := mt (htest c1 c2 r1 r2).1 hbad
      generalize R2.dist c2 c1 = d at *
      set a : ℝ := (r1 * r1 - r2 * r2 + d * d) / (2 * d) with ha
      have hh0 : 0 ≤ r1 * r1 - a * a := by
        have e1 : r1 - a = (r2 * r2 - (r1 - d) * (r1 - d)) / (2 * d) := by rw [ha]; field_simp; ring
        have e2 : r1 + a = ((r1 + d) * (r1 + d) - r2 * r2) / (2 * d) := by rw [ha]; field_simp; ring
        have p1 : 0 ≤ r1 - a := by
          rw [e1]; apply div_nonneg _ (by linarith)
          nlinarith [g2'.1, g2'.2]
        have p2 : 0 ≤ r1 + a := by
          rw [e2]; apply div_nonneg _ (by linarith)
          nlinarith [g2'.1, g2'.2]
        nlinarith
      set h : ℝ := Real.sqrt (r1 * r1 - a * a) with hhd
      have hh : h * h = r1 * r1 - a * a := Real.mul_self_sqrt hh0
      have hp : ∀ σ : ℝ, σ = 1 ∨ σ = -1 → ∀ x : R2,
          x = ⟨c1.x + a * (c2.x - c1.x) / d + σ * (h * (c2.y - c1.y) / d), c1.y + a * (c2.y - c1.y) / d - σ * (h * (c2.x - c1.x) / d)⟩ →
          x ∈ Circle2 c1 r1 ∩ Circle2 c2 r2 := by
        intro σ hσ x hx
        have hσ2 : σ * σ = 1 := by rcases hσ with rfl | rfl <;> ring
        have hx1 : d * (x.x - c1.x) = a * (c2.x - c1.x) + σ * h * (c2.y - c1.y) := by rw [hx]; simp only; field_simp; ring
        have hx2 : d * (x.y - c1.y) = a * (c2.y - c1.y) - σ * h * (c2.x - c1.x) := by rw [hx]; simp only; field_simp; ring
        have had : 2 * d * a = r1 * r1 - r2 * r2 + d * d := by rw [ha]; field_simp
        have k1 : d * d * ((x.x - c1.x) * (x.x - c1.x) + (x.y - c1.y) * (x.y - c1.y)) = d * d * (r1 * r1) := by
          calc _ = (d * (x.x - c1.x)) * (d * (x.x - c1.x)) + (d * (x.y - c1.y)) * (d * (x.y - c1.y)) := by ring
            _ = _ := by
              rw [hx1, hx2]
              linear_combination (-(a * a + σ * σ * (h * h))) * hsq + d * d * σ * σ * hh + d * d * (r1 * r1 - a * a) * hσ2
        have k1' := mul_left_cancel₀ (mul_ne_zero hdne hdne) k1
        have k2 : d * ((x.x - c1.x) * (c2.x - c1.x) + (x.y - c1.y) * (c2.y - c1.y)) = d * (a * d) := by
          calc _ = (d * (x.x - c1.x)) * (c2.x - c1.x) + (d * (x.y - c1.y)) * (c2.y - c1.y) := by ring
            _ = _ := by rw [hx1, hx2]; linear_combination (-a) * hsq
        have k2' := mul_left_cancel₀ hdne k2
        refine ⟨(circle2_iff hr1).2 ?_, (circle2_iff hr2).2 ?_⟩
        · rw [R2.dot_def]; simpa using k1'
        · rw [R2.dot_def]; simp only [R2.sub_x, R2.sub_y]
          linear_combination k1' - 2 * k2' - hsq - had
      refine ⟨⟨c1.x + a * (c2.x - c1.x) / d + h * (c2.y - c1.y) / d, c1.y + a * (c2.y - c1.y) / d - h * (c2.x - c1.x) / d⟩,
        ⟨c1.x + a * (c2.x - c1.x) / d - h * (c2.y - c1.y) / d, c1.y + a * (c2.y - c1.y) / d + h * (c2.x - c1.x) / d⟩, ?_, ?_⟩
      · ext x
        constructor
        · rintro ⟨h1, h2⟩
          rw [circle2_iff hr1, R2.dot_def] at h1
          rw [circle2_iff hr2, R2.dot_def] at h2
          simp only [R2.sub_x, R2.sub_y] at h1 h2
          have had : 2 * d * a = r1 * r1 - r2 * r2 + d * d := by rw [ha]; field_simp
          have k2 : (x.x - c1.x) * (c2.x - c1.x) + (x.y - c1.y) * (c2.y - c1.y) = a * d := by
            linear_combination (1 / 2) * (h1 - h2 - hsq - had)
          have k3 : ((x.x - c1.x) * (c2.y - c1.y) - (x.y - c1.y) * (c2.x - c1.x)) *
              ((x.x - c1.x) * (c2.y - c1.y) - (x.y - c1.y) * (c2.x - c1.x)) = (d * h) * (d * h) := by
            linear_combination (d * d) * h1 + (-((x.x - c1.x) * (x.x - c1.x) + (x.y - c1.y) * (x.y - c1.y))) * hsq -
              ((x.x - c1.x) * (c2.x - c1.x) + (x.y - c1.y) * (c2.y - c1.y) + a * d) * k2 - (d * d) * hh
          have fin : ∀ σ : ℝ, (x.x - c1.x) * (c2.y - c1.y) - (x.y - c1.y) * (c2.x - c1.x) = σ * (d * h) →
              x.x = c1.x + a * (c2.x - c1.x) / d + σ * (h * (c2.y - c1.y) / d) ∧
              x.y = c1.y + a * (c2.y - c1.y) / d - σ * (h * (c2.x - c1.x) / d) := by
            intro σ k
            have e1 : d * d * (x.x - c1.x) = d * (a * (c2.x - c1.x) + σ * (h * (c2.y - c1.y))) := by
              linear_combination (x.x - c1.x) * hsq + (c2.x - c1.x) * k2 + (c2.y - c1.y) * k
            have e2 : d * d * (x.y - c1.y) = d * (a * (c2.y - c1.y) - σ * (h * (c2.x - c1.x))) := by
              linear_combination (x.y - c1.y) * hsq + (c2.y - c1.y) * k2 - (c2.x - c1.x) * k
            have e1' := mul_left_cancel₀ hdne (by linarith [e1] : d * (d * (x.x - c1.x)) = d * (a * (c2.x - c1.x) + σ * (h * (c2.y - c1.y))))
            have e2' := mul_left_cancel₀ hdne (by linarith [e2] : d * (d * (x.y - c1.y)) = d * (a * (c2.y - c1.y) - σ * (h * (c2.x - c1.x))))
            constructor
            · field_simp; linarith
            · field_simp; linarith
          rcases mul_self_eq_mul_self_iff.1 k3 with k | k
          · left
            obtain ⟨e1, e2⟩ := fin 1 (by rw [k]; ring)
            exact R2.ext (by rw [e1]; ring) (by rw [e2]; ring)
          · right
            obtain ⟨e1, e2⟩ := fin (-1) (by rw [k]; ring)
            exact R2.ext (by rw [e1]; ring) (by rw [e2]; ring)
        · rintro (rfl | rfl)
          · exact hp 1 (.inl rfl) _ (R2.ext (by simp) (by simp))
          · exact hp (-1) (.inr rfl) _ (R2.ext (by simp; ring) (by simp))
      · simp only [intersectionPointsOfCircles]
        rw [hdd, if_neg hcond]
        have e2d : (2 * d : ℝ) ≠ 0 := by positivity
        have ea : (X.r r1 * X.r r1 - X.r r2 * X.r r2 + X.r d * X.r d) / (two * X.r d) = X.r a := by
          rw [two_r]; exact X.div_r _ e2d
        rw [ea]
        have eh : Libm.sqrt (X.r r1 * X.r r1 - X.r a * X.r a) = X.r h := X.sqrt_r hh0
        rw [eh]
        have q : ∀ u : ℝ, X.r u / X.r d = X.r (u / d) := fun u => X.div_r u hdne
        show ((⟨X.r c1.x + X.r (a * (c2.x - c1.x)) / X.r d + X.r (h * (c2.y - c1.y)) / X.r d, X.r c1.y + X.r (a * (c2.y - c1.y)) / X.r d - X.r (h * (c2.x - c1.x)) / X.r d⟩ : V2 X),
          (⟨X.r c1.x + X.r (a * (c2.x - c1.x)) / X.r d - X.r (h * (c2.y - c1.y)) / X.r d, X.r c1.y + X.r (a * (c2.y - c1.y)) / X.r d + X.r (h * (c2.x - c1.x)) / X.r d⟩ : V2 X)) = _
        simp only [q]
        rfl
  · simp only [intersectionPointsOfCircles]
    rw [hd, if_pos]
    rw [htest c1 c1 r1 r1]
    right
    refine ⟨?_, rfl⟩
    apply R2.norm_eq_zero.2
    ext <;> simp

/-- two circles of radius 5 with the centres (0, 0) and (6, 0) are not the same, and they meet -/
example : ((⟨0, 0⟩, 5) : R2 × ℝ) ≠ (⟨6, 0⟩, 5) ∧ (⟨3, 4⟩ : R2) ∈ Circle2 ⟨0, 0⟩ 5 ∩ Circle2 ⟨6, 0⟩ 5 := by
  refine ⟨fun e => ?_, ?_, ?_⟩
  · have := congrArg (fun p : R2 × ℝ => p.1.x) e
    norm_num at this
  · rw [circle2_iff (by norm_num)]; norm_num [R2.dot]
  · rw [circle2_iff (by norm_num)]; norm_num [R2.dot]

/-! ### The circle through three points -/

theorem minor_det (f g : V2 X → X) (F G : R2 → ℝ) (hf : ∀ p : R2, f p.toX = .r (F p)) (hg : ∀ p : R2, g p.toX = .r (G p)) (p1 p2 p3 : R2) :
    (minor f g p1.toX p2.toX p3.toX).det zero =
      .ok (.ok, .r (F p1 * G p2 + F p2 * G p3 + F p3 * G p1 - F p3 * G p2 - F p1 * G p3 - F p2 * G p1)) := by
  unfold minor Mat.ofVertices
  rw [if_pos rfl, hf, hf, hf, hg, hg, hg, one_r]
  simp only
  rw [det_spec (rep3 _ _ _ _ _ _ _ _ _) (by norm_num) (by norm_num)]
  congr 3
  rw [Matrix.det_fin_three]
  simp
  ring

/-- The circle through three points that are not on one line: all three points lie on the circle of the result,
and no other circle has this property. -/
theorem circleParameterBy3Points_spec (p1 p2 p3 : R2) (h : R2.det (p2 - p1) (p3 - p1) ≠ 0) :
    ∃ (c : R2) (r : ℝ), circleParameterBy3Points p1.toX p2.toX p3.toX = .ok (.ok, c.toX, .r r) ∧
      p1 ∈ Circle2 c r ∧ p2 ∈ Circle2 c r ∧ p3 ∈ Circle2 c r ∧
      ∀ (c' : R2) (r' : ℝ), p1 ∈ Circle2 c' r' → p2 ∈ Circle2 c' r' → p3 ∈ Circle2 c' r' → c' = c ∧ r' = r := by
  have d11 := minor_det (·.x) (·.y) (·.x) (·.y) (fun _ => rfl) (fun _ => rfl) p1 p2 p3
  have d12 := minor_det (fun p => p.x * p.x + p.y * p.y) (·.y) (fun p => p.x * p.x + p.y * p.y) (·.y) (fun _ => rfl) (fun _ => rfl) p1 p2 p3
  have d13 := minor_det (fun p => p.x * p.x + p.y * p.y) (·.x) (fun p => p.x * p.x + p.y * p.y) (·.x) (fun _ => rfl) (fun _ => rfl) p1 p2 p3
  set D : ℝ := p1.x * p2.y + p2.x * p3.y + p3.x * p1.y - p3.x * p2.y - p1.x * p3.y - p2.x * p1.y with hD
  set M2 : ℝ := (p1.x * p1.x + p1.y * p1.y) * p2.y + (p2.x * p2.x + p2.y * p2.y) * p3.y + (p3.x * p3.x + p3.y * p3.y) * p1.y -
    (p3.x * p3.x + p3.y * p3.y) * p2.y - (p1.x * p1.x + p1.y * p1.y) * p3.y - (p2.x * p2.x + p2.y * p2.y) * p1.y with hM2
  set M3 : ℝ := (p1.x * p1.x + p1.y * p1.y) * p2.x + (p2.x * p2.x + p2.y * p2.y) * p3.x + (p3.x * p3.x + p3.y * p3.y) * p1.x -
    (p3.x * p3.x + p3.y * p3.y) * p2.x - (p1.x * p1.x + p1.y * p1.y) * p3.x - (p2.x * p2.x + p2.y * p2.y) * p1.x with hM3
  have hDne : D ≠ 0 := by
    intro e
    apply h
    rw [R2.det_def]; simp only [R2.sub_x, R2.sub_y]
    rw [hD] at e; linear_combination e
  set c : R2 := ⟨1 / 2 * M2 / D, -(1 / 2) * M3 / D⟩ with hc
  have hcx : 2 * D * c.x = M2 := by rw [hc]; simp only; field_simp
  have hcy : 2 * D * c.y = -M3 := by rw [hc]; simp only; field_simp
  have hp2 : R2.dist p2 c = R2.dist p1 c := by
    unfold R2.dist R2.norm; congr 1
    apply mul_left_cancel₀ hDne
    simp only [R2.dot_def, R2.sub_x, R2.sub_y]
    linear_combination (p1.x - p2.x) * hcx + (p1.y - p2.y) * hcy + (p1.x - p2.x) * hM2 - (p1.y - p2.y) * hM3 + (p2.x ^ 2 + p2.y ^ 2 - p1.x ^ 2 - p1.y ^ 2) * hD
  have hp3 : R2.dist p3 c = R2.dist p1 c := by
    unfold R2.dist R2.norm; congr 1
    apply mul_left_cancel₀ hDne
    simp only [R2.dot_def, R2.sub_x, R2.sub_y]
    linear_combination (p1.x - p3.x) * hcx + (p1.y - p3.y) * hcy + (p1.x - p3.x) * hM2 - (p1.y - p3.y) * hM3 + (p3.x ^ 2 + p3.y ^ 2 - p1.x ^ 2 - p1.y ^ 2) * hD
  refine ⟨c, R2.dist p1 c, ?_, rfl, hp2, hp3, ?_⟩
  · simp only [circleParameterBy3Points, d11, d12, d13, bind, Except.bind, pure, Except.pure]
    have e1 : (Arith.lit 1 2 : X) * X.r M2 / X.r D = X.r c.x := by
      rw [X.lit_r, X.mul_r, X.div_r _ hDne]; congr 1; rw [hc]; norm_num
    have e2 : -(Arith.lit 1 2 : X) * X.r M3 / X.r D = X.r c.y := by
      rw [X.lit_r, X.neg_r, X.mul_r, X.div_r _ hDne]; congr 1; rw [hc]; norm_num
    rw [e1, e2]
    show Except.ok (Status.ok, c.toX, (p1.toX.minus c.toX).abs) = _
    rw [P2.minus_toX, P2.abs_toX]; rfl
  · intro c' r' h1 h2 h3
    have h1' : R2.dist p1 c' = r' := h1
    have q2 : R2.dot (p2 - c') (p2 - c') = R2.dot (p1 - c') (p1 - c') := by
      rw [← dist2_sq, ← dist2_sq, h1', show R2.dist p2 c' = r' from h2]
    have q3 : R2.dot (p3 - c') (p3 - c') = R2.dot (p1 - c') (p1 - c') := by
      rw [← dist2_sq, ← dist2_sq, h1', show R2.dist p3 c' = r' from h3]
    simp only [R2.dot_def, R2.sub_x, R2.sub_y] at q2 q3
    have hcc : c' = c := by
      refine R2.ext ?_ ?_
      · apply mul_left_cancel₀ (mul_ne_zero two_ne_zero hDne)
        rw [hcx, hM2, hD]
        linear_combination (p1.y - p3.y) * q2 - (p1.y - p2.y) * q3
      · apply mul_left_cancel₀ (mul_ne_zero two_ne_zero hDne)
        rw [hcy, hM3, hD]
        linear_combination (p3.x - p1.x) * q2 - (p2.x - p1.x) * q3
    subst hcc
    exact ⟨rfl, h1'.symm⟩

/-- Three points on one line: the result is not a number, although the status is eOK. -/
theorem circleParameterBy3Points_collinear (p1 p2 p3 : R2) (h : R2.det (p2 - p1) (p3 - p1) = 0) :
    circleParameterBy3Points p1.toX p2.toX p3.toX = .ok (.ok, ⟨.nan, .nan⟩, .nan) := by
  have d11 := minor_det (·.x) (·.y) (·.x) (·.y) (fun _ => rfl) (fun _ => rfl) p1 p2 p3
  have d12 := minor_det (fun p => p.x * p.x + p.y * p.y) (·.y) (fun p => p.x * p.x + p.y * p.y) (·.y) (fun _ => rfl) (fun _ => rfl) p1 p2 p3
  have d13 := minor_det (fun p => p.x * p.x + p.y * p.y) (·.x) (fun p => p.x * p.x + p.y * p.y) (·.x) (fun _ => rfl) (fun _ => rfl) p1 p2 p3
  have hD : p1.x * p2.y + p2.x * p3.y + p3.x * p1.y - p3.x * p2.y - p1.x * p3.y - p2.x * p1.y = 0 := by
    rw [R2.det_def] at h; simp only [R2.sub_x, R2.sub_y] at h; linear_combination h
  rw [hD] at d11
  simp only [circleParameterBy3Points, d11, d12, d13, bind, Except.bind, pure, Except.pure, X.lit_r, X.neg_r, X.mul_r, X.div_zero]
  rfl

example : R2.det ((⟨1, 0⟩ : R2) - ⟨0, 0⟩) (⟨0, 1⟩ - ⟨0, 0⟩) ≠ 0 ∧ R2.det ((⟨1, 1⟩ : R2) - ⟨0, 0⟩) (⟨2, 2⟩ - ⟨0, 0⟩) = 0 := by
  constructor <;> norm_num [R2.det]

/-! ### A circle in space -/

theorem circle_point (c q : R3) (n : R3) (r : ℝ) (hr : 0 < r) (hq : R3.dot n (q - c) = 0) (hne : q ≠ c) :
    Closest (Circle c r n) q (c + (r / R3.norm (q - c)) * (q - c)) := by
  set ρ := R3.norm (q - c) with hρ
  have hsq : ρ * ρ = R3.dot (q - c) (q - c) := R3.norm_sq _
  have hpos : 0 < ρ := by
    refine lt_of_le_of_ne (R3.norm_nonneg _) fun e => hne ?_
    have := R3.norm_eq_zero.1 e.symm
    have e1 := congrArg V3.x this
    have e2 := congrArg V3.y this
    have e3 := congrArg V3.z this
    simp at e1 e2 e3
    exact R3.ext (by linarith) (by linarith) (by linarith)
  have hne' : ρ ≠ 0 := ne_of_gt hpos
  constructor
  · constructor
    · have : R3.dot n (c + (r / ρ) * (q - c) - c) = (r / ρ) * R3.dot n (q - c) := by simp [R3.dot]; ring
      rw [this, hq, mul_zero]
    · show R3.norm _ = r
      have : (c + (r / ρ) * (q - c) - c : R3) = (r / ρ) * (q - c) := by ext <;> simp
      rw [this, norm_smul, ← hρ, abs_of_pos (by positivity)]
      field_simp
  · rintro x ⟨-, hx⟩ hxne
    apply dist_lt
    have hx2 : R3.dot (x - c) (x - c) = r * r := by rw [← dist_sq, hx]
    have hgap : 0 < R3.dot (x - (c + (r / ρ) * (q - c))) (x - (c + (r / ρ) * (q - c))) := by
      apply dot_pos
      intro e
      apply hxne
      have e1 := congrArg V3.x e
      have e2 := congrArg V3.y e
      have e3 := congrArg V3.z e
      simp at e1 e2 e3
      refine R3.ext ?_ ?_ ?_ <;> simp <;> linarith
    have e1 : R3.dot (x - (c + (r / ρ) * (q - c))) (x - (c + (r / ρ) * (q - c))) =
        r * r + (r / ρ) * (r / ρ) * (ρ * ρ) - 2 * (r / ρ) * R3.dot (q - c) (x - c) := by
      rw [hsq, ← hx2]; simp [R3.dot]; ring
    have e2 : R3.dot (q - x) (q - x) = ρ * ρ + r * r - 2 * R3.dot (q - c) (x - c) := by
      rw [hsq, ← hx2]; simp [R3.dot]; ring
    have e3 : R3.dot (q - (c + (r / ρ) * (q - c))) (q - (c + (r / ρ) * (q - c))) = (1 - r / ρ) * (1 - r / ρ) * (ρ * ρ) := by
      rw [hsq]; simp [R3.dot]; ring
    have e4 : (r / ρ) * (r / ρ) * (ρ * ρ) = r * r := by field_simp
    have e5 : (1 - r / ρ) * (1 - r / ρ) * (ρ * ρ) = (ρ - r) * (ρ - r) := by field_simp
    rw [e1, e4] at hgap
    rw [e2, e3, e5]
    have : (r / ρ) * R3.dot (q - c) (x - c) < (r / ρ) * (r * ρ) := by
      have : (r / ρ) * (r * ρ) = r * r := by field_simp
      linarith
    have := lt_of_mul_lt_mul_left this (by positivity)
    nlinarith

/-- The closest point of a circle, for every point that is not on the axis of the circle, if the radius is at least
10^-6 and the normal at least 10^-3 long.  Missing: shorter normals, see `closestPointOnCircle_short_normal`, and points on
the axis, whose distance is well defined: see `closestPointOnCircle_axis`. -/
theorem closestPointOnCircle_partial (p c n : R3) (r : ℝ) (hr : tol ≤ r) (hn : tol ≤ R3.dot n n) (haxis : p ∉ Line c n) :
    ∃ q : R3, closestPointOnCircle p.toX c.toX (.r r) n.toX = q.toX ∧ Closest (Circle c r n) p q ∧
      distancePointToCircle p.toX c.toX (.r r) n.toX = .r (R3.dist p q) ∧
      (isPointOnCircle p.toX c.toX (.r r) n.toX = true ↔ R3.dist p q < tol) := by
  have hrp : 0 < r := lt_of_lt_of_le tol_pos hr
  obtain ⟨t, hs, e, -, -⟩ := linePlane_partial c n p n (not_tiny hn) (not_tiny hn) (by rwa [abs_of_nonneg (R3.dot_self_nonneg n)])
  set l : R3 := p + t * n with hl
  have hmem : l ∈ Plane c n ∩ Line p n := by rw [hs]; rfl
  have hlc : R3.dot n (l - c) = 0 := hmem.1
  have hne : l ≠ c := by
    intro h
    apply haxis
    refine ⟨-t, ?_⟩
    rw [← h, hl]
    ext <;> simp
  have hρ : R3.norm (l - c) ≠ 0 := by
    intro h0
    apply hne
    have := R3.norm_eq_zero.1 h0
    have e1 := congrArg V3.x this
    have e2 := congrArg V3.y this
    have e3 := congrArg V3.z this
    simp at e1 e2 e3
    exact R3.ext (by linarith) (by linarith) (by linarith)
  obtain ⟨hq1, hq2⟩ := circle_point c l n r hrp hlc hne
  have hres : closestPointOnCircle p.toX c.toX (.r r) n.toX = (c + (r / R3.norm (l - c)) * (l - c)).toX := by
    have e' : closestPointOnPlane p.toX c.toX n.toX = l.toX := e
    simp only [closestPointOnCircle]
    rw [if_neg (by rw [isEqual_zero, abs_of_pos hrp]; exact not_lt.2 hr), e', minus_toX, abs_toX, X.div_r _ hρ, times_toX, plus_toX]
  have hpyth : ∀ x ∈ Circle c r n, R3.dot (p - x) (p - x) = R3.dot (p - l) (p - l) + R3.dot (l - x) (l - x) := by
    rintro x ⟨hx, -⟩
    have h1 : R3.dot (p - x) (p - x) = R3.dot (p - l) (p - l) + R3.dot (l - x) (l - x) + 2 * (-t) * (R3.dot n (l - c) - R3.dot n (x - c)) := by
      rw [hl]; simp [R3.dot]; ring
    rw [h1, hlc, hx]; ring
  have hdist : distancePointToCircle p.toX c.toX (.r r) n.toX = .r (R3.dist p (c + (r / R3.norm (l - c)) * (l - c))) := by
    unfold distancePointToCircle
    rw [hres, minus_toX, abs_toX, dist_comm]; rfl
  refine ⟨c + (r / R3.norm (l - c)) * (l - c), hres, ⟨hq1, ?_⟩, hdist, ?_⟩
  · intro x hx hxne
    apply dist_lt
    rw [hpyth x hx, hpyth _ hq1]
    have := hq2 x hx hxne
    have h1 := dist_sq l x
    have h2 := dist_sq l (c + (r / R3.norm (l - c)) * (l - c))
    have := mul_self_lt_mul_self (dist_nonneg _ _) this
    rw [h1, h2] at this
    linarith
  · unfold isPointOnCircle
    rw [hdist]
    exact isEqual_zero_nonneg (dist_nonneg _ _)

/-- For a point on the axis there is no result and no distance, although all points of the circle have the same
distance. -/
theorem closestPointOnCircle_axis (c n : R3) (r s : ℝ) (hr : tol ≤ r) (hn : tol ≤ R3.dot n n) :
    closestPointOnCircle (c + s * n).toX c.toX (.r r) n.toX = ⟨.nan, .nan, .nan⟩ ∧
      distancePointToCircle (c + s * n).toX c.toX (.r r) n.toX = .nan ∧
      ∀ x ∈ Circle c r n, R3.dist (c + s * n) x = Real.sqrt (s * s * R3.dot n n + r * r) := by
  have hrp : 0 < r := lt_of_lt_of_le tol_pos hr
  obtain ⟨t, hs, e, -, -⟩ := linePlane_partial c n (c + s * n) n (not_tiny hn) (not_tiny hn) (by rwa [abs_of_nonneg (R3.dot_self_nonneg n)])
  have hmem : c ∈ Plane c n ∩ Line (c + s * n) n := by
    refine ⟨?_, -s, ?_⟩
    · show R3.dot n (c - c) = 0
      simp [R3.dot]
    · ext <;> simp
  rw [hs] at hmem
  have hc : c = c + s * n + t * n := hmem
  have hres : closestPointOnCircle (c + s * n).toX c.toX (.r r) n.toX = ⟨.nan, .nan, .nan⟩ := by
    have e' : closestPointOnPlane (c + s * n).toX c.toX n.toX = c.toX := by rw [hc.symm] at e; exact e
    simp only [closestPointOnCircle]
    rw [if_neg (by rw [isEqual_zero, abs_of_pos hrp]; exact not_lt.2 hr), e', minus_toX, abs_toX]
    have h0 : R3.norm (c - c) = 0 := R3.norm_eq_zero.2 (by ext <;> simp)
    rw [h0, X.div_zero]; rfl
  refine ⟨hres, by unfold distancePointToCircle; rw [hres]; rfl, ?_⟩
  rintro x ⟨h1, h2⟩
  unfold R3.dist R3.norm
  congr 1
  have h3 : R3.dot (x - c) (x - c) = r * r := by rw [← dist_sq, h2]
  have : R3.dot (c + s * n - x) (c + s * n - x) = s * s * R3.dot n n + R3.dot (x - c) (x - c) - 2 * s * R3.dot n (x - c) := by
    simp [R3.dot]; ring
  rw [this, h1, h3]; ring

/-- A circle with a smaller radius has no points at all for `closestPointOnCircle`. -/
theorem closestPointOnCircle_small (p c n : R3) (r : ℝ) (hr : |r| < tol) :
    closestPointOnCircle p.toX c.toX (.r r) n.toX = .invalid ∧ isPointOnCircle p.toX c.toX (.r r) n.toX = false := by
  have e : closestPointOnCircle p.toX c.toX (.r r) n.toX = .invalid := by
    simp only [closestPointOnCircle]; rw [if_pos ((isEqual_zero r).2 hr)]
  refine ⟨e, ?_⟩
  unfold isPointOnCircle distancePointToCircle
  rw [e]; rfl

example : tol ≤ (2 : ℝ) ∧ tol ≤ R3.dot (⟨0, 0, 1⟩ : R3) ⟨0, 0, 1⟩ ∧ (⟨3, 0, 1⟩ : R3) ∉ Line ⟨0, 0, 0⟩ ⟨0, 0, 1⟩ := by
  refine ⟨by unfold tol; norm_num, by unfold tol; norm_num [R3.dot], ?_⟩
  rintro ⟨t, h⟩
  have := congrArg V3.x h
  norm_num at this

/-! ### The bisector of an angle -/

/-- The bisector of two vectors of at least the length 10^-6: it has the same angle to both of them (none to one and to
the other if they are opposite: then it is null), and lies between them.  Missing: shorter vectors, see `angleBisector_short`. -/
theorem angleBisector_partial (a b : R3) (ha : tol ≤ R3.norm a) (hb : tol ≤ R3.norm b) :
    ∃ w : R3, angleBisector a.toX b.toX = w.toX ∧ (∃ s t : ℝ, 0 < s ∧ 0 < t ∧ w = s * a + t * b) ∧
      R3.dot a w / R3.norm a = R3.dot b w / R3.norm b := by
  have pa : 0 < R3.norm a := lt_of_lt_of_le tol_pos ha
  have pb : 0 < R3.norm b := lt_of_lt_of_le tol_pos hb
  refine ⟨(1 / R3.norm a) * a + (1 / R3.norm b) * b, ?_, ⟨1 / R3.norm a, 1 / R3.norm b, by positivity, by positivity, rfl⟩, ?_⟩
  · unfold angleBisector
    rw [normalized_toX a ha, normalized_toX b hb, plus_toX]
  · have h1 := R3.norm_sq a
    have h2 := R3.norm_sq b
    have e1 : R3.dot a ((1 / R3.norm a) * a + (1 / R3.norm b) * b) = R3.dot a a / R3.norm a + R3.dot a b / R3.norm b := by
      simp [R3.dot]; ring
    have e2 : R3.dot b ((1 / R3.norm a) * a + (1 / R3.norm b) * b) = R3.dot b b / R3.norm b + R3.dot a b / R3.norm a := by
      simp [R3.dot]; ring
    rw [e1, e2, ← h1, ← h2]
    field_simp

theorem angleBisector2_toX (a b : R2) (ha : tol ≤ R2.norm a) (hb : tol ≤ R2.norm b) :
    angleBisector2 a.toX b.toX = ((1 / R2.norm a) * a + (1 / R2.norm b) * b : R2).toX := by
  unfold angleBisector2
  rw [P2.normalized_toX a ha, P2.normalized_toX b hb, P2.plus_toX]

theorem angleBisector2_partial (a b : R2) (ha : tol ≤ R2.norm a) (hb : tol ≤ R2.norm b) :
    ∃ w : R2, angleBisector2 a.toX b.toX = w.toX ∧ (∃ s t : ℝ, 0 < s ∧ 0 < t ∧ w = s * a + t * b) ∧
      R2.dot a w / R2.norm a = R2.dot b w / R2.norm b := by
  have pa : 0 < R2.norm a := lt_of_lt_of_le tol_pos ha
  have pb : 0 < R2.norm b := lt_of_lt_of_le tol_pos hb
  refine ⟨(1 / R2.norm a) * a + (1 / R2.norm b) * b, angleBisector2_toX a b ha hb, ⟨1 / R2.norm a, 1 / R2.norm b, by positivity, by positivity, rfl⟩, ?_⟩
  have h1 := R2.norm_sq a
  have h2 := R2.norm_sq b
  have e1 : R2.dot a ((1 / R2.norm a) * a + (1 / R2.norm b) * b) = R2.dot a a / R2.norm a + R2.dot a b / R2.norm b := by
    simp [R2.dot]; ring
  have e2 : R2.dot b ((1 / R2.norm a) * a + (1 / R2.norm b) * b) = R2.dot b b / R2.norm b + R2.dot a b / R2.norm a := by
    simp [R2.dot]; ring
  rw [e1, e2, ← h1, ← h2]
  field_simp

end Verif.Geom
