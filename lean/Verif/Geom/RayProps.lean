import Verif.Geom.ArcProps
/-
C83: rays on arcs and ellipses.
-/
namespace Verif.Geom
open Verif Verif.Exact Verif.Mx Verif.Mx.Mat Verif.Vtx

/-- Specification: the parameters, at least 10^-6, at which the ray from `o` in the direction of `d` meets the part of the
curve `S` that is seen from `c` between the angles -/
def Hits (S : Set R2) (o d c : R2) (start finish : ℝ) : Set ℝ :=
  {t | tol ≤ t ∧ o + t * d ∈ S ∧ Within c start finish (o + t * d)}
/-- Specification: the result is the first hit, or invalid if there is none -/
def FirstHit (S : Set R2) (o d c : R2) (start finish : ℝ) (result : V2 X) : Prop :=
  (∃ t, IsLeast (Hits S o d c start finish) t ∧ result = (o + t * d : R2).toX) ∨ (Hits S o d c start finish = ∅ ∧ result = .invalid)

/-- `PQCheck` for a curve that the line meets where `n² + p n + q = 0`, clearly twice or not at all -/
theorem pqCheck_spec (p q : ℝ) (S : Set R2) (o d c : R2) (start finish : ℝ) (ha : Angles start finish)
    (hS : ∀ t : ℝ, o + t * d ∈ S ↔ t * t + p * t + q = 0) (hc : c ∉ S) (hdisc : tol ≤ |p / 2 * (p / 2) - q|) :
    ∃ (N : ℕ) (res : V2 X), (∀ n, N ≤ n → pqCheck n (.r p) (.r q) o.toX d.toX c.toX (.r start) (.r finish) = some res) ∧
      FirstHit S o d c start finish res := by
  have hp2 : (Arith.lit 1 2 : X) * X.r p = X.r (p / 2) := by
    rw [X.lit_r, X.mul_r]; congr 1; push_cast; ring
  have htp := tol_pos
  rcases le_or_gt 0 (p / 2 * (p / 2) - q) with hpos | hneg
  · rw [abs_of_nonneg hpos] at hdisc
    set D := p / 2 * (p / 2) - q with hD
    set w := Real.sqrt D with hw
    have hww : w * w = D := Real.mul_self_sqrt hpos
    have hwp : tol < w := by
      by_contra hcon
      rw [not_lt] at hcon
      have h0 : 0 ≤ w := Real.sqrt_nonneg _
      have : w * w ≤ tol * tol := mul_self_le_mul_self h0 hcon
      have := tol_lt
      nlinarith
    set n1 := -(p / 2) - w with hn1
    set n2 := -(p / 2) + w with hn2
    have hroot : ∀ t : ℝ, t * t + p * t + q = 0 ↔ t = n1 ∨ t = n2 := by
      intro t
      have : t * t + p * t + q = (t - n1) * (t - n2) := by
        rw [hn1, hn2]; linear_combination hww + hD
      rw [this, mul_eq_zero, sub_eq_zero, sub_eq_zero]
    have hm1 : o + n1 * d ∈ S := (hS n1).2 ((hroot n1).2 (.inl rfl))
    have hm2 : o + n2 * d ∈ S := (hS n2).2 ((hroot n2).2 (.inr rfl))
    obtain ⟨N1, b1, run1, ok1⟩ := checkAngle_partial (o + n1 * d) c start finish (fun e => hc (e ▸ hm1)) ha
    obtain ⟨N2, b2, run2, ok2⟩ := checkAngle_partial (o + n2 * d) c start finish (fun e => hc (e ▸ hm2)) ha
    have hits : ∀ t, t ∈ Hits S o d c start finish ↔ tol ≤ t ∧ ((t = n1 ∧ b1 = true) ∨ (t = n2 ∧ b2 = true)) := by
      intro t
      constructor
      · rintro ⟨h1, h2, h3⟩
        rw [hS, hroot] at h2
        rcases h2 with rfl | rfl
        · exact ⟨h1, .inl ⟨rfl, ok1.2 h3⟩⟩
        · exact ⟨h1, .inr ⟨rfl, ok2.2 h3⟩⟩
      · rintro ⟨h1, ⟨rfl, h⟩ | ⟨rfl, h⟩⟩
        · exact ⟨h1, hm1, ok1.1 h⟩
        · exact ⟨h1, hm2, ok2.1 h⟩
    have hlt : n1 + tol ≤ n2 := by rw [hn1, hn2]; linarith
    have g : ∀ t : ℝ, isGreater (X.r t) zero = true ↔ tol ≤ t := by
      intro t; rw [zero_r, X.isGreater_r, zero_add]; rfl
    have l : ∀ t : ℝ, isLessEqual (X.r t) zero = true ↔ t < tol := by
      intro t; rw [zero_r, X.isLessEqual_r, zero_add]; rfl
    have l12 : isLess (X.r n1) (X.r n2) = true := by rw [X.isLess_r]; exact hlt
    have hrt : pqRoot (X.r D) = some (X.r D) := by
      unfold pqRoot; rw [if_neg (by rw [l]; exact not_lt.2 hdisc)]
    have e1 : -X.r (p / 2) - Libm.sqrt (X.r D) = X.r n1 := by rw [X.sqrt_r hpos]; rfl
    have e2 : -X.r (p / 2) + Libm.sqrt (X.r D) = X.r n2 := by rw [X.sqrt_r hpos]; rfl
    have e0 : X.r (p / 2) * X.r (p / 2) - X.r q = X.r D := rfl
    by_cases hb : n2 < tol
    · refine ⟨0, .invalid, ?_, .inr ⟨?_, rfl⟩⟩
      · intro n _
        simp only [pqCheck]
        rw [hp2, e0, hrt]
        simp only
        rw [e1, e2, if_pos (by rw [Bool.and_eq_true, l, l]; exact ⟨by linarith, hb⟩)]
      · rw [Set.eq_empty_iff_forall_notMem]
        intro t ht
        rcases (hits t).1 ht with ⟨h1, ⟨rfl, -⟩ | ⟨rfl, -⟩⟩ <;> linarith
    · rw [not_lt] at hb
      refine ⟨max N1 N2, pqPick (X.r n1) (X.r n2) (o + n1 * d : R2).toX (o + n2 * d : R2).toX b1 b2, ?_, ?_⟩
      · intro n hn
        simp only [pqCheck]
        rw [hp2, e0, hrt]
        simp only
        rw [e1, e2, if_neg (by rw [Bool.and_eq_true, l, l]; rintro ⟨-, h⟩; linarith), P2.times_toX, P2.times_toX, P2.plus_toX, P2.plus_toX,
          run1 n (le_trans (le_max_left _ _) hn), Option.bind_eq_bind, Option.bind_some, run2 n (le_trans (le_max_right _ _) hn)]
        rfl
      · unfold pqPick
        have first : ∀ t : ℝ, t ∈ Hits S o d c start finish → (∀ t' ∈ Hits S o d c start finish, t ≤ t') →
            FirstHit S o d c start finish (o + t * d : R2).toX := fun t h1 h2 => .inl ⟨t, ⟨h1, fun t' h' => h2 t' h'⟩, rfl⟩
        by_cases hn1p : tol ≤ n1
        · rw [if_pos (by rw [Bool.and_eq_true, g, g]; exact ⟨hn1p, hb⟩), if_pos l12]
          by_cases h1 : b1 = true
          · rw [if_pos h1]
            apply first _ ((hits n1).2 ⟨hn1p, .inl ⟨rfl, h1⟩⟩)
            intro t' ht'
            rcases (hits t').1 ht' with ⟨-, ⟨rfl, -⟩ | ⟨rfl, -⟩⟩ <;> linarith
          · rw [if_neg h1]
            by_cases h2 : b2 = true
            · rw [if_pos h2]
              apply first _ ((hits n2).2 ⟨hb, .inr ⟨rfl, h2⟩⟩)
              intro t' ht'
              rcases (hits t').1 ht' with ⟨-, ⟨rfl, h⟩ | ⟨rfl, -⟩⟩
              · exact absurd h h1
              · exact le_rfl
            · rw [if_neg h2]
              refine .inr ⟨?_, rfl⟩
              rw [Set.eq_empty_iff_forall_notMem]
              intro t' ht'
              rcases (hits t').1 ht' with ⟨-, ⟨rfl, h⟩ | ⟨rfl, h⟩⟩
              · exact h1 h
              · exact h2 h
        · rw [not_le] at hn1p
          rw [if_neg (by rw [Bool.and_eq_true, g, g]; rintro ⟨h, -⟩; linarith)]
          by_cases h2 : b2 = true
          · rw [if_pos (by rw [Bool.and_eq_true, l]; exact ⟨hn1p, h2⟩)]
            apply first _ ((hits n2).2 ⟨hb, .inr ⟨rfl, h2⟩⟩)
            intro t' ht'
            rcases (hits t').1 ht' with ⟨h, ⟨rfl, -⟩ | ⟨rfl, -⟩⟩ <;> linarith
          · rw [if_neg (by rw [Bool.and_eq_true, l]; rintro ⟨-, h⟩; exact h2 h), if_neg (by rw [Bool.and_eq_true, l]; rintro ⟨h, -⟩; linarith)]
            refine .inr ⟨?_, rfl⟩
            rw [Set.eq_empty_iff_forall_notMem]
            intro t' ht'
            rcases (hits t').1 ht' with ⟨h', ⟨rfl, h⟩ | ⟨rfl, h⟩⟩
            · linarith
            · exact h2 h
  · rw [abs_of_neg hneg] at hdisc
    refine ⟨0, .invalid, ?_, .inr ⟨?_, rfl⟩⟩
    · intro n _
      have hrt : pqRoot (X.r (p / 2) * X.r (p / 2) - X.r q) = none := by
        show pqRoot (X.r (p / 2 * (p / 2) - q)) = none
        unfold pqRoot
        rw [zero_r, if_pos (by rw [X.isLessEqual_r]; unfold tol at *; linarith), if_pos (by rw [X.isLess_r]; unfold tol at *; linarith)]
      simp only [pqCheck]
      rw [hp2, hrt]
    · rw [Set.eq_empty_iff_forall_notMem]
      rintro t ⟨-, h2, -⟩
      rw [hS] at h2
      nlinarith [mul_self_nonneg (t + p / 2)]

theorem arc_pq (o d c : R2) (r : ℝ) (n : ℕ) (start finish : X) (hd : d ≠ ⟨0, 0⟩) :
    extensionPointOnArc n o.toX d.toX c.toX (.r r) start finish =
      pqCheck n (.r (2 * R2.dot d (o - c) / R2.dot d d)) (.r ((R2.dot (o - c) (o - c) - r * r) / R2.dot d d)) o.toX d.toX c.toX start finish := by
  have hne : R2.dot d d ≠ 0 := ne_of_gt (dot2_pos hd)
  simp only [extensionPointOnArc]
  have e1 : (two * (d.toX.x * o.toX.x - c.toX.x * d.toX.x + d.toX.y * o.toX.y - c.toX.y * d.toX.y)) /
      (d.toX.x * d.toX.x + d.toX.y * d.toX.y) = X.r (2 * R2.dot d (o - c) / R2.dot d d) := by
    rw [two_r]
    have : X.r 2 * (d.toX.x * o.toX.x - c.toX.x * d.toX.x + d.toX.y * o.toX.y - c.toX.y * d.toX.y) = X.r (2 * R2.dot d (o - c)) := by
      show X.r _ = X.r _
      congr 1; simp [R2.dot]; ring
    rw [this]; exact X.div_r _ hne
  have e2 : -(X.r r * X.r r - o.toX.x * o.toX.x - o.toX.y * o.toX.y - c.toX.x * c.toX.x - c.toX.y * c.toX.y
      + two * o.toX.x * c.toX.x + two * o.toX.y * c.toX.y) / (d.toX.x * d.toX.x + d.toX.y * d.toX.y) = X.r ((R2.dot (o - c) (o - c) - r * r) / R2.dot d d) := by
    rw [two_r]
    have : -(X.r r * X.r r - o.toX.x * o.toX.x - o.toX.y * o.toX.y - c.toX.x * c.toX.x - c.toX.y * c.toX.y
      + X.r 2 * o.toX.x * c.toX.x + X.r 2 * o.toX.y * c.toX.y) = X.r (R2.dot (o - c) (o - c) - r * r) := by
      show X.r _ = X.r _
      congr 1; simp [R2.dot]; ring
    rw [this]; exact X.div_r _ hne
  rw [e1, e2]

/-- how far the line is inside of the circle, in units of the direction: positive if it meets the circle -/
noncomputable def Depth (o d c : R2) (r : ℝ) : ℝ := (r * r * R2.dot d d - R2.det d (c - o) ^ 2) / R2.dot d d ^ 2

/-- A ray on an arc of a circle: the first common point after the origin of the ray, if the line does not just touch the
circle (within 10^-6 of the squared direction) and the angles are in range.  Missing: touching lines, see
`extensionPointOnArc_touch`; other angles, see `checkAngle_wrong`. -/
theorem extensionPointOnArc_partial (o d c : R2) (r start finish : ℝ) (hr : 0 < r) (hd : d ≠ ⟨0, 0⟩) (ha : Angles start finish)
    (ht : tol ≤ |Depth o d c r|) :
    ∃ (N : ℕ) (res : V2 X), (∀ n, N ≤ n → extensionPointOnArc n o.toX d.toX c.toX (.r r) (.r start) (.r finish) = some res) ∧
      FirstHit (Circle2 c r) o d c start finish res := by
  have hp := dot2_pos hd
  have hne : R2.dot d d ≠ 0 := ne_of_gt hp
  set A := R2.dot d d with hA
  set B := R2.dot d (o - c) with hB
  set C := R2.dot (o - c) (o - c) with hC
  have hq : R2.det d (c - o) ^ 2 = A * C - B ^ 2 := by
    rw [hA, hB, hC]; simp [R2.det, R2.dot]; ring
  have hdepth : Depth o d c r = (2 * B / A) / 2 * ((2 * B / A) / 2) - (C - r * r) / A := by
    unfold Depth; rw [hq, ← hA]; field_simp; ring
  obtain ⟨N, res, run, h⟩ := pqCheck_spec (2 * B / A) ((C - r * r) / A) (Circle2 c r) o d c start finish ha (by
    intro t
    rw [circle2_iff hr.le]
    have : R2.dot (o + t * d - c) (o + t * d - c) - r * r = A * (t * t + 2 * B / A * t + (C - r * r) / A) := by
      have : R2.dot (o + t * d - c) (o + t * d - c) = C + 2 * t * B + t * t * A := by
        rw [hA, hB, hC]; simp [R2.dot]; ring
      rw [this]; field_simp; ring
    rw [← sub_eq_zero, this, mul_eq_zero]
    exact ⟨fun h => h.resolve_left hne, .inr⟩) (by
      intro hc
      have h0 : R2.dist c c = 0 := R2.norm_eq_zero.2 (by ext <;> simp)
      have h1 : R2.dist c c = r := hc
      linarith) (by rw [← hdepth]; exact ht)
  refine ⟨N, res, ?_, h⟩
  intro n hn
  rw [← run n hn]
  exact arc_pq o d c r n (.r start) (.r finish) hd

example : (0 : ℝ) < 2 ∧ (⟨-1, 0⟩ : R2) ≠ ⟨0, 0⟩ ∧ Angles 0 Real.pi ∧ tol ≤ |Depth ⟨10, 1⟩ ⟨-1, 0⟩ ⟨0, 0⟩ 2| := by
  refine ⟨by norm_num, fun e => ?_, ⟨?_, .inl le_rfl⟩, ?_⟩
  · have := congrArg V2.x e; norm_num at this
  · have := Real.pi_gt_three; have := tol_lt; linarith
  · have : Depth ⟨10, 1⟩ ⟨-1, 0⟩ ⟨0, 0⟩ 2 = 3 := by unfold Depth; norm_num [R2.dot, R2.det]
    rw [this]; unfold tol; norm_num

/-- A line that touches the circle, or nearly so: the point of the line next to the centre, if it is in front of the ray
and within the angles.  It need not be on the circle: its squared distance from the centre can differ from the squared
radius by 10^-6 of the squared direction. -/
theorem extensionPointOnArc_touch (o d c : R2) (r start finish : ℝ) (hd : d ≠ ⟨0, 0⟩) (ha : Angles start finish)
    (ht : |Depth o d c r| < tol) (hc : R2.det d (c - o) ≠ 0) :
    ∃ (N : ℕ) (res : V2 X) (f : R2), (∀ n, N ≤ n → extensionPointOnArc n o.toX d.toX c.toX (.r r) (.r start) (.r finish) = some res) ∧
      f ∈ Line2 o d ∧ R2.dot d (f - c) = 0 ∧ |R2.dot (f - c) (f - c) - r * r| < tol * R2.dot d d ∧
      ((∃ t, tol ≤ t ∧ f = o + t * d ∧ Within c start finish f) → res = f.toX) ∧
      (¬ (∃ t, tol ≤ t ∧ f = o + t * d ∧ Within c start finish f) → res = .invalid) := by
  have hp := dot2_pos hd
  have hne : R2.dot d d ≠ 0 := ne_of_gt hp
  have harc := fun n => arc_pq o d c r n (.r start) (.r finish) hd
  set A := R2.dot d d with hA
  set B := R2.dot d (o - c) with hB
  set C := R2.dot (o - c) (o - c) with hC
  have hq : R2.det d (c - o) ^ 2 = A * C - B ^ 2 := by
    rw [hA, hB, hC]; simp [R2.det, R2.dot]; ring
  have hdepth : Depth o d c r = (2 * B / A) / 2 * ((2 * B / A) / 2) - (C - r * r) / A := by
    unfold Depth; rw [hq, ← hA]; field_simp; ring
  set m := -(2 * B / A / 2) with hm
  have hmA : m * A = -B := by rw [hm]; field_simp
  set f : R2 := o + m * d with hf
  have hfc : R2.dot d (f - c) = 0 := by
    have : R2.dot d (f - c) = B + m * A := by rw [hf, hA, hB]; simp [R2.dot]; ring
    rw [this, hmA]; ring
  have hdist : R2.dot (f - c) (f - c) - r * r = -(A * Depth o d c r) := by
    have e : R2.dot (f - c) (f - c) = C + 2 * m * B + m * m * A := by rw [hf, hA, hB, hC]; simp [R2.dot]; ring
    have e2 : m * m * A = m * -B := by rw [mul_assoc, hmA]
    rw [e, e2, hdepth, hm]; field_simp; ring
  have hnec : f ≠ c := by
    intro e
    apply hc
    have : R2.det d (f - o) = 0 := by rw [hf]; simp [R2.det]; ring
    rwa [e] at this
  obtain ⟨N, b, run, ok⟩ := checkAngle_partial f c start finish hnec ha
  have htp := tol_pos
  have g : ∀ t : ℝ, isGreater (X.r t) zero = true ↔ tol ≤ t := by
    intro t; rw [zero_r, X.isGreater_r, zero_add]; rfl
  have l : ∀ t : ℝ, isLessEqual (X.r t) zero = true ↔ t < tol := by
    intro t; rw [zero_r, X.isLessEqual_r, zero_add]; rfl
  have hp2 : (Arith.lit 1 2 : X) * X.r (2 * B / A) = X.r (2 * B / A / 2) := by
    rw [X.lit_r, X.mul_r]; congr 1; push_cast; ring
  have hrt : pqRoot (X.r (2 * B / A / 2) * X.r (2 * B / A / 2) - X.r ((C - r * r) / A)) = some (X.r 0) := by
    show pqRoot (X.r (2 * B / A / 2 * (2 * B / A / 2) - (C - r * r) / A)) = _
    rw [← hdepth]
    unfold pqRoot
    rw [abs_lt] at ht
    rw [if_pos (by rw [l]; exact ht.2), if_neg (by rw [zero_r, X.isLess_r]; unfold tol at *; linarith), zero_r]
  have e1 : -X.r (2 * B / A / 2) - Libm.sqrt (X.r 0) = X.r m := by
    rw [X.sqrt_r le_rfl, Real.sqrt_zero]
    show X.r _ = X.r _
    rw [hm]; congr 1; ring
  have e2 : -X.r (2 * B / A / 2) + Libm.sqrt (X.r 0) = X.r m := by
    rw [X.sqrt_r le_rfl, Real.sqrt_zero]
    show X.r _ = X.r _
    rw [hm]; congr 1; ring
  have huniq : ∀ t : ℝ, f = o + t * d → t = m := by
    intro t e
    have h1 : R2.dot d (o + t * d - o) = t * A := by rw [hA]; simp [R2.dot]; ring
    have h2 : R2.dot d (f - o) = m * A := by rw [hf, hA]; simp [R2.dot]; ring
    rw [← e, h2] at h1
    exact (mul_right_cancel₀ hne h1).symm
  have hgap : |R2.dot (f - c) (f - c) - r * r| < tol * A := by
    rw [hdist, abs_neg, abs_mul, abs_of_pos hp, mul_comm]
    exact mul_lt_mul_of_pos_right ht hp
  by_cases hb : m < tol
  · refine ⟨0, .invalid, f, ?_, ⟨m, rfl⟩, hfc, hgap, ?_, fun _ => rfl⟩
    · intro n _
      rw [harc]
      simp only [pqCheck]
      rw [hp2, hrt]
      simp only
      rw [e1, e2, if_pos (by rw [Bool.and_eq_true, l]; exact ⟨hb, hb⟩)]
    · rintro ⟨t, h1, h2, -⟩
      rw [huniq t h2] at h1
      linarith
  · rw [not_lt] at hb
    refine ⟨N, if b then f.toX else .invalid, f, ?_, ⟨m, rfl⟩, hfc, hgap, ?_, ?_⟩
    · intro n hn
      rw [harc]
      simp only [pqCheck]
      rw [hp2, hrt]
      simp only
      rw [e1, e2, if_neg (by rw [Bool.and_eq_true, l]; rintro ⟨-, h⟩; linarith), P2.times_toX, P2.plus_toX, run n hn, Option.bind_eq_bind, Option.bind_some, Option.bind_some]
      show some _ = some _
      congr 1
      unfold pqPick
      rw [if_pos (by rw [Bool.and_eq_true, g]; exact ⟨hb, hb⟩), if_neg (by rw [X.isLess_r]; norm_num)]
      cases b <;> rfl
    · rintro ⟨t, -, -, h⟩
      rw [if_pos (ok.2 h)]
    · intro h
      rw [if_neg fun hb' => h ⟨m, hb, rfl, ok.1 hb'⟩]

example : (⟨-1, 0⟩ : R2) ≠ ⟨0, 0⟩ ∧ |Depth ⟨10, 2⟩ ⟨-1, 0⟩ ⟨0, 0⟩ 2| < tol ∧ R2.det (⟨-1, 0⟩ : R2) (⟨0, 0⟩ - ⟨10, 2⟩) ≠ 0 := by
  refine ⟨fun e => ?_, ?_, ?_⟩
  · have := congrArg V2.x e; norm_num at this
  · have : Depth ⟨10, 2⟩ ⟨-1, 0⟩ ⟨0, 0⟩ 2 = 0 := by unfold Depth; norm_num [R2.dot, R2.det]
    rw [this, abs_zero]; exact tol_pos
  · norm_num [R2.det]

/-! ### Ellipses -/

/-- Specification: the ellipse around `c` with the main half axis `m` (a vector) and the other half axis `b` (a length) -/
noncomputable def Ellipse (c m : R2) (b : ℝ) : Set R2 :=
  {x | (R2.dot m (x - c) / R2.dot m m) ^ 2 + (R2.det m (x - c) / (R2.norm m * b)) ^ 2 = 1}

theorem rotated_zero (a : R2) : a.toX.rotated (X.r 0) = a.toX := by
  show (⟨X.r (a.x * Real.cos 0 - a.y * Real.sin 0), X.r (a.x * Real.sin 0 + a.y * Real.cos 0)⟩ : V2 X) = _
  rw [Real.cos_zero, Real.sin_zero]
  unfold R2.toX
  congr 2 <;> ring

/-- A ray on an arc of an ellipse whose centre is on the positive x axis, whose main axis is parallel to it and whose minor
half axis is 1: the first common point.  Missing: all other ellipses, for which the function is wrong, see
`extensionPointOnEllipse_minor` and `extensionPointOnEllipse_turned`. -/
theorem extensionPointOnEllipse_partial (o d : R2) (cx a ratio start finish : ℝ) (hcx : 0 ≤ cx) (ha0 : 0 < a) (hone : a * ratio = 1)
    (hd : d ≠ ⟨0, 0⟩) (ha : Angles start finish)
    (ht : tol ≤ |((d.x * (o.x - cx) / (a * a) + d.y * o.y) / (d.x * d.x / (a * a) + d.y * d.y)) ^ 2 -
      ((o.x - cx) ^ 2 / (a * a) + o.y ^ 2 - 1) / (d.x * d.x / (a * a) + d.y * d.y)|) :
    ∃ (N : ℕ) (res : V2 X), (∀ n, N ≤ n → extensionPointOnEllipse n o.toX d.toX (R2.toX ⟨cx, 0⟩) (R2.toX ⟨a, 0⟩) (.r ratio) (.r start) (.r finish) = some res) ∧
      FirstHit (Ellipse ⟨cx, 0⟩ ⟨a, 0⟩ (a * ratio)) o d ⟨cx, 0⟩ start finish res := by
  have hna : R2.norm ⟨a, 0⟩ = a := by
    unfold R2.norm
    rw [show R2.dot ⟨a, 0⟩ ⟨a, 0⟩ = a ^ 2 by simp [R2.dot]; ring, Real.sqrt_sq ha0.le]
  have haa : a * a ≠ 0 := ne_of_gt (mul_pos ha0 ha0)
  have hdivp : 0 < d.x * d.x / (a * a) + d.y * d.y := by
    have := dot2_pos hd
    rw [R2.dot_def] at this
    by_cases hx : d.x = 0
    · rw [hx] at this ⊢; simp at this ⊢; exact this
    · have : 0 < d.x * d.x / (a * a) := div_pos (mul_self_pos.2 hx) (mul_pos ha0 ha0)
      have := mul_self_nonneg d.y
      linarith
  set V := d.x * d.x / (a * a) + d.y * d.y with hV
  have hVne : V ≠ 0 := ne_of_gt hdivp
  set W := d.x * (o.x - cx) / (a * a) + d.y * o.y with hW
  set U := (o.x - cx) ^ 2 / (a * a) + o.y ^ 2 - 1 with hU
  have hmem : ∀ x : R2, x ∈ Ellipse ⟨cx, 0⟩ ⟨a, 0⟩ (a * ratio) ↔ (x.x - cx) ^ 2 / (a * a) + x.y ^ 2 = 1 := by
    intro x
    show (_ ^ 2 + _ ^ 2 = 1) ↔ _
    rw [hone, hna]
    have e1 : R2.dot ⟨a, 0⟩ (x - ⟨cx, 0⟩) / R2.dot (⟨a, 0⟩ : R2) ⟨a, 0⟩ = (x.x - cx) / a := by
      simp [R2.dot]; field_simp
    have e2 : R2.det ⟨a, 0⟩ (x - ⟨cx, 0⟩) / (a * 1) = x.y := by
      simp [R2.det]; field_simp
    rw [e1, e2, div_pow, pow_two a]
  obtain ⟨N, res, run, h⟩ := pqCheck_spec (2 * W / V) (U / V) (Ellipse ⟨cx, 0⟩ ⟨a, 0⟩ (a * ratio)) o d ⟨cx, 0⟩ start finish ha (by
    intro t
    rw [hmem]
    have : ((o + t * d : R2).x - cx) ^ 2 / (a * a) + (o + t * d : R2).y ^ 2 - 1 = V * (t * t + 2 * W / V * t + U / V) := by
      have e : V * (t * t + 2 * W / V * t + U / V) = V * (t * t) + 2 * W * t + U := by field_simp
      rw [e, hV, hW, hU]; simp; field_simp; ring
    rw [← sub_eq_zero, this, mul_eq_zero]
    exact ⟨fun h => h.resolve_left hVne, .inr⟩) (by
      rw [hmem]; norm_num) (by
      have : 2 * W / V / 2 * (2 * W / V / 2) - U / V = (W / V) ^ 2 - U / V := by ring
      rw [this]; exact ht)
  have hvalid : res.isValid = true → ∃ p : R2, res = p.toX := by
    rcases h with ⟨t, -, e⟩ | ⟨-, e⟩
    · intro _; exact ⟨_, e⟩
    · rw [e]; intro h'
      exact absurd h' (by simp [V2.isValid, V2.invalid, (X.isNaN_iff X.nan).2 rfl])
  refine ⟨N, res, ?_, h⟩
  intro n hn
  have hr := run n hn
  simp only [extensionPointOnEllipse]
  have hangle : Libm.atan2 (R2.toX ⟨cx, 0⟩).y (R2.toX ⟨cx, 0⟩).x = X.r 0 := by
    show X.r (Complex.arg ⟨cx, 0⟩) = _
    congr 1
    exact Complex.arg_ofReal_of_nonneg hcx
  rw [hangle, X.neg_r, neg_zero, rotated_zero, rotated_zero, rotated_zero, P2.abs_toX, hna, X.mul_r a ratio, hone]
  have q1 : ∀ x y : ℝ, X.r x * X.r y / (X.r a * X.r a) = X.r (x * y / (a * a)) := fun x y => X.div_r _ haa
  have q2 : ∀ x y : ℝ, X.r x * X.r y / (X.r 1 * X.r 1) = X.r (x * y) := by
    intro x y; rw [X.mul_r, X.mul_r, X.div_r _ (by norm_num)]; congr 1; ring
  have q3 : ∀ x y : ℝ, X.r x * X.r y / X.r 1 = X.r (x * y) := by
    intro x y; rw [X.mul_r, X.div_r _ (by norm_num)]; congr 1; ring
  have x1 : d.toX.x = X.r d.x := rfl
  have x2 : d.toX.y = X.r d.y := rfl
  have x3 : o.toX.x - (R2.toX ⟨cx, 0⟩).x = X.r (o.x - cx) := rfl
  have x4 : o.toX.y - (R2.toX ⟨cx, 0⟩).y = X.r (o.y - 0) := rfl
  rw [x1, x2, x3, x4, q1, q1, q1, q2, q2, q3, two_r, one_r]
  have d1 : X.r 2 * (X.r (d.x * (o.x - cx) / (a * a)) + X.r (d.y * (o.y - 0))) / (X.r (d.x * d.x / (a * a)) + X.r (d.y * d.y)) = X.r (2 * W / V) := by
    rw [sub_zero]; exact X.div_r _ hVne
  have d2 : (X.r ((o.x - cx) * (o.x - cx) / (a * a)) + X.r ((o.y - 0) * (o.y - 0)) - X.r 1) / (X.r (d.x * d.x / (a * a)) + X.r (d.y * d.y)) = X.r (U / V) := by
    rw [sub_zero, hU, pow_two, pow_two]; exact X.div_r _ hVne
  rw [d1, d2, hr, Option.bind_eq_bind, Option.bind_some]
  show some _ = some _
  congr 1
  by_cases hv : res.isValid = true
  · rw [if_pos hv]
    obtain ⟨p, rfl⟩ := hvalid hv
    exact rotated_zero p
  · rw [if_neg hv]

/-- The ellipse around the origin with both half axes 2 is the circle with radius 2.  A ray from (0, 10) straight down through
the centre meets it in (0, 2), but no point is found. -/
theorem extensionPointOnEllipse_minor :
    extensionPointOnEllipse 0 (R2.toX ⟨0, 10⟩) (R2.toX ⟨0, -1⟩) (R2.toX ⟨0, 0⟩) (R2.toX ⟨2, 0⟩) (.r 1) (.r 0) (.r (2 * Real.pi)) = some .invalid ∧
    (⟨0, 10⟩ + (8 : ℝ) * (⟨0, -1⟩ : R2)) ∈ Ellipse ⟨0, 0⟩ ⟨2, 0⟩ (2 * 1) := by
  have hna : R2.norm ⟨2, 0⟩ = 2 := by
    unfold R2.norm
    rw [show R2.dot (⟨2, 0⟩ : R2) ⟨2, 0⟩ = 2 ^ 2 by norm_num [R2.dot], Real.sqrt_sq (by norm_num)]
  constructor
  · simp only [extensionPointOnEllipse]
    have hangle : Libm.atan2 (R2.toX ⟨0, 0⟩).y (R2.toX ⟨0, 0⟩).x = X.r 0 := by
      show X.r (Complex.arg ⟨0, 0⟩) = _
      congr 1
      exact Complex.arg_ofReal_of_nonneg le_rfl
    rw [hangle, X.neg_r, neg_zero, rotated_zero, rotated_zero, rotated_zero, P2.abs_toX, hna]
    have x1 : (R2.toX ⟨0, -1⟩).x = X.r 0 := rfl
    have x2 : (R2.toX ⟨0, -1⟩).y = X.r (-1) := rfl
    have x3 : (R2.toX ⟨0, 10⟩).x - (R2.toX ⟨0, 0⟩).x = X.r (0 - 0) := rfl
    have x4 : (R2.toX ⟨0, 10⟩).y - (R2.toX ⟨0, 0⟩).y = X.r (10 - 0) := rfl
    rw [x1, x2, x3, x4]
    have h4 : (2 * 2 : ℝ) ≠ 0 := by norm_num
    have h4' : (2 * 1 * (2 * 1) : ℝ) ≠ 0 := by norm_num
    have h2 : (2 * 1 : ℝ) ≠ 0 := by norm_num
    have hv : ((0:ℝ) * 0 / (2 * 2) + -1 * -1 / (2 * 1 * (2 * 1)) : ℝ) ≠ 0 := by norm_num
    simp only [X.mul_r, X.add_r, X.sub_r, X.div_r _ h4, X.div_r _ h4', X.div_r _ h2, X.div_r _ hv, two_r, one_r]
    simp only [pqCheck, X.lit_r, X.mul_r, X.sub_r]
    have hrt : ∀ D : ℝ, D ≤ -1 → pqRoot (X.r D) = none := by
      intro D h
      unfold pqRoot
      rw [zero_r, if_pos (by rw [X.isLessEqual_r]; norm_num; linarith), if_pos (by rw [X.isLess_r]; norm_num; linarith)]
    rw [hrt _ (by norm_num)]
    rfl
  · show _ ^ 2 + _ ^ 2 = 1
    rw [hna]
    norm_num [R2.dot, R2.det]

/-- The ellipse around (0, 5) with the half axes 2 (parallel to the x axis) and 1: a ray from (10, 5) to the left meets it in
(2, 5), but the result is (1, 5).  The ellipse is turned by the direction of its centre, not of its main axis. -/
theorem extensionPointOnEllipse_turned :
    extensionPointOnEllipse 1 (R2.toX ⟨10, 5⟩) (R2.toX ⟨-1, 0⟩) (R2.toX ⟨0, 5⟩) (R2.toX ⟨2, 0⟩) (.r (1 / 2)) (.r 0) (.r (2 * Real.pi)) =
      some (R2.toX ⟨1, 5⟩) ∧
    (⟨10, 5⟩ + (8 : ℝ) * (⟨-1, 0⟩ : R2)) ∈ Ellipse ⟨0, 5⟩ ⟨2, 0⟩ (2 * (1 / 2)) ∧ (⟨1, 5⟩ : R2) ∉ Ellipse ⟨0, 5⟩ ⟨2, 0⟩ (2 * (1 / 2)) := by
  have hpi := Real.pi_gt_three
  have hna : R2.norm ⟨2, 0⟩ = 2 := by
    unfold R2.norm
    rw [show R2.dot (⟨2, 0⟩ : R2) ⟨2, 0⟩ = 2 ^ 2 by norm_num [R2.dot], Real.sqrt_sq (by norm_num)]
  refine ⟨?_, ?_, ?_⟩
  · simp only [extensionPointOnEllipse]
    have hangle : Libm.atan2 (R2.toX ⟨0, 5⟩).y (R2.toX ⟨0, 5⟩).x = X.r (Real.pi / 2) := by
      show X.r (Complex.arg ⟨0, 5⟩) = _
      congr 1
      rw [Complex.arg_eq_pi_div_two_iff]
      exact ⟨rfl, by norm_num⟩
    have rotm : ∀ a : R2, a.toX.rotated (X.r (-(Real.pi / 2))) = R2.toX ⟨a.y, -a.x⟩ := by
      intro a
      show (⟨X.r (a.x * Real.cos (-(Real.pi / 2)) - a.y * Real.sin (-(Real.pi / 2))), X.r (a.x * Real.sin (-(Real.pi / 2)) + a.y * Real.cos (-(Real.pi / 2)))⟩ : V2 X) = _
      rw [Real.cos_neg, Real.sin_neg, Real.cos_pi_div_two, Real.sin_pi_div_two]
      unfold R2.toX
      congr 2 <;> ring
    have rotp : ∀ a : R2, a.toX.rotated (X.r (Real.pi / 2)) = R2.toX ⟨-a.y, a.x⟩ := by
      intro a
      show (⟨X.r (a.x * Real.cos (Real.pi / 2) - a.y * Real.sin (Real.pi / 2)), X.r (a.x * Real.sin (Real.pi / 2) + a.y * Real.cos (Real.pi / 2))⟩ : V2 X) = _
      rw [Real.cos_pi_div_two, Real.sin_pi_div_two]
      unfold R2.toX
      congr 2 <;> ring
    rw [hangle, X.neg_r, rotm, rotm, rotm, P2.abs_toX, hna]
    have x1 : (R2.toX ⟨(⟨-1, 0⟩ : R2).y, -(⟨-1, 0⟩ : R2).x⟩).x = X.r 0 := rfl
    have x2 : (R2.toX ⟨(⟨-1, 0⟩ : R2).y, -(⟨-1, 0⟩ : R2).x⟩).y = X.r (-(-1)) := rfl
    have x3 : (R2.toX ⟨(⟨10, 5⟩ : R2).y, -(⟨10, 5⟩ : R2).x⟩).x - (R2.toX ⟨(⟨0, 5⟩ : R2).y, -(⟨0, 5⟩ : R2).x⟩).x = X.r (5 - 5) := rfl
    have x4 : (R2.toX ⟨(⟨10, 5⟩ : R2).y, -(⟨10, 5⟩ : R2).x⟩).y - (R2.toX ⟨(⟨0, 5⟩ : R2).y, -(⟨0, 5⟩ : R2).x⟩).y = X.r (-10 - -0) := rfl
    rw [x1, x2, x3, x4]
    have h4 : (2 * 2 : ℝ) ≠ 0 := by norm_num
    have h4' : (2 * (1 / 2) * (2 * (1 / 2)) : ℝ) ≠ 0 := by norm_num
    have h2 : (2 * (1 / 2) : ℝ) ≠ 0 := by norm_num
    have hv : ((0:ℝ) * 0 / (2 * 2) + -(-1) * -(-1) / (2 * (1 / 2) * (2 * (1 / 2))) : ℝ) ≠ 0 := by norm_num
    simp only [X.mul_r, X.add_r, X.sub_r, X.div_r _ h4, X.div_r _ h4', X.div_r _ h2, X.div_r _ hv, two_r, one_r]
    have hp : (2 * (0 * (5 - 5) / (2 * 2) + -(-1) * (-10 - -0) / (2 * (1 / 2) * (2 * (1 / 2)))) /
        (0 * 0 / (2 * 2) + -(-1) * -(-1) / (2 * (1 / 2) * (2 * (1 / 2)))) : ℝ) = -20 := by norm_num
    have hq : (((5 - 5) * (5 - 5) / (2 * 2) + (-10 - -0) * (-10 - -0) / (2 * (1 / 2)) - 1) /
        (0 * 0 / (2 * 2) + -(-1) * -(-1) / (2 * (1 / 2) * (2 * (1 / 2)))) : ℝ) = 99 := by norm_num
    rw [hp, hq]
    have ck : ∀ y : ℝ, (y = -1 ∨ y = 1) → checkAngle 1 (R2.toX ⟨5, y⟩) (R2.toX ⟨5, 0⟩) (X.r 0) (X.r (2 * Real.pi)) = some true := by
      intro y hy
      have w0 : ∀ (c : X → Bool) (f : X → X) (s : X), c s = false → whileN c f 1 s = some s := by
        intro c f s h; unfold whileN; rw [h]; rfl
      have w1 : ∀ (c : X → Bool) (f : X → X) (s : X), c s = true → c (f s) = false → whileN c f 1 s = some (f s) := by
        intro c f s h h'; unfold whileN; rw [h]; simp only [if_true]; unfold whileN; rw [h']; rfl
      have hangle' : Libm.atan2 ((R2.toX ⟨5, y⟩).minus (R2.toX ⟨5, 0⟩)).y ((R2.toX ⟨5, y⟩).minus (R2.toX ⟨5, 0⟩)).x = X.r (y * (Real.pi / 2)) := by
        show X.r (Complex.arg ⟨5 - 5, y - 0⟩) = _
        congr 1
        rcases hy with rfl | rfl
        · rw [neg_one_mul, Complex.arg_eq_neg_pi_div_two_iff]; norm_num
        · rw [one_mul, Complex.arg_eq_pi_div_two_iff]; norm_num
      simp only [checkAngle]
      rw [hangle']
      rw [w0 _ _ (X.r 0) (by rw [twoPi_r, ← Bool.not_eq_true, X.isGreaterEqual_r]; linarith), Option.bind_eq_bind, Option.bind_some]
      rw [w1 _ _ (X.r (2 * Real.pi)) (by rw [twoPi_r, X.isGreaterEqual_r]; linarith) (by
        rw [twoPi_r, X.sub_r, ← Bool.not_eq_true, X.isGreaterEqual_r]; linarith), Option.bind_some]
      rw [w1 _ _ (X.r (2 * Real.pi) - twoPi) (by rw [twoPi_r, X.sub_r, X.isLessEqual_r]; norm_num) (by
        rw [twoPi_r, X.sub_r, X.add_r, ← Bool.not_eq_true, X.isLessEqual_r]; linarith), Option.bind_some]
      rw [twoPi_r, X.sub_r, X.add_r]
      rcases hy with rfl | rfl
      · rw [w1 _ _ (X.r (-1 * (Real.pi / 2))) (by rw [X.isLess_r]; linarith) (by
          rw [X.add_r, ← Bool.not_eq_true, X.isLess_r]; linarith), Option.bind_some, X.add_r]
        show some _ = _
        congr 1
        rw [X.isLessEqual_r]; linarith
      · rw [w0 _ _ (X.r (1 * (Real.pi / 2))) (by rw [← Bool.not_eq_true, X.isLess_r]; linarith), Option.bind_some]
        show some _ = _
        congr 1
        rw [X.isLessEqual_r]; linarith
    have hrt : pqRoot (X.r 1) = some (X.r 1) := by
      unfold pqRoot; rw [if_neg (by rw [zero_r, X.isLessEqual_r]; norm_num)]
    have hpick : pqPick (X.r 9) (X.r 11) (R2.toX ⟨5, -1⟩) (R2.toX ⟨5, 1⟩) true true = R2.toX ⟨5, -1⟩ := by
      unfold pqPick
      rw [zero_r, if_pos (by rw [Bool.and_eq_true, X.isGreater_r, X.isGreater_r]; norm_num), if_pos (by rw [X.isLess_r]; norm_num)]
      rfl
    have hpq : pqCheck 1 (X.r (-20)) (X.r 99) (R2.toX ⟨5, -10⟩) (R2.toX ⟨0, 1⟩) (R2.toX ⟨5, 0⟩) (X.r 0) (X.r (2 * Real.pi)) = some (R2.toX ⟨5, -1⟩) := by
      have hp2 : (Arith.lit 1 2 : X) * X.r (-20) = X.r (-10) := by rw [X.lit_r, X.mul_r]; norm_num
      have hD : X.r (-10) * X.r (-10) - X.r 99 = X.r 1 := by rw [X.mul_r, X.sub_r]; norm_num
      have e1 : -X.r (-10) - Libm.sqrt (X.r 1) = X.r 9 := by rw [X.sqrt_r zero_le_one, Real.sqrt_one, X.neg_r, X.sub_r]; norm_num
      have e2 : -X.r (-10) + Libm.sqrt (X.r 1) = X.r 11 := by rw [X.sqrt_r zero_le_one, Real.sqrt_one, X.neg_r, X.add_r]; norm_num
      have p1 : ((⟨5, -10⟩ : R2) + (9 : ℝ) * (⟨0, 1⟩ : R2)) = ⟨5, -1⟩ := by ext <;> norm_num
      have p2 : ((⟨5, -10⟩ : R2) + (11 : ℝ) * (⟨0, 1⟩ : R2)) = ⟨5, 1⟩ := by ext <;> norm_num
      simp only [pqCheck]
      rw [hp2, hD, hrt]
      simp only
      rw [e1, e2, if_neg (by rw [Bool.and_eq_true, zero_r, X.isLessEqual_r]; rintro ⟨h, -⟩; norm_num at h), P2.times_toX, P2.times_toX, P2.plus_toX, P2.plus_toX,
        p1, p2, ck (-1) (.inl rfl), ck 1 (.inr rfl)]
      simp only [Option.bind_eq_bind, Option.bind_some, pure, hpick]
    have c1 : R2.toX ⟨(⟨10, 5⟩ : R2).y, -(⟨10, 5⟩ : R2).x⟩ = R2.toX ⟨5, -10⟩ := rfl
    have c2 : R2.toX ⟨(⟨-1, 0⟩ : R2).y, -(⟨-1, 0⟩ : R2).x⟩ = R2.toX ⟨0, 1⟩ := by simp
    have c3 : R2.toX ⟨(⟨0, 5⟩ : R2).y, -(⟨0, 5⟩ : R2).x⟩ = R2.toX ⟨5, 0⟩ := by simp
    rw [c1, c2, c3, hpq]
    simp only [Option.bind_eq_bind, Option.bind_some, pure]
    rw [if_pos (P2.tests_spec ⟨5, -1⟩ ⟨0, 0⟩).2.2.2.2, rotp]
    norm_num
  · show _ ^ 2 + _ ^ 2 = 1
    rw [hna]
    norm_num [R2.dot, R2.det]
  · show ¬ (_ ^ 2 + _ ^ 2 = 1)
    rw [hna]
    norm_num [R2.dot, R2.det]

/-! ### Doubles -/

/-- `2 * M_PI` as a double -/
def twoPi64 : Fp.F64 := Fp.lit 6283185307179586 1000000000000000

/-- With doubles the loops need not end: from the start angle 10^300 they run for ever, because 10^300 - 2π is 10^300. -/
theorem checkAngle_endless (n : ℕ) :
    whileN (fun s => isGreaterEqual s twoPi64) (· - twoPi64) n (Fp.lit (10 ^ 300) 1 : Fp.F64) = none := by
  have h1 : isGreaterEqual (Fp.lit (10 ^ 300) 1 : Fp.F64) twoPi64 = true := by decide +kernel
  have h2 : (Fp.lit (10 ^ 300) 1 : Fp.F64) - twoPi64 = Fp.lit (10 ^ 300) 1 := by decide +kernel
  induction n with
  | zero => unfold whileN; rw [if_pos h1]
  | succ n ih => unfold whileN; rw [if_pos h1, h2, ih]

end Verif.Geom
