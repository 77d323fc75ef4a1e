import Verif.Geom.ShortProps
/-
C79: circles with every radius, also negative ones, and the test for points of a circle for all arguments.
-/
namespace Verif.Geom
open Verif Verif.Exact Verif.Mx Verif.Mx.Mat Verif.Vtx

/-- A negative radius: a point of the circle with the opposite radius, but the one that is farthest away; on the axis no
point.  The test for points of the circle is always false. -/
theorem closestPointOnCircle_negative (p c n : R3) (r : ℝ) (hr : r ≤ -tol) (hn : tol ≤ R3.dot n n) :
    isPointOnCircle p.toX c.toX (.r r) n.toX = false ∧
      (p ∉ Line c n → ∃ q ∈ Circle c (-r) n, closestPointOnCircle p.toX c.toX (.r r) n.toX = q.toX ∧
        distancePointToCircle p.toX c.toX (.r r) n.toX = .r (R3.dist p q) ∧ ∀ x ∈ Circle c (-r) n, R3.dist p x ≤ R3.dist p q) := by
  have hrn : r < 0 := by have := tol_pos; linarith
  obtain ⟨t, hs, e, -, -⟩ := linePlane_partial c n p n (not_tiny hn) (not_tiny hn) (by rwa [abs_of_nonneg (R3.dot_self_nonneg n)])
  set l : R3 := p + t * n with hl
  have hmem : l ∈ Plane c n ∩ Line p n := by rw [hs]; rfl
  have hlc : R3.dot n (l - c) = 0 := hmem.1
  have e' : closestPointOnPlane p.toX c.toX n.toX = l.toX := e
  have hcond : ¬ isEqual (X.r r) zero = true := by
    rw [isEqual_zero, abs_of_neg hrn]; linarith
  by_cases hρ : R3.norm (l - c) = 0
  · have hres : closestPointOnCircle p.toX c.toX (.r r) n.toX = ⟨.nan, .nan, .nan⟩ := by
      simp only [closestPointOnCircle]
      rw [if_neg hcond, e', minus_toX, abs_toX, hρ, X.div_zero]; rfl
    have hlc0 : l = c := by
      have := R3.norm_eq_zero.1 hρ
      have e1 := congrArg V3.x this
      have e2 := congrArg V3.y this
      have e3 := congrArg V3.z this
      simp at e1 e2 e3
      exact R3.ext (by linarith) (by linarith) (by linarith)
    refine ⟨?_, fun h => absurd ?_ h⟩
    · unfold isPointOnCircle distancePointToCircle
      rw [hres]; rfl
    · refine ⟨-t, ?_⟩
      rw [← hlc0, hl]
      ext <;> simp
  · have hres : closestPointOnCircle p.toX c.toX (.r r) n.toX = (c + (r / R3.norm (l - c)) * (l - c)).toX := by
      simp only [closestPointOnCircle]
      rw [if_neg hcond, e', minus_toX, abs_toX, X.div_r _ hρ, times_toX, plus_toX]
    set ρ := R3.norm (l - c) with hρd
    have hρ0 : 0 < ρ := lt_of_le_of_ne (R3.norm_nonneg _) (Ne.symm hρ)
    set q : R3 := c + (r / ρ) * (l - c) with hq
    have hρsq : ρ * ρ = R3.dot (l - c) (l - c) := R3.norm_sq _
    have hpyth : ∀ x : R3, R3.dot n (x - c) = 0 → R3.dot (p - x) (p - x) = R3.dot (p - l) (p - l) + R3.dot (l - x) (l - x) := by
      intro x hx
      have h1 : R3.dot (p - x) (p - x) = R3.dot (p - l) (p - l) + R3.dot (l - x) (l - x) + 2 * (-t) * (R3.dot n (l - c) - R3.dot n (x - c)) := by
        rw [hl]; simp [R3.dot]; ring
      rw [h1, hlc, hx]; ring
    have hqn : R3.dot n (q - c) = 0 := by
      have : R3.dot n (q - c) = (r / ρ) * R3.dot n (l - c) := by rw [hq]; simp [R3.dot]; ring
      rw [this, hlc, mul_zero]
    have hqd : R3.dot (q - c) (q - c) = r * r := by
      have : R3.dot (q - c) (q - c) = (r / ρ) * (r / ρ) * R3.dot (l - c) (l - c) := by rw [hq]; simp [R3.dot]; ring
      rw [this, ← hρsq]; field_simp
    have hlq : R3.dot (l - q) (l - q) = (ρ - r) * (ρ - r) := by
      have : R3.dot (l - q) (l - q) = (1 - r / ρ) * (1 - r / ρ) * R3.dot (l - c) (l - c) := by rw [hq]; simp [R3.dot]; ring
      rw [this, ← hρsq]; field_simp
    have hqc : q ∈ Circle c (-r) n := by
      refine ⟨hqn, ?_⟩
      have h1 : R3.dist q c * R3.dist q c = (-r) * (-r) := by rw [dist_sq, hqd]; ring
      exact (mul_self_inj (dist_nonneg _ _) (by linarith)).1 h1
    have hdist : distancePointToCircle p.toX c.toX (.r r) n.toX = .r (R3.dist p q) := by
      unfold distancePointToCircle
      rw [hres, minus_toX, abs_toX, dist_comm]; rfl
    refine ⟨?_, fun _ => ⟨q, hqc, hres, hdist, ?_⟩⟩
    · unfold isPointOnCircle
      rw [hdist, ← Bool.not_eq_true, isEqual_zero_nonneg (dist_nonneg _ _), not_lt]
      have h1 : R3.dist p q * R3.dist p q = R3.dot (p - l) (p - l) + (ρ - r) * (ρ - r) := by rw [dist_sq, hpyth q hqn, hlq]
      have h2 := R3.dot_self_nonneg (p - l)
      have h3 : tol * tol ≤ R3.dist p q * R3.dist p q := by
        have : tol * tol ≤ (ρ - r) * (ρ - r) := mul_self_le_mul_self tol_pos.le (by linarith)
        linarith
      by_contra hh
      exact absurd (mul_self_lt_mul_self (dist_nonneg _ _) (not_le.1 hh)) (not_lt.2 h3)
    · rintro x ⟨hx1, hx2⟩
      have hxd : R3.dot (x - c) (x - c) = r * r := by rw [← dist_sq, hx2]; ring
      have hcs := R3.dot_self_nonneg ((-r) * (l - c) + ρ * (x - c))
      have h5 : R3.dot ((-r) * (l - c) + ρ * (x - c)) ((-r) * (l - c) + ρ * (x - c)) =
          r * r * R3.dot (l - c) (l - c) + ρ * ρ * R3.dot (x - c) (x - c) + 2 * (-r) * ρ * R3.dot (l - c) (x - c) := by
        simp [R3.dot]; ring
      rw [h5, ← hρsq, hxd] at hcs
      have h6 : R3.dot (l - x) (l - x) = R3.dot (l - c) (l - c) + R3.dot (x - c) (x - c) - 2 * R3.dot (l - c) (x - c) := by
        simp [R3.dot]; ring
      have h7 : r * ρ ≤ R3.dot (l - c) (x - c) := by
        have h8 : 0 < (-r) * ρ := mul_pos (by linarith) hρ0
        by_contra hh
        have hh := not_le.1 hh
        nlinarith [mul_lt_mul_of_pos_left hh h8]
      have h9 : R3.dist p x * R3.dist p x ≤ R3.dist p q * R3.dist p q := by
        rw [dist_sq, dist_sq, hpyth x hx1, hpyth q hqn, hlq, h6, ← hρsq, hxd]
        nlinarith
      by_contra hh
      exact absurd (mul_self_lt_mul_self (dist_nonneg _ _) (not_le.1 hh)) (not_lt.2 h9)

/-- The test for points of a circle, for all circles and points: the radius is at least 10^-6, the normal at least 10^-3 long and some
point of the circle is closer than 10^-6. -/
theorem isPointOnCircle_iff (p c n : R3) (r : ℝ) :
    isPointOnCircle p.toX c.toX (.r r) n.toX = true ↔ tol ≤ r ∧ tol ≤ R3.dot n n ∧ ∃ x ∈ Circle c r n, R3.dist p x < tol := by
  by_cases hn : tol ≤ R3.dot n n
  · by_cases hr : tol ≤ r
    · by_cases hp : p ∈ Line c n
      · obtain ⟨s, hs⟩ := hp
        obtain ⟨-, h2, h3⟩ := closestPointOnCircle_axis c n r s hr hn
        have hp' : p = c + s * n := hs
        refine ⟨fun h => ?_, ?_⟩
        · unfold isPointOnCircle at h
          rw [hp', h2] at h
          exact absurd h Bool.false_ne_true
        · rintro ⟨-, -, x, hx, hd⟩
          rw [hp', h3 x hx] at hd
          have h4 : r ≤ Real.sqrt (s * s * R3.dot n n + r * r) := by
            apply Real.le_sqrt_of_sq_le
            have := mul_nonneg (mul_self_nonneg s) (R3.dot_self_nonneg n)
            nlinarith
          linarith
      · obtain ⟨q, -, hq, -, h4⟩ := closestPointOnCircle_partial p c n r hr hn hp
        rw [h4]
        refine ⟨fun h => ⟨hr, hn, q, hq.1, h⟩, ?_⟩
        rintro ⟨-, -, x, hx, hd⟩
        by_cases he : x = q
        · rwa [he] at hd
        · exact lt_trans (hq.2 x hx he) hd
    · refine ⟨fun h => ?_, fun h => absurd h.1 hr⟩
      have hf : isPointOnCircle p.toX c.toX (.r r) n.toX = false := by
        by_cases hm : r ≤ -tol
        · exact (closestPointOnCircle_negative p c n r hm hn).1
        · exact (closestPointOnCircle_small p c n r (abs_lt.2 ⟨not_le.1 hm, not_le.1 hr⟩)).2
      rw [hf] at h
      exact absurd h Bool.false_ne_true
  · refine ⟨fun h => ?_, fun h => absurd h.2.1 hn⟩
    rw [(closestPointOnCircle_short_normal p c n r (not_le.1 hn)).2.2] at h
    exact absurd h Bool.false_ne_true

example : (-2 : ℝ) ≤ -tol ∧ tol ≤ R3.dot (⟨0, 0, 1⟩ : R3) ⟨0, 0, 1⟩ ∧ (⟨3, 0, 1⟩ : R3) ∉ Line ⟨0, 0, 0⟩ ⟨0, 0, 1⟩ := by
  refine ⟨by unfold tol; norm_num, by unfold tol; norm_num [R3.dot], ?_⟩
  rintro ⟨t, h⟩
  have := congrArg V3.x h
  norm_num at this

end Verif.Geom
