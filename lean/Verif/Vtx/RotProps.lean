import Verif.Vtx.Props
/-
C77: the rotation from one vector to another; object coordinate systems.  Without rounding.
-/
namespace Verif.Vtx
open Verif Verif.Exact Verif.Mx Verif.Mx.Mat

/-- the rotation around `a` with cosine `c` and sine `s` -/
def rodCS (a : R3) (c s : ℝ) (w : R3) : R3 := c * w + s * R3.cross a w + ((1 - c) * R3.dot a w) * a

theorem turn_spec (a : R3) (c s : ℝ) (w : R3) : (turn a.toX (.r c) (.r s)).mulV3 w.toX = .ok (rodCS a c s w).toX := by
  have h : Rep (turn a.toX (.r c) (.r s)) (Matrix.of
      ![![c + a.x * a.x * (1 - c), a.x * a.y * (1 - c) - a.z * s, a.x * a.z * (1 - c) + a.y * s],
        ![a.y * a.x * (1 - c) + a.z * s, c + a.y * a.y * (1 - c), a.y * a.z * (1 - c) - a.x * s],
        ![a.z * a.x * (1 - c) - a.y * s, a.z * a.y * (1 - c) + a.x * s, c + a.z * a.z * (1 - c)]]) := by
    unfold turn
    rw [one_r]
    exact rep3 _ _ _ _ _ _ _ _ _
  rw [mulV3_spec h]
  congr 2
  ext <;> simp [rodCS, R3.dot] <;> ring

theorem halfTurn_spec (u : R3) (hu : R3.norm u = 1) :
    ∃ o : R3, R3.norm o = 1 ∧ R3.dot o u = 0 ∧ ∀ w : R3, (halfTurn u.toX).mulV3 w.toX = .ok ((2 * R3.dot o w) * o - w).toX := by
  have h1 := R3.norm_unit.1 hu
  rw [R3.dot_def] at h1
  have key : ∀ o : R3, R3.dot o u = 0 → 1 / 2 ≤ R3.dot o o → ∃ o' : R3, R3.norm o' = 1 ∧ R3.dot o' u = 0 ∧
      o.toX.normalized = o'.toX := by
    intro o ho hn
    have hp : tol ≤ R3.norm o := by
      unfold R3.norm
      refine Real.le_sqrt_of_sq_le (le_trans ?_ hn)
      unfold tol; norm_num
    have hpos : 0 < R3.norm o := lt_of_lt_of_le tol_pos hp
    refine ⟨(1 / R3.norm o) * o, norm_normalized o hpos, ?_, normalized_toX o hp⟩
    have : R3.dot ((1 / R3.norm o) * o) u = (1 / R3.norm o) * R3.dot o u := by simp [R3.dot]; ring
    rw [this, ho, mul_zero]
  have mat : ∀ o : R3, ∀ w : R3, (⟨3, 3, [-(one : X) + two * o.toX.x * o.toX.x, two * o.toX.y * o.toX.x, two * o.toX.z * o.toX.x,
      two * o.toX.x * o.toX.y, -(one : X) + two * o.toX.y * o.toX.y, two * o.toX.z * o.toX.y,
      two * o.toX.x * o.toX.z, two * o.toX.y * o.toX.z, -(one : X) + two * o.toX.z * o.toX.z]⟩ : Mat X).mulV3 w.toX =
      .ok ((2 * R3.dot o w) * o - w).toX := by
    intro o w
    rw [one_r, two_r]
    have h : Rep (⟨3, 3, [-(X.r 1) + X.r 2 * o.toX.x * o.toX.x, X.r 2 * o.toX.y * o.toX.x, X.r 2 * o.toX.z * o.toX.x,
      X.r 2 * o.toX.x * o.toX.y, -(X.r 1) + X.r 2 * o.toX.y * o.toX.y, X.r 2 * o.toX.z * o.toX.y,
      X.r 2 * o.toX.x * o.toX.z, X.r 2 * o.toX.y * o.toX.z, -(X.r 1) + X.r 2 * o.toX.z * o.toX.z]⟩ : Mat X)
      (Matrix.of ![![-1 + 2 * o.x * o.x, 2 * o.x * o.y, 2 * o.x * o.z], ![2 * o.y * o.x, -1 + 2 * o.y * o.y, 2 * o.y * o.z],
        ![2 * o.z * o.x, 2 * o.z * o.y, -1 + 2 * o.z * o.z]]) := rep3 _ _ _ _ _ _ _ _ _
    rw [mulV3_spec h]
    congr 2
    ext <;> simp [R3.dot] <;> ring
  simp only [halfTurn]
  by_cases hlt : |u.y| < |u.x|
  · have hc : Arith.lt (Arith.abs u.toX.y) (Arith.abs u.toX.x) = true := (X.lt_r _ _).2 hlt
    obtain ⟨o, ho1, ho2, ho3⟩ := key ⟨-u.z, 0, u.x⟩ (by simp [R3.dot]; ring) (by
      have := sq_lt_sq.2 hlt
      simp [R3.dot]; nlinarith [sq_nonneg u.z])
    refine ⟨o, ho1, ho2, fun w => ?_⟩
    rw [if_pos hc, show (⟨-u.toX.z, zero, u.toX.x⟩ : V3 X) = R3.toX ⟨-u.z, 0, u.x⟩ by rw [zero_r]; rfl, ho3]
    exact mat o w
  · have hc : ¬ (Arith.lt (Arith.abs u.toX.y) (Arith.abs u.toX.x) = true) := fun h => hlt ((X.lt_r _ _).1 h)
    obtain ⟨o, ho1, ho2, ho3⟩ := key ⟨0, -u.z, u.y⟩ (by simp [R3.dot]; ring) (by
      have := sq_le_sq.2 (not_lt.1 hlt)
      simp [R3.dot]; nlinarith [sq_nonneg u.z])
    refine ⟨o, ho1, ho2, fun w => ?_⟩
    rw [if_neg hc, show (⟨zero, -u.toX.z, u.toX.y⟩ : V3 X) = R3.toX ⟨0, -u.z, u.y⟩ by rw [zero_r]; rfl, ho3]
    exact mat o w

/-- the cosine of the angle between two vectors -/
noncomputable def cosAngle (u v : R3) : ℝ := R3.dot u v / (R3.norm u * R3.norm v)

theorem unit_pair (u v : R3) (hu : 0 < R3.norm u) (hv : 0 < R3.norm v) :
    R3.dot ((1 / R3.norm u) * u) ((1 / R3.norm v) * v) = cosAngle u v := by
  have : R3.dot ((1 / R3.norm u) * u) ((1 / R3.norm v) * v) = (1 / R3.norm u) * (1 / R3.norm v) * R3.dot u v := by
    simp [R3.dot]; ring
  rw [this]; unfold cosAngle; field_simp

theorem rotationUV_turn (u v : R3) (hu : tol ≤ R3.norm u) (hv : tol ≤ R3.norm v) (hc : tol ≤ cosAngle u v + 1) :
    rotationUV u.toX v.toX = turn (R3.cross u v).toX.normalized (.r (cosAngle u v)) (.r (Real.sqrt (1 - cosAngle u v * cosAngle u v))) := by
  have pu : 0 < R3.norm u := lt_of_lt_of_le tol_pos hu
  have pv : 0 < R3.norm v := lt_of_lt_of_le tol_pos hv
  have hb := dot_bound ((1 / R3.norm u) * u) ((1 / R3.norm v) * v)
  rw [norm_normalized u pu, norm_normalized v pv, one_mul, unit_pair u v pu pv, abs_le] at hb
  simp only [rotationUV]
  rw [normalized_toX u hu, normalized_toX v hv, cross_toX, dot_toX, unit_pair u v pu pv, one_r]
  rw [if_neg]
  · rw [X.mul_r, X.sub_r, X.sqrt_r (by nlinarith [hb.1, hb.2])]
  · rw [X.neg_r, X.isEqual_r, sub_neg_eq_add, not_lt, abs_of_nonneg (by linarith [hb.1])]
    exact hc

/-- The rotation from `u` to `v`: scalar products are kept and the direction of `u` is mapped to that of `v`.
Holds for vectors of length at least 10^-6 whose cross product has length at least 10^-6 and that are not
almost opposite, and for exactly parallel or exactly opposite vectors.  Missing: the other cases, see
`rotationUV_short` and `rotationUV_opposite`, and for all of them `RotMore.lean`. -/
theorem rotationUV_partial (u v : R3) (hu : tol ≤ R3.norm u) (hv : tol ≤ R3.norm v)
    (h : (tol ≤ R3.norm (R3.cross u v) ∧ tol ≤ cosAngle u v + 1) ∨ ∃ k : ℝ, v = k * u) :
    ∃ ρ : R3 → R3, (∀ w : R3, (rotationUV u.toX v.toX).mulV3 w.toX = .ok (ρ w).toX) ∧
      (∀ a b, R3.dot (ρ a) (ρ b) = R3.dot a b) ∧ R3.norm v * ρ u = R3.norm u * v := by
  have pu : 0 < R3.norm u := lt_of_lt_of_le tol_pos hu
  have pv : 0 < R3.norm v := lt_of_lt_of_le tol_pos hv
  rcases h with ⟨hx, hc⟩ | ⟨k, rfl⟩
  · -- the general case
    have px : 0 < R3.norm (R3.cross u v) := lt_of_lt_of_le tol_pos hx
    obtain ⟨-, -, -, -, -, hl⟩ := crossProduct_spec u v
    set a := (1 / R3.norm (R3.cross u v)) * R3.cross u v with ha
    have ha1 : R3.norm a = 1 := norm_normalized _ px
    have hb := dot_bound u v
    have hpp := mul_pos pu pv
    have hb2 := abs_le.1 hb
    have c1 : -1 ≤ cosAngle u v := by unfold cosAngle; rw [le_div_iff₀ hpp]; linarith [hb2.1]
    have c2 : cosAngle u v ≤ 1 := by unfold cosAngle; rw [div_le_iff₀ hpp]; linarith [hb2.2]
    have hs : Real.sqrt (1 - cosAngle u v * cosAngle u v) = R3.norm (R3.cross u v) / (R3.norm u * R3.norm v) := by
      rw [Real.sqrt_eq_iff_mul_self_eq (by nlinarith) (by positivity), ← pow_two (_ / _), div_pow]
      obtain ⟨c, e, -, -, -, h⟩ := crossProduct_spec u v
      have ec : c = R3.cross u v := by
        rw [cross_toX] at e
        simp only [R3.toX, V3.mk.injEq, X.r.injEq] at e
        exact R3.ext e.1.symm e.2.1.symm e.2.2.symm
      rw [← ec, h]
      unfold cosAngle
      field_simp
    have hturn : ∀ w : R3, (rotationUV u.toX v.toX).mulV3 w.toX = .ok (rodrigues a (Real.arccos (cosAngle u v)) w).toX := by
      intro w
      rw [rotationUV_turn u v hu hv hc, normalized_toX _ hx, turn_spec]
      unfold rodCS rodrigues
      rw [Real.cos_arccos c1 c2, Real.sin_arccos, ← pow_two]
    refine ⟨_, hturn, (rodrigues_rotation a ha1 _).1, ?_⟩
    have hau : R3.dot a u = 0 := by rw [ha]; simp [R3.dot]; ring
    rw [(rodrigues_rotation a ha1 _).2.2.1 u hau, Real.cos_arccos c1 c2, Real.sin_arccos, pow_two, hs, ha]
    have e1 : R3.norm u * R3.norm u = R3.dot u u := R3.norm_sq u
    rw [R3.dot_def] at e1
    unfold cosAngle
    rw [R3.dot_def]
    ext <;> simp <;> field_simp
    · linear_combination (-v.x) * e1
    · linear_combination (-v.y) * e1
    · linear_combination (-v.z) * e1
  · -- parallel or opposite
    have hk : k ≠ 0 := by
      rintro rfl
      have : R3.norm ((0 : ℝ) * u) = 0 := by rw [norm_smul]; simp
      rw [this] at pv; exact lt_irrefl _ pv
    have hnk : R3.norm (k * u) = |k| * R3.norm u := norm_smul k u
    have hdot : R3.dot u (k * u) = k * (R3.norm u * R3.norm u) := by rw [R3.norm_sq]; simp [R3.dot]; ring
    rcases lt_or_gt_of_ne hk with hneg | hpos
    · -- opposite
      have hcos : cosAngle u (k * u) = -1 := by
        unfold cosAngle
        rw [hdot, hnk, abs_of_neg hneg]; field_simp
      obtain ⟨o, ho1, ho2, ho3⟩ := halfTurn_spec ((1 / R3.norm u) * u) (norm_normalized u pu)
      have ho1' := R3.norm_unit.1 ho1
      rw [R3.dot_def] at ho1'
      refine ⟨fun w => (2 * R3.dot o w) * o - w, ?_, ?_, ?_⟩
      · intro w
        simp only [rotationUV]
        rw [normalized_toX u hu, normalized_toX _ hv, dot_toX, unit_pair u _ pu pv, hcos, if_pos, ho3]
        rw [one_r, X.neg_r, X.isEqual_r]; norm_num
      · intro a b
        simp only [R3.dot_def, R3.sub_x, R3.sub_y, R3.sub_z, R3.smul_x, R3.smul_y, R3.smul_z]
        linear_combination 4 * (o.x * a.x + o.y * a.y + o.z * a.z) * (o.x * b.x + o.y * b.y + o.z * b.z) * ho1'
      · have hou : R3.dot o u = 0 := by
          have e : R3.dot o ((1 / R3.norm u) * u) = (1 / R3.norm u) * R3.dot o u := by simp [R3.dot]; ring
          rw [e] at ho2
          rcases mul_eq_zero.1 ho2 with h | h
          · have : (1 : ℝ) / R3.norm u ≠ 0 := by positivity
            exact absurd h this
          · exact h
        simp only [hou, hnk, abs_of_neg hneg]
        ext <;> simp <;> ring
    · -- parallel
      have hcos : cosAngle u (k * u) = 1 := by
        unfold cosAngle
        rw [hdot, hnk, abs_of_pos hpos]; field_simp
      have hcr : R3.cross u (k * u) = ⟨0, 0, 0⟩ := by ext <;> simp <;> ring
      refine ⟨fun w => w, ?_, fun _ _ => rfl, ?_⟩
      · intro w
        rw [rotationUV_turn u _ hu hv (by rw [hcos]; unfold tol; norm_num), hcos, hcr,
          normalized_short _ (by rw [R3.norm_eq_zero.2 rfl]; exact tol_pos), turn_spec]
        congr 2
        unfold rodCS
        ext <;> simp
      · rw [hnk, abs_of_pos hpos]
        ext <;> simp <;> ring

/-- Short vectors: for (10^-4, 0, 0) and (0, 10^-4, 0) the result is not a rotation; the image of the first
vector has length 10^-12. -/
theorem rotationUV_short :
    (rotationUV (R3.toX ⟨1 / 10 ^ 4, 0, 0⟩) (R3.toX ⟨0, 1 / 10 ^ 4, 0⟩)).mulV3 (R3.toX ⟨1 / 10 ^ 4, 0, 0⟩) =
      .ok (R3.toX ⟨0, 1 / 10 ^ 12, 0⟩) := by
  have n1 : R3.norm ⟨1 / 10 ^ 4, 0, 0⟩ = 1 / 10 ^ 4 := by
    unfold R3.norm
    rw [show R3.dot ⟨1 / 10 ^ 4, 0, 0⟩ ⟨1 / 10 ^ 4, 0, 0⟩ = (1 / 10 ^ 4) ^ 2 by norm_num [R3.dot], Real.sqrt_sq (by norm_num)]
  have n2 : R3.norm ⟨0, 1 / 10 ^ 4, 0⟩ = 1 / 10 ^ 4 := by
    unfold R3.norm
    rw [show R3.dot ⟨0, 1 / 10 ^ 4, 0⟩ ⟨0, 1 / 10 ^ 4, 0⟩ = (1 / 10 ^ 4) ^ 2 by norm_num [R3.dot], Real.sqrt_sq (by norm_num)]
  have hcos : cosAngle ⟨1 / 10 ^ 4, 0, 0⟩ ⟨0, 1 / 10 ^ 4, 0⟩ = 0 := by unfold cosAngle; norm_num [R3.dot]
  have hcr : R3.cross ⟨1 / 10 ^ 4, 0, 0⟩ ⟨0, 1 / 10 ^ 4, 0⟩ = ⟨0, 0, 1 / 10 ^ 8⟩ := by ext <;> norm_num [R3.cross]
  have n3 : R3.norm ⟨0, 0, 1 / 10 ^ 8⟩ = 1 / 10 ^ 8 := by
    unfold R3.norm
    rw [show R3.dot ⟨0, 0, 1 / 10 ^ 8⟩ ⟨0, 0, 1 / 10 ^ 8⟩ = (1 / 10 ^ 8) ^ 2 by norm_num [R3.dot], Real.sqrt_sq (by norm_num)]
  rw [rotationUV_turn _ _ (by rw [n1]; unfold tol; norm_num) (by rw [n2]; unfold tol; norm_num)
    (by rw [hcos]; unfold tol; norm_num), hcr, normalized_short _ (by rw [n3]; unfold tol; norm_num), hcos, turn_spec]
  congr 2
  unfold rodCS
  ext <;> norm_num [R3.dot]

/-- Almost opposite vectors: the image of (1, 0, 0) is (-1, 0, 0), although the target is at 2·10^-4 from it. -/
theorem rotationUV_opposite :
    ∃ v : R3, R3.norm v = 1 ∧ 1 / 10 ^ 4 ≤ v.y ∧ 
      (rotationUV (R3.toX ⟨1, 0, 0⟩) v.toX).mulV3 (R3.toX ⟨1, 0, 0⟩) = .ok (R3.toX ⟨-1, 0, 0⟩) := by
  have hn : R3.norm ⟨-(10 ^ 8 - 1) / (10 ^ 8 + 1), 2 * 10 ^ 4 / (10 ^ 8 + 1), 0⟩ = 1 := R3.norm_unit.2 (by norm_num [R3.dot])
  have h1 : R3.norm ⟨1, 0, 0⟩ = 1 := R3.norm_unit.2 (by norm_num [R3.dot])
  refine ⟨⟨-(10 ^ 8 - 1) / (10 ^ 8 + 1), 2 * 10 ^ 4 / (10 ^ 8 + 1), 0⟩, hn, by norm_num, ?_⟩
  have htol : tol ≤ 1 := by unfold tol; norm_num
  simp only [rotationUV]
  rw [normalized_toX _ (by rw [h1]; exact htol), normalized_toX _ (by rw [hn]; exact htol), dot_toX,
    unit_pair _ _ (by rw [h1]; norm_num) (by rw [hn]; norm_num)]
  rw [if_pos]
  · rw [h1, show (1 / 1 : ℝ) * (⟨1, 0, 0⟩ : R3) = ⟨1, 0, 0⟩ by ext <;> simp]
    obtain ⟨o, -, ho2, ho3⟩ := halfTurn_spec ⟨1, 0, 0⟩ h1
    rw [ho3, ho2]
    congr 2
    ext <;> simp
  · unfold cosAngle
    rw [one_r, X.neg_r, X.isEqual_r, h1, hn]
    norm_num [R3.dot, abs_lt]

-- cases that meet the hypotheses
example : tol ≤ R3.norm ⟨1, 0, 0⟩ ∧ tol ≤ R3.norm ⟨0, 1, 0⟩ ∧ tol ≤ R3.norm (R3.cross ⟨1, 0, 0⟩ ⟨0, 1, 0⟩) ∧
    tol ≤ cosAngle ⟨1, 0, 0⟩ ⟨0, 1, 0⟩ + 1 := by
  have h1 : R3.norm ⟨1, 0, 0⟩ = 1 := R3.norm_unit.2 (by norm_num [R3.dot])
  have h2 : R3.norm ⟨0, 1, 0⟩ = 1 := R3.norm_unit.2 (by norm_num [R3.dot])
  have h3 : R3.norm (R3.cross ⟨1, 0, 0⟩ ⟨0, 1, 0⟩) = 1 := R3.norm_unit.2 (by norm_num [R3.dot])
  have h4 : cosAngle ⟨1, 0, 0⟩ ⟨0, 1, 0⟩ = 0 := by unfold cosAngle; norm_num [R3.dot]
  rw [h1, h2, h3, h4]; unfold tol; norm_num

/-! ### Object coordinate systems -/

theorem ocs_axes (e : R3) (he : R3.norm e = 1) :
    ∃ ox oy : R3, ocsMatrix e.toX = ofVertices ox.toX oy.toX e.toX true ∧ R3.norm ox = 1 ∧ R3.norm oy = 1 ∧
      R3.dot ox oy = 0 ∧ R3.dot ox e = 0 ∧ R3.dot oy e = 0 ∧ R3.cross e ox = oy ∧
      (∃ k : ℝ, 0 < k ∧ ox = k * R3.cross (if |e.x| < 1 / 64 ∧ |e.y| < 1 / 64 then ⟨0, 1, 0⟩ else ⟨0, 0, 1⟩) e) := by
  have h1 := R3.norm_unit.1 he
  rw [R3.dot_def] at h1
  set w : R3 := if |e.x| < 1 / 64 ∧ |e.y| < 1 / 64 then ⟨0, 1, 0⟩ else ⟨0, 0, 1⟩ with hw
  have hlen : (1 / 64) ^ 2 ≤ R3.dot (R3.cross w e) (R3.cross w e) := by
    by_cases h : |e.x| < 1 / 64 ∧ |e.y| < 1 / 64
    · have hy := abs_lt.1 h.2
      rw [hw, if_pos h]; simp [R3.dot]; nlinarith
    · rw [hw, if_neg h]
      have : 1 / 64 ≤ |e.x| ∨ 1 / 64 ≤ |e.y| := by
        by_contra c
        rw [not_or, not_le, not_le] at c
        exact h c
      simp [R3.dot]
      rcases this with hh | hh
      · have := mul_self_le_mul_self (by norm_num) hh
        rw [abs_mul_abs_self] at this; nlinarith [mul_self_nonneg e.y]
      · have := mul_self_le_mul_self (by norm_num) hh
        rw [abs_mul_abs_self] at this; nlinarith [mul_self_nonneg e.x]
  have hn : tol ≤ R3.norm (R3.cross w e) := by
    unfold R3.norm
    refine le_trans ?_ (Real.le_sqrt_of_sq_le hlen)
    unfold tol; norm_num
  have pn : 0 < R3.norm (R3.cross w e) := lt_of_lt_of_le tol_pos hn
  set ox := (1 / R3.norm (R3.cross w e)) * R3.cross w e with hox
  have hox1 : R3.norm ox = 1 := norm_normalized _ pn
  have hoxe : R3.dot ox e = 0 := by rw [hox]; simp [R3.dot]; ring
  have hoy1 : R3.norm (R3.cross e ox) = 1 := by
    rw [R3.norm_unit]
    have a := R3.norm_unit.1 hox1
    rw [R3.dot_def] at a hoxe
    simp only [R3.dot_def, R3.cross_x, R3.cross_y, R3.cross_z]
    linear_combination (ox.x * ox.x + ox.y * ox.y + ox.z * ox.z) * h1 + a - (ox.x * e.x + ox.y * e.y + ox.z * e.z) * hoxe
  refine ⟨ox, R3.cross e ox, ?_, hox1, hoy1, ?_, hoxe, ?_, rfl, ⟨1 / R3.norm (R3.cross w e), by positivity, rfl⟩⟩
  · unfold ocsMatrix
    have hb : (one : X) / Arith.lit 64 1 = .r (1 / 64) := by
      rw [one_r, X.lit_r, X.div_r _ (by norm_num)]; norm_num
    rw [hb]
    have hsel : (if Arith.lt (Arith.abs e.toX.x) (X.r (1 / 64)) && Arith.lt (Arith.abs e.toX.y) (X.r (1 / 64))
        then (⟨zero, one, zero⟩ : V3 X).crossProduct e.toX else (⟨zero, zero, one⟩ : V3 X).crossProduct e.toX) = (R3.cross w e).toX := by
      have hiff : (Arith.lt (Arith.abs e.toX.x) (X.r (1 / 64)) && Arith.lt (Arith.abs e.toX.y) (X.r (1 / 64))) = true ↔
          (|e.x| < 1 / 64 ∧ |e.y| < 1 / 64) := by
        rw [Bool.and_eq_true]
        exact and_congr (X.lt_r _ _) (X.lt_r _ _)
      by_cases h : |e.x| < 1 / 64 ∧ |e.y| < 1 / 64
      · rw [if_pos (hiff.2 h), hw, if_pos h, zero_r, one_r]; rfl
      · rw [if_neg (fun c => h (hiff.1 c)), hw, if_neg h, zero_r, one_r]; rfl
    simp only [hsel]
    rw [normalized_toX _ hn, cross_toX, ← hox, normalized_toX _ (by rw [hoy1]; unfold tol; norm_num), hoy1]
    congr 2
    ext <;> simp
  · simp [R3.dot]; ring
  · simp [R3.dot]; ring

/-- For a unit vector `e` the object coordinates are the coordinates in an orthonormal right-handed system whose
third axis is `e` and whose first axis follows the arbitrary axis algorithm; `ocsToWcs` is the inverse of
`wcsToOcs`. -/
theorem ocs_spec (e : R3) (he : R3.norm e = 1) :
    ∃ ox oy : R3, R3.norm ox = 1 ∧ R3.norm oy = 1 ∧ R3.dot ox oy = 0 ∧ R3.dot ox e = 0 ∧ R3.dot oy e = 0 ∧
      R3.cross e ox = oy ∧
      (∃ k : ℝ, 0 < k ∧ ox = k * R3.cross (if |e.x| < 1 / 64 ∧ |e.y| < 1 / 64 then ⟨0, 1, 0⟩ else ⟨0, 0, 1⟩) e) ∧
      (∀ w : R3, wcsToOcs w.toX e.toX = .ok (R3.toX ⟨R3.dot ox w, R3.dot oy w, R3.dot e w⟩)) ∧
      (∀ c : R3, ocsToWcs c.toX e.toX = .ok (c.x * ox + c.y * oy + c.z * e).toX) ∧
      (∀ w : R3, (do let o ← wcsToOcs w.toX e.toX; ocsToWcs o e.toX) = .ok w.toX) := by
  obtain ⟨ox, oy, hm, n1, n2, d1, d2, d3, hc, hk⟩ := ocs_axes e he
  have hrep : Rep (ofVertices ox.toX oy.toX e.toX true)
      (Matrix.of ![![ox.x, ox.y, ox.z], ![oy.x, oy.y, oy.z], ![e.x, e.y, e.z]]) := rep3 _ _ _ _ _ _ _ _ _
  have q1 := R3.norm_unit.1 n1
  have q2 := R3.norm_unit.1 n2
  have q3 := R3.norm_unit.1 he
  rw [R3.dot_def] at q1 q2 q3 d1 d2 d3
  have hmul : (Matrix.of ![![ox.x, ox.y, ox.z], ![oy.x, oy.y, oy.z], ![e.x, e.y, e.z]]) *
      (Matrix.of ![![ox.x, oy.x, e.x], ![ox.y, oy.y, e.y], ![ox.z, oy.z, e.z]]) = 1 := by
    ext i j
    fin_cases i <;> fin_cases j <;> simp [Matrix.mul_apply, Fin.sum_univ_three]
    · exact q1
    · exact d1
    · exact d2
    · linear_combination d1
    · exact q2
    · exact d3
    · linear_combination d2
    · linear_combination d3
    · exact q3
  have hdet : (Matrix.of ![![ox.x, ox.y, ox.z], ![oy.x, oy.y, oy.z], ![e.x, e.y, e.z]]).det ≠ 0 := by
    intro h0
    have := congrArg Matrix.det hmul
    rw [Matrix.det_mul, h0, zero_mul, Matrix.det_one] at this
    exact one_ne_zero this.symm
  obtain ⟨W, hW, hWr⟩ := inverse_spec hrep (by omega) (by omega) hdet
  rw [Matrix.inv_eq_right_inv hmul] at hWr
  have hto : ∀ w : R3, wcsToOcs w.toX e.toX = .ok (R3.toX ⟨R3.dot ox w, R3.dot oy w, R3.dot e w⟩) := by
    intro w
    unfold wcsToOcs
    rw [hm, mulV3_spec hrep]; rfl
  have hfrom : ∀ c : R3, ocsToWcs c.toX e.toX = .ok (c.x * ox + c.y * oy + c.z * e).toX := by
    intro c
    unfold ocsToWcs wcsMatrix
    rw [hm, hW]
    simp only [bind, Except.bind, pure, Except.pure]
    rw [mulV3_spec hWr]
    congr 2
    ext <;> simp <;> ring
  refine ⟨ox, oy, n1, n2, d1, d2, d3, hc, hk, hto, hfrom, ?_⟩
  intro w
  rw [hto]
  simp only [bind, Except.bind]
  rw [hfrom]
  congr 2
  have hmul' := mul_eq_one_comm.1 hmul
  have g : ∀ i j : Fin 3, ((Matrix.of ![![ox.x, oy.x, e.x], ![ox.y, oy.y, e.y], ![ox.z, oy.z, e.z]]) *
      (Matrix.of ![![ox.x, ox.y, ox.z], ![oy.x, oy.y, oy.z], ![e.x, e.y, e.z]])) i j = (1 : Matrix (Fin 3) (Fin 3) ℝ) i j := by
    intro i j; rw [hmul']
  have g00 := g 0 0
  have g01 := g 0 1
  have g02 := g 0 2
  have g11 := g 1 1
  have g12 := g 1 2
  have g22 := g 2 2
  simp [Matrix.mul_apply, Fin.sum_univ_three] at g00 g01 g02 g11 g12 g22
  ext <;> simp only [R3.dot_def, R3.add_x, R3.add_y, R3.add_z, R3.smul_x, R3.smul_y, R3.smul_z]
  · linear_combination w.x * g00 + w.y * g01 + w.z * g02
  · linear_combination w.x * g01 + w.y * g11 + w.z * g12
  · linear_combination w.x * g02 + w.y * g12 + w.z * g22

-- a case that meets the hypotheses
example : R3.norm ⟨3 / 5, 0, 4 / 5⟩ = 1 := R3.norm_unit.2 (by norm_num [R3.dot])

end Verif.Vtx
