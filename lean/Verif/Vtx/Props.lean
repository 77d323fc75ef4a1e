import Verif.Vtx.Spec
import Verif.Mat.TransProps
/-
C75: vectors of space.  C76: vectors of the plane.  Without rounding.
-/
namespace Verif.Vtx
open Verif Verif.Exact Verif.Mx Verif.Mx.Mat

/-- the tolerance of comparisons -/
noncomputable def tol : ℝ := 1 / 10 ^ 6
theorem tol_pos : 0 < tol := by unfold tol; norm_num

theorem isEqual_zero (a : ℝ) : isEqual (X.r a) zero = true ↔ |a| < tol := by
  rw [zero_r, X.isEqual_r, sub_zero]; rfl
theorem isEqual_zero_nonneg {a : ℝ} (h : 0 ≤ a) : isEqual (X.r a) zero = true ↔ a < tol := by
  rw [isEqual_zero, abs_of_nonneg h]

/-! ### Vertex3 -/

theorem plus_toX (a b : R3) : a.toX.plus b.toX = (a + b).toX := rfl
theorem minus_toX (a b : R3) : a.toX.minus b.toX = (a - b).toX := rfl
theorem times_toX (t : ℝ) (a : R3) : V3.times (.r t) a.toX = (t * a).toX := rfl
theorem cross_toX (a b : R3) : a.toX.crossProduct b.toX = (R3.cross a b).toX := rfl
theorem dot_toX (a b : R3) : a.toX.dotProduct b.toX = .r (R3.dot a b) := rfl
theorem abs_toX (a : R3) : a.toX.abs = .r (R3.norm a) := by
  unfold V3.abs
  exact X.sqrt_r (R3.dot_self_nonneg a)

/-- Dividing by a number other than 0 undoes the multiplication, and the other way round. -/
theorem over_spec (a : R3) (t : ℝ) (h : t ≠ 0) :
    (V3.times (.r t) a.toX).over (.r t) = a.toX ∧ V3.times (.r t) (a.toX.over (.r t)) = a.toX := by
  have e : ∀ y : ℝ, (X.r t * X.r y) / X.r t = X.r y := fun y => by
    show X.r (t * y) / X.r t = _
    rw [X.div_r _ h, mul_div_cancel_left₀ _ h]
  have g : ∀ y : ℝ, X.r t * (X.r y / X.r t) = X.r y := fun y => by
    rw [X.div_r _ h]
    show X.r (t * (y / t)) = _
    rw [mul_div_cancel₀ _ h]
  constructor
  · show (⟨_, _, _⟩ : V3 X) = ⟨_, _, _⟩
    rw [V3.mk.injEq]
    exact ⟨e _, e _, e _⟩
  · show (⟨_, _, _⟩ : V3 X) = ⟨_, _, _⟩
    rw [V3.mk.injEq]
    exact ⟨g _, g _, g _⟩

/-- The same for vectors of the plane. -/
theorem over2_spec (x y t : ℝ) (h : t ≠ 0) :
    (V2.times (.r t) (⟨.r x, .r y⟩ : V2 X)).over (.r t) = ⟨.r x, .r y⟩ ∧
      V2.times (.r t) ((⟨.r x, .r y⟩ : V2 X).over (.r t)) = ⟨.r x, .r y⟩ := by
  have e : ∀ y : ℝ, (X.r t * X.r y) / X.r t = X.r y := fun y => by
    show X.r (t * y) / X.r t = _
    rw [X.div_r _ h, mul_div_cancel_left₀ _ h]
  have g : ∀ y : ℝ, X.r t * (X.r y / X.r t) = X.r y := fun y => by
    rw [X.div_r _ h]
    show X.r (t * (y / t)) = _
    rw [mul_div_cancel₀ _ h]
  constructor
  · show (⟨_, _⟩ : V2 X) = ⟨_, _⟩
    rw [V2.mk.injEq]
    exact ⟨e _, e _⟩
  · show (⟨_, _⟩ : V2 X) = ⟨_, _⟩
    rw [V2.mk.injEq]
    exact ⟨g _, g _⟩

/-- The cross product is perpendicular to both vectors, its length is the area of the parallelogram, and it
changes its sign with the order. -/
theorem crossProduct_spec (a b : R3) :
    ∃ c : R3, a.toX.crossProduct b.toX = c.toX ∧ b.toX.crossProduct a.toX = (-c).toX ∧ R3.dot a c = 0 ∧ R3.dot b c = 0 ∧
      R3.norm c ^ 2 = R3.norm a ^ 2 * R3.norm b ^ 2 - R3.dot a b ^ 2 := by
  refine ⟨R3.cross a b, rfl, ?_, ?_, ?_, ?_⟩
  · rw [cross_toX]
    congr 1
    ext <;> simp <;> ring
  · simp [R3.dot]; ring
  · simp [R3.dot]; ring
  · rw [pow_two, pow_two, pow_two, R3.norm_sq, R3.norm_sq, R3.norm_sq]
    simp [R3.dot]; ring

/-- The length, as computed: not negative, 0 only for the null vector, and the triangle inequality holds. -/
theorem abs_spec (a b : R3) :
    ∃ l m s : ℝ, a.toX.abs = .r l ∧ b.toX.abs = .r m ∧ (a.toX.plus b.toX).abs = .r s ∧ 0 ≤ l ∧ l ^ 2 = R3.dot a a ∧
      s ≤ l + m := by
  refine ⟨R3.norm a, R3.norm b, R3.norm (a + b), abs_toX a, abs_toX b, by rw [plus_toX, abs_toX], R3.norm_nonneg a,
    by rw [pow_two, R3.norm_sq], ?_⟩
  have hl : R3.dot a b ^ 2 ≤ (R3.norm a * R3.norm b) ^ 2 := by
    obtain ⟨c, -, -, -, -, h⟩ := crossProduct_spec a b
    have := sq_nonneg (R3.norm c)
    rw [h] at this
    rw [mul_pow]; linarith
  have hc : R3.dot a b ≤ R3.norm a * R3.norm b :=
    le_of_abs_le (abs_le_of_sq_le_sq hl (mul_nonneg (R3.norm_nonneg a) (R3.norm_nonneg b)))
  refine abs_le_of_sq_le_sq' ?_ (add_nonneg (R3.norm_nonneg a) (R3.norm_nonneg b)) |>.2
  rw [pow_two, R3.norm_sq, add_sq, pow_two, pow_two, R3.norm_sq, R3.norm_sq]
  have e : R3.dot (a + b) (a + b) = R3.dot a a + 2 * R3.dot a b + R3.dot b b := by simp [R3.dot]; ring
  rw [e]
  linarith

/-- Cauchy-Schwarz -/
theorem dot_bound (a b : R3) : |R3.dot a b| ≤ R3.norm a * R3.norm b := by
  refine abs_le_of_sq_le_sq ?_ (mul_nonneg (R3.norm_nonneg a) (R3.norm_nonneg b))
  obtain ⟨c, -, -, -, -, h⟩ := crossProduct_spec a b
  have := sq_nonneg (R3.norm c)
  rw [h] at this
  rw [mul_pow]; linarith

theorem normalized_toX (a : R3) (h : tol ≤ R3.norm a) : a.toX.normalized = ((1 / R3.norm a) * a).toX := by
  unfold V3.normalized
  have hp : 0 < R3.norm a := lt_of_lt_of_le tol_pos h
  rw [abs_toX, if_neg (by rw [isEqual_zero_nonneg (R3.norm_nonneg a)]; linarith), one_r, X.div_r _ (ne_of_gt hp)]
  rfl
theorem normalized_short (a : R3) (h : R3.norm a < tol) : a.toX.normalized = a.toX := by
  unfold V3.normalized
  rw [abs_toX, if_pos ((isEqual_zero_nonneg (R3.norm_nonneg a)).2 h)]
theorem norm_smul (t : ℝ) (a : R3) : R3.norm (t * a) = |t| * R3.norm a := by
  have e : R3.dot (t * a) (t * a) = t ^ 2 * R3.dot a a := by simp [R3.dot]; ring
  unfold R3.norm
  rw [e, Real.sqrt_mul (sq_nonneg t), Real.sqrt_sq_eq_abs]
theorem norm_normalized (a : R3) (h : 0 < R3.norm a) : R3.norm ((1 / R3.norm a) * a) = 1 := by
  rw [norm_smul, abs_of_pos (by positivity)]; field_simp

/-- A vector of length at least 10^-6 is normalized to length 1, in the same direction; a shorter one is
not changed. -/
theorem normalized_spec (a : R3) :
    (tol ≤ R3.norm a → ∃ u : R3, a.toX.normalized = u.toX ∧ R3.norm u = 1 ∧ a = R3.norm a * u) ∧
    (R3.norm a < tol → a.toX.normalized = a.toX) := by
  refine ⟨fun h => ?_, normalized_short a⟩
  have hp : 0 < R3.norm a := lt_of_lt_of_le tol_pos h
  refine ⟨(1 / R3.norm a) * a, normalized_toX a h, norm_normalized a hp, ?_⟩
  ext <;> simp <;> field_simp

/-- The angle between two vectors: in [0, π], with the right cosine; of a null vector it is not a number. -/
theorem angleTo_spec (a b : R3) :
    (a ≠ ⟨0, 0, 0⟩ → b ≠ ⟨0, 0, 0⟩ → ∃ θ : ℝ, a.toX.angleTo b.toX = .r θ ∧ 0 ≤ θ ∧ θ ≤ Real.pi ∧
      R3.dot a b = R3.norm a * R3.norm b * Real.cos θ) ∧
    (a = ⟨0, 0, 0⟩ ∨ b = ⟨0, 0, 0⟩ → a.toX.angleTo b.toX = .nan) := by
  constructor
  · intro ha hb
    have hpa : 0 < R3.norm a := lt_of_le_of_ne (R3.norm_nonneg a) (fun e => ha (R3.norm_eq_zero.1 e.symm))
    have hpb : 0 < R3.norm b := lt_of_le_of_ne (R3.norm_nonneg b) (fun e => hb (R3.norm_eq_zero.1 e.symm))
    have hpp := mul_pos hpa hpb
    have hb := abs_le.1 (dot_bound a b)
    have h1 : -1 ≤ R3.dot a b / (R3.norm a * R3.norm b) := by rw [le_div_iff₀ hpp]; linarith [hb.1]
    have h2 : R3.dot a b / (R3.norm a * R3.norm b) ≤ 1 := by rw [div_le_iff₀ hpp]; linarith [hb.2]
    refine ⟨Real.arccos (R3.dot a b / (R3.norm a * R3.norm b)), ?_, Real.arccos_nonneg _, Real.arccos_le_pi _, ?_⟩
    · unfold V3.angleTo
      rw [dot_toX, abs_toX, abs_toX, X.mul_r, X.div_r _ (ne_of_gt hpp), X.acos_r h1 h2]
    · rw [Real.cos_arccos h1 h2]; field_simp
  · intro h
    have : R3.norm a * R3.norm b = 0 := by
      rcases h with h | h
      · rw [R3.norm_eq_zero.2 h, zero_mul]
      · rw [R3.norm_eq_zero.2 h, mul_zero]
    unfold V3.angleTo
    rw [dot_toX, abs_toX, abs_toX, X.mul_r, this, X.div_zero]; rfl

/-- The tests for null, perpendicular and parallel vectors compare with 10^-6. -/
theorem tests_spec (a b : R3) :
    (a.toX.isNull = true ↔ |a.x| < tol ∧ |a.y| < tol ∧ |a.z| < tol) ∧
    (a.toX.isOrthogonal b.toX = true ↔ |R3.dot a b| < tol) ∧
    (a.toX.isCollinear b.toX = true ↔ R3.norm (R3.cross a b) < tol) ∧ a.toX.isValid = true := by
  refine ⟨?_, ?_, ?_, ?_⟩
  · unfold V3.isNull
    simp only [R3.toX, Bool.and_eq_true, isEqual_zero, and_assoc]
  · unfold V3.isOrthogonal
    rw [dot_toX, isEqual_zero]
  · unfold V3.isCollinear
    rw [cross_toX, abs_toX, isEqual_zero_nonneg (R3.norm_nonneg _)]
  · have : ∀ t, isNaN (X.r t) = false := by
      intro t
      rw [← Bool.not_eq_true, X.isNaN_iff]
      intro e; cases e
    simp [V3.isValid, R3.toX, this]

/-- Both tests depend on the lengths: two short perpendicular vectors count as parallel and as perpendicular,
two long vectors at a tiny angle do not count as parallel. -/
theorem tests_depend_on_length :
    (R3.toX ⟨1 / 10 ^ 4, 0, 0⟩).isCollinear (R3.toX ⟨0, 1 / 10 ^ 4, 0⟩) = true ∧
    (R3.toX ⟨1 / 10 ^ 4, 0, 0⟩).isOrthogonal (R3.toX ⟨1 / 10 ^ 4, 0, 0⟩) = true ∧
    (R3.toX ⟨10 ^ 6, 0, 0⟩).isCollinear (R3.toX ⟨10 ^ 6, 1 / 10 ^ 6, 0⟩) = false := by
  refine ⟨?_, ?_, ?_⟩
  · rw [(tests_spec _ _).2.2.1]
    have : R3.norm (R3.cross ⟨1 / 10 ^ 4, 0, 0⟩ ⟨0, 1 / 10 ^ 4, 0⟩) = 1 / 10 ^ 8 := by
      unfold R3.norm
      rw [show R3.dot (R3.cross ⟨1 / 10 ^ 4, 0, 0⟩ ⟨0, 1 / 10 ^ 4, 0⟩) (R3.cross ⟨1 / 10 ^ 4, 0, 0⟩ ⟨0, 1 / 10 ^ 4, 0⟩) =
        (1 / 10 ^ 8) ^ 2 by norm_num [R3.dot], Real.sqrt_sq (by norm_num)]
    rw [this]; unfold tol; norm_num
  · rw [(tests_spec _ _).2.1]
    unfold tol; norm_num [R3.dot]
  · rw [← Bool.not_eq_true, (tests_spec _ _).2.2.1]
    have : R3.norm (R3.cross ⟨10 ^ 6, 0, 0⟩ ⟨10 ^ 6, 1 / 10 ^ 6, 0⟩) = 1 := by
      rw [R3.norm_unit]; norm_num [R3.dot]
    rw [this]; unfold tol; norm_num

/-- `biggest` is one of the components, and the largest one if the two largest differ; with a tie of x and y
it returns z. -/
theorem biggest_spec (a : R3) :
    ∃ v : ℝ, a.toX.biggest = .r v ∧ (v = a.x ∨ v = a.y ∨ v = a.z) ∧
      ((a.x = a.y → a.x ≤ a.z) → a.x ≤ v ∧ a.y ≤ v ∧ a.z ≤ v) ∧ (a.x = a.y → v = a.z) := by
  unfold V3.biggest
  simp only [R3.toX, Bool.and_eq_true, X.lt_r]
  by_cases h1 : a.y < a.x ∧ a.z < a.x
  · rw [if_pos h1]
    exact ⟨a.x, rfl, .inl rfl, fun _ => ⟨le_refl _, h1.1.le, h1.2.le⟩, fun e => absurd e (ne_of_gt h1.1)⟩
  · rw [if_neg h1]
    by_cases h2 : a.x < a.y ∧ a.z < a.y
    · rw [if_pos h2]
      exact ⟨a.y, rfl, .inr (.inl rfl), fun _ => ⟨h2.1.le, le_refl _, h2.2.le⟩, fun e => absurd e (ne_of_lt h2.1)⟩
    · rw [if_neg h2]
      refine ⟨a.z, rfl, .inr (.inr rfl), fun h => ?_, fun _ => rfl⟩
      rcases lt_trichotomy a.x a.y with h3 | h3 | h3
      · have : a.y ≤ a.z := not_lt.1 fun c => h2 ⟨h3, c⟩
        exact ⟨by linarith, this, le_refl _⟩
      · have := h h3
        exact ⟨this, by linarith, le_refl _⟩
      · have : a.x ≤ a.z := not_lt.1 fun c => h1 ⟨h3, c⟩
        exact ⟨this, by linarith, le_refl _⟩
theorem biggest_tie : (R3.toX ⟨2, 2, 1⟩).biggest = .r 1 := by
  obtain ⟨v, e, -, -, h⟩ := biggest_spec ⟨2, 2, 1⟩
  rw [e, h rfl]

/-- Rotation of a vector around the axes and around a unit vector, see `rodrigues_rotation`; the length is kept. -/
theorem rotate_spec (v : R3) (t : ℝ) (a : R3) (ha : R3.norm a = 1) :
    (∃ w : R3, v.toX.rotateX (.r t) = .ok w.toX ∧ w = ⟨v.x, v.y * Real.cos t - v.z * Real.sin t, v.y * Real.sin t + v.z * Real.cos t⟩) ∧
    (∃ w : R3, v.toX.rotateY (.r t) = .ok w.toX ∧ w = ⟨v.x * Real.cos t + v.z * Real.sin t, v.y, v.z * Real.cos t - v.x * Real.sin t⟩) ∧
    (∃ w : R3, v.toX.rotateZ (.r t) = .ok w.toX ∧ w = ⟨v.x * Real.cos t - v.y * Real.sin t, v.x * Real.sin t + v.y * Real.cos t, v.z⟩) ∧
    (∃ w : R3, v.toX.rotate (.r t) a.toX = .ok w.toX ∧ R3.norm w = R3.norm v ∧ R3.dot a w = R3.dot a v ∧
      w.toX.rotate (.r (-t)) a.toX = .ok v.toX) := by
  obtain ⟨hx, hy, hz⟩ := rotationXYZ t v
  refine ⟨⟨_, hx, ?_⟩, ⟨_, hy, ?_⟩, ⟨_, hz, ?_⟩, ⟨rodrigues a t v, rotation_spec a t v, ?_, ?_, ?_⟩⟩
  · ext <;> simp [rodrigues, R3.dot] <;> ring
  · ext <;> simp [rodrigues, R3.dot] <;> ring
  · ext <;> simp [rodrigues, R3.dot] <;> ring
  · unfold R3.norm; rw [(rodrigues_rotation a ha t).1]
  · have h := (rodrigues_rotation a ha t).1 a v
    rw [(rodrigues_rotation a ha t).2.1] at h
    exact h
  · have := rotation_spec a (-t) (rodrigues a t v)
    rw [(rodrigues_rotation a ha (-t)).2.2.2.1, neg_add_cancel, (rodrigues_rotation a ha t).2.2.2.2] at this
    exact this

/-- `==` and `!=` are opposites; `==` compares each component with the tolerance. -/
theorem eq_spec (a b : R3) :
    (a.toX.eq b.toX = true ↔ |a.x - b.x| < tol ∧ |a.y - b.y| < tol ∧ |a.z - b.z| < tol) ∧
    a.toX.ne b.toX = !(a.toX.eq b.toX) := by
  have h1 : a.toX.eq b.toX = true ↔ |a.x - b.x| < tol ∧ |a.y - b.y| < tol ∧ |a.z - b.z| < tol := by
    unfold V3.eq
    simp only [R3.toX, Bool.and_eq_true, X.isEqual_r, and_assoc]; rfl
  refine ⟨h1, ?_⟩
  rw [Bool.eq_iff_iff, Bool.not_eq_true', ← Bool.not_eq_true, h1]
  unfold V3.ne
  simp only [R3.toX, Bool.or_eq_true, X.isNotEqual_r]
  rw [not_and_or, not_and_or, not_lt, not_lt, not_lt, or_assoc]; rfl

/-- `==` is not transitive. -/
theorem eq_not_transitive : ∃ a b c : R3, a.toX.eq b.toX = true ∧ b.toX.eq c.toX = true ∧ a.toX.eq c.toX = false := by
  refine ⟨⟨0, 0, 0⟩, ⟨9 / 10 ^ 7, 0, 0⟩, ⟨18 / 10 ^ 7, 0, 0⟩, ?_, ?_, ?_⟩
  · rw [(eq_spec _ _).1]; unfold tol; norm_num [abs_lt]
  · rw [(eq_spec _ _).1]; unfold tol; norm_num [abs_lt]
  · rw [← Bool.not_eq_true, (eq_spec _ _).1]; unfold tol; norm_num [abs_lt]

/-- Three vectors count as independent if the determinant is at least 10^-6 in size. -/
theorem isLinearIndependent_spec (a b c : R3) :
    isLinearIndependent a.toX b.toX c.toX = .ok (decide (tol ≤ |R3.dot a (R3.cross b c)|)) := by
  unfold isLinearIndependent
  have h : Rep (ofVertices a.toX b.toX c.toX false) (Matrix.of ![![a.x, b.x, c.x], ![a.y, b.y, c.y], ![a.z, b.z, c.z]]) :=
    rep3 _ _ _ _ _ _ _ _ _
  rw [det_spec h (by omega) (by omega)]
  simp only [bind, Except.bind, pure, Except.pure]
  congr 1
  rw [Bool.eq_iff_iff, decide_eq_true_iff, zero_r, X.isNotEqual_r, sub_zero]
  have e : (Matrix.of ![![a.x, b.x, c.x], ![a.y, b.y, c.y], ![a.z, b.z, c.z]]).det = R3.dot a (R3.cross b c) := by
    rw [Matrix.det_fin_three]; simp [R3.dot]; ring
  rw [e]; rfl

end Verif.Vtx
