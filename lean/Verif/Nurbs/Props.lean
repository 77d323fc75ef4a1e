import Verif.Nurbs.Lemmas
import Verif.Mat.TransProps
/-
C84: NURBS curves.
-/
namespace Verif.Nurbs
open Verif Verif.Exact Verif.Mx Verif.Mx.Mat Verif.Vtx Finset

/-! ### The knots as a monotone sequence -/

/-- the knots, continued by the last one -/
def Data.v (d : Data) (i : ℕ) : ℝ := d.u (min i (d.knots.length - 1))

theorem Data.v_eq (d : Data) {i : ℕ} (h : i < d.knots.length) : d.v i = d.u i := by
  unfold Data.v; rw [min_eq_left (by omega)]

theorem Data.Valid.mono {d : Data} (h : d.Valid) : Monotone d.v := by
  apply monotone_nat_of_le_succ
  intro i
  unfold Data.v
  by_cases hi : i + 1 < d.knots.length
  · rw [min_eq_left (by omega), min_eq_left (by omega)]; exact h.sorted i hi
  · rw [min_eq_right (by omega), min_eq_right (by omega)]

theorem Data.Valid.gap {d : Data} (h : d.Valid) (hs : d.Spaced) (i j : ℕ) (hij : i ≤ j) : d.v i = d.v j ∨ d.v i + tol ≤ d.v j := by
  obtain ⟨m, rfl⟩ : ∃ m, j = i + m := ⟨j - i, by omega⟩
  clear hij
  induction m with
  | zero => left; rfl
  | succ m ih =>
    have hm := h.mono (show i + m ≤ i + (m + 1) by omega)
    rcases ih with ih | ih
    · by_cases hi : i + m + 1 < d.knots.length
      · have := hs (i + m) hi
        rw [← d.v_eq hi, ← d.v_eq (show i + m < d.knots.length by omega)] at this
        rw [ih]; exact this
      · left
        rw [ih]
        unfold Data.v
        rw [min_eq_right (by omega), min_eq_right (by omega)]
    · right; linarith

theorem rd_knot (d : Data) {i : ℕ} (h : i < d.knots.length) : rd (d.knots.map X.r) i = .ok (.r (d.v i)) := by
  rw [rd_ok (by simpa using h), d.v_eq h]
  simp [Data.u, List.getD_eq_getElem?_getD, h]
theorem rd_weight (d : Data) {i : ℕ} (h : i < d.weights.length) : rd (d.weights.map X.r) i = .ok (.r (d.w i)) := by
  rw [rd_ok (by simpa using h)]
  simp [Data.w, List.getD_eq_getElem?_getD, h]
theorem rd_point (d : Data) {i : ℕ} (h : i < d.n) : rd (d.points.map R3.toX) i = .ok (d.p i).toX := by
  have h' : i < d.points.length := h
  rw [rd_ok (by simpa using h')]
  simp [Data.p, List.getD_eq_getElem?_getD, h']

theorem part_toX (n a b : ℝ) (h : b = 0 ∨ tol ≤ b) : part (.ok (X.r n)) (.r a) (.r b) = .ok (.r (n * (a / b))) := by
  unfold part
  rcases h with rfl | h
  · have : isEqual (X.r 0) zero = true := (isEqual_zero 0).2 (by rw [abs_zero]; exact tol_pos)
    rw [this, zero_r]; simp
  · have hp : 0 < b := lt_of_lt_of_le tol_pos h
    have : isEqual (X.r b) zero = false := by
      rw [← Bool.not_eq_true, isEqual_zero, abs_of_pos hp]; exact not_lt.2 h
    rw [this]
    simp only [Bool.not_false, if_true, bind, Except.bind, pure, Except.pure, X.mul_r, X.div_r _ (ne_of_gt hp), mul_div_assoc]

theorem basis_toX {d : Data} (h : d.Valid) (hs : d.Spaced) (t : ℝ) : ∀ k i, i + k + 1 < d.knots.length →
    basis (d.knots.map X.r) (.r t) k i = .ok (.r (B d.v t k i)) := by
  have hsm := h.small
  intro k
  induction k with
  | zero =>
    intro i hi
    simp only [basis, basis0, u32]
    rw [Nat.mod_eq_of_lt (by omega), rd_knot d (by omega), rd_knot d (by omega)]
    simp only [bind, Except.bind, B]
    by_cases h1 : d.v i ≤ t
    · rw [if_pos ((X.le_r _ _).2 h1)]
      by_cases h2 : t < d.v (i + 1)
      · rw [if_pos ((X.lt_r _ _).2 h2), if_pos ⟨h1, h2⟩, one_r]
      · rw [if_neg (mt (X.lt_r _ _).1 h2), if_neg (by tauto), zero_r]
    · rw [if_neg (mt (X.le_r _ _).1 h1), if_neg (by tauto), zero_r]
  | succ k ih =>
    intro i hi
    simp only [basis, u32]
    rw [Nat.mod_eq_of_lt (show i + (k + 1) < 2 ^ 32 by omega), Nat.mod_eq_of_lt (show i + (k + 1) + 1 < 2 ^ 32 by omega),
      Nat.mod_eq_of_lt (show i + 1 < 2 ^ 32 by omega), rd_knot d (show i < _ by omega), rd_knot d (show i + (k + 1) < _ by omega),
      rd_knot d (show i + (k + 1) + 1 < _ by omega), rd_knot d (show i + 1 < _ by omega), ih i (by omega), ih (i + 1) (by omega)]
    simp only [bind, Except.bind, X.sub_r]
    rw [part_toX _ _ _ (by rcases h.gap hs i (i + (k + 1)) (by omega) with e | e
                           · left; linarith
                           · right; linarith),
      part_toX _ _ _ (by rcases h.gap hs (i + 1) (i + (k + 1) + 1) (by omega) with e | e
                         · left; linarith
                         · right; linarith)]
    rfl

/-- a loop that adds numbers -/
theorem sumLoop {α : Type} (step : α → ℕ → Res α) (g : ℕ → α) (n : ℕ) (h : ∀ j, j < n → step (g j) j = .ok (g (j + 1))) :
    (List.range n).foldlM step (g 0) = .ok (g n) := by
  induction n with
  | zero => rfl
  | succ n ih =>
    rw [List.range_succ, List.foldlM_append, ih (fun j hj => h j (by omega))]
    simp only [bind, Except.bind, List.foldlM_cons, List.foldlM_nil, h n (by omega), pure, Except.pure]

theorem weightSum_toX {d : Data} (h : d.Valid) (hs : d.Spaced) (t : ℝ) :
    d.toX.weightSum d.degree (.r t) = .ok (.r (∑ i ∈ range d.n, d.w i * B d.v t d.degree i)) := by
  unfold Curve.weightSum
  have hl : d.toX.points.length = d.n := by simp [Data.toX, Data.n]
  rw [hl]
  have := sumLoop (α := X) (fun b j => do
    let w ← rd d.toX.weights j
    let n ← basis d.toX.knots (.r t) d.degree j
    return b + w * n) (fun m => .r (∑ i ∈ range m, d.w i * B d.v t d.degree i)) d.n (by
      intro j hj
      have hw := h.weights
      have hk := h.knots
      simp only [Data.toX, rd_weight d (show j < d.weights.length by omega), basis_toX h hs t d.degree j (by omega), bind, Except.bind,
        pure, Except.pure, X.mul_r, X.add_r, sum_range_succ])
  simp only [range_zero, sum_empty] at this
  rw [zero_r]
  exact this

theorem point_run {d : Data} (h : d.Valid) (hs : d.Spaced) (t : ℝ) (r : ℕ → X)
    (hr : ∀ i, i < d.n → X.r (d.w i * B d.v t d.degree i) / X.r (∑ i ∈ range d.n, d.w i * B d.v t d.degree i) = r i)
    (g : ℕ → V3 X) (h0 : g 0 = ⟨.r 0, .r 0, .r 0⟩) (hg : ∀ i, i < d.n → (g i).plus (.times (r i) (d.p i).toX) = g (i + 1)) :
    d.toX.point (.r t) = .ok (g d.n) := by
  unfold Curve.point
  have hl : d.toX.points.length = d.n := by simp [Data.toX, Data.n]
  rw [hl]
  have := sumLoop (α := V3 X) (fun P i => do
    let p ← rd d.toX.points i
    let r ← d.toX.ratio i d.toX.degree (.r t)
    return P.plus (.times r p)) g d.n (by
      intro j hj
      have hw := h.weights
      have hk := h.knots
      have e1 : rd d.toX.points j = .ok (d.p j).toX := rd_point d hj
      have e2 : d.toX.ratio j d.toX.degree (.r t) = .ok (r j) := by
        simp only [Curve.ratio]
        rw [show d.toX.degree = d.degree from rfl, weightSum_toX h hs t]
        simp only [Data.toX, rd_weight d (show j < d.weights.length by omega), basis_toX h hs t d.degree j (by omega), bind, Except.bind,
          pure, Except.pure, X.mul_r]
        rw [hr j hj]
      simp only [e1, e2, bind, Except.bind, pure, Except.pure, hg j hj])
  rw [h0] at this
  rw [zero_r]
  exact this

/-! ### The theorems -/

/-- the values of the basis at the parameter, as the code calculates them -/
theorem isBasis {d : Data} (h : d.Valid) {t : ℝ} (h0 : d.u d.degree ≤ t) (h1 : t < d.u d.n) :
    IsBasis d.u d.n d.degree t (B d.v t d.degree) := by
  have hk := h.knots
  rw [← d.v_eq (show d.degree < _ by omega)] at h0
  rw [← d.v_eq (show d.n < _ by omega)] at h1
  constructor
  · intro i hi hne
    have := B_supp h.mono t d.degree i hne
    rwa [d.v_eq (show i < _ by omega), d.v_eq (show i + d.degree + 1 < _ by omega)] at this
  · intro x
    rw [← B_marsden h.mono t d.n h1 x d.degree h0]
    apply sum_congr rfl
    intro i hi
    rw [mem_range] at hi
    congr 1
    apply prod_congr rfl
    intro j hj
    rw [mem_range] at hj
    rw [d.v_eq (by omega)]

/-- There is exactly one B-spline basis: the specification determines the point of the curve. -/
theorem basis_unique {d : Data} (h : d.Valid) {t : ℝ} (h0 : d.u d.degree ≤ t) (h1 : t < d.u d.n) {N N' : ℕ → ℝ}
    (hN : IsBasis d.u d.n d.degree t N) (hN' : IsBasis d.u d.n d.degree t N') : ∀ i, i < d.n → N i = N' i := by
  have hk := h.knots
  have conv : ∀ N, IsBasis d.u d.n d.degree t N → IsBasis d.v d.n d.degree t N := by
    intro N hN
    constructor
    · intro i hi hne
      have := hN.1 i hi hne
      rwa [d.v_eq (show i < _ by omega), d.v_eq (show i + d.degree + 1 < _ by omega)]
    · intro x
      rw [← hN.2 x]
      apply sum_congr rfl
      intro i hi
      rw [mem_range] at hi
      congr 1
      apply prod_congr rfl
      intro j hj
      rw [mem_range] at hj
      rw [d.v_eq (by omega)]
  exact basis_unique' h.mono (by rwa [d.v_eq (by omega)]) (by rwa [d.v_eq (by omega)]) (conv N hN) (conv N' hN')

theorem weights_pos {d : Data} (h : d.Valid) {t : ℝ} (h0 : d.u d.degree ≤ t) (h1 : t < d.u d.n) :
    0 < ∑ i ∈ range d.n, d.w i * B d.v t d.degree i := by
  have hk := h.knots
  rw [← d.v_eq (show d.degree < _ by omega)] at h0
  rw [← d.v_eq (show d.n < _ by omega)] at h1
  have hp := B_partition h.mono t d.n h1 d.degree h0
  have hnn : ∀ i ∈ range d.n, 0 ≤ d.w i * B d.v t d.degree i := fun i hi =>
    mul_nonneg (le_of_lt (h.positive i (mem_range.1 hi))) (B_nonneg h.mono t _ i)
  rcases (sum_nonneg hnn).lt_or_eq with hlt | heq
  · exact hlt
  · exfalso
    have hz := (sum_eq_zero_iff_of_nonneg hnn).1 heq.symm
    have : ∑ i ∈ range d.n, B d.v t d.degree i = 0 := by
      apply sum_eq_zero
      intro i hi
      have h2 := hz i hi
      rcases mul_eq_zero.1 h2 with h3 | h3
      · exact absurd h3 (ne_of_gt (h.positive i (mem_range.1 hi)))
      · exact h3
    linarith

theorem point_mean {d : Data} (h : d.Valid) (hs : d.Spaced) {t : ℝ} (h0 : d.u d.degree ≤ t) (h1 : t < d.u d.n) :
    d.toX.point (.r t) = .ok (mean d fun i => d.w i * B d.v t d.degree i).toX := by
  have hW := weights_pos h h0 h1
  set W := ∑ i ∈ range d.n, d.w i * B d.v t d.degree i with hWd
  have hWne := ne_of_gt hW
  have := point_run h hs t (fun i => .r (d.w i * B d.v t d.degree i / W)) (fun i _ => X.div_r _ hWne)
    (fun m => ⟨.r ((∑ i ∈ range m, d.w i * B d.v t d.degree i * (d.p i).x) / W), .r ((∑ i ∈ range m, d.w i * B d.v t d.degree i * (d.p i).y) / W),
      .r ((∑ i ∈ range m, d.w i * B d.v t d.degree i * (d.p i).z) / W)⟩) (by simp) (by
    intro i _
    simp only [V3.plus, V3.times, R3.toX, X.mul_r, X.add_r, sum_range_succ]
    congr 2 <;> ring)
  rw [this]
  simp only [mean, R3.toX, ← hWd]

/-- Between the knots number `degree` and `n` the result is the point of the rational curve.
Missing: parameters outside, see `point_outside`; knots closer than 10^-6, see `point_close_knots`. -/
theorem point_partial {d : Data} (h : d.Valid) (hs : d.Spaced) {t : ℝ} (h0 : d.u d.degree ≤ t) (h1 : t < d.u d.n) :
    ∃ q : R3, d.toX.point (.r t) = .ok q.toX ∧ OnCurve d t q ∧ ∀ q', OnCurve d t q' → q' = q := by
  refine ⟨_, point_mean h hs h0 h1, ⟨_, isBasis h h0 h1, rfl⟩, ?_⟩
  rintro q' ⟨N, hN, rfl⟩
  have he := basis_unique h h0 h1 hN (isBasis h h0 h1)
  unfold mean
  simp only
  have e : ∀ f : ℕ → ℝ, ∑ i ∈ range d.n, d.w i * N i * f i = ∑ i ∈ range d.n, d.w i * B d.v t d.degree i * f i := by
    intro f
    apply sum_congr rfl
    intro i hi
    rw [he i (mem_range.1 hi)]
  have e1 : ∑ i ∈ range d.n, d.w i * N i = ∑ i ∈ range d.n, d.w i * B d.v t d.degree i := by
    apply sum_congr rfl
    intro i hi
    rw [he i (mem_range.1 hi)]
  rw [e, e, e, e1]

/-- The point is a convex combination of the `degree + 1` control points whose intervals hold the parameter. -/
theorem point_hull_partial {d : Data} (h : d.Valid) (hs : d.Spaced) {t : ℝ} (h0 : d.u d.degree ≤ t) (h1 : t < d.u d.n) :
    ∃ c : ℕ → ℝ, (∀ i, 0 ≤ c i) ∧ (∀ i, i < d.n → c i ≠ 0 → d.u i ≤ t ∧ t < d.u (i + d.degree + 1)) ∧ ∑ i ∈ range d.n, c i = 1 ∧
      d.toX.point (.r t) = .ok (R3.toX ⟨∑ i ∈ range d.n, c i * (d.p i).x, ∑ i ∈ range d.n, c i * (d.p i).y, ∑ i ∈ range d.n, c i * (d.p i).z⟩) := by
  have hW := weights_pos h h0 h1
  set W := ∑ i ∈ range d.n, d.w i * B d.v t d.degree i with hWd
  have hWne := ne_of_gt hW
  refine ⟨fun i => if i < d.n then d.w i * B d.v t d.degree i / W else 0, ?_, ?_, ?_, ?_⟩
  · intro i
    simp only
    split
    · rename_i hi
      exact div_nonneg (mul_nonneg (le_of_lt (h.positive i hi)) (B_nonneg h.mono t _ i)) (le_of_lt hW)
    · exact le_rfl
  · intro i hi hne
    simp only [if_pos hi] at hne
    apply (isBasis h h0 h1).1 i hi
    intro hz
    apply hne
    rw [hz]; simp
  · rw [sum_congr rfl (fun i hi => if_pos (mem_range.1 hi)), ← sum_div, ← hWd, div_self hWne]
  · rw [point_mean h hs h0 h1]
    unfold mean
    simp only [← hWd]
    have e : ∀ f : ℕ → ℝ, (∑ i ∈ range d.n, d.w i * B d.v t d.degree i * f i) / W =
        ∑ i ∈ range d.n, (if i < d.n then d.w i * B d.v t d.degree i / W else 0) * f i := by
      intro f
      rw [sum_div]
      apply sum_congr rfl
      intro i hi
      rw [if_pos (mem_range.1 hi)]; ring
    rw [e, e, e]

/-- Transforming the control points transforms the curve. -/
theorem point_affine_partial {d : Data} (h : d.Valid) (hs : d.Spaced) {t : ℝ} (h0 : d.u d.degree ≤ t) (h1 : t < d.u d.n)
    (M : Matrix (Fin 4) (Fin 4) ℝ) :
    ∃ q : R3, d.toX.point (.r t) = .ok q.toX ∧ { d with points := d.points.map (affine M) }.toX.point (.r t) = .ok (affine M q).toX := by
  set d' : Data := { d with points := d.points.map (affine M) } with hd'
  have hn : d'.n = d.n := by simp [hd', Data.n]
  have h' : d'.Valid := ⟨h.degree, by rw [hn]; exact h.points, by rw [hn]; exact h.knots, h.small, by rw [hn]; exact h.weights,
    by rw [hn]; exact h.positive, h.sorted⟩
  refine ⟨_, point_mean h hs h0 h1, ?_⟩
  rw [point_mean (d := d') h' hs h0 (by rw [hn]; exact h1)]
  have hW := weights_pos h h0 h1
  congr 2
  unfold mean
  rw [hn]
  have e1 : ∀ i, d'.w i * B d'.v t d'.degree i = d.w i * B d.v t d.degree i := fun i => rfl
  simp only [e1]
  set c := fun i => d.w i * B d.v t d.degree i with hc
  have e2 : ∀ i, i < d.n → d'.p i = affine M (d.p i) := by
    intro i hi
    have hi' : i < d.points.length := hi
    simp [hd', Data.p, List.getD_eq_getElem?_getD, hi']
  have hWne : ∑ i ∈ range d.n, c i ≠ 0 := ne_of_gt hW
  have key : ∀ (f : R3 → ℝ) (a b e g : ℝ), (∀ v : R3, f (affine M v) = a * v.x + b * v.y + e * v.z + g) →
      (∑ i ∈ range d.n, c i * f (d'.p i)) / (∑ i ∈ range d.n, c i) =
        a * ((∑ i ∈ range d.n, c i * (d.p i).x) / ∑ i ∈ range d.n, c i) + b * ((∑ i ∈ range d.n, c i * (d.p i).y) / ∑ i ∈ range d.n, c i) +
        e * ((∑ i ∈ range d.n, c i * (d.p i).z) / ∑ i ∈ range d.n, c i) + g := by
    intro f a b e g hf
    have : ∑ i ∈ range d.n, c i * f (d'.p i) = a * (∑ i ∈ range d.n, c i * (d.p i).x) + b * (∑ i ∈ range d.n, c i * (d.p i).y) +
        e * (∑ i ∈ range d.n, c i * (d.p i).z) + g * ∑ i ∈ range d.n, c i := by
      rw [mul_sum, mul_sum, mul_sum, mul_sum, ← sum_add_distrib, ← sum_add_distrib, ← sum_add_distrib]
      apply sum_congr rfl
      intro i hi
      rw [e2 i (mem_range.1 hi), hf]; ring
    rw [this]
    field_simp
  rw [affine]
  congr 1
  · exact key (·.x) _ _ _ _ (fun v => rfl)
  · exact key (·.y) _ _ _ _ (fun v => rfl)
  · exact key (·.z) _ _ _ _ (fun v => rfl)

/-- With equal weights the curve is the B-spline curve. -/
theorem point_equal_weights_partial {d : Data} (h : d.Valid) (hs : d.Spaced) {t : ℝ} (h0 : d.u d.degree ≤ t) (h1 : t < d.u d.n)
    (hw : ∀ i, i < d.n → d.w i = d.w 0) : ∃ N : ℕ → ℝ, IsBasis d.u d.n d.degree t N ∧
      d.toX.point (.r t) = .ok (R3.toX ⟨∑ i ∈ range d.n, N i * (d.p i).x, ∑ i ∈ range d.n, N i * (d.p i).y, ∑ i ∈ range d.n, N i * (d.p i).z⟩) := by
  refine ⟨_, isBasis h h0 h1, ?_⟩
  rw [point_mean h hs h0 h1]
  have hk := h.knots
  have hpt := h.points
  have hp := B_partition h.mono t d.n (by rwa [d.v_eq (by omega)]) d.degree (by rwa [d.v_eq (by omega)])
  have hw0 := ne_of_gt (h.positive 0 (by omega))
  unfold mean
  have e : ∀ f : ℕ → ℝ, ∑ i ∈ range d.n, d.w i * B d.v t d.degree i * f i = d.w 0 * ∑ i ∈ range d.n, B d.v t d.degree i * f i := by
    intro f
    rw [mul_sum]
    apply sum_congr rfl
    intro i hi
    rw [hw i (mem_range.1 hi)]; ring
  have e1 := e (fun _ => 1)
  simp only [mul_one, hp] at e1
  simp only [e, e1, mul_div_cancel_left₀ _ hw0]

/-- A curve whose first knots coincide starts in its first control point. -/
theorem point_start_partial {d : Data} (h : d.Valid) (hs : d.Spaced) (hc : d.u 1 = d.u d.degree) (h2 : d.u d.degree < d.u (d.degree + 1)) :
    d.toX.point (.r (d.u d.degree)) = .ok (d.p 0).toX := by
  have hk := h.knots
  have hpt := h.points
  have hdg := h.degree
  have h1 : d.u d.degree < d.u d.n := by
    have := h.mono (show d.degree + 1 ≤ d.n by omega)
    rw [d.v_eq (by omega), d.v_eq (by omega)] at this
    linarith
  have hb := isBasis h le_rfl h1
  have hN : IsBasis d.u d.n d.degree (d.u d.degree) (fun i => if i = 0 then 1 else 0) := by
    constructor
    · intro i hi hne
      have : i = 0 := by by_contra hne'; simp [hne'] at hne
      subst this
      have := h.mono (show 0 ≤ d.degree by omega)
      rw [d.v_eq (by omega), d.v_eq (by omega)] at this
      refine ⟨this, by simpa using h2⟩
    · intro x
      rw [sum_eq_single 0 (fun i _ hi => by simp [hi]) (fun h => absurd (mem_range.2 (show 0 < d.n by omega)) h)]
      simp only [if_true, one_mul]
      rw [prod_eq_pow_card (b := x - d.u d.degree), card_range]
      intro j hj
      rw [mem_range] at hj
      have a := h.mono (show 1 ≤ 0 + 1 + j by omega)
      have b := h.mono (show 0 + 1 + j ≤ d.degree by omega)
      rw [d.v_eq (by omega), d.v_eq (by omega)] at a b
      rw [show d.u (0 + 1 + j) = d.u d.degree by linarith]
  have he := basis_unique h le_rfl h1 hb hN
  rw [point_mean h hs le_rfl h1]
  unfold mean
  have hw0 := ne_of_gt (h.positive 0 (by omega))
  have e : ∀ f : ℕ → ℝ, ∑ i ∈ range d.n, d.w i * B d.v (d.u d.degree) d.degree i * f i = d.w 0 * f 0 := by
    intro f
    rw [sum_eq_single 0]
    · rw [he 0 (by omega)]; simp
    · intro i hi hne
      rw [he i (mem_range.1 hi)]; simp [hne]
    · intro h; exact absurd (mem_range.2 (show 0 < d.n by omega)) h
  have e1 := e (fun _ => 1)
  simp only [mul_one] at e1
  simp only [e, e1, mul_div_cancel_left₀ _ hw0]

/-- The knots 0, …, 0, 1, …, 1: the curve is the (rational) Bézier curve, with the Bernstein polynomials. -/
theorem point_bezier {d : Data} (h : d.Valid) (hn : d.n = d.degree + 1) (h0 : ∀ i, i ≤ d.degree → d.u i = 0)
    (h1 : ∀ i, d.degree < i → i < d.knots.length → d.u i = 1) {t : ℝ} (ht0 : 0 ≤ t) (ht1 : t < 1) :
    d.toX.point (.r t) = .ok (mean d fun i => d.w i * (d.degree.choose i * t ^ i * (1 - t) ^ (d.degree - i))).toX := by
  have hk := h.knots
  have hs : d.Spaced := by
    intro i hi
    by_cases h2 : i + 1 ≤ d.degree
    · left; rw [h0 i (by omega), h0 _ h2]
    · by_cases h3 : i ≤ d.degree
      · right; rw [h0 i h3, h1 _ (by omega) hi]; unfold tol; norm_num
      · left; rw [h1 i (by omega) (by omega), h1 _ (by omega) hi]
  have ha : d.u d.degree ≤ t := by rw [h0 _ le_rfl]; exact ht0
  have hb : t < d.u d.n := by rw [h1 _ (by omega) (by omega)]; exact ht1
  have hN : IsBasis d.u d.n d.degree t (fun i => d.degree.choose i * t ^ i * (1 - t) ^ (d.degree - i)) := by
    constructor
    · intro i hi _
      rw [h0 i (by omega), h1 _ (by omega) (by omega)]
      exact ⟨ht0, ht1⟩
    · intro x
      have e : (x - t) ^ d.degree = (t * (x - 1) + (1 - t) * x) ^ d.degree := by congr 1; ring
      rw [e, add_pow, hn]
      apply sum_congr rfl
      intro i hi
      rw [mem_range] at hi
      have hp : ∏ j ∈ range d.degree, (x - d.u (i + 1 + j)) = x ^ (d.degree - i) * (x - 1) ^ i := by
        have e3 : ∏ j ∈ range d.degree, (x - d.u (i + 1 + j)) =
            (∏ j ∈ range (d.degree - i), (x - d.u (i + 1 + j))) * ∏ b ∈ range i, (x - d.u (i + 1 + (d.degree - i + b))) := by
          rw [← prod_range_add, show d.degree - i + i = d.degree by omega]
        rw [e3]
        congr 1
        · rw [prod_eq_pow_card (b := x), card_range]
          intro j hj
          rw [mem_range] at hj
          rw [h0 _ (by omega), sub_zero]
        · rw [prod_eq_pow_card (b := x - 1), card_range]
          intro j hj
          rw [mem_range] at hj
          rw [h1 _ (by omega) (by omega)]
      rw [hp, mul_pow, mul_pow]
      ring
  have he := basis_unique h ha hb (isBasis h ha hb) hN
  rw [point_mean h hs ha hb]
  unfold mean
  have e : ∀ f : ℕ → ℝ, ∑ i ∈ range d.n, d.w i * B d.v t d.degree i * f i =
      ∑ i ∈ range d.n, d.w i * (d.degree.choose i * t ^ i * (1 - t) ^ (d.degree - i)) * f i := by
    intro f
    apply sum_congr rfl
    intro i hi
    rw [he i (mem_range.1 hi)]
  have e1 := e (fun _ => 1)
  simp only [mul_one] at e1
  simp only [e, e1]

/-! ### Where there is no point -/

/-- Before the first knot, and from the last one on, there is no point: 0 / 0. -/
theorem point_outside {d : Data} (h : d.Valid) (hs : d.Spaced) {t : ℝ} (ht : t < d.u 0 ∨ d.u (d.knots.length - 1) ≤ t) :
    d.toX.point (.r t) = .ok ⟨.nan, .nan, .nan⟩ := by
  have hk := h.knots
  have hpt := h.points
  have hz : ∀ i, B d.v t d.degree i = 0 := by
    intro i
    by_contra hne
    obtain ⟨a, b⟩ := B_supp h.mono t d.degree i hne
    rcases ht with ht | ht
    · have := h.mono (Nat.zero_le i)
      rw [d.v_eq (show 0 < _ by omega)] at this
      linarith
    · have : d.v (i + d.degree + 1) ≤ d.u (d.knots.length - 1) := by
        have h2 := h.mono (show i + d.degree + 1 ≤ i + d.degree + 1 + d.knots.length by omega)
        have h3 : d.v (i + d.degree + 1 + d.knots.length) = d.u (d.knots.length - 1) := by
          unfold Data.v; rw [min_eq_right (by omega)]
        linarith
      linarith
  have hnan : ∀ v : V3 X, (⟨.nan, .nan, .nan⟩ : V3 X).plus (.times .nan v) = ⟨.nan, .nan, .nan⟩ := fun v => rfl
  have := point_run h hs t (fun _ => .nan) (by
    intro i _
    simp only [hz, mul_zero, sum_const_zero]
    exact X.div_zero 0) (fun m => if m = 0 then ⟨.r 0, .r 0, .r 0⟩ else ⟨.nan, .nan, .nan⟩) (by simp) (by
    intro i _
    rw [if_neg (show ¬ (i + 1 = 0) by omega)]
    split <;> rfl)
  rw [this, if_neg (by omega)]

/-- `end()` is the larger one of the last knot and the number n - degree + 2. -/
theorem end_spec {d : Data} (h : d.Valid) (hn : d.n < 2 ^ 31) :
    d.toX.end = .ok (.r (max ((d.n : ℝ) - d.degree + 2) (d.u (d.knots.length - 1)))) := by
  have hk := h.knots
  have hpt := h.points
  unfold Curve.end
  have hl : d.toX.points.length = d.n := by simp [Data.toX, Data.n]
  have hkl : d.toX.knots.length = d.knots.length := by simp [Data.toX]
  rw [hl, hkl, if_neg (by omega)]
  have e1 : rd d.toX.knots (d.knots.length - 1) = .ok (.r (d.u (d.knots.length - 1))) := by
    rw [← d.v_eq (by omega)]; exact rd_knot d (by omega)
  have e2 : u32 (d.n + 2 ^ 32 - d.toX.degree + 2) = d.n - d.degree + 2 := by
    unfold u32
    show (d.n + 2 ^ 32 - d.degree + 2) % 2 ^ 32 = _
    rw [show d.n + 2 ^ 32 - d.degree + 2 = (d.n - d.degree + 2) + 2 ^ 32 by omega, Nat.add_mod_right, Nat.mod_eq_of_lt (by omega)]
  have e3 : (Arith.lit ((d.n - d.degree + 2 : ℕ) : Int) 1 : X) = .r ((d.n : ℝ) - d.degree + 2) := by
    rw [X.lit_r]
    congr 1
    push_cast [Nat.cast_sub (le_of_lt hpt)]
    ring
  rw [e2, e3]
  simp only [e1, bind, Except.bind, pure, Except.pure]
  by_cases hlt : (d.n : ℝ) - d.degree + 2 < d.u (d.knots.length - 1)
  · rw [if_pos ((X.lt_r _ _).2 hlt), max_eq_right (le_of_lt hlt)]
  · rw [if_neg (mt (X.lt_r _ _).1 hlt), max_eq_left (not_lt.1 hlt)]

/-- The parameter that `end()` names never has a point, on no curve. -/
theorem point_end {d : Data} (h : d.Valid) (hs : d.Spaced) (hn : d.n < 2 ^ 31) :
    ∃ t : X, d.toX.end = .ok t ∧ d.toX.point t = .ok ⟨.nan, .nan, .nan⟩ :=
  ⟨_, end_spec h hn, point_outside h hs (Or.inr (le_max_right _ _))⟩

/-- A clamped curve from 0 on begins at `start()` with its first control point. -/
theorem start_spec {d : Data} (h : d.Valid) (hs : d.Spaced) (hc : d.u 1 = d.u d.degree) (h2 : d.u d.degree < d.u (d.degree + 1)) (h0 : d.u d.degree = 0) :
    d.toX.point d.toX.start = .ok (d.p 0).toX := by
  rw [show d.toX.start = .r (d.u d.degree) by rw [h0]; exact zero_r]
  exact point_start_partial h hs hc h2

/-- A curve whose first knot is positive has no point at `start()`. -/
theorem start_outside {d : Data} (h : d.Valid) (hs : d.Spaced) (h0 : 0 < d.u 0) : d.toX.point d.toX.start = .ok ⟨.nan, .nan, .nan⟩ := by
  rw [show d.toX.start = .r 0 from zero_r]
  exact point_outside h hs (Or.inl h0)

/-- `knot(i)` is the knot given to the constructor; outside it reads behind the block. -/
theorem knot_spec (d : Data) (i : ℕ) : d.toX.knot i = if h : i < d.knots.length then .ok (.r d.knots[i]) else .error .ub := by
  unfold Curve.knot
  by_cases h : i < d.knots.length
  · rw [dif_pos h, show d.toX.knots = d.knots.map X.r from rfl, rd_ok (by simpa using h)]; simp
  · rw [dif_neg h, rd_ub (by simpa [Data.toX] using h)]

/-- Degree 0 is rejected, everything else is accepted and copied, without a test of the counts. -/
theorem create_spec {K : Type} [Arith K] (degree : ℕ) (points : List (V3 K)) (knots weights : List K) :
    Curve.create degree points knots weights = if degree = 0 then .error .thrown else .ok ⟨degree, points, knots, weights⟩ := by
  unfold Curve.create
  by_cases h : degree = 0
  · rw [if_pos (by omega), if_pos h]
  · rw [if_neg (by omega), if_neg h]

/-! The only fault is reading outside a block. -/

theorem ub_or_ok_bind {α β : Type} (x : Res α) (f : α → Res β) (hx : ∀ e, x = .error e → e = .ub) (hf : ∀ a e, f a = .error e → e = .ub) :
    ∀ e, (x >>= f) = .error e → e = .ub := by
  intro e he
  cases x with
  | error e' => rw [hx e' rfl] at he; cases he; rfl
  | ok a => exact hf a e he

theorem rd_fault {α : Type} (l : List α) (i : ℕ) : ∀ e, rd l i = .error e → e = .ub := by
  intro e h
  by_cases hi : i < l.length
  · rw [rd_ok hi] at h; cases h
  · rw [rd_ub (by omega)] at h; cases h; rfl

theorem basis_fault {K : Type} [Arith K] (U : List K) (t : K) : ∀ k i e, basis U t k i = .error e → e = .ub := by
  intro k
  induction k with
  | zero =>
    intro i
    simp only [basis, basis0]
    apply ub_or_ok_bind _ _ (rd_fault _ _)
    intro u e
    split
    · exact ub_or_ok_bind _ _ (rd_fault _ _) (fun a e h => by cases h) e
    · intro h; cases h
  | succ k ih =>
    have hp : ∀ i a b e, part (basis U t k i) a b = .error e → e = .ub := by
      intro i a b
      unfold part
      split
      · exact ub_or_ok_bind _ _ (ih i) (fun a e h => by cases h)
      · intro e h; cases h
    intro i
    simp only [basis]
    refine ub_or_ok_bind _ _ (rd_fault _ _) fun _ => ub_or_ok_bind _ _ (rd_fault _ _) fun _ => ub_or_ok_bind _ _ (rd_fault _ _) fun _ =>
      ub_or_ok_bind _ _ (rd_fault _ _) fun _ => ub_or_ok_bind _ _ (hp _ _ _) fun _ => ub_or_ok_bind _ _ (hp _ _ _) fun _ e h => by cases h

theorem basis_short {K : Type} [Arith K] (U : List K) (t : K) (k i : ℕ) (h : U.length ≤ i + (k + 1) + 1) (hs : i + (k + 1) + 1 < 2 ^ 32) :
    basis U t (k + 1) i = .error .ub := by
  have hf : ∀ {α β : Type} (x : Res α) (f : α → Res β), (∀ e, x = .error e → e = .ub) → (∀ a, f a = .error .ub) → (x >>= f) = .error .ub := by
    intro α β x f hx hfa
    cases x with
    | error e => rw [hx e rfl]; rfl
    | ok a => exact hfa a
  simp only [basis]
  refine hf _ _ (rd_fault _ _) fun _ => hf _ _ (rd_fault _ _) fun _ => ?_
  rw [u32, Nat.mod_eq_of_lt hs, rd_ub h]
  rfl

theorem fold_ub {α : Type} (step : α → ℕ → Res α) (n j : ℕ) (hj : j < n) (hf : ∀ a i e, step a i = .error e → e = .ub)
    (hs : ∀ a, step a j = .error .ub) (a : α) : (List.range n).foldlM step a = .error .ub := by
  have hall : ∀ (l : List ℕ) (a : α), (∀ e, l.foldlM step a = .error e → e = .ub) ∧ (j ∈ l → l.foldlM step a = .error .ub) := by
    intro l
    induction l with
    | nil => intro a; exact ⟨(fun e h => by cases h), (fun h => by simp at h)⟩
    | cons i l ih =>
      intro a
      rw [List.foldlM_cons]
      refine ⟨ub_or_ok_bind _ _ (hf a i) (fun b => (ih b).1), ?_⟩
      intro hm
      rcases List.mem_cons.1 hm with rfl | hm
      · rw [hs a]; rfl
      · cases hstep : step a i with
        | error e => rw [hf a i e hstep]; rfl
        | ok b => exact (ih b).2 hm
  exact (hall _ a).2 (List.mem_range.2 hj)

/-- The counts are not tested: with fewer weights than points, or fewer knots than points + degree + 1, memory behind the blocks
is read, for every parameter. -/
theorem point_ub {K : Type} [Arith K] (c : Curve K) (hd : 1 ≤ c.degree) (hn : 1 ≤ c.points.length) (hs : c.points.length + c.degree + 1 < 2 ^ 32)
    (h : c.weights.length < c.points.length ∨ c.knots.length < c.points.length + c.degree + 1) (t : K) : c.point t = .error .ub := by
  have hsum : c.weightSum c.degree t = .error .ub := by
    unfold Curve.weightSum
    apply fold_ub _ _ (c.points.length - 1) (by omega)
    · intro a i
      exact ub_or_ok_bind _ _ (rd_fault _ _) fun _ => ub_or_ok_bind _ _ (basis_fault _ _ _ _) fun _ e h => by cases h
    · intro a
      rcases h with h | h
      · rw [rd_ub (by omega)]; rfl
      · obtain ⟨k, hk⟩ : ∃ k, c.degree = k + 1 := ⟨c.degree - 1, by omega⟩
        rw [hk, basis_short _ _ _ _ (by omega) (by omega)]
        cases hw : rd c.weights (c.points.length - 1) with
        | error e => rw [rd_fault _ _ e hw]; rfl
        | ok w => rfl
  have hr : ∀ i, c.ratio i c.degree t = .error .ub := by
    intro i
    unfold Curve.ratio
    rw [hsum]
    cases hw : rd c.weights i with
    | error e => rw [rd_fault _ _ e hw]; rfl
    | ok w =>
      cases hb : basis c.knots t c.degree i with
      | error e => simp only [bind, Except.bind]; rw [basis_fault _ _ _ _ e hb]
      | ok w => rfl
  unfold Curve.point
  apply fold_ub _ _ 0 (by omega)
  · intro a i
    refine ub_or_ok_bind _ _ (rd_fault _ _) fun _ => ub_or_ok_bind _ _ (fun e h => ?_) fun _ e h => by cases h
    rw [hr] at h; cases h; rfl
  · intro a
    rw [hr]
    cases hw : rd c.points 0 with
    | error e => rw [rd_fault _ _ e hw]; rfl
    | ok w => rfl

/-- Knots that are closer than 10^-6 count as equal: a valid curve without points. -/
theorem point_close_knots : ∃ d : Data, d.Valid ∧ d.u d.degree ≤ 0 ∧ 0 < d.u d.n ∧ d.toX.point (.r 0) = .ok ⟨.nan, .nan, .nan⟩ := by
  refine ⟨⟨1, [⟨0, 0, 0⟩, ⟨1, 0, 0⟩], [0, 0, 1 / 10 ^ 7, 1 / 10 ^ 7], [1, 1]⟩, ⟨le_rfl, by decide, by decide, by decide, by decide, ?_, ?_⟩, ?_, ?_, ?_⟩
  · intro i hi
    change i < 2 at hi
    interval_cases i <;> simp [Data.w]
  · intro i hi
    change i + 1 < 4 at hi
    replace hi : i < 3 := by omega
    interval_cases i <;> norm_num [Data.u]
  · norm_num [Data.u]
  · norm_num [Data.u, Data.n]
  · have hp : ∀ (n : Res X) (a : X) (b : ℝ), |b| < tol → part n a (.r b) = .ok (.r 0) := by
      intro n a b hb
      unfold part
      rw [(isEqual_zero b).2 hb, zero_r]; rfl
    have ht : |(1 / 10 ^ 7 : ℝ)| < tol := by unfold tol; norm_num
    have ht0 : |(0 : ℝ)| < tol := by rw [abs_zero]; exact tol_pos
    have h0 : basis [X.r 0, .r 0, .r (1 / 10 ^ 7), .r (1 / 10 ^ 7)] (.r 0) 1 0 = .ok (.r 0) := by
      simp only [basis, u32, bind, Except.bind, rd]
      simp only [zero_add, Nat.mod_eq_of_lt (show 1 < 2 ^ 32 by norm_num), Nat.mod_eq_of_lt (show 1 + 1 < 2 ^ 32 by norm_num)]
      simp only [List.getElem?_cons_zero, List.getElem?_cons_succ, X.sub_r]
      rw [hp _ _ (0 - 0) (by simpa using ht0), hp _ _ (1 / 10 ^ 7 - 0) (by rw [sub_zero]; exact ht)]
      simp [pure, Except.pure]
    have h1 : basis [X.r 0, .r 0, .r (1 / 10 ^ 7), .r (1 / 10 ^ 7)] (.r 0) 1 1 = .ok (.r 0) := by
      simp only [basis, u32, bind, Except.bind, rd]
      simp only [zero_add, Nat.mod_eq_of_lt (show 1 + 1 < 2 ^ 32 by norm_num), Nat.mod_eq_of_lt (show 1 + 1 + 1 < 2 ^ 32 by norm_num)]
      simp only [List.getElem?_cons_zero, List.getElem?_cons_succ, X.sub_r]
      rw [hp _ _ (1 / 10 ^ 7 - 0) (by rw [sub_zero]; exact ht), hp _ _ (1 / 10 ^ 7 - 1 / 10 ^ 7) (by simpa using ht0)]
      simp [pure, Except.pure]
    have hs : Curve.weightSum ⟨1, [R3.toX ⟨0, 0, 0⟩, R3.toX ⟨1, 0, 0⟩], [X.r 0, .r 0, .r (1 / 10 ^ 7), .r (1 / 10 ^ 7)], [.r 1, .r 1]⟩ 1 (.r 0) = .ok (.r 0) := by
      simp only [Curve.weightSum, List.length_cons, List.length_nil, List.range_succ, List.range_zero, List.nil_append, List.cons_append, List.foldlM_cons, List.foldlM_nil,
        zero_add, h0, h1, bind, Except.bind, pure, Except.pure, rd, List.getElem?_cons_zero, List.getElem?_cons_succ, zero_r, X.mul_r, X.add_r]
      norm_num
    have hr : ∀ i, i < 2 → Curve.ratio ⟨1, [R3.toX ⟨0, 0, 0⟩, R3.toX ⟨1, 0, 0⟩], [X.r 0, .r 0, .r (1 / 10 ^ 7), .r (1 / 10 ^ 7)], [.r 1, .r 1]⟩ i 1 (.r 0) = .ok .nan := by
      intro i hi
      simp only [Curve.ratio, hs]
      interval_cases i
      · simp only [h0, bind, Except.bind, pure, Except.pure, rd, List.getElem?_cons_zero, X.mul_r, X.div_zero]
      · simp only [h1, bind, Except.bind, pure, Except.pure, rd, List.getElem?_cons_zero, List.getElem?_cons_succ, X.mul_r, X.div_zero]
    simp only [Data.toX, Curve.point, List.map_cons, List.map_nil, List.length_cons, List.length_nil, List.range_succ, List.range_zero, List.nil_append, List.cons_append,
      List.foldlM_cons, List.foldlM_nil, zero_add, hr 0 (by norm_num), hr 1 (by norm_num), bind, Except.bind, pure, Except.pure, rd, List.getElem?_cons_zero, List.getElem?_cons_succ]
    rfl

/-- A curve of degree 2 with three different knots that meets all conditions. -/
example : ∃ d : Data, d.Valid ∧ d.Spaced ∧ d.u d.degree ≤ 1 / 2 ∧ 1 / 2 < d.u d.n ∧ d.u 1 = d.u d.degree ∧ d.u d.degree < d.u (d.degree + 1) ∧ d.n < 2 ^ 31 := by
  refine ⟨⟨2, [⟨0, 0, 0⟩, ⟨1, 0, 0⟩, ⟨1, 1, 0⟩, ⟨0, 1, 5⟩], [0, 0, 0, 1, 2, 2, 2], [1, 2, 1, 3]⟩, ⟨by decide, by decide, by decide, by decide, by decide, ?_, ?_⟩, ?_, ?_, ?_, ?_, ?_, by decide⟩
  · intro i hi
    change i < 4 at hi
    interval_cases i <;> simp [Data.w]
  · intro i hi
    change i + 1 < 7 at hi
    replace hi : i < 6 := by omega
    interval_cases i <;> norm_num [Data.u]
  · intro i hi
    change i + 1 < 7 at hi
    replace hi : i < 6 := by omega
    interval_cases i <;> norm_num [Data.u, tol]
  · norm_num [Data.u]
  · norm_num [Data.u, Data.n]
  · norm_num [Data.u]
  · norm_num [Data.u]

/-- A quarter of a circle as a rational Bézier curve. -/
example : ∃ d : Data, d.Valid ∧ d.n = d.degree + 1 ∧ (∀ i, i ≤ d.degree → d.u i = 0) ∧ ∀ i, d.degree < i → i < d.knots.length → d.u i = 1 := by
  refine ⟨⟨2, [⟨1, 0, 0⟩, ⟨1, 1, 0⟩, ⟨0, 1, 0⟩], [0, 0, 0, 1, 1, 1], [1, 1, 2]⟩, ⟨by decide, by decide, by decide, by decide, by decide, ?_, ?_⟩, by decide, ?_, ?_⟩
  · intro i hi
    change i < 3 at hi
    interval_cases i <;> simp [Data.w]
  · intro i hi
    change i + 1 < 6 at hi
    replace hi : i < 5 := by omega
    interval_cases i <;> norm_num [Data.u]
  · intro i hi
    change i ≤ 2 at hi
    interval_cases i <;> simp [Data.u]
  · intro i h1 h2
    change 2 < i at h1
    change i < 6 at h2
    interval_cases i <;> simp [Data.u]

end Verif.Nurbs
