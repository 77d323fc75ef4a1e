import Verif.Vtx.Props
import Verif.Mat.TransProps
import Mathlib.Analysis.Matrix.Spectrum
import Mathlib.LinearAlgebra.Matrix.Charpoly.Basic
/-
C78: eigenvalues.
-/
namespace Verif.Mx.Mat
open Verif Verif.Exact Verif.Vtx

/-- Specification: the list holds all eigenvalues of `M`, with their multiplicities: the characteristic polynomial is the
product of the differences. -/
def Eigenvalues {n : Nat} (M : Matrix (Fin n) (Fin n) ℝ) (l : List ℝ) : Prop :=
  ∀ x : ℝ, (Matrix.scalar (Fin n) x - M).det = (l.map (x - ·)).prod

/-- Then the numbers of the list are exactly the numbers λ with M v = λ v for some v ≠ 0. -/
theorem Eigenvalues.mem {n : Nat} {M : Matrix (Fin n) (Fin n) ℝ} {l : List ℝ} (h : Eigenvalues M l) (a : ℝ) :
    a ∈ l ↔ ∃ v : Fin n → ℝ, v ≠ 0 ∧ M.mulVec v = a • v := by
  have h1 : a ∈ l ↔ (Matrix.scalar (Fin n) a - M).det = 0 := by
    rw [h a, List.prod_eq_zero_iff, List.mem_map]
    constructor
    · intro ha; exact ⟨a, ha, sub_self a⟩
    · rintro ⟨b, hb, e⟩
      have : a = b := by linarith
      rwa [this]
  rw [h1, ← Matrix.exists_mulVec_eq_zero_iff]
  have e : ∀ v : Fin n → ℝ, (Matrix.scalar (Fin n) a - M).mulVec v = a • v - M.mulVec v := by
    intro v
    rw [Matrix.sub_mulVec]
    congr 1
    ext i
    simp [Matrix.scalar_apply, Matrix.mulVec_diagonal]
  constructor
  · rintro ⟨v, hv, h0⟩
    refine ⟨v, hv, ?_⟩
    rw [e, sub_eq_zero] at h0
    exact h0.symm
  · rintro ⟨v, hv, h0⟩
    exact ⟨v, hv, by rw [e, h0, sub_self]⟩

/-! ### 1 × 1 and 2 × 2 -/

theorem eigen_one {A : Mat X} {M : Matrix (Fin 1) (Fin 1) ℝ} (h : Rep A M) :
    ∃ a : ℝ, A.eigen = .ok ⟨1, [.r a]⟩ ∧ Eigenvalues M [a] := by
  refine ⟨M 0 0, ?_, ?_⟩
  · have hg := h.get 0 0
    simp only [Fin.val_zero, Nat.cast_zero] at hg
    simp only [eigen]
    rw [if_neg (by rw [h.rows, h.cols]; simp), if_pos (by rw [h.rows]), hg]
    rfl
  · intro x
    simp [Matrix.det_fin_one, Matrix.scalar_apply]

theorem det2_scalar (M : Matrix (Fin 2) (Fin 2) ℝ) (x : ℝ) :
    (Matrix.scalar (Fin 2) x - M).det = x ^ 2 - M.trace * x + M.det := by
  rw [Matrix.det_fin_two, Matrix.det_fin_two, Matrix.trace_fin_two]
  simp [Matrix.scalar_apply]; ring

/-- Matrices of two rows: both eigenvalues, the smaller one first.  If there are no real ones the result is NaN. -/
theorem eigen_two {A : Mat X} {M : Matrix (Fin 2) (Fin 2) ℝ} (h : Rep A M) :
    (∃ a b : ℝ, A.eigen = .ok ⟨2, [.r a, .r b]⟩ ∧ a ≤ b ∧ Eigenvalues M [a, b]) ∨
    (A.eigen = .ok ⟨2, [.nan, .nan]⟩ ∧ ∀ x : ℝ, ¬ ∃ v : Fin 2 → ℝ, v ≠ 0 ∧ M.mulVec v = x • v) := by
  have htr := trace_square h
  have hdet := det_spec h (by norm_num) (by norm_num) (zero : X)
  have hrun : A.eigen = .ok ⟨2, [(X.r M.trace - Libm.sqrt (X.r (M.trace * M.trace - 4 * M.det))) / X.r 2,
      (X.r M.trace + Libm.sqrt (X.r (M.trace * M.trace - 4 * M.det))) / X.r 2]⟩ := by
    simp only [eigen]
    rw [if_neg (by rw [h.rows, h.cols]; simp), if_neg (by rw [h.rows]; norm_num), if_pos (by rw [h.rows])]
    simp only [eigen2, htr, hdet, bind, Except.bind, pure, Except.pure, two_r, X.lit_r, X.mul_r, X.sub_r]
    norm_num
  by_cases hd : 0 ≤ M.trace * M.trace - 4 * M.det
  · left
    rw [X.sqrt_r hd] at hrun
    set w := Real.sqrt (M.trace * M.trace - 4 * M.det) with hw
    have hww : w * w = M.trace * M.trace - 4 * M.det := Real.mul_self_sqrt hd
    have hw0 : 0 ≤ w := Real.sqrt_nonneg _
    refine ⟨(M.trace - w) / 2, (M.trace + w) / 2, ?_, by linarith, ?_⟩
    · rw [hrun, X.sub_r, X.add_r, X.div_r _ two_ne_zero, X.div_r _ two_ne_zero]
    · intro x
      rw [det2_scalar]
      simp only [List.map_cons, List.map_nil, List.prod_cons, List.prod_nil, mul_one]
      linear_combination (1 / 4) * hww
  · right
    have hs : Libm.sqrt (X.r (M.trace * M.trace - 4 * M.det)) = X.nan := by
      show X.sqrt _ = _
      simp only [X.sqrt]; rw [if_pos (not_le.1 hd)]
    rw [hs] at hrun
    refine ⟨hrun, ?_⟩
    rintro x ⟨v, hv, e⟩
    have h0 : (Matrix.scalar (Fin 2) x - M).det = 0 := by
      rw [← Matrix.exists_mulVec_eq_zero_iff]
      refine ⟨v, hv, ?_⟩
      rw [Matrix.sub_mulVec, e]
      ext i
      simp [Matrix.scalar_apply, Matrix.mulVec_diagonal]
    rw [det2_scalar] at h0
    apply hd
    nlinarith [mul_self_nonneg (2 * x - M.trace)]

/-- A symmetric matrix has real eigenvalues. -/
theorem eigen_two_symmetric {A : Mat X} {M : Matrix (Fin 2) (Fin 2) ℝ} (h : Rep A M) (hs : M.IsSymm) :
    ∃ a b : ℝ, A.eigen = .ok ⟨2, [.r a, .r b]⟩ ∧ a ≤ b ∧ Eigenvalues M [a, b] := by
  rcases eigen_two h with h1 | ⟨-, h2⟩
  · exact h1
  · exfalso
    have hd : 0 ≤ M.trace * M.trace - 4 * M.det := by
      have := hs.apply 0 1
      rw [Matrix.det_fin_two, Matrix.trace_fin_two, this]
      nlinarith [mul_self_nonneg (M 0 0 - M 1 1), mul_self_nonneg (M 0 1)]
    have hww : Real.sqrt (M.trace * M.trace - 4 * M.det) * Real.sqrt (M.trace * M.trace - 4 * M.det) = M.trace * M.trace - 4 * M.det :=
      Real.mul_self_sqrt hd
    apply h2 ((M.trace + Real.sqrt (M.trace * M.trace - 4 * M.det)) / 2)
    have h0 : (Matrix.scalar (Fin 2) ((M.trace + Real.sqrt (M.trace * M.trace - 4 * M.det)) / 2) - M).det = 0 := by
      rw [det2_scalar]; linear_combination (1 / 4) * hww
    obtain ⟨v, hv, e⟩ := Matrix.exists_mulVec_eq_zero_iff.2 h0
    refine ⟨v, hv, ?_⟩
    rw [Matrix.sub_mulVec, sub_eq_zero] at e
    rw [← e]
    ext i
    simp [Matrix.scalar_apply, Matrix.mulVec_diagonal]

/-! ### 3 × 3 -/

theorem det3_scalar (M : Matrix (Fin 3) (Fin 3) ℝ) (x : ℝ) : (Matrix.scalar (Fin 3) x - M).det =
    x ^ 3 - M.trace * x ^ 2 + (M 0 0 * M 1 1 + M 0 0 * M 2 2 + M 1 1 * M 2 2 - M 0 1 * M 1 0 - M 0 2 * M 2 0 - M 1 2 * M 2 1) * x - M.det := by
  rw [Matrix.det_fin_three, Matrix.det_fin_three, Matrix.trace_fin_three]
  simp [Matrix.scalar_apply]; ring

/-- the three roots of x³ - 3x - 2 cos 3φ -/
theorem cubic_cos (φ x : ℝ) : (x - 2 * Real.cos φ) * (x - 2 * Real.cos (φ + 2 * Real.pi / 3 + 2 * Real.pi / 3)) * (x - 2 * Real.cos (φ + 2 * Real.pi / 3)) =
    x ^ 3 - 3 * x - 2 * Real.cos (3 * φ) ∧
    Real.cos φ + Real.cos (φ + 2 * Real.pi / 3 + 2 * Real.pi / 3) + Real.cos (φ + 2 * Real.pi / 3) = 0 := by
  have c1 : Real.cos (2 * Real.pi / 3) = -(1 / 2) := by
    rw [show 2 * Real.pi / 3 = Real.pi - Real.pi / 3 by ring, Real.cos_pi_sub, Real.cos_pi_div_three]
  have s1 : Real.sin (2 * Real.pi / 3) = Real.sqrt 3 / 2 := by
    rw [show 2 * Real.pi / 3 = Real.pi - Real.pi / 3 by ring, Real.sin_pi_sub, Real.sin_pi_div_three]
  have h3 : Real.sqrt 3 * Real.sqrt 3 = 3 := Real.mul_self_sqrt (by norm_num)
  have hcs := Real.cos_sq_add_sin_sq φ
  have a1 : Real.cos (φ + 2 * Real.pi / 3) = -(1 / 2) * Real.cos φ - Real.sqrt 3 / 2 * Real.sin φ := by
    rw [Real.cos_add, c1, s1]; ring
  have b1 : Real.sin (φ + 2 * Real.pi / 3) = -(1 / 2) * Real.sin φ + Real.sqrt 3 / 2 * Real.cos φ := by
    rw [Real.sin_add, c1, s1]; ring
  have a2 : Real.cos (φ + 2 * Real.pi / 3 + 2 * Real.pi / 3) = -(1 / 2) * Real.cos φ + Real.sqrt 3 / 2 * Real.sin φ := by
    rw [Real.cos_add, c1, s1, a1, b1]; linear_combination (-(1 / 4) * Real.cos φ) * h3
  rw [a1, a2, Real.cos_three_mul]
  constructor
  · linear_combination (-x * Real.sin φ ^ 2 + 2 * Real.cos φ * Real.sin φ ^ 2) * h3 + (-3 * x + 6 * Real.cos φ) * hcs
  · ring

/-- a symmetric matrix with trace 0 and square sum 6 has a determinant in [-2, 2] -/
theorem det_bound_sym (B : Matrix (Fin 3) (Fin 3) ℝ) (hs : B.IsSymm) (htr : B.trace = 0)
    (h6 : B 0 0 * B 1 1 + B 0 0 * B 2 2 + B 1 1 * B 2 2 - B 0 1 * B 1 0 - B 0 2 * B 2 0 - B 1 2 * B 2 1 = -3) : B.det ^ 2 ≤ 4 := by
  have hh : B.IsHermitian := by
    rw [Matrix.IsHermitian, Matrix.conjTranspose_eq_transpose_of_trivial]; exact hs
  have hev : ∀ x : ℝ, (Matrix.scalar (Fin 3) x - B).det = (x - hh.eigenvalues 0) * (x - hh.eigenvalues 1) * (x - hh.eigenvalues 2) := by
    intro x
    have h1 := hh.charpoly_eq
    have h2 := congrArg (Polynomial.eval x) h1
    rw [Matrix.eval_charpoly] at h2
    rw [h2, Polynomial.eval_prod, Fin.prod_univ_three]
    simp
  generalize hh.eigenvalues 0 = a at hev
  generalize hh.eigenvalues 1 = b at hev
  generalize hh.eigenvalues 2 = c at hev
  have hp : ∀ x : ℝ, x ^ 3 - 3 * x - B.det = (x - a) * (x - b) * (x - c) := by
    intro x
    rw [← hev, det3_scalar, htr, h6]; ring
  have e0 := hp 0
  have e1 := hp 1
  have e2 := hp (-1)
  have s1 : a + b + c = 0 := by nlinarith
  have s2 : a * b + b * c + c * a = -3 := by nlinarith
  have s3 : B.det = a * b * c := by nlinarith
  have hc : c = -a - b := by linarith
  subst hc
  have q : a * a + a * b + b * b = 3 := by nlinarith
  have key : 4 - (a * b * (-a - b)) ^ 2 = ((a - b) * (2 * a + b) * (a + 2 * b)) ^ 2 / 27 := by
    have h27 : ((a - b) * (2 * a + b) * (a + 2 * b)) ^ 2 = 4 * (a * a + a * b + b * b) ^ 3 - 27 * (a * b * (-a - b)) ^ 2 := by ring
    rw [h27, q]; ring
  rw [s3]
  have := sq_nonneg ((a - b) * (2 * a + b) * (a + 2 * b))
  linarith

theorem phi_spec (r : ℝ) (hr : -1 ≤ r ∧ r ≤ 1) : ∃ φ : ℝ, (if Arith.le (X.r r) (-(one : X)) then Libm.pi / X.r 3
      else if Arith.le one (X.r r) then zero else Libm.acos (X.r r) / X.r 3) = X.r φ ∧ 2 * Real.cos (3 * φ) = 2 * r ∧ 0 ≤ φ ∧ φ ≤ Real.pi / 3 := by
  rw [one_r, X.neg_r]
  have hpi := Real.pi_pos
  by_cases h1 : r ≤ -1
  · have : r = -1 := le_antisymm h1 hr.1
    refine ⟨Real.pi / 3, ?_, ?_, by linarith, le_rfl⟩
    · rw [if_pos ((X.le_r _ _).2 h1), X.pi_r, X.div_r _ (by norm_num)]
    · rw [show 3 * (Real.pi / 3) = Real.pi by ring, Real.cos_pi, this]
  · rw [if_neg (mt (X.le_r _ _).1 h1)]
    by_cases h2 : 1 ≤ r
    · have : r = 1 := le_antisymm hr.2 h2
      refine ⟨0, ?_, ?_, le_rfl, by linarith⟩
      · rw [if_pos ((X.le_r _ _).2 h2), zero_r]
      · rw [mul_zero, Real.cos_zero, this]
    · refine ⟨Real.arccos r / 3, ?_, ?_, ?_, ?_⟩
      · rw [if_neg (mt (X.le_r _ _).1 h2), X.acos_r hr.1 hr.2, X.div_r _ (by norm_num)]
      · rw [show 3 * (Real.arccos r / 3) = Real.arccos r by ring, Real.cos_arccos hr.1 hr.2]
      · have := Real.arccos_nonneg r; linarith
      · have := Real.arccos_le_pi r; linarith

theorem sub_matrix {n : Nat} {A B : Mat X} {M N : Matrix (Fin n) (Fin n) ℝ} (h : Rep A M) (h' : Rep B N) :
    ∃ C, sub A B = .ok C ∧ Rep C (M - N) := by
  obtain ⟨C, e, hC⟩ := zip_square (· - ·) h.is h'.is
  exact ⟨C, e, hC.rep fun i j => by rw [ext_fin, ext_fin]; rfl⟩

/-- the shifted and scaled matrix of the algorithm -/
theorem eigenSym_run {A : Mat X} {M : Matrix (Fin 3) (Fin 3) ℝ} (h : Rep A M) (p1 : ℝ) (p2 : ℝ)
    (hp2 : p2 = (M 0 0 - M.trace / 3) ^ 2 + (M 1 1 - M.trace / 3) ^ 2 + (M 2 2 - M.trace / 3) ^ 2 + 2 * p1) (hpos : 0 < p2) :
    ∃ B : Matrix (Fin 3) (Fin 3) ℝ, B = (1 / Real.sqrt (p2 / 6)) • (M - Matrix.scalar (Fin 3) (M.trace / 3)) ∧
      ∀ φ : ℝ, (if Arith.le (X.r (B.det / 2)) (-(one : X)) then Libm.pi / X.r 3
        else if Arith.le one (X.r (B.det / 2)) then zero else Libm.acos (X.r (B.det / 2)) / X.r 3) = X.r φ →
      eigenSym A (.r p1) = .ok ⟨3, [.r (M.trace / 3 + 2 * Real.sqrt (p2 / 6) * Real.cos φ),
        .r (3 * (M.trace / 3) - (M.trace / 3 + 2 * Real.sqrt (p2 / 6) * Real.cos φ) - (M.trace / 3 + 2 * Real.sqrt (p2 / 6) * Real.cos (φ + 2 * Real.pi / 3))),
        .r (M.trace / 3 + 2 * Real.sqrt (p2 / 6) * Real.cos (φ + 2 * Real.pi / 3))]⟩ := by
  have htr := trace_square h
  have g0 := h.get 0 0
  have g1 := h.get 1 1
  have g2 := h.get 2 2
  simp only [Fin.val_zero, Nat.cast_zero, Fin.val_one, Nat.cast_one, Fin.val_two, Nat.cast_ofNat] at g0 g1 g2
  have h3 : (3 : ℝ) ≠ 0 := by norm_num
  have h6 : (6 : ℝ) ≠ 0 := by norm_num
  have hq : X.r M.trace / (Arith.lit 3 1 : X) = X.r (M.trace / 3) := by
    rw [X.lit_r]; norm_num; exact X.div_r _ h3
  set q := M.trace / 3 with hqd
  have hps : 0 < Real.sqrt (p2 / 6) := Real.sqrt_pos.2 (by positivity)
  set p := Real.sqrt (p2 / 6) with hp
  have hpx : Libm.sqrt (((X.r (M 0 0) - X.r q) * (X.r (M 0 0) - X.r q) + (X.r (M 1 1) - X.r q) * (X.r (M 1 1) - X.r q) +
      (X.r (M 2 2) - X.r q) * (X.r (M 2 2) - X.r q) + two * X.r p1) / (Arith.lit 6 1 : X)) = X.r p := by
    have : (X.r (M 0 0) - X.r q) * (X.r (M 0 0) - X.r q) + (X.r (M 1 1) - X.r q) * (X.r (M 1 1) - X.r q) +
      (X.r (M 2 2) - X.r q) * (X.r (M 2 2) - X.r q) + two * X.r p1 = X.r p2 := by
      rw [two_r, hp2]; simp only [X.sub_r, X.mul_r, X.add_r]; congr 1; ring
    rw [this, X.lit_r]
    norm_num
    rw [X.div_r _ h6, X.sqrt_r (by positivity)]
  -- the identity
  obtain ⟨I, eI, hI⟩ := diag_spec (new_spec (K := X) 3 3) one
  have hI' : Rep I (1 : Matrix (Fin 3) (Fin 3) ℝ) := hI.rep (by
    intro i j
    fin_cases i <;> fin_cases j <;> simp [one_r, zero_r])
  obtain ⟨qI, eqI, hqI⟩ := (smul_matrix hI' q).1
  obtain ⟨D, eD, hD⟩ := sub_matrix h hqI
  obtain ⟨B, eB, hB⟩ := (smul_matrix hD (1 / p)).1
  have hdet := det_spec hB (by norm_num) (by norm_num) (zero : X)
  have hBe : (1 / p) • (M - q • (1 : Matrix (Fin 3) (Fin 3) ℝ)) = (1 / p) • (M - Matrix.scalar (Fin 3) q) := by
    congr 2
    ext i j
    simp [Matrix.scalar_apply, Matrix.one_apply, Matrix.diagonal_apply]
  refine ⟨(1 / p) • (M - Matrix.scalar (Fin 3) q), rfl, ?_⟩
  intro φ hφ
  rw [hBe] at hdet
  simp only [eigenSym, htr, g0, g1, g2, eI, bind, Except.bind, pure, Except.pure]
  rw [hq, hpx]
  have e1p : (one : X) / X.r p = X.r (1 / p) := by rw [one_r]; exact X.div_r _ (ne_of_gt hps)
  rw [e1p]
  simp only [eqI, eD, eB, hdet]
  have e3 : (Arith.lit 3 1 : X) = X.r 3 := by rw [X.lit_r]; norm_num
  rw [e3, two_r, X.div_r _ two_ne_zero, hφ]
  simp only [X.cos_r, X.mul_r, X.add_r, X.sub_r, X.pi_r, X.div_r _ h3]

/-- the shifted and scaled matrix: symmetric, trace 0, square sum 6 -/
theorem shifted_spec {M B : Matrix (Fin 3) (Fin 3) ℝ} (hs : M.IsSymm) {p q : ℝ} (hpp : 0 < p) (h3q : 3 * q = M 0 0 + M 1 1 + M 2 2)
    (hpp2 : 6 * (p * p) = (M 0 0 - q) ^ 2 + (M 1 1 - q) ^ 2 + (M 2 2 - q) ^ 2 + 2 * (M 0 1 * M 0 1 + M 0 2 * M 0 2 + M 1 2 * M 1 2))
    (hB : B = (1 / p) • (M - Matrix.scalar (Fin 3) q)) :
    B.IsSymm ∧ (∀ i j, B i j = (M i j - if i = j then q else 0) / p) ∧ B.trace = 0 ∧
    B 0 0 * B 1 1 + B 0 0 * B 2 2 + B 1 1 * B 2 2 - B 0 1 * B 1 0 - B 0 2 * B 2 0 - B 1 2 * B 2 1 = -3 := by
  have hpne := ne_of_gt hpp
  have s01 := hs.apply 0 1
  have s02 := hs.apply 0 2
  have s12 := hs.apply 1 2
  have cell : ∀ i j, B i j = (M i j - if i = j then q else 0) / p := by
    intro i j
    rw [hB]
    simp [Matrix.scalar_apply, Matrix.diagonal_apply]
    ring
  refine ⟨?_, cell, ?_, ?_⟩
  · rw [hB]
    apply Matrix.IsSymm.smul
    apply Matrix.IsSymm.sub hs
    rw [Matrix.scalar_apply]
    exact Matrix.isSymm_diagonal _
  · rw [Matrix.trace_fin_three, cell, cell, cell]
    simp only [if_true]
    field_simp; linarith
  · have c01 : B 0 1 = M 0 1 / p := by rw [cell]; simp
    have c02 : B 0 2 = M 0 2 / p := by rw [cell]; simp
    have c12 : B 1 2 = M 1 2 / p := by rw [cell]; simp
    have c10 : B 1 0 = M 0 1 / p := by rw [cell, s01]; simp
    have c20 : B 2 0 = M 0 2 / p := by rw [cell, s02]; simp
    have c21 : B 2 1 = M 1 2 / p := by rw [cell, s12]; simp
    have c00 : B 0 0 = (M 0 0 - q) / p := by rw [cell]; simp
    have c11 : B 1 1 = (M 1 1 - q) / p := by rw [cell]; simp
    have c22 : B 2 2 = (M 2 2 - q) / p := by rw [cell]; simp
    rw [c01, c02, c12, c10, c20, c21, c00, c11, c22]
    generalize M 0 0 = a at *
    generalize M 1 1 = b at *
    generalize M 2 2 = c at *
    generalize M 0 1 = d at *
    generalize M 0 2 = e at *
    generalize M 1 2 = f at *
    have hz : (a - q) + (b - q) + (c - q) = 0 := by linarith
    field_simp
    linear_combination (1 / 2) * (a + b + c - 3 * q) * hz + (1 / 2) * hpp2

/-- back from the eigenvalues of the shifted matrix -/
theorem shifted_eigenvalues {M B : Matrix (Fin 3) (Fin 3) ℝ} {p q φ : ℝ} (hpne : p ≠ 0)
    (cell : ∀ i j, B i j = (M i j - if i = j then q else 0) / p) (hBtr : B.trace = 0)
    (hB6 : B 0 0 * B 1 1 + B 0 0 * B 2 2 + B 1 1 * B 2 2 - B 0 1 * B 1 0 - B 0 2 * B 2 0 - B 1 2 * B 2 1 = -3)
    (hcos : 2 * Real.cos (3 * φ) = 2 * (B.det / 2)) :
    Eigenvalues M [q + 2 * p * Real.cos φ, 3 * q - (q + 2 * p * Real.cos φ) - (q + 2 * p * Real.cos (φ + 2 * Real.pi / 3)),
      q + 2 * p * Real.cos (φ + 2 * Real.pi / 3)] := by
  intro x
  obtain ⟨hc, hsum⟩ := cubic_cos φ ((x - q) / p)
  have hM : (Matrix.scalar (Fin 3) x - M).det = p ^ 3 * (Matrix.scalar (Fin 3) ((x - q) / p) - B).det := by
    have : Matrix.scalar (Fin 3) x - M = p • (Matrix.scalar (Fin 3) ((x - q) / p) - B) := by
      ext i j
      simp only [Matrix.smul_apply, Matrix.sub_apply, smul_eq_mul, cell, Matrix.scalar_apply, Matrix.diagonal_apply]
      split <;> field_simp <;> ring
    rw [this, Matrix.det_smul]; simp
  have hdet3 := det3_scalar B ((x - q) / p)
  rw [hBtr, hB6] at hdet3
  rw [hM, hdet3]
  simp only [List.map_cons, List.map_nil, List.prod_cons, List.prod_nil, mul_one]
  generalize Real.cos (φ + 2 * Real.pi / 3 + 2 * Real.pi / 3) = c3 at hc hsum
  generalize Real.cos (φ + 2 * Real.pi / 3) = c2 at hc hsum ⊢
  generalize Real.cos (3 * φ) = k at hc hcos
  generalize Real.cos φ = c1 at hc hsum ⊢
  generalize B.det = d at hcos ⊢
  have e : ((x - q) / p) ^ 3 - 0 * ((x - q) / p) ^ 2 + -3 * ((x - q) / p) - d = ((x - q) / p) ^ 3 - 3 * ((x - q) / p) - 2 * k := by
    rw [hcos]; ring
  rw [e, ← hc]
  have hb2 : 3 * q - (q + 2 * p * c1) - (q + 2 * p * c2) = q + 2 * p * c3 := by
    linear_combination (-2 * p) * hsum
  rw [hb2]
  have e1 : ∀ c : ℝ, (x - q) / p - 2 * c = (x - (q + 2 * p * c)) / p := fun c => by field_simp; ring
  rw [e1, e1, e1]
  field_simp

/-- Symmetric matrices of three rows: all eigenvalues. -/
theorem eigen_three_partial {A : Mat X} {M : Matrix (Fin 3) (Fin 3) ℝ} (h : Rep A M) (hs : M.IsSymm) :
    ∃ a b c : ℝ, A.eigen = .ok ⟨3, [.r a, .r b, .r c]⟩ ∧ Eigenvalues M [a, b, c] := by
  have g01 := h.get 0 1
  have g02 := h.get 0 2
  have g12 := h.get 1 2
  have g0 := h.get 0 0
  have g1 := h.get 1 1
  have g2 := h.get 2 2
  simp only [Fin.val_zero, Nat.cast_zero, Fin.val_one, Nat.cast_one, Fin.val_two, Nat.cast_ofNat] at g01 g02 g12 g0 g1 g2
  have s01 := hs.apply 0 1
  have s02 := hs.apply 0 2
  have s12 := hs.apply 1 2
  set p1 := M 0 1 * M 0 1 + M 0 2 * M 0 2 + M 1 2 * M 1 2 with hp1
  have hrun : A.eigen = if Arith.eq (X.r p1) (zero : X) then .ok ⟨3, [.r (M 0 0), .r (M 1 1), .r (M 2 2)]⟩ else eigenSym A (.r p1) := by
    simp only [eigen]
    rw [if_neg (by rw [h.rows, h.cols]; simp), if_neg (by rw [h.rows]; norm_num), if_neg (by rw [h.rows]; norm_num), if_pos (by rw [h.rows])]
    simp only [g01, g02, g12, g0, g1, g2, bind, Except.bind, pure, Except.pure, X.mul_r, X.add_r, ← hp1]
  have hsq : 0 ≤ p1 := by nlinarith [mul_self_nonneg (M 0 1), mul_self_nonneg (M 0 2), mul_self_nonneg (M 1 2)]
  by_cases h0 : p1 = 0
  · have z1 : M 0 1 = 0 := mul_self_eq_zero.1 (by nlinarith [mul_self_nonneg (M 0 1), mul_self_nonneg (M 0 2), mul_self_nonneg (M 1 2)])
    have z2 : M 0 2 = 0 := mul_self_eq_zero.1 (by nlinarith [mul_self_nonneg (M 0 1), mul_self_nonneg (M 0 2), mul_self_nonneg (M 1 2)])
    have z3 : M 1 2 = 0 := mul_self_eq_zero.1 (by nlinarith [mul_self_nonneg (M 0 1), mul_self_nonneg (M 0 2), mul_self_nonneg (M 1 2)])
    refine ⟨M 0 0, M 1 1, M 2 2, ?_, ?_⟩
    · rw [hrun, zero_r, if_pos ((X.eq_r _ _).2 h0)]
    · intro x
      rw [det3_scalar, Matrix.trace_fin_three, Matrix.det_fin_three, z1, z2, z3]
      simp only [List.map_cons, List.map_nil, List.prod_cons, List.prod_nil, mul_one]
      ring
  · have hp1pos : 0 < p1 := lt_of_le_of_ne hsq (Ne.symm h0)
    set q := M.trace / 3 with hq
    set p2 := (M 0 0 - q) ^ 2 + (M 1 1 - q) ^ 2 + (M 2 2 - q) ^ 2 + 2 * p1 with hp2
    have hp2pos : 0 < p2 := by positivity
    obtain ⟨B, hB, hres⟩ := eigenSym_run h p1 p2 hp2 hp2pos
    set p := Real.sqrt (p2 / 6) with hp
    have hpp : 0 < p := Real.sqrt_pos.2 (by positivity)
    have hpp2 : p * p = p2 / 6 := Real.mul_self_sqrt (by positivity)
    have hpne := ne_of_gt hpp
    obtain ⟨hBs, cell, hBtr, hB6⟩ := shifted_spec hs hpp (by rw [Matrix.trace_fin_three]; ring) (by rw [hpp2, hp2, hp1]; ring) hB
    have hb := det_bound_sym B hBs hBtr hB6
    have hb' : -1 ≤ B.det / 2 ∧ B.det / 2 ≤ 1 := by
      have := abs_le_of_sq_le_sq' (by linarith : B.det ^ 2 ≤ 2 ^ 2) (by norm_num)
      constructor <;> linarith [this.1, this.2]
    obtain ⟨φ, hφ, hcos, -, -⟩ := phi_spec (B.det / 2) hb'
    have hrun2 := hres φ hφ
    refine ⟨q + 2 * p * Real.cos φ, 3 * q - (q + 2 * p * Real.cos φ) - (q + 2 * p * Real.cos (φ + 2 * Real.pi / 3)),
      q + 2 * p * Real.cos (φ + 2 * Real.pi / 3), ?_, ?_⟩
    · rw [hrun, zero_r, if_neg (mt (X.eq_r _ _).1 h0)]
      exact hrun2
    · exact shifted_eigenvalues hpne cell hBtr hB6 hcos

/-! ### What is rejected, and the matrices for which the numbers are wrong -/

/-- Only square matrices of one to three rows are accepted. -/
theorem eigen_rejects (A : Mat X) (h : A.m ≠ A.n ∨ A.m = 0 ∨ 3 < A.m) : A.eigen = .error .thrown := by
  simp only [eigen]
  by_cases hmn : A.m ≠ A.n
  · rw [if_pos hmn]
  · rw [if_neg hmn]
    rcases h with h | h | h
    · exact absurd h hmn
    · rw [if_neg (by omega), if_neg (by omega), if_neg (by omega)]
    · rw [if_neg (by omega), if_neg (by omega), if_neg (by omega)]

/-- Lower triangular matrices of three rows: the diagonal. -/
theorem eigen_three_triangular {A : Mat X} {M : Matrix (Fin 3) (Fin 3) ℝ} (h : Rep A M) (h01 : M 0 1 = 0) (h02 : M 0 2 = 0)
    (h12 : M 1 2 = 0) : A.eigen = .ok ⟨3, [.r (M 0 0), .r (M 1 1), .r (M 2 2)]⟩ ∧ Eigenvalues M [M 0 0, M 1 1, M 2 2] := by
  have g01 := h.get 0 1
  have g02 := h.get 0 2
  have g12 := h.get 1 2
  have g0 := h.get 0 0
  have g1 := h.get 1 1
  have g2 := h.get 2 2
  simp only [Fin.val_zero, Nat.cast_zero, Fin.val_one, Nat.cast_one, Fin.val_two, Nat.cast_ofNat] at g01 g02 g12 g0 g1 g2
  constructor
  · simp only [eigen]
    rw [if_neg (by rw [h.rows, h.cols]; simp), if_neg (by rw [h.rows]; norm_num), if_neg (by rw [h.rows]; norm_num), if_pos (by rw [h.rows])]
    simp only [g01, g02, g12, g0, g1, g2, bind, Except.bind, pure, Except.pure, X.mul_r, X.add_r, zero_r, h01, h02, h12]
    rw [if_pos ((X.eq_r _ _).2 (by norm_num))]
  · intro x
    rw [det3_scalar, Matrix.trace_fin_three, Matrix.det_fin_three, h01, h02, h12]
    simp only [List.map_cons, List.map_nil, List.prod_cons, List.prod_nil, mul_one]
    ring

/-- The formula for three rows supposes a symmetric matrix without testing it: here the eigenvalues are 1, 2 and 3, the
answer is 2 + √2, 2 and 2 - √2. -/
theorem eigen_unsymmetric : ∃ (A : Mat X) (M : Matrix (Fin 3) (Fin 3) ℝ), Rep A M ∧ Eigenvalues M [1, 2, 3] ∧
    A.eigen = .ok ⟨3, [.r (2 + Real.sqrt 2), .r 2, .r (2 - Real.sqrt 2)]⟩ ∧ ¬ Eigenvalues M [2 + Real.sqrt 2, 2, 2 - Real.sqrt 2] := by
  have h := rep3 1 0 0 1 2 0 0 0 3
  set M : Matrix (Fin 3) (Fin 3) ℝ := Matrix.of ![![1, 1, 0], ![0, 2, 0], ![0, 0, 3]] with hM
  have hE : Eigenvalues M [1, 2, 3] := by
    intro x
    rw [det3_scalar, Matrix.trace_fin_three, Matrix.det_fin_three]
    simp [hM]
    ring
  refine ⟨_, M, h, hE, ?_, ?_⟩
  · have g01 := h.get 0 1
    have g02 := h.get 0 2
    have g12 := h.get 1 2
    simp only [Fin.val_zero, Nat.cast_zero, Fin.val_one, Nat.cast_one, Fin.val_two, Nat.cast_ofNat] at g01 g02 g12
    have htr : M.trace = 6 := by rw [Matrix.trace_fin_three]; simp [hM]; norm_num
    obtain ⟨B, hB, hres⟩ := eigenSym_run h 1 4 (by rw [htr]; simp [hM]; norm_num) (by norm_num)
    have hdet : B.det = 0 := by
      rw [hB, Matrix.det_smul, htr]
      have : (M - Matrix.scalar (Fin 3) (6 / 3 : ℝ)).det = 0 := by
        apply Matrix.det_eq_zero_of_row_eq_zero 1
        intro j
        fin_cases j <;> simp [hM, Matrix.scalar_apply]
        norm_num
      rw [this, mul_zero]
    have hr := hres (Real.pi / 6) (by
      rw [hdet, one_r, X.neg_r, if_neg (mt (X.le_r _ _).1 (by norm_num)), if_neg (mt (X.le_r _ _).1 (by norm_num)),
        X.acos_r (by norm_num) (by norm_num), X.div_r _ (by norm_num), zero_div, Real.arccos_zero]
      congr 1; ring)
    have c1 : Real.cos (Real.pi / 6) = Real.sqrt 3 / 2 := Real.cos_pi_div_six
    have c2 : Real.cos (Real.pi / 6 + 2 * Real.pi / 3) = -(Real.sqrt 3 / 2) := by
      rw [show Real.pi / 6 + 2 * Real.pi / 3 = Real.pi - Real.pi / 6 by ring, Real.cos_pi_sub, Real.cos_pi_div_six]
    have hsq : Real.sqrt (4 / 6) * Real.sqrt 3 = Real.sqrt 2 := by
      rw [← Real.sqrt_mul (by norm_num)]; norm_num
    rw [htr, c1, c2] at hr
    simp only [eigen]
    rw [if_neg (by simp), if_neg (by norm_num), if_neg (by norm_num), if_pos trivial]
    have e1 : X.r (M 0 1) * X.r (M 0 1) + X.r (M 0 2) * X.r (M 0 2) + X.r (M 1 2) * X.r (M 1 2) = X.r 1 := by
      simp only [X.mul_r, X.add_r]; simp [hM]
    simp only [g01, g02, g12, bind, Except.bind, e1, zero_r]
    rw [if_neg (mt (X.eq_r 1 0).1 one_ne_zero), hr]
    rw [show 6 / 3 + 2 * Real.sqrt (4 / 6) * (Real.sqrt 3 / 2) = 2 + Real.sqrt 2 by linear_combination hsq,
      show 6 / 3 + 2 * Real.sqrt (4 / 6) * -(Real.sqrt 3 / 2) = 2 - Real.sqrt 2 by linear_combination -hsq,
      show 3 * (6 / 3) - (2 + Real.sqrt 2) - (2 - Real.sqrt 2) = (2 : ℝ) by ring]
  · intro hE'
    have h3 := hE 3
    have h3' := hE' 3
    rw [h3] at h3'
    simp at h3'
    have hs : Real.sqrt 2 * Real.sqrt 2 = 2 := Real.mul_self_sqrt (by norm_num)
    rcases h3' with h | h | h <;> nlinarith

/-- A symmetric matrix that is not diagonal. -/
example : ∃ (A : Mat X) (M : Matrix (Fin 3) (Fin 3) ℝ), Rep A M ∧ M.IsSymm ∧ M 0 1 ≠ 0 :=
  ⟨_, _, rep3 2 1 0 1 2 0 0 0 3, by ext i j; fin_cases i <;> fin_cases j <;> rfl, by simp⟩

end Verif.Mx.Mat
