import Verif.Mat.Props
import Mathlib.LinearAlgebra.Matrix.NonsingularInverse
import Mathlib.LinearAlgebra.Matrix.Trace
/-
C73: without rounding, the operations of `Matrix` are those of linear algebra.  `Rep A M` says that the
object `A` holds the mathematical matrix `M`.
-/
namespace Verif.Mx.Mat
open Verif Verif.Exact

/-- the object `A` has `m` rows and `n` columns, and `get(i, j)` is the real number `M i j` -/
structure Rep {m n : Nat} (A : Mat X) (M : Matrix (Fin m) (Fin n) ℝ) : Prop where
  rows : A.m = m
  cols : A.n = n
  size : A.data.length = m * n
  get : ∀ (i : Fin m) (j : Fin n), A.get (i.val : Int) (j.val : Int) = .ok (.r (M i j))

/-- the elements of `M` as a function of natural numbers -/
noncomputable def ext {m n : Nat} (M : Matrix (Fin m) (Fin n) ℝ) (i j : Nat) : ℝ :=
  if h : i < m ∧ j < n then M ⟨i, h.1⟩ ⟨j, h.2⟩ else 0

theorem ext_fin {m n : Nat} (M : Matrix (Fin m) (Fin n) ℝ) (i : Fin m) (j : Fin n) : ext M i j = M i j := by
  simp [ext]

theorem Rep.is {m n : Nat} {A : Mat X} {M : Matrix (Fin m) (Fin n) ℝ} (h : Rep A M) :
    Is A m n (fun i j => .r (ext M i j)) :=
  ⟨h.rows, h.cols, h.size, fun i j hi hj => by
    have := h.get ⟨i, hi⟩ ⟨j, hj⟩
    simpa [ext, hi, hj] using this⟩

theorem Is.rep {m n : Nat} {A : Mat X} {M : Matrix (Fin m) (Fin n) ℝ} {f : Nat → Nat → X} (h : Is A m n f)
    (e : ∀ (i : Fin m) (j : Fin n), f i j = .r (M i j)) : Rep A M :=
  ⟨h.rows, h.cols, h.size, fun i j => by rw [h.get i j i.2 j.2, e]⟩

theorem sumOf_r (n : Nat) (t : Nat → ℝ) : sumOf n (fun k => X.r (t k)) = .r (∑ k : Fin n, t k) := by
  have key : ∀ (l : List Nat) (s : ℝ), l.foldl (fun s k => s + X.r (t k)) (X.r s) = .r (s + (l.map t).sum) := by
    intro l
    induction l with
    | nil => intro s; simp
    | cons a l ih => intro s; rw [List.foldl_cons, X.add_r, ih]; simp [add_assoc]
  unfold sumOf
  have : (zero : X) = .r 0 := by simp [zero]
  rw [this, key]
  congr 1
  rw [zero_add, ← Finset.sum_range t]; rfl

/-- The product of two objects is the product of the matrices. -/
theorem mul_matrix {m n p : Nat} {A B : Mat X} {M : Matrix (Fin m) (Fin n) ℝ} {N : Matrix (Fin n) (Fin p) ℝ}
    (h : Rep A M) (h' : Rep B N) : ∃ C, mul A B = .ok C ∧ Rep C (M * N) := by
  obtain ⟨C, e, hC⟩ := mul_spec h.is h'.is
  refine ⟨C, e, hC.rep ?_⟩
  intro i j
  simp only [X.mul_r]
  rw [sumOf_r, Matrix.mul_apply]
  congr 1
  refine Finset.sum_congr rfl fun k _ => ?_
  rw [ext_fin, ext_fin]

theorem transpose_matrix {m n : Nat} {A : Mat X} {M : Matrix (Fin m) (Fin n) ℝ} (h : Rep A M) :
    ∃ B, A.transpose = .ok B ∧ Rep B M.transpose := by
  obtain ⟨B, e, hB⟩ := transpose_spec h.is
  exact ⟨B, e, hB.rep fun i j => by rw [ext_fin]; rfl⟩

theorem add_matrix_partial {n : Nat} {A B : Mat X} {M N : Matrix (Fin n) (Fin n) ℝ} (h : Rep A M) (h' : Rep B N) :
    (∃ C, add A B = .ok C ∧ Rep C (M + N)) ∧ (∃ C, sub A B = .ok C ∧ Rep C (M - N)) := by
  obtain ⟨⟨C, e, hC⟩, ⟨D, e', hD⟩⟩ := add_square_partial h.is h'.is
  exact ⟨⟨C, e, hC.rep fun i j => by rw [ext_fin, ext_fin]; rfl⟩, ⟨D, e', hD.rep fun i j => by rw [ext_fin, ext_fin]; rfl⟩⟩

theorem smul_matrix {m n : Nat} {A : Mat X} {M : Matrix (Fin m) (Fin n) ℝ} (h : Rep A M) (d : ℝ) :
    (∃ C, smul (.r d) A = .ok C ∧ Rep C (d • M)) ∧ (d ≠ 0 → ∃ C, sdiv A (.r d) = .ok C ∧ Rep C (d⁻¹ • M)) := by
  obtain ⟨⟨C, e, hC⟩, ⟨D, e', hD⟩⟩ := smul_spec h.is (.r d)
  refine ⟨⟨C, e, hC.rep fun i j => by rw [ext_fin]; rfl⟩, fun hd => ⟨D, e', hD.rep fun i j => ?_⟩⟩
  rw [ext_fin, X.div_r _ hd, Matrix.smul_apply, smul_eq_mul]
  congr 1; field_simp

/-- The product is associative. -/
theorem mul_assoc_matrix {m n p q : Nat} {A B C : Mat X} {M : Matrix (Fin m) (Fin n) ℝ} {N : Matrix (Fin n) (Fin p) ℝ}
    {P : Matrix (Fin p) (Fin q) ℝ} (h : Rep A M) (h' : Rep B N) (h'' : Rep C P) :
    ∃ R, (do let AB ← mul A B; mul AB C) = .ok R ∧ (do let BC ← mul B C; mul A BC) = .ok R := by
  obtain ⟨AB, e1, r1⟩ := mul_matrix h h'
  obtain ⟨R1, e2, r2⟩ := mul_matrix r1 h''
  obtain ⟨BC, e3, r3⟩ := mul_matrix h' h''
  obtain ⟨R2, e4, r4⟩ := mul_matrix h r3
  rw [Matrix.mul_assoc] at r2
  have : R1 = R2 := r2.is.ext r4.is
  refine ⟨R1, ?_, ?_⟩
  · rw [e1]; exact e2
  · rw [e3]; exact this ▸ e4

/-! ### Trace, norms, number of elements -/

theorem trace_spec {m n : Nat} {A : Mat X} {M : Matrix (Fin m) (Fin n) ℝ} (h : Rep A M) :
    A.trace = .ok (.r (∑ k : Fin (min m n), M ⟨k, by omega⟩ ⟨k, by omega⟩)) := by
  have e : A.trace = .ok (sumOf (min m n) (fun k => X.r (ext M k k))) := by
    unfold trace sumOf
    rw [h.rows, h.cols]
    refine foldlM_ok (g := fun s k => s + X.r (ext M k k)) _ _ ?_
    intro s k hk
    rw [List.mem_range] at hk
    rw [show k * (m + 1) = k + k * m by ring, h.is.rd (by omega) (by omega)]; rfl
  rw [e, sumOf_r]
  congr 2
  refine Finset.sum_congr rfl fun k _ => ?_
  have := k.2
  unfold ext
  rw [dif_pos (by omega)]

/-- Of a square matrix it is the trace. -/
theorem trace_square {n : Nat} {A : Mat X} {M : Matrix (Fin n) (Fin n) ℝ} (h : Rep A M) :
    A.trace = .ok (.r M.trace) := by
  rw [trace_spec h]
  congr 2
  unfold Matrix.trace
  refine Fintype.sum_equiv (finCongr (Nat.min_self n)) _ _ ?_
  intro k; rfl

theorem sumAbs_r (n : Nat) (x : Nat → Res X) (t : Nat → ℝ) (h : ∀ i, i < n → x i = .ok (.r (t i))) :
    sumAbs n x = .ok (.r (∑ i : Fin n, |t i|)) := by
  have : sumAbs n x = .ok (sumOf n fun k => X.r |t k|) := by
    unfold sumAbs sumOf
    refine foldlM_ok (g := fun s k => s + X.r |t k|) _ _ ?_
    intro s k hk
    rw [h k (List.mem_range.1 hk)]; rfl
  rw [this, sumOf_r]

theorem largest_r (n : Nat) (x : Nat → Res X) (t : Nat → ℝ) (h : ∀ i, i < n → x i = .ok (.r (t i))) :
    ∃ v, largest n x = .ok (.r v) ∧ 0 ≤ v ∧ (∀ i, i < n → t i ≤ v) ∧ (v = 0 ∨ ∃ i, i < n ∧ v = t i) := by
  have key : ∀ (l : List Nat) (s : ℝ), (∀ i ∈ l, x i = .ok (.r (t i))) →
      ∃ v, l.foldlM (fun n i => do
        let s ← x i
        return if Arith.lt n s then s else n) (X.r s) = .ok (.r v) ∧ s ≤ v ∧ (∀ i ∈ l, t i ≤ v) ∧ (v = s ∨ ∃ i ∈ l, v = t i) := by
    intro l
    induction l with
    | nil => intro s _; exact ⟨s, rfl, le_refl _, by simp, .inl rfl⟩
    | cons a l ih =>
      intro s hl
      have ha := hl a List.mem_cons_self
      have hl' := fun i hi => hl i (List.mem_cons_of_mem _ hi)
      rw [List.foldlM_cons, ha]
      simp only [bind, Except.bind, pure, Except.pure]
      by_cases hlt : s < t a
      · rw [if_pos ((X.lt_r _ _).2 hlt)]
        obtain ⟨v, e, h1, h2, h3⟩ := ih (t a) hl'
        refine ⟨v, e, by linarith, ?_, ?_⟩
        · intro i hi
          rcases List.mem_cons.1 hi with rfl | hi
          · exact h1
          · exact h2 i hi
        · rcases h3 with h3 | ⟨i, hi, h3⟩
          · exact .inr ⟨a, List.mem_cons_self, h3⟩
          · exact .inr ⟨i, List.mem_cons_of_mem _ hi, h3⟩
      · rw [if_neg (fun c => hlt ((X.lt_r _ _).1 c))]
        obtain ⟨v, e, h1, h2, h3⟩ := ih s hl'
        refine ⟨v, e, h1, ?_, ?_⟩
        · intro i hi
          rcases List.mem_cons.1 hi with rfl | hi
          · linarith
          · exact h2 i hi
        · rcases h3 with h3 | ⟨i, hi, h3⟩
          · exact .inl h3
          · exact .inr ⟨i, List.mem_cons_of_mem _ hi, h3⟩
  obtain ⟨v, e, h1, h2, h3⟩ := key (List.range n) 0 (fun i hi => h i (List.mem_range.1 hi))
  refine ⟨v, ?_, h1, fun i hi => h2 i (List.mem_range.2 hi), ?_⟩
  · unfold largest
    rw [show (zero : X) = .r 0 by simp [zero]]
    exact e
  · rcases h3 with h3 | ⟨i, hi, h3⟩
    · exact .inl h3
    · exact .inr ⟨i, List.mem_range.1 hi, h3⟩

/-- The 1-norm is the largest sum of absolute values of a column. -/
theorem norm1_spec {m n : Nat} {A : Mat X} {M : Matrix (Fin m) (Fin n) ℝ} (h : Rep A M) (hn : 0 < n) :
    ∃ v, A.norm1 = .ok (.r v) ∧ IsGreatest {s | ∃ j, s = ∑ i, |M i j|} v := by
  obtain ⟨v, e, h0, h1, h2⟩ := largest_r n (fun col => sumAbs m fun row => A.get row col)
    (fun j => ∑ i : Fin m, |ext M i j|) (fun j hj => sumAbs_r m _ (fun i => ext M i j) fun i hi => h.is.get i j hi hj)
  refine ⟨v, by unfold norm1; rw [h.rows, h.cols]; exact e, ?_, ?_⟩
  · rcases h2 with h2 | ⟨j, hj, h2⟩
    · refine ⟨⟨0, hn⟩, le_antisymm ?_ ?_⟩
      · rw [h2]; exact Finset.sum_nonneg fun _ _ => abs_nonneg _
      · have := h1 0 hn
        rw [← h2] at h0
        rw [h2] at this
        rw [h2]
        refine le_trans (le_of_eq ?_) this
        exact Finset.sum_congr rfl fun i _ => by rw [← ext_fin M i ⟨0, hn⟩]
    · refine ⟨⟨j, hj⟩, h2.trans ?_⟩
      exact Finset.sum_congr rfl fun i _ => by rw [← ext_fin M i ⟨j, hj⟩]
  · rintro s ⟨j, rfl⟩
    have := h1 j j.2
    refine le_trans (le_of_eq ?_) this
    exact Finset.sum_congr rfl fun i _ => by rw [ext_fin]

/-- The infinity norm is the largest sum of absolute values of a row. -/
theorem normInf_spec {m n : Nat} {A : Mat X} {M : Matrix (Fin m) (Fin n) ℝ} (h : Rep A M) (hm : 0 < m) :
    ∃ v, A.normInf = .ok (.r v) ∧ IsGreatest {s | ∃ i, s = ∑ j, |M i j|} v := by
  obtain ⟨v, e, h0, h1, h2⟩ := largest_r m (fun row => sumAbs n fun col => A.get row col)
    (fun i => ∑ j : Fin n, |ext M i j|) (fun i hi => sumAbs_r n _ (fun j => ext M i j) fun j hj => h.is.get i j hi hj)
  refine ⟨v, by unfold normInf; rw [h.rows, h.cols]; exact e, ?_, ?_⟩
  · rcases h2 with h2 | ⟨j, hj, h2⟩
    · refine ⟨⟨0, hm⟩, le_antisymm ?_ ?_⟩
      · rw [h2]; exact Finset.sum_nonneg fun _ _ => abs_nonneg _
      · have := h1 0 hm
        rw [h2] at this
        rw [h2]
        refine le_trans (le_of_eq ?_) this
        exact Finset.sum_congr rfl fun i _ => by rw [← ext_fin M ⟨0, hm⟩ i]
    · refine ⟨⟨j, hj⟩, h2.trans ?_⟩
      exact Finset.sum_congr rfl fun i _ => by rw [← ext_fin M ⟨j, hj⟩ i]
  · rintro s ⟨i, rfl⟩
    have := h1 i i.2
    refine le_trans (le_of_eq ?_) this
    exact Finset.sum_congr rfl fun j _ => by rw [ext_fin]

/-! ### Determinant and inverse -/

theorem Rep.elems {m n : Nat} {A : Mat X} {M : Matrix (Fin m) (Fin n) ℝ} (h : Rep A M) (i : Fin m) (j : Fin n) :
    Mat.elems A.data (i.val + j.val * m) = .r (M i j) := by
  have := h.is.elem i.2 j.2
  unfold Mat.elems
  rw [List.getD_eq_getElem?_getD, this, ext_fin]; rfl

theorem Rep.readAll {m n : Nat} {A : Mat X} {M : Matrix (Fin m) (Fin n) ℝ} (h : Rep A M) (c : Nat) (hc : c = m * n) :
    Mat.readAll A.data c = .ok (Mat.elems A.data) := by
  unfold Mat.readAll
  rw [if_neg (by rw [h.size, hc]; omega)]

theorem det2_r {A : Mat X} {M : Matrix (Fin 2) (Fin 2) ℝ} (h : Rep A M) : det2 (Mat.elems A.data) = .r M.det := by
  have h00 := h.elems 0 0
  have h01 := h.elems 0 1
  have h10 := h.elems 1 0
  have h11 := h.elems 1 1
  simp only [Fin.val_zero, Fin.val_one, Nat.reduceMul, Nat.reduceAdd] at h00 h01 h10 h11
  simp only [det2, h00, h01, h10, h11, X.mul_r, X.sub_r, Matrix.det_fin_two]
  congr 1; ring

theorem cells3 {A : Mat X} {M : Matrix (Fin 3) (Fin 3) ℝ} (h : Rep A M) :
    Mat.elems A.data 0 = .r (M 0 0) ∧ Mat.elems A.data 1 = .r (M 1 0) ∧ Mat.elems A.data 2 = .r (M 2 0) ∧
    Mat.elems A.data 3 = .r (M 0 1) ∧ Mat.elems A.data 4 = .r (M 1 1) ∧ Mat.elems A.data 5 = .r (M 2 1) ∧
    Mat.elems A.data 6 = .r (M 0 2) ∧ Mat.elems A.data 7 = .r (M 1 2) ∧ Mat.elems A.data 8 = .r (M 2 2) :=
  ⟨h.elems 0 0, h.elems 1 0, h.elems 2 0, h.elems 0 1, h.elems 1 1, h.elems 2 1, h.elems 0 2, h.elems 1 2, h.elems 2 2⟩

theorem det3_r {A : Mat X} {M : Matrix (Fin 3) (Fin 3) ℝ} (h : Rep A M) : det3 (Mat.elems A.data) = .r M.det := by
  obtain ⟨h0, h1, h2, h3, h4, h5, h6, h7, h8⟩ := cells3 h
  simp only [det3, h0, h1, h2, h3, h4, h5, h6, h7, h8, X.mul_r, X.sub_r, X.add_r, Matrix.det_fin_three]
  congr 1; ring

theorem cells4 {A : Mat X} {M : Matrix (Fin 4) (Fin 4) ℝ} (h : Rep A M) :
    (Mat.elems A.data 0 = .r (M 0 0) ∧ Mat.elems A.data 1 = .r (M 1 0) ∧ Mat.elems A.data 2 = .r (M 2 0) ∧
      Mat.elems A.data 3 = .r (M 3 0)) ∧
    (Mat.elems A.data 4 = .r (M 0 1) ∧ Mat.elems A.data 5 = .r (M 1 1) ∧ Mat.elems A.data 6 = .r (M 2 1) ∧
      Mat.elems A.data 7 = .r (M 3 1)) ∧
    (Mat.elems A.data 8 = .r (M 0 2) ∧ Mat.elems A.data 9 = .r (M 1 2) ∧ Mat.elems A.data 10 = .r (M 2 2) ∧
      Mat.elems A.data 11 = .r (M 3 2)) ∧
    (Mat.elems A.data 12 = .r (M 0 3) ∧ Mat.elems A.data 13 = .r (M 1 3) ∧ Mat.elems A.data 14 = .r (M 2 3) ∧
      Mat.elems A.data 15 = .r (M 3 3)) :=
  ⟨⟨h.elems 0 0, h.elems 1 0, h.elems 2 0, h.elems 3 0⟩, ⟨h.elems 0 1, h.elems 1 1, h.elems 2 1, h.elems 3 1⟩,
   ⟨h.elems 0 2, h.elems 1 2, h.elems 2 2, h.elems 3 2⟩, ⟨h.elems 0 3, h.elems 1 3, h.elems 2 3, h.elems 3 3⟩⟩

theorem det_fin_four (M : Matrix (Fin 4) (Fin 4) ℝ) : M.det =
    M 0 0 * (M 1 1 * M 2 2 * M 3 3 - M 1 1 * M 2 3 * M 3 2 - M 1 2 * M 2 1 * M 3 3 + M 1 2 * M 2 3 * M 3 1 + M 1 3 * M 2 1 * M 3 2 - M 1 3 * M 2 2 * M 3 1)
    - M 0 1 * (M 1 0 * M 2 2 * M 3 3 - M 1 0 * M 2 3 * M 3 2 - M 1 2 * M 2 0 * M 3 3 + M 1 2 * M 2 3 * M 3 0 + M 1 3 * M 2 0 * M 3 2 - M 1 3 * M 2 2 * M 3 0)
    + M 0 2 * (M 1 0 * M 2 1 * M 3 3 - M 1 0 * M 2 3 * M 3 1 - M 1 1 * M 2 0 * M 3 3 + M 1 1 * M 2 3 * M 3 0 + M 1 3 * M 2 0 * M 3 1 - M 1 3 * M 2 1 * M 3 0)
    - M 0 3 * (M 1 0 * M 2 1 * M 3 2 - M 1 0 * M 2 2 * M 3 1 - M 1 1 * M 2 0 * M 3 2 + M 1 1 * M 2 2 * M 3 0 + M 1 2 * M 2 0 * M 3 1 - M 1 2 * M 2 1 * M 3 0) := by
  rw [Matrix.det_succ_row_zero, Fin.sum_univ_four]
  simp only [Matrix.det_fin_three, Matrix.submatrix_apply]
  have a1 : (Fin.succ 0 : Fin 4) = 1 := rfl
  have a2 : (Fin.succ 1 : Fin 4) = 2 := rfl
  have a3 : (Fin.succ 2 : Fin 4) = 3 := rfl
  have b00 : (Fin.succAbove (0 : Fin 4) 0) = 1 := rfl
  have b01 : (Fin.succAbove (0 : Fin 4) 1) = 2 := rfl
  have b02 : (Fin.succAbove (0 : Fin 4) 2) = 3 := rfl
  have b10 : (Fin.succAbove (1 : Fin 4) 0) = 0 := rfl
  have b11 : (Fin.succAbove (1 : Fin 4) 1) = 2 := rfl
  have b12 : (Fin.succAbove (1 : Fin 4) 2) = 3 := rfl
  have b20 : (Fin.succAbove (2 : Fin 4) 0) = 0 := rfl
  have b21 : (Fin.succAbove (2 : Fin 4) 1) = 1 := rfl
  have b22 : (Fin.succAbove (2 : Fin 4) 2) = 3 := rfl
  have b30 : (Fin.succAbove (3 : Fin 4) 0) = 0 := rfl
  have b31 : (Fin.succAbove (3 : Fin 4) 1) = 1 := rfl
  have b32 : (Fin.succAbove (3 : Fin 4) 2) = 2 := rfl
  have c0 : ((0 : Fin 4) : ℕ) = 0 := rfl
  have c1 : ((1 : Fin 4) : ℕ) = 1 := rfl
  have c2 : ((2 : Fin 4) : ℕ) = 2 := rfl
  have c3 : ((3 : Fin 4) : ℕ) = 3 := rfl
  simp only [a1, a2, a3, b00, b01, b02, b10, b11, b12, b20, b21, b22, b30, b31, b32, c0, c1, c2, c3]
  ring

theorem det4_r {A : Mat X} {M : Matrix (Fin 4) (Fin 4) ℝ} (h : Rep A M) : det4 (Mat.elems A.data) = .r M.det := by
  obtain ⟨⟨h0, h1, h2, h3⟩, ⟨h4, h5, h6, h7⟩, ⟨h8, h9, h10, h11⟩, ⟨h12, h13, h14, h15⟩⟩ := cells4 h
  simp only [det4, h0, h1, h2, h3, h4, h5, h6, h7, h8, h9, h10, h11, h12, h13, h14, h15, X.mul_r, X.sub_r, X.add_r,
    det_fin_four]
  congr 1; ring

/-- The determinant of square matrices up to 4 × 4. -/
theorem det_spec {n : Nat} {A : Mat X} {M : Matrix (Fin n) (Fin n) ℝ} (h : Rep A M) (h1 : 1 ≤ n) (h4 : n ≤ 4) (arg : X) :
    A.det arg = .ok (.ok, .r M.det) := by
  have hr := h.rows
  have hc := h.cols
  unfold det
  obtain rfl | rfl | rfl | rfl : n = 1 ∨ n = 2 ∨ n = 3 ∨ n = 4 := by omega
  · rw [hr, hc, if_pos rfl, if_pos rfl, h.readAll 1 rfl]
    have := h.elems 0 0
    simp only [Fin.val_zero, Nat.zero_mul, Nat.add_zero] at this
    simp only [Except.map, this, Matrix.det_fin_one]
  · rw [hr, hc, if_pos rfl, if_neg (by omega), if_pos rfl, h.readAll 4 rfl]
    simp only [Except.map, det2_r h]
  · rw [hr, hc, if_pos rfl, if_neg (by omega), if_neg (by omega), if_pos rfl, h.readAll 9 rfl]
    simp only [Except.map, det3_r h]
  · rw [hr, hc, if_pos rfl, if_neg (by omega), if_neg (by omega), if_neg (by omega), if_pos rfl, h.readAll 16 rfl]
    simp only [Except.map, det4_r h]

/-- For all other sizes both functions report an error and change nothing (any number type). -/
theorem det_inverse_reject {K : Type} [Arith K] (A : Mat K) (h : A.m ≠ A.n ∨ A.m = 0 ∨ 5 ≤ A.m) (arg : K) :
    A.det arg = .ok (.error, arg) ∧ A.inverse = .ok (.error, A) := by
  unfold det inverse
  by_cases e : A.m = A.n
  · have : A.m = 0 ∨ 5 ≤ A.m := by rcases h with h | h <;> [exact absurd e h; exact h]
    rw [if_pos e, if_pos e, if_neg (by omega), if_neg (by omega), if_neg (by omega), if_neg (by omega), if_neg (by omega),
      if_neg (by omega), if_neg (by omega), if_neg (by omega)]
    exact ⟨rfl, rfl⟩
  · rw [if_neg e, if_neg e]; exact ⟨rfl, rfl⟩

theorem rep_inv {n : Nat} {B : Mat X} {M N : Matrix (Fin n) (Fin n) ℝ} (h : Rep B N) (e : M * N = 1) : Rep B M⁻¹ := by
  rw [Matrix.inv_eq_right_inv e]; exact h

theorem one_r : (one : X) = .r 1 := by simp [one]
theorem zero_r : (zero : X) = .r 0 := by simp [zero]
theorem two_r : (two : X) = .r 2 := by simp [two]

theorem rep1 (a : ℝ) : Rep ⟨1, 1, [.r a]⟩ (Matrix.of ![![a]]) :=
  ⟨rfl, rfl, rfl, fun i j => by fin_cases i; fin_cases j; rfl⟩
theorem rep2 (a b c d : ℝ) : Rep ⟨2, 2, [.r a, .r b, .r c, .r d]⟩ (Matrix.of ![![a, c], ![b, d]]) :=
  ⟨rfl, rfl, rfl, fun i j => by fin_cases i <;> fin_cases j <;> rfl⟩
theorem rep3 (a b c d e f g h i : ℝ) : Rep ⟨3, 3, [.r a, .r b, .r c, .r d, .r e, .r f, .r g, .r h, .r i]⟩
    (Matrix.of ![![a, d, g], ![b, e, h], ![c, f, i]]) :=
  ⟨rfl, rfl, rfl, fun i j => by fin_cases i <;> fin_cases j <;> rfl⟩
theorem rep4 (a b c d e f g h i j k l m n o p : ℝ) :
    Rep ⟨4, 4, [.r a, .r b, .r c, .r d, .r e, .r f, .r g, .r h, .r i, .r j, .r k, .r l, .r m, .r n, .r o, .r p]⟩
    (Matrix.of ![![a, e, i, m], ![b, f, j, n], ![c, g, k, o], ![d, h, l, p]]) :=
  ⟨rfl, rfl, rfl, fun i j => by fin_cases i <;> fin_cases j <;> rfl⟩

theorem inv2_r {A : Mat X} {M : Matrix (Fin 2) (Fin 2) ℝ} (h : Rep A M) (t : ℝ) (ht : M.det * t = 1) :
    Rep ⟨2, 2, inv2 (Mat.elems A.data) (.r t)⟩ M⁻¹ := by
  have h00 : Mat.elems A.data 0 = .r (M 0 0) := h.elems 0 0
  have h01 : Mat.elems A.data 2 = .r (M 0 1) := h.elems 0 1
  have h10 : Mat.elems A.data 1 = .r (M 1 0) := h.elems 1 0
  have h11 : Mat.elems A.data 3 = .r (M 1 1) := h.elems 1 1
  simp only [inv2, h00, h01, h10, h11, X.mul_r, X.neg_r]
  refine rep_inv (rep2 _ _ _ _) ?_
  rw [Matrix.det_fin_two] at ht
  ext i j
  fin_cases i <;> fin_cases j <;> simp [Matrix.mul_apply, Fin.sum_univ_two]
  · linear_combination ht
  · ring
  · ring
  · linear_combination ht

theorem inv3_r {A : Mat X} {M : Matrix (Fin 3) (Fin 3) ℝ} (h : Rep A M) (t : ℝ) (ht : M.det * t = 1) :
    Rep ⟨3, 3, inv3 (Mat.elems A.data) (.r t)⟩ M⁻¹ := by
  obtain ⟨h0, h1, h2, h3, h4, h5, h6, h7, h8⟩ := cells3 h
  simp only [inv3, h0, h1, h2, h3, h4, h5, h6, h7, h8, X.mul_r, X.sub_r]
  refine rep_inv (rep3 _ _ _ _ _ _ _ _ _) ?_
  rw [Matrix.det_fin_three] at ht
  ext i j
  fin_cases i <;> fin_cases j <;> simp [Matrix.mul_apply, Fin.sum_univ_three]
  · linear_combination ht
  · ring
  · ring
  · ring
  · linear_combination ht
  · ring
  · ring
  · ring
  · linear_combination ht

theorem inv4_r {A : Mat X} {M : Matrix (Fin 4) (Fin 4) ℝ} (h : Rep A M) (t : ℝ) (ht : M.det * t = 1) :
    Rep ⟨4, 4, inv4 (Mat.elems A.data) (.r t)⟩ M⁻¹ := by
  obtain ⟨⟨h0, h1, h2, h3⟩, ⟨h4, h5, h6, h7⟩, ⟨h8, h9, h10, h11⟩, ⟨h12, h13, h14, h15⟩⟩ := cells4 h
  simp only [inv4, h0, h1, h2, h3, h4, h5, h6, h7, h8, h9, h10, h11, h12, h13, h14, h15, X.mul_r, X.sub_r, X.add_r]
  refine rep_inv (rep4 _ _ _ _ _ _ _ _ _ _ _ _ _ _ _ _) ?_
  rw [det_fin_four] at ht
  ext i j
  fin_cases i <;> fin_cases j <;> simp [Matrix.mul_apply, Fin.sum_univ_four]
  · linear_combination ht
  · ring
  · ring
  · ring
  · ring
  · linear_combination ht
  · ring
  · ring
  · ring
  · ring
  · linear_combination ht
  · ring
  · ring
  · ring
  · ring
  · linear_combination ht

/-- The inverse of regular square matrices up to 4 × 4. -/
theorem inverse_spec {n : Nat} {A : Mat X} {M : Matrix (Fin n) (Fin n) ℝ} (h : Rep A M) (h1 : 1 ≤ n) (h4 : n ≤ 4)
    (hd : M.det ≠ 0) : ∃ B, A.inverse = .ok (.ok, B) ∧ Rep B M⁻¹ := by
  have hr := h.rows
  have hc := h.cols
  have ht : M.det * (1 / M.det) = 1 := by field_simp
  have hdiv : (one : X) / .r M.det = .r (1 / M.det) := by rw [one_r, X.div_r _ hd]
  unfold inverse
  obtain rfl | rfl | rfl | rfl : n = 1 ∨ n = 2 ∨ n = 3 ∨ n = 4 := by omega
  · have h0 : Mat.elems A.data 0 = .r (M 0 0) := h.elems 0 0
    rw [Matrix.det_fin_one] at hd ht hdiv
    refine ⟨⟨1, 1, [.r (1 / M 0 0)]⟩, ?_, rep_inv (rep1 _) ?_⟩
    · rw [hr, hc, if_pos rfl, if_pos rfl, h.readAll 1 rfl]
      simp only [Except.map, h0, hdiv]
    · ext i j
      fin_cases i; fin_cases j
      simpa [Matrix.mul_apply] using ht
  · refine ⟨⟨2, 2, inv2 (Mat.elems A.data) (.r (1 / M.det))⟩, ?_, inv2_r h _ ht⟩
    rw [hr, hc, if_pos rfl, if_neg (by omega), if_pos rfl, h.readAll 4 rfl]
    simp only [Except.map, det2_r h, hdiv]
  · refine ⟨⟨3, 3, inv3 (Mat.elems A.data) (.r (1 / M.det))⟩, ?_, inv3_r h _ ht⟩
    rw [hr, hc, if_pos rfl, if_neg (by omega), if_neg (by omega), if_pos rfl, h.readAll 9 rfl]
    simp only [Except.map, det3_r h, hdiv]
  · refine ⟨⟨4, 4, inv4 (Mat.elems A.data) (.r (1 / M.det))⟩, ?_, inv4_r h _ ht⟩
    rw [hr, hc, if_pos rfl, if_neg (by omega), if_neg (by omega), if_neg (by omega), if_pos rfl, h.readAll 16 rfl]
    simp only [Except.map, det4_r h, hdiv]

theorem mul_nan (x : X) : x * X.nan = .nan := by cases x <;> rfl

/-- The inverse of a singular matrix: the status is still eOK, but no cell is a number. -/
theorem inverse_singular {n : Nat} {A : Mat X} {M : Matrix (Fin n) (Fin n) ℝ} (h : Rep A M) (h1 : 1 ≤ n) (h4 : n ≤ 4)
    (hd : M.det = 0) : A.inverse = .ok (.ok, ⟨n, n, List.replicate (n * n) X.nan⟩) := by
  have hr := h.rows
  have hc := h.cols
  have hdiv : (one : X) / .r 0 = .nan := by rw [one_r, X.div_zero]
  unfold inverse
  obtain rfl | rfl | rfl | rfl : n = 1 ∨ n = 2 ∨ n = 3 ∨ n = 4 := by omega
  · have h0 : Mat.elems A.data 0 = .r (M 0 0) := h.elems 0 0
    rw [Matrix.det_fin_one] at hd
    rw [hr, hc, if_pos rfl, if_pos rfl, h.readAll 1 rfl]
    simp only [Except.map, h0, hd, hdiv]; rfl
  · rw [hr, hc, if_pos rfl, if_neg (by omega), if_pos rfl, h.readAll 4 rfl]
    simp only [Except.map, det2_r h, hd, hdiv, inv2, mul_nan]; rfl
  · rw [hr, hc, if_pos rfl, if_neg (by omega), if_neg (by omega), if_pos rfl, h.readAll 9 rfl]
    simp only [Except.map, det3_r h, hd, hdiv, inv3, mul_nan]; rfl
  · rw [hr, hc, if_pos rfl, if_neg (by omega), if_neg (by omega), if_neg (by omega), if_pos rfl, h.readAll 16 rfl]
    simp only [Except.map, det4_r h, hd, hdiv, inv4, mul_nan]; rfl

/-- The same with doubles: a singular matrix becomes infinities and NaN, the status is eOK. -/
theorem inverse_singular_double :
    inverse (⟨2, 2, [one, one, one, one]⟩ : Mat Fp.F64) =
      .ok (.ok, ⟨2, 2, [one / zero, -(one / zero), -(one / zero), one / zero]⟩) ∧
    inverse (⟨1, 1, [zero]⟩ : Mat Fp.F64) = .ok (.ok, ⟨1, 1, [one / zero]⟩) := by decide +kernel

/-- A small determinant is not rounded to 0: with doubles the determinant of the 2 × 2 matrix with the
rows (1 + 2^-52, 1) and (1, 1 - 2^-52), which is -2^-104, is computed as 0. -/
theorem det_double_cancels :
    det (⟨2, 2, [one + Arith.lit 1 (2 ^ 52), one, one, one - Arith.lit 1 (2 ^ 52)]⟩ : Mat Fp.F64) one = .ok (.ok, zero) := by
  decide +kernel

-- a case that meets the hypotheses
example : Rep ⟨2, 2, [.r 1, .r 2, .r 3, .r 4]⟩ (Matrix.of ![![1, 3], ![2, 4]]) ∧
    (Matrix.of ![![1, 3], ![2, 4]] : Matrix (Fin 2) (Fin 2) ℝ).det ≠ 0 := ⟨rep2 1 2 3 4, by
  rw [Matrix.det_fin_two]; norm_num⟩
example : (Matrix.of ![![1, 3], ![2, 6]] : Matrix (Fin 2) (Fin 2) ℝ).det = 0 := by
  rw [Matrix.det_fin_two]; norm_num

/-! ### The number of elements that are not zero -/

theorem count_row (n : Nat) (x : Nat → Res X) (t : Nat → ℝ) (c : Nat) (h : ∀ i, i < n → x i = .ok (.r (t i))) :
    (List.range n).foldlM (fun cnt c => do
      let v ← x c
      return if Arith.eq v zero then cnt else cnt + 1) c = (.ok (c + ∑ i : Fin n, (if t i = 0 then 0 else 1)) : Res Nat) := by
  rw [← Finset.sum_range (fun i => if t i = 0 then 0 else 1)]
  induction n with
  | zero => rfl
  | succ n ih =>
    rw [List.range_succ, List.foldlM_append, ih (fun i hi => h i (by omega)), Finset.sum_range_succ]
    simp only [bind, Except.bind, List.foldlM_cons, List.foldlM_nil, h n (by omega), zero_r, pure, Except.pure]
    by_cases e : t n = 0
    · rw [if_pos ((X.eq_r _ _).2 e), if_pos e]; rfl
    · rw [if_neg (fun c => e ((X.eq_r _ _).1 c)), if_neg e]; rfl

/-- The number of cells that are not 0. -/
theorem nonZeroElementCount_spec {m n : Nat} {A : Mat X} {M : Matrix (Fin m) (Fin n) ℝ} (h : Rep A M) :
    A.nonZeroElementCount = .ok (∑ i : Fin m, ∑ j : Fin n, if M i j = 0 then 0 else 1) := by
  have key : ∀ k, k ≤ m → (List.range k).foldlM (fun cnt r => (List.range n).foldlM (fun cnt c => do
      let x ← A.get (r : Nat) (c : Nat)
      return if Arith.eq x zero then cnt else cnt + 1) cnt) 0 =
      (.ok (∑ i ∈ Finset.range k, ∑ j : Fin n, if ext M i j = 0 then 0 else 1) : Res Nat) := by
    intro k
    induction k with
    | zero => intro _; rfl
    | succ k ih =>
      intro hk
      rw [List.range_succ, List.foldlM_append, ih (by omega)]
      simp only [bind, Except.bind, List.foldlM_cons, List.foldlM_nil]
      have := count_row n (fun c => A.get (k : Nat) (c : Nat)) (fun j => ext M k j)
        (∑ i ∈ Finset.range k, ∑ j : Fin n, if ext M i j = 0 then 0 else 1) (fun j hj => h.is.get k j (by omega) hj)
      simp only [bind, Except.bind] at this
      rw [this, Finset.sum_range_succ]; rfl
  have := key m (le_refl _)
  unfold nonZeroElementCount
  rw [h.rows, h.cols, this, Finset.sum_range]
  congr 1
  refine Finset.sum_congr rfl fun i _ => Finset.sum_congr rfl fun j _ => ?_
  rw [ext_fin]

end Verif.Mx.Mat
