import Verif.Nurbs.Spec
import Mathlib.Algebra.Polynomial.Roots
import Mathlib.Algebra.Order.BigOperators.Group.Finset
import Mathlib.Tactic
/-
B-splines over real knots.
-/
namespace Verif.Nurbs
open Verif Verif.Exact Verif.Mx Verif.Vtx Finset

/-- the recursion over real numbers, with 0 for a quotient by 0 -/
noncomputable def B (u : ℕ → ℝ) (t : ℝ) : ℕ → ℕ → ℝ
  | 0, i => if u i ≤ t ∧ t < u (i + 1) then 1 else 0
  | k + 1, i => B u t k i * ((t - u i) / (u (i + (k + 1)) - u i)) +
      B u t k (i + 1) * ((u (i + (k + 1) + 1) - t) / (u (i + (k + 1) + 1) - u (i + 1)))

theorem B_supp {u : ℕ → ℝ} (hu : Monotone u) (t : ℝ) : ∀ k i, B u t k i ≠ 0 → u i ≤ t ∧ t < u (i + k + 1) := by
  intro k
  induction k with
  | zero =>
    intro i h
    simp only [B] at h
    by_contra hc
    rw [if_neg (by simpa using hc)] at h
    exact h rfl
  | succ k ih =>
    intro i h
    simp only [B] at h
    by_cases h1 : B u t k i = 0
    · have h2 : B u t k (i + 1) ≠ 0 := by
        intro h2; rw [h1, h2] at h; simp at h
      obtain ⟨a, b⟩ := ih _ h2
      refine ⟨le_trans (hu (by omega)) a, ?_⟩
      rwa [show i + (k + 1) + 1 = i + 1 + k + 1 by omega]
    · obtain ⟨a, b⟩ := ih _ h1
      exact ⟨a, lt_of_lt_of_le b (hu (by omega))⟩

theorem B_nonneg {u : ℕ → ℝ} (hu : Monotone u) (t : ℝ) : ∀ k i, 0 ≤ B u t k i := by
  intro k
  induction k with
  | zero => intro i; simp only [B]; split <;> norm_num
  | succ k ih =>
    intro i
    simp only [B]
    have h1 : 0 ≤ B u t k i * ((t - u i) / (u (i + (k + 1)) - u i)) := by
      by_cases h : B u t k i = 0
      · rw [h, zero_mul]
      · have := B_supp hu t k i h
        exact mul_nonneg (ih i) (div_nonneg (by linarith [this.1]) (by linarith [hu (show i ≤ i + (k + 1) by omega)]))
    have h2 : 0 ≤ B u t k (i + 1) * ((u (i + (k + 1) + 1) - t) / (u (i + (k + 1) + 1) - u (i + 1))) := by
      by_cases h : B u t k (i + 1) = 0
      · rw [h, zero_mul]
      · have := B_supp hu t k (i + 1) h
        rw [show i + 1 + k + 1 = i + (k + 1) + 1 by omega] at this
        exact mul_nonneg (ih _) (div_nonneg (by linarith [this.2]) (by linarith [hu (show i + 1 ≤ i + (k + 1) + 1 by omega)]))
    linarith

/-- a sum over the recursion, with any factors -/
theorem B_sum {u : ℕ → ℝ} (hu : Monotone u) (t : ℝ) (k n : ℕ) (h0 : u (k + 1) ≤ t) (hn : t < u n) (ψ : ℕ → ℝ) (φ : ℕ → ℝ)
    (hφ : ∀ i, u (i + 1) < u (i + 1 + (k + 1)) → ψ (i + 1) * ((t - u (i + 1)) / (u (i + 1 + (k + 1)) - u (i + 1))) +
      ψ i * ((u (i + 1 + (k + 1)) - t) / (u (i + 1 + (k + 1)) - u (i + 1))) = φ (i + 1)) :
    ∑ i ∈ range n, B u t (k + 1) i * ψ i = ∑ i ∈ range n, B u t k i * φ i := by
  have z0 : B u t k 0 = 0 := by
    by_contra h
    have := (B_supp hu t k 0 h).2
    rw [zero_add] at this
    linarith
  have zn : B u t k n = 0 := by
    by_contra h
    have := (B_supp hu t k n h).1
    linarith
  have e1 : ∑ i ∈ range n, B u t (k + 1) i * ψ i =
      ∑ i ∈ range n, B u t k i * ((t - u i) / (u (i + (k + 1)) - u i)) * ψ i +
      ∑ i ∈ range n, B u t k (i + 1) * ((u (i + 1 + (k + 1)) - t) / (u (i + 1 + (k + 1)) - u (i + 1))) * ψ i := by
    rw [← sum_add_distrib]
    apply sum_congr rfl
    intro i _
    simp only [B]
    rw [show i + 1 + (k + 1) = i + (k + 1) + 1 by omega]
    ring
  have e2 : ∑ i ∈ range n, B u t k i * ((t - u i) / (u (i + (k + 1)) - u i)) * ψ i =
      ∑ i ∈ range n, B u t k (i + 1) * ((t - u (i + 1)) / (u (i + 1 + (k + 1)) - u (i + 1))) * ψ (i + 1) := by
    have a := sum_range_succ (fun i => B u t k i * ((t - u i) / (u (i + (k + 1)) - u i)) * ψ i) n
    have b := sum_range_succ' (fun i => B u t k i * ((t - u i) / (u (i + (k + 1)) - u i)) * ψ i) n
    simp only [zn, z0, zero_mul, add_zero] at a b
    rw [← a, b]
  have e3 : ∑ i ∈ range n, B u t k i * φ i = ∑ i ∈ range n, B u t k (i + 1) * φ (i + 1) := by
    have a := sum_range_succ (fun i => B u t k i * φ i) n
    have b := sum_range_succ' (fun i => B u t k i * φ i) n
    simp only [zn, z0, zero_mul, add_zero] at a b
    rw [← a, b]
  rw [e1, e2, e3, ← sum_add_distrib]
  apply sum_congr rfl
  intro i _
  by_cases h : B u t k (i + 1) = 0
  · rw [h]; ring
  · have hs := B_supp hu t k (i + 1) h
    rw [show i + 1 + k + 1 = i + 1 + (k + 1) by omega] at hs
    rw [← hφ i (lt_of_le_of_lt hs.1 hs.2)]
    ring

/-- exactly one interval holds `t` -/
theorem B_zero_sum {u : ℕ → ℝ} (hu : Monotone u) (t : ℝ) (n : ℕ) (h0 : u 0 ≤ t) (hn : t < u n) : ∑ i ∈ range n, B u t 0 i = 1 := by
  have e : ∀ m, ∑ i ∈ range m, B u t 0 i = (if u 0 ≤ t then 1 else 0) - (if u m ≤ t then 1 else 0) := by
    intro m
    induction m with
    | zero => simp
    | succ m ih =>
      rw [sum_range_succ, ih]
      simp only [B]
      have hm := hu (show m ≤ m + 1 by omega)
      by_cases h1 : u m ≤ t
      · by_cases h2 : u (m + 1) ≤ t
        · rw [if_pos h1, if_pos h2, if_neg (show ¬ (u m ≤ t ∧ t < u (m + 1)) from fun h => absurd h.2 (not_lt.2 h2))]; ring
        · rw [if_pos h1, if_neg h2, if_pos (show u m ≤ t ∧ t < u (m + 1) from ⟨h1, not_le.1 h2⟩)]; ring
      · rw [if_neg h1, if_neg (show ¬ (u m ≤ t ∧ t < u (m + 1)) by tauto), if_neg (show ¬ u (m + 1) ≤ t by intro h; exact h1 (le_trans hm h))]; ring
  rw [e n, if_pos h0, if_neg (not_le.2 hn)]; ring

theorem B_partition {u : ℕ → ℝ} (hu : Monotone u) (t : ℝ) (n : ℕ) (hn : t < u n) : ∀ k, u k ≤ t → ∑ i ∈ range n, B u t k i = 1 := by
  intro k
  induction k with
  | zero => intro h; exact B_zero_sum hu t n h hn
  | succ k ih =>
    intro h
    have := B_sum hu t k n h hn (fun _ => 1) (fun _ => 1) (by
      intro i hi
      have : u (i + 1 + (k + 1)) - u (i + 1) ≠ 0 := ne_of_gt (sub_pos.2 hi)
      field_simp
      ring)
    simp only [mul_one] at this
    rw [this]
    exact ih (le_trans (hu (by omega)) h)

theorem B_marsden {u : ℕ → ℝ} (hu : Monotone u) (t : ℝ) (n : ℕ) (hn : t < u n) (x : ℝ) :
    ∀ k, u k ≤ t → ∑ i ∈ range n, B u t k i * ∏ j ∈ range k, (x - u (i + 1 + j)) = (x - t) ^ k := by
  intro k
  induction k with
  | zero => intro h; simpa using B_zero_sum hu t n h hn
  | succ k ih =>
    intro h
    have := B_sum hu t k n h hn (fun i => ∏ j ∈ range (k + 1), (x - u (i + 1 + j)))
      (fun i => (x - t) * ∏ j ∈ range k, (x - u (i + 1 + j))) (by
      intro i hi
      have hne : u (i + 1 + (k + 1)) - u (i + 1) ≠ 0 := ne_of_gt (sub_pos.2 hi)
      rw [prod_range_succ, prod_range_succ' (fun j => x - u (i + 1 + j))]
      have e : ∏ j ∈ range k, (x - u (i + 1 + (j + 1))) = ∏ j ∈ range k, (x - u (i + 1 + 1 + j)) := by
        apply prod_congr rfl; intro j _; rw [show i + 1 + (j + 1) = i + 1 + 1 + j by omega]
      rw [e, show i + 1 + 1 + k = i + 1 + (k + 1) by omega, add_zero]
      field_simp
      ring)
    rw [this, pow_succ, ← ih (le_trans (hu (by omega)) h), sum_mul]
    apply sum_congr rfl
    intro i _
    ring

/-! ### Uniqueness -/

open Polynomial in
theorem indep (R : ℕ → ℝ) : ∀ (p : ℕ) (l : ℕ → ℝ) (c : ℕ → ℝ), (∀ a b, l a ≠ R b) →
    ∑ r ∈ range (p + 1), C (c r) * ((∏ a ∈ range (p - r), (Polynomial.X - C (l a))) * ∏ b ∈ range r, (Polynomial.X - C (R b))) = 0 →
    ∀ r, r ≤ p → c r = 0 := by
  intro p
  induction p with
  | zero =>
    intro l c _ h r hr
    obtain rfl : r = 0 := by omega
    simpa using h
  | succ p ih =>
    intro l c hlR h
    rw [sum_range_succ] at h
    have hf : ∀ r ∈ range (p + 1), C (c r) * ((∏ a ∈ range (p + 1 - r), (Polynomial.X - C (l a))) * ∏ b ∈ range r, (Polynomial.X - C (R b))) =
        (Polynomial.X - C (l 0)) * (C (c r) * ((∏ a ∈ range (p - r), (Polynomial.X - C (l (a + 1)))) * ∏ b ∈ range r, (Polynomial.X - C (R b)))) := by
      intro r hr
      rw [mem_range] at hr
      rw [show p + 1 - r = (p - r) + 1 by omega, prod_range_succ' (fun a => Polynomial.X - C (l a))]
      ring
    rw [sum_congr rfl hf, ← mul_sum] at h
    have hc : c (p + 1) = 0 := by
      have he := congrArg (Polynomial.eval (l 0)) h
      simp only [eval_add, eval_mul, eval_sub, eval_X, eval_C, sub_self, zero_mul, zero_add, Nat.sub_self, range_zero, prod_empty,
        eval_one, one_mul, eval_zero, eval_prod] at he
      rcases mul_eq_zero.1 he with h1 | h1
      · exact h1
      · exfalso
        rw [prod_eq_zero_iff] at h1
        obtain ⟨b, _, hb⟩ := h1
        exact hlR 0 b (sub_eq_zero.1 hb)
    rw [hc, C_0, zero_mul, add_zero] at h
    have h2 := (mul_eq_zero.1 h).resolve_left (X_sub_C_ne_zero _)
    have h3 := ih (fun a => l (a + 1)) c (fun a b => hlR _ _) h2
    intro r hr
    rcases Nat.lt_or_ge r (p + 1) with h4 | h4
    · exact h3 r (by omega)
    · obtain rfl : r = p + 1 := by omega
      exact hc

theorem exists_interval {u : ℕ → ℝ} {p n : ℕ} {t : ℝ} (h0 : u p ≤ t) (hn : t < u n) (hu : Monotone u) :
    ∃ μ, p ≤ μ ∧ μ < n ∧ u μ ≤ t ∧ t < u (μ + 1) := by
  have hpn : p < n := by
    by_contra h
    have := hu (not_lt.1 h)
    linarith
  obtain ⟨m, rfl⟩ : ∃ m, n = p + m := ⟨n - p, by omega⟩
  clear hpn
  induction m with
  | zero => rw [add_zero] at hn; linarith
  | succ m ih =>
    by_cases h : t < u (p + m)
    · obtain ⟨μ, h1, h2, h3⟩ := ih h
      exact ⟨μ, h1, by omega, h3⟩
    · exact ⟨p + m, by omega, by omega, not_lt.1 h, hn⟩

theorem basis_unique' {u : ℕ → ℝ} (hu : Monotone u) {n p : ℕ} {t : ℝ} (h0 : u p ≤ t) (hn : t < u n) {N N' : ℕ → ℝ}
    (h : IsBasis u n p t N) (h' : IsBasis u n p t N') : ∀ i, i < n → N i = N' i := by
  obtain ⟨μ, hp, hμ, h1, h2⟩ := exists_interval h0 hn hu
  have zero_out : ∀ N, IsBasis u n p t N → ∀ i, i < n → ¬ (μ - p ≤ i ∧ i ≤ μ) → N i = 0 := by
    intro N hN i hi hout
    by_contra hne
    obtain ⟨a, b⟩ := hN.1 i hi hne
    apply hout
    constructor
    · by_contra hc
      have := hu (show i + p + 1 ≤ μ by omega)
      linarith
    · by_contra hc
      have := hu (show μ + 1 ≤ i by omega)
      linarith
  have hsum : ∀ x : ℝ, ∑ r ∈ range (p + 1), (N (μ - p + r) - N' (μ - p + r)) *
      ((∏ a ∈ range (p - r), (x - u (μ - a))) * ∏ b ∈ range r, (x - u (μ + 1 + b))) = 0 := by
    intro x
    have e1 : ∑ i ∈ range n, (N i - N' i) * ∏ j ∈ range p, (x - u (i + 1 + j)) = 0 := by
      simp only [sub_mul, sum_sub_distrib]
      rw [h.2 x, h'.2 x, sub_self]
    have e2 : ∑ i ∈ range n, (N i - N' i) * ∏ j ∈ range p, (x - u (i + 1 + j)) =
        ∑ i ∈ (range (p + 1)).map (addLeftEmbedding (μ - p)), (N i - N' i) * ∏ j ∈ range p, (x - u (i + 1 + j)) := by
      symm
      apply sum_subset
      · intro i hi
        simp only [Finset.mem_map, mem_range, addLeftEmbedding_apply] at hi ⊢
        obtain ⟨r, hr, rfl⟩ := hi
        omega
      · intro i hi hni
        rw [mem_range] at hi
        have hout : ¬ (μ - p ≤ i ∧ i ≤ μ) := by
          rintro ⟨ha, hb⟩
          apply hni
          simp only [Finset.mem_map, mem_range, addLeftEmbedding_apply]
          exact ⟨i - (μ - p), by omega, by omega⟩
        rw [zero_out N h i hi hout, zero_out N' h' i hi hout]; ring
    rw [e2, sum_map] at e1
    rw [← e1]
    apply sum_congr rfl
    intro r hr
    rw [mem_range] at hr
    simp only [addLeftEmbedding_apply]
    congr 1
    have e3 : ∏ j ∈ range p, (x - u (μ - p + r + 1 + j)) =
        (∏ j ∈ range (p - r), (x - u (μ - p + r + 1 + j))) * ∏ b ∈ range r, (x - u (μ - p + r + 1 + (p - r + b))) := by
      rw [← prod_range_add, show p - r + r = p by omega]
    rw [e3]
    congr 1
    · rw [← prod_range_reflect]
      apply prod_congr rfl
      intro a ha
      rw [mem_range] at ha
      rw [show μ - (p - r - 1 - a) = μ - p + r + 1 + a by omega]
    · apply prod_congr rfl
      intro b _
      rw [show μ - p + r + 1 + (p - r + b) = μ + 1 + b by omega]
  have hz := indep (fun b => u (μ + 1 + b)) p (fun a => u (μ - a)) (fun r => N (μ - p + r) - N' (μ - p + r)) (by
    intro a b he
    have ha := hu (show μ - a ≤ μ by omega)
    have hb := hu (show μ + 1 ≤ μ + 1 + b by omega)
    linarith) (by
    apply Polynomial.funext
    intro x
    rw [Polynomial.eval_finset_sum, Polynomial.eval_zero, ← hsum x]
    apply sum_congr rfl
    intro r _
    simp only [Polynomial.eval_mul, Polynomial.eval_C, Polynomial.eval_prod, Polynomial.eval_sub, Polynomial.eval_X])
  intro i hi
  by_cases hin : μ - p ≤ i ∧ i ≤ μ
  · have := hz (i - (μ - p)) (by omega)
    rw [show μ - p + (i - (μ - p)) = i by omega] at this
    linarith
  · rw [zero_out N h i hi hin, zero_out N' h' i hi hin]

end Verif.Nurbs
