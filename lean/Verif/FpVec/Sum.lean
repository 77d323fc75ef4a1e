import Verif.FpVec.Calc
import Verif.Mat.Props
import Verif.Vtx.Model
import Mathlib.Algebra.BigOperators.Ring.Finset
import Mathlib.Algebra.Order.BigOperators.Group.Finset
/-
The sum of products that all products of vectors and matrices compute, with any number of terms.
-/
namespace Verif.FpVec
open Verif Verif.Fp Verif.Exact
open Verif.Mx (V2 V3 Vec Mat)
open Verif.Mx.Mat (sumOf)
open scoped BigOperators

attribute [local irreducible] Fp.one Fp.lit

theorem lost_nn (n : Nat) : 0 ≤ lost n := by
  unfold lost
  exact mul_nonneg (mul_nonneg (Nat.cast_nonneg n) (by linarith [one_le_pow n])) eta_pos.le

theorem sumOf_zero (t : Nat → F64) : sumOf 0 t = lit 0 1 := rfl
theorem sumOf_succ (n : Nat) (t : Nat → F64) : sumOf (n + 1) t = sumOf n t + t n := by
  show (List.range (n + 1)).foldl _ _ = _
  rw [List.range_succ, List.foldl_append]
  rfl

theorem zero_fin : Finite (lit 0 1) ∧ val (lit 0 1) = 0 := by
  obtain ⟨f, v⟩ := lit_int 0 (by decide)
  exact ⟨f, by rw [v]; norm_num⟩

theorem zero_add_exact {p : F64} (hp : Finite p) : Finite (lit 0 1 + p) ∧ val (lit 0 1 + p) = val p := by
  have h := add_rounds zero_fin.1 hp
  rw [zero_fin.2, zero_add] at h
  exact h.exact (Rp.of p hp)

theorem eta_le_one : eta ≤ 1 / 2 ^ 60 := by
  unfold eta
  refine one_div_le_one_div_of_le (by positivity) (pow_le_pow_right₀ (by norm_num) (by norm_num))

theorem pow_le_two (n : Nat) (h : n ≤ 2 ^ 51) : (1 + u) ^ n ≤ 3 / 2 := by
  refine (pow_lin n h).trans ?_
  have : (n : ℚ) ≤ 2 ^ 51 := by exact_mod_cast h
  have h2 : (n : ℚ) * u ≤ 2 ^ 51 * u := mul_le_mul_of_nonneg_right this u_pos.le
  have h3 : (2 : ℚ) ^ 51 * u = 1 / 4 := by unfold u; norm_num
  linarith

theorem lost_le (n : Nat) (h : n ≤ 2 ^ 51) : lost n ≤ 1 := by
  unfold lost
  have h1 := pow_le_two n h
  have h2 : (n : ℚ) ≤ 2 ^ 51 := by exact_mod_cast h
  have h3 := eta_le_one
  have h4 : (n : ℚ) * (1 + u) ^ n ≤ 2 ^ 51 * (3 / 2) := mul_le_mul h2 h1 (by linarith [one_le_pow n]) (by norm_num)
  have h5 : (n : ℚ) * (1 + u) ^ n * eta ≤ (2 ^ 51 * (3 / 2)) * (1 / 2 ^ 60) := mul_le_mul h4 h3 eta_pos.le (by norm_num)
  refine h5.trans ?_
  norm_num

theorem huge_ge : (2 : ℚ) ^ 10 ≤ huge := by unfold huge; exact pow_le_pow_right₀ (by norm_num) (by norm_num)

/-- The computed sum of `n` products. -/
theorem sum_ap (n : Nat) (x y : Nat → F64) (hn : n ≤ 2 ^ 51) (hx : ∀ i, i < n → Finite (x i) ∧ Finite (y i))
    (hb : ∑ i ∈ Finset.range n, |val (x i) * val (y i)| ≤ huge / 2) :
    Ap (sumOf n fun i => x i * y i) (∑ i ∈ Finset.range n, val (x i) * val (y i))
      (∑ i ∈ Finset.range n, |val (x i) * val (y i)|) n (lost n) := by
  have key : ∀ k, k ≤ n → Ap (sumOf k fun i => x i * y i) (∑ i ∈ Finset.range k, val (x i) * val (y i))
      (∑ i ∈ Finset.range k, |val (x i) * val (y i)|) k (k * (1 + u) ^ (k - 1) * eta) := by
    intro k
    induction k with
    | zero =>
      intro _
      rw [sumOf_zero]
      refine ⟨zero_fin.1, by simp, by simp [zero_fin.2], by simp⟩
    | succ k ih =>
      intro hk
      have ihk := ih (by omega)
      obtain ⟨fx, fy⟩ := hx k (by omega)
      have hmono : ∑ i ∈ Finset.range (k + 1), |val (x i) * val (y i)| ≤ huge / 2 :=
        (Finset.sum_le_sum_of_subset_of_nonneg (Finset.range_mono hk) fun _ _ _ => abs_nonneg _).trans hb
      rw [Finset.sum_range_succ] at hmono
      have hpos : 0 ≤ ∑ i ∈ Finset.range k, |val (x i) * val (y i)| := Finset.sum_nonneg fun _ _ => abs_nonneg _
      have hh := huge_ge
      have hp := Ap.prod fx fy (by linarith)
      rw [sumOf_succ, Finset.sum_range_succ, Finset.sum_range_succ]
      rcases Nat.eq_zero_or_pos k with rfl | hk0
      · rw [sumOf_zero]
        obtain ⟨f, v⟩ := zero_add_exact hp.fin
        refine ⟨f, by simp, ?_, by simp [eta_pos.le]⟩
        rw [v]
        simpa using hp.err
      · have h1 := pow_le_two k (by omega)
        have h2 := lost_le k (by omega)
        have h3 : (k : ℚ) * (1 + u) ^ (k - 1) * eta ≤ 1 := by
          refine le_trans ?_ h2
          unfold lost
          exact mul_le_mul_of_nonneg_right (mul_le_mul_of_nonneg_left (pow_mono (by omega)) (Nat.cast_nonneg k)) eta_pos.le
        have h4 := eta_le_one
        have h5 : (1 + u) ^ k * (∑ i ∈ Finset.range k, |val (x i) * val (y i)| + |val (x k) * val (y k)|) ≤ 3 / 2 * (huge / 2) :=
          mul_le_mul h1 hmono (add_nonneg hpos (abs_nonneg _)) (by norm_num)
        have hs := ihk.add (hp.mono hk0 le_rfl) (by
          have : (1 : ℚ) / 2 ^ 60 ≤ 1 := by norm_num
          linarith)
        refine hs.mono le_rfl ?_
        rw [Nat.add_sub_cancel]
        have e1 : (1 + u) ^ k = (1 + u) ^ (k - 1) * (1 + u) := by rw [← pow_succ, Nat.sub_add_cancel hk0]
        have h6 : (1 + u) * eta ≤ (1 + u) ^ k * eta := by
          refine mul_le_mul_of_nonneg_right ?_ eta_pos.le
          have := pow_mono (k := 1) (l := k) hk0
          rwa [pow_one] at this
        push_cast
        rw [e1] at h6 ⊢
        generalize (1 + u) ^ (k - 1) = w at h6 ⊢
        nlinarith
  refine (key n le_rfl).mono le_rfl ?_
  unfold lost
  exact mul_le_mul_of_nonneg_right (mul_le_mul_of_nonneg_left (pow_mono (by omega)) (Nat.cast_nonneg n)) eta_pos.le

/-- The sum of products of integers (in units of 2^-j and 2^-l): exact if no partial sum needs more than 53 bits. -/
theorem sum_gr (n : Nat) (x y : Nat → F64) (a b : Nat → Int) (j l : Nat) (hjl : j + l ≤ 1074)
    (hx : ∀ i, i < n → Gr j (x i) (a i) ∧ Gr l (y i) (b i))
    (hb : ∑ i ∈ Finset.range n, (a i * b i).natAbs ≤ 2 ^ 53) :
    Gr (j + l) (sumOf n fun i => x i * y i) (∑ i ∈ Finset.range n, a i * b i) := by
  have key : ∀ k, k ≤ n → Gr (j + l) (sumOf k fun i => x i * y i) (∑ i ∈ Finset.range k, a i * b i) ∧
      (∑ i ∈ Finset.range k, a i * b i).natAbs ≤ ∑ i ∈ Finset.range k, (a i * b i).natAbs := by
    intro k
    induction k with
    | zero => intro _; rw [sumOf_zero]; exact ⟨by simpa using Gr.zero (j + l), by simp⟩
    | succ k ih =>
      intro hk
      obtain ⟨h1, h2⟩ := ih (by omega)
      obtain ⟨gx, gy⟩ := hx k (by omega)
      have hmono : ∑ i ∈ Finset.range (k + 1), (a i * b i).natAbs ≤ 2 ^ 53 :=
        (Finset.sum_le_sum_of_subset_of_nonneg (Finset.range_mono hk) fun _ _ _ => Nat.zero_le _).trans hb
      rw [Finset.sum_range_succ] at hmono
      rw [sumOf_succ, Finset.sum_range_succ, Finset.sum_range_succ]
      have h3 : (∑ i ∈ Finset.range k, a i * b i + a k * b k).natAbs ≤
          ∑ i ∈ Finset.range k, (a i * b i).natAbs + (a k * b k).natAbs := (Int.natAbs_add_le _ _).trans (by omega)
      exact ⟨h1.add (gx.mul gy hjl (by omega)) hjl (by omega), h3⟩
  exact (key n le_rfl).1

end Verif.FpVec
