import Verif.FpVec.IntProps
/-
C114: inverses of matrices, computed with doubles.
-/
namespace Verif.FpVec
open Verif Verif.Fp Verif.Exact
open Verif.Mx (V2 V3 Vec Mat)
open Verif.Mx.Mat (sumOf Is)

attribute [local irreducible] Fp.one Fp.lit

theorem detErr_one (B p : ℚ) : detErr B p 1 = 0 := rfl
theorem detErr_two (B p : ℚ) : detErr B p 2 = ((1 + u) ^ 2 - 1) * p + lost 2 := rfl
theorem detErr_three (B p : ℚ) : detErr B p 3 = ((1 + u) ^ 7 - 1) * p + 18 * (1 + u) ^ 7 * B * eta := rfl

/-! ### One element -/

theorem one_val : Finite (lit 1 1) ∧ val (lit 1 1) = 1 := ⟨one_usual.1.1, one_usual.2⟩

/-- the reciprocal of a determinant -/
theorem recip_err {d : F64} {D eD : ℚ} (fd : Finite d) (hd : |val d - D| ≤ eD) (h2 : 2 * eD ≤ |D|) (hl : 1 ≤ lim * |D|)
    (hh : |D| ≤ huge / 4) :
    Finite (lit 1 1 / d) ∧ |val (lit 1 1 / d)| ≤ (1 + u) * (2 * |1 / D|) ∧
      |val (lit 1 1 / d) - 1 / D| ≤ |1 / D| * (2 * (eD / |D|) + 2 * u) := by
  have l1 := lim_ge
  have hD : 0 < |D| := by
    by_contra hc
    have : |D| = 0 := le_antisymm (not_lt.1 hc) (abs_nonneg D)
    rw [this, mul_zero] at hl
    linarith
  have hD0 : D ≠ 0 := abs_pos.1 hD
  have t1 : |D| ≤ |val d - D| + |val d| := by
    have := abs_add_le (D - val d) (val d)
    rw [sub_add_cancel, abs_sub_comm] at this
    exact this
  have t2 : |val d| ≤ |val d - D| + |D| := by
    have := abs_add_le (val d - D) D
    rwa [sub_add_cancel] at this
  have lo : |D| ≤ 2 * |val d| := by linarith
  have hi : |val d| ≤ huge / 2 := by
    have : (0 : ℚ) ≤ huge := by linarith [huge_ge]
    linarith
  have vp : 0 < |val d| := by linarith
  have v0 : val d ≠ 0 := abs_pos.1 vp
  have hr := div_rounds one_val.1 fd v0
  rw [one_val.2] at hr
  have q1 : |1 / val d| ≤ 2 * |1 / D| := by
    rw [abs_div, abs_div, abs_one, ← mul_div_assoc, mul_one, div_le_div_iff₀ vp hD]
    linarith
  have q2 : |1 / D| ≤ lim := by
    rw [abs_div, abs_one, div_le_iff₀ hD]; exact hl
  have lh := lim4
  have ll : lim ≤ lim * lim := by nlinarith
  have ll2 : lim * lim ≤ lim * lim * (lim * lim) := by nlinarith
  have q3 : (2 : ℚ) ^ (-1022 : ℤ) ≤ |1 / val d| := by
    rw [abs_div, abs_one, le_div_iff₀ vp]
    have e : (2 : ℚ) ^ (-1022 : ℤ) * (huge / 2) = 1 := by
      rw [huge_z, show (2 : ℚ) ^ (1023 : ℤ) / 2 = 2 ^ (1022 : ℤ) by
        rw [show (1023 : ℤ) = 1022 + 1 from rfl, zpow_add₀ (by norm_num : (2 : ℚ) ≠ 0), zpow_one, mul_div_assoc, div_self (by norm_num),
          mul_one], ← zpow_add₀ (by norm_num : (2 : ℚ) ≠ 0)]
      rfl
    have := mul_le_mul_of_nonneg_left hi (zpow_nonneg (by norm_num) (-1022) : (0 : ℚ) ≤ 2 ^ (-1022 : ℤ))
    linarith
  have hpos := huge_ge
  obtain ⟨ft, et⟩ := rnd_normal hr q3 (by linarith)
  generalize lit 1 1 / d = t at ft et ⊢
  have up := u_pos
  have ul := u_le
  have m1 : u * |1 / val d| ≤ u * (2 * |1 / D|) := mul_le_mul_of_nonneg_left q1 up.le
  refine ⟨ft, ?_, ?_⟩
  · have := abs_add_le (val t - 1 / val d) (1 / val d)
    rw [sub_add_cancel] at this
    have : (1 + u) * (2 * |1 / D|) = u * (2 * |1 / D|) + 2 * |1 / D| := by ring
    linarith
  · have d1 : |1 / val d - 1 / D| ≤ |1 / D| * (2 * (eD / |D|)) := by
      have e : 1 / val d - 1 / D = (1 / val d) * ((D - val d) * (1 / D)) := by field_simp
      rw [e, abs_mul, abs_mul, abs_sub_comm]
      have a1 : |val d - D| * |1 / D| ≤ eD / |D| := by
        rw [abs_div, abs_one, mul_one_div]
        exact div_le_div_of_nonneg_right hd hD.le
      have := mul_le_mul q1 a1 (mul_nonneg (abs_nonneg _) (abs_nonneg _)) (mul_nonneg (by norm_num) (abs_nonneg _))
      have e2 : 2 * |1 / D| * (eD / |D|) = |1 / D| * (2 * (eD / |D|)) := by ring
      linarith
    have := abs_add_le (val t - 1 / val d) (1 / val d - 1 / D)
    rw [sub_add_sub_cancel] at this
    have e3 : |1 / D| * (2 * (eD / |D|) + 2 * u) = |1 / D| * (2 * (eD / |D|)) + u * (2 * |1 / D|) := by ring
    linarith

/-- `c * (1.0 / d)` -/
theorem off_entry {c d : F64} {C D eC eD : ℚ} (fc : Finite c) (hc : |val c - C| ≤ eC) (hC : |C| + eC ≤ 16 * (lim * lim * lim))
    (fd : Finite d) (hd : |val d - D| ≤ eD) (h2 : 2 * eD ≤ |D|) (hl : 1 ≤ lim * |D|) (hh : |D| ≤ huge / 4) :
    Off (c * (lit 1 1 / d)) (C * (1 / D)) D eC eD := by
  obtain ⟨ft, s, e⟩ := recip_err fd hd h2 hl hh
  generalize lit 1 1 / d = t at ft s e ⊢
  have l1 := lim_ge
  have hD : 0 < |D| := by
    by_contra hc
    have : |D| = 0 := le_antisymm (not_lt.1 hc) (abs_nonneg D)
    rw [this, mul_zero] at hl
    linarith
  have up := u_pos
  have ul := u_le
  have q2 : |1 / D| ≤ lim := by
    rw [abs_div, abs_one, div_le_iff₀ hD]; exact hl
  have eC0 : 0 ≤ eC := (abs_nonneg _).trans hc
  have eD0 : 0 ≤ eD := (abs_nonneg _).trans hd
  have sc : |val c| ≤ |C| + eC := by
    have := abs_add_le (val c - C) C
    rw [sub_add_cancel] at this
    linarith
  have st : |val t| ≤ 3 * |1 / D| := s.trans (by
    have : (1 + u) * (2 * |1 / D|) = 2 * |1 / D| + u * (2 * |1 / D|) := by ring
    have h : u * (2 * |1 / D|) ≤ 1 / 1024 * (2 * |1 / D|) := mul_le_mul_of_nonneg_right ul (mul_nonneg (by norm_num) (abs_nonneg _))
    have := abs_nonneg (1 / D)
    linarith)
  have big : |val c * val t| ≤ huge := by
    rw [abs_mul]
    have := mul_le_mul (sc.trans hC) (st.trans (mul_le_mul_of_nonneg_left q2 (by norm_num))) (abs_nonneg _)
      (mul_nonneg (by norm_num) (mul_nonneg (mul_nonneg (by linarith) (by linarith)) (by linarith)))
    have e1 : 16 * (lim * lim * lim) * (3 * lim) = 48 * (lim * lim * (lim * lim)) := by ring
    have := lim4
    have : (0 : ℚ) ≤ lim * lim * (lim * lim) := mul_nonneg (mul_nonneg (by linarith) (by linarith)) (mul_nonneg (by linarith) (by linarith))
    linarith
  obtain ⟨fr, er⟩ := mul_err fc ft big
  generalize c * t = r at fr er ⊢
  refine ⟨fr, ?_⟩
  have id : |1 / D| = 1 / |D| := by rw [abs_div, abs_one]
  -- the parts of the error
  have a1 : |val r - C * (1 / D)| ≤ |val r - val c * val t| + |val c * val t - C * (1 / D)| := by
    have := abs_add_le (val r - val c * val t) (val c * val t - C * (1 / D))
    rwa [sub_add_sub_cancel] at this
  have a2 : |val c * val t - C * (1 / D)| ≤ eC * |val t| + |C| * |val t - 1 / D| := by
    have e1 : val c * val t - C * (1 / D) = (val c - C) * val t + C * (val t - 1 / D) := by ring
    rw [e1]
    refine (abs_add_le _ _).trans ?_
    rw [abs_mul, abs_mul]
    have := mul_le_mul_of_nonneg_right hc (abs_nonneg (val t))
    linarith
  have a3 : |val c * val t| ≤ (|C| + eC) * |val t| := by
    rw [abs_mul]; exact mul_le_mul_of_nonneg_right sc (abs_nonneg _)
  have a4 : u * |val c * val t| ≤ u * ((|C| + eC) * |val t|) := mul_le_mul_of_nonneg_left a3 up.le
  have a5 : |C| * |val t - 1 / D| ≤ |C| * (|1 / D| * (2 * (eD / |D|) + 2 * u)) := mul_le_mul_of_nonneg_left e (abs_nonneg _)
  have k1 : eC * |val t| ≤ eC * ((1 + u) * (2 * |1 / D|)) := mul_le_mul_of_nonneg_left s eC0
  have k2 : |C| * |val t| ≤ |C| * ((1 + u) * (2 * |1 / D|)) := mul_le_mul_of_nonneg_left s (abs_nonneg _)
  have k3 : u * ((|C| + eC) * |val t|) ≤ u * (|C| * ((1 + u) * (2 * |1 / D|)) + eC * ((1 + u) * (2 * |1 / D|))) := by
    have : (|C| + eC) * |val t| = |C| * |val t| + eC * |val t| := by ring
    rw [this]
    exact mul_le_mul_of_nonneg_left (by linarith) up.le
  have goal : 3 * (eC / |D| + |C * (1 / D)| * (eD / |D| + 2 * u)) = 3 * (eC * |1 / D|) + 3 * (|C| * |1 / D| * (eD / |D|)) +
      6 * (u * (|C| * |1 / D|)) := by
    rw [abs_mul, id]; ring
  rw [goal]
  have X : 0 ≤ eC * |1 / D| := mul_nonneg eC0 (abs_nonneg _)
  have Y : 0 ≤ |C| * |1 / D| := mul_nonneg (abs_nonneg _) (abs_nonneg _)
  have Z : 0 ≤ |C| * |1 / D| * (eD / |D|) := mul_nonneg Y (div_nonneg eD0 (abs_nonneg _))
  have W : 0 ≤ u * (|C| * |1 / D|) := mul_nonneg up.le Y
  have uu : (1 + u) * 2 + u * ((1 + u) * 2) ≤ 3 := by nlinarith
  have f1 : eC * ((1 + u) * (2 * |1 / D|)) + u * (eC * ((1 + u) * (2 * |1 / D|))) ≤ 3 * (eC * |1 / D|) := by
    have := mul_le_mul_of_nonneg_right uu X
    have e1 : eC * ((1 + u) * (2 * |1 / D|)) + u * (eC * ((1 + u) * (2 * |1 / D|))) = ((1 + u) * 2 + u * ((1 + u) * 2)) * (eC * |1 / D|) := by
      ring
    linarith
  have f2 : u * (|C| * ((1 + u) * (2 * |1 / D|))) ≤ 4 * (u * (|C| * |1 / D|)) := by
    have h : (1 + u) * 2 ≤ 4 := by linarith
    have := mul_le_mul_of_nonneg_right h W
    have e1 : u * (|C| * ((1 + u) * (2 * |1 / D|))) = (1 + u) * 2 * (u * (|C| * |1 / D|)) := by ring
    linarith
  have f3 : |C| * (|1 / D| * (2 * (eD / |D|) + 2 * u)) = 2 * (|C| * |1 / D| * (eD / |D|)) + 2 * (u * (|C| * |1 / D|)) := by ring
  have f4 : u * (|C| * ((1 + u) * (2 * |1 / D|)) + eC * ((1 + u) * (2 * |1 / D|))) =
      u * (|C| * ((1 + u) * (2 * |1 / D|))) + u * (eC * ((1 + u) * (2 * |1 / D|))) := by ring
  linarith

/-! ### The size of a determinant -/

theorem perm_nn : ∀ (n : Nat) (g : Nat → Nat → ℚ), 0 ≤ perm n g
  | 0, _ => by unfold perm; norm_num
  | n + 1, g => by
    unfold perm
    refine List.sum_nonneg ?_
    intro x hx
    obtain ⟨j, _, rfl⟩ := List.mem_map.1 hx
    exact mul_nonneg (abs_nonneg _) (perm_nn n _)

theorem perm_le {B : ℚ} (hB : 0 ≤ B) : ∀ (n : Nat) (g : Nat → Nat → ℚ), (∀ i j, i < n → j < n → |g i j| ≤ B) →
    perm n g ≤ (n.factorial : ℚ) * B ^ n
  | 0, _, _ => by unfold perm; norm_num
  | n + 1, g, h => by
    unfold perm
    have hs := List.sum_le_card_nsmul ((List.range (n + 1)).map fun j => |g 0 j| * perm n fun i k => g (i + 1) (if k < j then k else k + 1))
      (B * ((n.factorial : ℚ) * B ^ n)) (by
      intro x hx
      obtain ⟨j, hj, rfl⟩ := List.mem_map.1 hx
      have hj' := List.mem_range.1 hj
      refine mul_le_mul (h 0 j (by omega) hj') (perm_le hB n _ ?_) (perm_nn n _) hB
      intro i k hi hk
      exact h _ _ (by omega) (by split <;> omega))
    rw [List.length_map, List.length_range, nsmul_eq_mul] at hs
    refine hs.trans (le_of_eq ?_)
    rw [Nat.factorial_succ, pow_succ]
    push_cast
    ring

theorem det_le_perm : ∀ (n : Nat) (f : Nat → Nat → F64), |(matQ n f).det| ≤ perm n fun i j => val (f i j)
  | 0, _ => by rw [Matrix.det_fin_zero]; unfold perm; norm_num
  | n + 1, f => by
    rw [Matrix.det_succ_row_zero]
    refine (Finset.abs_sum_le_sum_abs _ _).trans ?_
    unfold perm
    have e : ((List.range (n + 1)).map fun j => |val (f 0 j)| * perm n fun i k => val (f (i + 1) (if k < j then k else k + 1))).sum =
        ∑ j : Fin (n + 1), |val (f 0 j.val)| * perm n fun i k => val (f (i + 1) (if k < j.val then k else k + 1)) := by
      rw [Fin.sum_univ_def, ← List.map_coe_finRange_eq_range, List.map_map]
      rfl
    rw [e]
    refine Finset.sum_le_sum fun j _ => ?_
    rw [abs_mul, abs_mul, abs_pow, abs_neg, abs_one, one_pow, one_mul]
    refine mul_le_mul_of_nonneg_left ?_ (abs_nonneg _)
    have hm : (matQ (n + 1) f).submatrix Fin.succ j.succAbove = matQ n fun i k => f (i + 1) (if k < j.val then k else k + 1) := by
      ext i k
      simp only [matQ, Matrix.submatrix_apply, Matrix.of_apply, Fin.val_succ]
      congr 2
      unfold Fin.succAbove
      by_cases hk : k.val < j.val
      · rw [if_pos (by simpa [Fin.lt_def] using hk), if_pos hk]; rfl
      · rw [if_neg (by simpa [Fin.lt_def] using hk), if_neg hk]; rfl
    rw [hm]
    exact det_le_perm n _

theorem det_size {n : Nat} (hn : n ≤ 4) {f : Nat → Nat → F64} {B : ℚ} (h1 : 1 ≤ B) (h2 : B ≤ lim)
    (hf : ∀ i j, i < n → j < n → Within B (f i j)) : |(matQ n f).det| ≤ huge / 4 := by
  have b := b4_huge h1 h2
  have hp := (det_le_perm n f).trans (perm_le (by linarith) n _ fun i j hi hj => (hf i j hi hj).2)
  have hfac : (n.factorial : ℚ) ≤ 24 := by
    have : n.factorial ≤ Nat.factorial 4 := Nat.factorial_le hn
    have h24 : Nat.factorial 4 = 24 := rfl
    rw [h24] at this
    exact_mod_cast this
  have hpw : B ^ n ≤ B ^ 4 := pow_le_pow_right₀ h1 hn
  have h4 : B ^ 4 = B * B * B * B := by ring
  have := mul_le_mul hfac hpw (pow_nonneg (by linarith) n) (by norm_num)
  have : (0 : ℚ) ≤ B * B * B * B := by rw [← h4]; exact pow_nonneg (by linarith) 4
  linarith

/-! ### Cofactors -/

section
variable {B : ℚ} (h1 : 1 ≤ B) (h2 : B ≤ lim)
include h1 h2

theorem b3_lim : B * B * B ≤ lim * lim * lim :=
  mul_le_mul (mul_le_mul h2 h2 (by linarith) (by linarith [lim_ge])) h2 (by linarith) (by nlinarith [lim_ge])

/-- six products of three numbers -/
theorem six_sm {x1 x2 x3 y1 y2 y3 z1 z2 z3 p1 p2 p3 q1 q2 q3 s1 s2 s3 : F64}
    (a1 : Within B x1) (a2 : Within B x2) (a3 : Within B x3) (b1 : Within B y1) (b2 : Within B y2) (b3 : Within B y3)
    (d1 : Within B z1) (d2 : Within B z2) (d3 : Within B z3) (e1 : Within B p1) (e2 : Within B p2) (e3 : Within B p3)
    (f1 : Within B q1) (f2 : Within B q2) (f3 : Within B q3) (g1 : Within B s1) (g2 : Within B s2) (g3 : Within B s3) :
    Sm (c3 B) (x1 * x2 * x3 + y1 * y2 * y3 + z1 * z2 * z3 - p1 * p2 * p3 - q1 * q2 * q3 - s1 * s2 * s3)
      (val x1 * val x2 * val x3 + val y1 * val y2 * val y3 + val z1 * val z2 * val z3 - val p1 * val p2 * val p3
        - val q1 * val q2 * val q3 - val s1 * val s2 * val s3)
      (|val x1| * |val x2| * |val x3| + |val y1| * |val y2| * |val y3| + |val z1| * |val z2| * |val z3| + |val p1| * |val p2| * |val p3|
        + |val q1| * |val q2| * |val q3| + |val s1| * |val s2| * |val s3|) 7 6 ∧
    |val x1| * |val x2| * |val x3| + |val y1| * |val y2| * |val y3| + |val z1| * |val z2| * |val z3| + |val p1| * |val p2| * |val p3|
        + |val q1| * |val q2| * |val q3| + |val s1| * |val s2| * |val s3| ≤ 6 * (B * B * B) := by
  obtain ⟨_, _, _⟩ := b_chain h1 h2
  have bh := b4_huge h1 h2
  have t1 := p3_le h1 h2 a1 a2 a3
  have t2 := p3_le h1 h2 b1 b2 b3
  have t3 := p3_le h1 h2 d1 d2 d3
  have t4 := p3_le h1 h2 e1 e2 e3
  have t5 := p3_le h1 h2 f1 f2 f3
  have t6 := p3_le h1 h2 g1 g2 g3
  obtain ⟨c0, c1⟩ := c3_bounds h1 h2
  have s1 := (tri' h1 h2 a1 a2 a3).add (tri' h1 h2 b1 b2 b3) (by omega) (by omega) (by omega) c1 c0 (by linarith)
  have s2 := s1.add (tri' h1 h2 d1 d2 d3) (by omega) (by omega) (by omega) c1 c0 (by linarith)
  have s3 := s2.sub (tri' h1 h2 e1 e2 e3) (by omega) (by omega) (by omega) c1 c0 (by linarith)
  have s4 := s3.sub (tri' h1 h2 f1 f2 f3) (by omega) (by omega) (by omega) c1 c0 (by linarith)
  exact ⟨s4.sub (tri' h1 h2 g1 g2 g3) (by omega) (by omega) (by omega) c1 c0 (by linarith), by linarith⟩

/-- an element of the inverse of a 4 × 4 matrix -/
theorem off_six {d : F64} {D eD : ℚ} (fd : Finite d) (hd : |val d - D| ≤ eD) (hd2 : 2 * eD ≤ |D|) (hl : 1 ≤ lim * |D|) (hh : |D| ≤ huge / 4)
    {x1 x2 x3 y1 y2 y3 z1 z2 z3 p1 p2 p3 q1 q2 q3 s1 s2 s3 : F64}
    (a1 : Within B x1) (a2 : Within B x2) (a3 : Within B x3) (b1 : Within B y1) (b2 : Within B y2) (b3 : Within B y3)
    (d1 : Within B z1) (d2 : Within B z2) (d3 : Within B z3) (e1 : Within B p1) (e2 : Within B p2) (e3 : Within B p3)
    (f1 : Within B q1) (f2 : Within B q2) (f3 : Within B q3) (g1 : Within B s1) (g2 : Within B s2) (g3 : Within B s3) :
    Off ((x1 * x2 * x3 + y1 * y2 * y3 + z1 * z2 * z3 - p1 * p2 * p3 - q1 * q2 * q3 - s1 * s2 * s3) * (lit 1 1 / d))
      ((val x1 * val x2 * val x3 + val y1 * val y2 * val y3 + val z1 * val z2 * val z3 - val p1 * val p2 * val p3
        - val q1 * val q2 * val q3 - val s1 * val s2 * val s3) * (1 / D)) D
      (detErr B (|val x1| * |val x2| * |val x3| + |val y1| * |val y2| * |val y3| + |val z1| * |val z2| * |val z3| + |val p1| * |val p2| * |val p3|
        + |val q1| * |val q2| * |val q3| + |val s1| * |val s2| * |val s3|) 3) eD := by
  obtain ⟨hs, hb⟩ := six_sm h1 h2 a1 a2 a3 b1 b2 b3 d1 d2 d3 e1 e2 e3 f1 f2 f3 g1 g2 g3
  have hm := hs.mag
  have he := hs.err
  have hn := hs.a_nn
  obtain ⟨c0, c1⟩ := c3_bounds h1 h2
  have hw := pow_le_two 7 (by norm_num)
  have hw1 := one_le_pow 7
  have e18 : 18 * (1 + u) ^ 7 * B * eta = (6 : Nat) * (1 + u) ^ 7 * c3 B := by unfold c3; push_cast; ring
  have b3 := b3_lim h1 h2
  have l1 : 1 ≤ lim * lim * lim := by have := lim_ge; nlinarith
  refine off_entry hs.fin (by rw [detErr_three, e18]; exact he) ?_ fd hd hd2 hl hh
  rw [detErr_three, e18]
  generalize |val x1| * |val x2| * |val x3| + |val y1| * |val y2| * |val y3| + |val z1| * |val z2| * |val z3| + |val p1| * |val p2| * |val p3|
        + |val q1| * |val q2| * |val q3| + |val s1| * |val s2| * |val s3| = a at *
  have k1 : ((1 + u) ^ 7 - 1) * a ≤ 1 * a := mul_le_mul_of_nonneg_right (by linarith) hn
  have k2 : (1 + u) ^ 7 * c3 B ≤ 3 / 2 * (1 / 1024) := by
    have hc : c3 B ≤ 1 / 1024 := by
      have h3 := lim_eta
      have h4 := lim_ge
      have h5 : B * eta ≤ lim * eta := mul_le_mul_of_nonneg_right h2 eta_pos.le
      have h6 : 3 * lim ≤ lim * lim := by
        have : (3 : ℚ) ≤ lim := by
          unfold lim
          calc (3 : ℚ) ≤ 2 ^ 2 := by norm_num
            _ ≤ 2 ^ 200 := pow_le_pow_right₀ (by norm_num) (by norm_num)
        exact mul_le_mul_of_nonneg_right this (by linarith)
      have h7 : 3 * lim * eta ≤ lim * lim * eta := mul_le_mul_of_nonneg_right h6 eta_pos.le
      unfold c3
      linarith
    exact mul_le_mul hw hc c0 (by norm_num)
  have e : ((6 : Nat) : ℚ) * (1 + u) ^ 7 * c3 B = 6 * ((1 + u) ^ 7 * c3 B) := by push_cast; ring
  rw [e]
  linarith

/-- an element of the inverse of a 3 × 3 matrix -/
theorem off_two {d : F64} {D eD : ℚ} (fd : Finite d) (hd : |val d - D| ≤ eD) (hd2 : 2 * eD ≤ |D|) (hl : 1 ≤ lim * |D|) (hh : |D| ≤ huge / 4)
    {x y z w : F64} (hx : Within B x) (hy : Within B y) (hz : Within B z) (hw : Within B w) :
    Off ((x * y - z * w) * (lit 1 1 / d)) ((val x * val y - val z * val w) * (1 / D)) D
      (detErr B (|val x| * |val y| + |val z| * |val w|) 2) eD := by
  have us : ∀ {x : F64}, Within B x → Usual x := fun h => lim_usual ⟨h.1, h.2.trans h2⟩
  have hs := ((sum2 (us hx) (us hy) (us hz) (us hw)).2.mono le_rfl lost_two)
  have hm := hs.mag
  have he := hs.near
  rw [abs_mul, abs_mul] at he hm
  have p1 := p2_le h1 h2 hx hy
  have p2 := p2_le h1 h2 hz hw
  have n1 : 0 ≤ |val x| * |val y| := mul_nonneg (abs_nonneg _) (abs_nonneg _)
  have n2 : 0 ≤ |val z| * |val w| := mul_nonneg (abs_nonneg _) (abs_nonneg _)
  refine off_entry he.1 (by unfold detErr; exact he.2) ?_ fd hd hd2 hl hh
  rw [detErr_two]
  have b3 := b3_lim h1 h2
  have bb : B * B ≤ B * B * B := by nlinarith
  have bb1 : 1 ≤ B * B := by nlinarith
  have hp := pow2
  have k1 : ((1 + u) ^ 2 - 1) * (|val x| * |val y| + |val z| * |val w|) ≤ 1 * (|val x| * |val y| + |val z| * |val w|) :=
    mul_le_mul_of_nonneg_right (by linarith) (by linarith)
  have k2 : lost 2 ≤ 4 := by
    unfold lost
    have := mul_le_mul hp eta_small eta_pos.le (by norm_num)
    push_cast
    linarith
  linarith

/-- an element of the inverse of a 2 × 2 matrix -/
theorem off_one {d : F64} {D eD : ℚ} (fd : Finite d) (hd : |val d - D| ≤ eD) (hd2 : 2 * eD ≤ |D|) (hl : 1 ≤ lim * |D|) (hh : |D| ≤ huge / 4)
    {x : F64} (hx : Within B x) (p : ℚ) : Off (x * (lit 1 1 / d)) (val x * (1 / D)) D (detErr B p 1) eD := by
  have b3 := b3_lim h1 h2
  have hB : B ≤ B * B * B := by nlinarith [mul_nonneg (by linarith : 0 ≤ B) (by linarith : 0 ≤ B)]
  have := hx.2
  refine off_entry hx.1 (by unfold detErr; simp) ?_ fd hd hd2 hl hh
  rw [detErr_one]
  linarith
end

/-- the inverse of a matrix with 2 rows, written out -/
theorem inv_two (M : Matrix (Fin 2) (Fin 2) ℚ) (hd : M.det ≠ 0) : M⁻¹ = Matrix.of ![![M 1 1 * (1 / M.det), (-M 0 1) * (1 / M.det)],
      ![(-M 1 0) * (1 / M.det), M 0 0 * (1 / M.det)]] := by
  have hq : M.det * (1 / M.det) = 1 := by field_simp
  apply Matrix.inv_eq_right_inv
  generalize ht : 1 / M.det = t at hq ⊢
  rw [Matrix.det_fin_two] at hq
  ext i j
  fin_cases i <;> fin_cases j <;> simp [Matrix.mul_apply, Fin.sum_univ_two]
  · linear_combination hq
  · ring
  · ring
  · linear_combination hq

/-- the inverse of a matrix with 3 rows, written out -/
theorem inv_three (M : Matrix (Fin 3) (Fin 3) ℚ) (hd : M.det ≠ 0) : M⁻¹ = Matrix.of ![![(M 1 1 * M 2 2 - M 1 2 * M 2 1) * (1 / M.det), (M 0 2 * M 2 1 - M 0 1 * M 2 2) * (1 / M.det), (M 0 1 * M 1 2 - M 0 2 * M 1 1) * (1 / M.det)],
      ![(M 1 2 * M 2 0 - M 1 0 * M 2 2) * (1 / M.det), (M 0 0 * M 2 2 - M 0 2 * M 2 0) * (1 / M.det), (M 0 2 * M 1 0 - M 0 0 * M 1 2) * (1 / M.det)],
      ![(M 1 0 * M 2 1 - M 1 1 * M 2 0) * (1 / M.det), (M 0 1 * M 2 0 - M 0 0 * M 2 1) * (1 / M.det), (M 0 0 * M 1 1 - M 0 1 * M 1 0) * (1 / M.det)]] := by
  have hq : M.det * (1 / M.det) = 1 := by field_simp
  apply Matrix.inv_eq_right_inv
  generalize ht : 1 / M.det = t at hq ⊢
  rw [Matrix.det_fin_three] at hq
  ext i j
  fin_cases i <;> fin_cases j <;> simp [Matrix.mul_apply, Fin.sum_univ_three]
  · linear_combination hq
  · ring
  · ring
  · ring
  · linear_combination hq
  · ring
  · ring
  · ring
  · linear_combination hq

/-- the inverse of a matrix with 4 rows, written out -/
theorem inv_four (M : Matrix (Fin 4) (Fin 4) ℚ) (hd : M.det ≠ 0) : M⁻¹ = Matrix.of ![![(M 1 1 * M 2 2 * M 3 3 + M 1 2 * M 2 3 * M 3 1 + M 1 3 * M 2 1 * M 3 2 - M 1 1 * M 2 3 * M 3 2 - M 1 2 * M 2 1 * M 3 3 - M 1 3 * M 2 2 * M 3 1) * (1 / M.det), (M 0 1 * M 2 3 * M 3 2 + M 0 2 * M 2 1 * M 3 3 + M 0 3 * M 2 2 * M 3 1 - M 0 1 * M 2 2 * M 3 3 - M 0 2 * M 2 3 * M 3 1 - M 0 3 * M 2 1 * M 3 2) * (1 / M.det), (M 0 1 * M 1 2 * M 3 3 + M 0 2 * M 1 3 * M 3 1 + M 0 3 * M 1 1 * M 3 2 - M 0 1 * M 1 3 * M 3 2 - M 0 2 * M 1 1 * M 3 3 - M 0 3 * M 1 2 * M 3 1) * (1 / M.det), (M 0 1 * M 1 3 * M 2 2 + M 0 2 * M 1 1 * M 2 3 + M 0 3 * M 1 2 * M 2 1 - M 0 1 * M 1 2 * M 2 3 - M 0 2 * M 1 3 * M 2 1 - M 0 3 * M 1 1 * M 2 2) * (1 / M.det)],
      ![(M 1 0 * M 2 3 * M 3 2 + M 1 2 * M 2 0 * M 3 3 + M 1 3 * M 2 2 * M 3 0 - M 1 0 * M 2 2 * M 3 3 - M 1 2 * M 2 3 * M 3 0 - M 1 3 * M 2 0 * M 3 2) * (1 / M.det), (M 0 0 * M 2 2 * M 3 3 + M 0 2 * M 2 3 * M 3 0 + M 0 3 * M 2 0 * M 3 2 - M 0 0 * M 2 3 * M 3 2 - M 0 2 * M 2 0 * M 3 3 - M 0 3 * M 2 2 * M 3 0) * (1 / M.det), (M 0 0 * M 1 3 * M 3 2 + M 0 2 * M 1 0 * M 3 3 + M 0 3 * M 1 2 * M 3 0 - M 0 0 * M 1 2 * M 3 3 - M 0 2 * M 1 3 * M 3 0 - M 0 3 * M 1 0 * M 3 2) * (1 / M.det), (M 0 0 * M 1 2 * M 2 3 + M 0 2 * M 1 3 * M 2 0 + M 0 3 * M 1 0 * M 2 2 - M 0 0 * M 1 3 * M 2 2 - M 0 2 * M 1 0 * M 2 3 - M 0 3 * M 1 2 * M 2 0) * (1 / M.det)],
      ![(M 1 0 * M 2 1 * M 3 3 + M 1 1 * M 2 3 * M 3 0 + M 1 3 * M 2 0 * M 3 1 - M 1 0 * M 2 3 * M 3 1 - M 1 1 * M 2 0 * M 3 3 - M 1 3 * M 2 1 * M 3 0) * (1 / M.det), (M 0 0 * M 2 3 * M 3 1 + M 0 1 * M 2 0 * M 3 3 + M 0 3 * M 2 1 * M 3 0 - M 0 0 * M 2 1 * M 3 3 - M 0 1 * M 2 3 * M 3 0 - M 0 3 * M 2 0 * M 3 1) * (1 / M.det), (M 0 0 * M 1 1 * M 3 3 + M 0 1 * M 1 3 * M 3 0 + M 0 3 * M 1 0 * M 3 1 - M 0 0 * M 1 3 * M 3 1 - M 0 1 * M 1 0 * M 3 3 - M 0 3 * M 1 1 * M 3 0) * (1 / M.det), (M 0 0 * M 1 3 * M 2 1 + M 0 1 * M 1 0 * M 2 3 + M 0 3 * M 1 1 * M 2 0 - M 0 0 * M 1 1 * M 2 3 - M 0 1 * M 1 3 * M 2 0 - M 0 3 * M 1 0 * M 2 1) * (1 / M.det)],
      ![(M 1 0 * M 2 2 * M 3 1 + M 1 1 * M 2 0 * M 3 2 + M 1 2 * M 2 1 * M 3 0 - M 1 0 * M 2 1 * M 3 2 - M 1 1 * M 2 2 * M 3 0 - M 1 2 * M 2 0 * M 3 1) * (1 / M.det), (M 0 0 * M 2 1 * M 3 2 + M 0 1 * M 2 2 * M 3 0 + M 0 2 * M 2 0 * M 3 1 - M 0 0 * M 2 2 * M 3 1 - M 0 1 * M 2 0 * M 3 2 - M 0 2 * M 2 1 * M 3 0) * (1 / M.det), (M 0 0 * M 1 2 * M 3 1 + M 0 1 * M 1 0 * M 3 2 + M 0 2 * M 1 1 * M 3 0 - M 0 0 * M 1 1 * M 3 2 - M 0 1 * M 1 2 * M 3 0 - M 0 2 * M 1 0 * M 3 1) * (1 / M.det), (M 0 0 * M 1 1 * M 2 2 + M 0 1 * M 1 2 * M 2 0 + M 0 2 * M 1 0 * M 2 1 - M 0 0 * M 1 2 * M 2 1 - M 0 1 * M 1 0 * M 2 2 - M 0 2 * M 1 1 * M 2 0) * (1 / M.det)]] := by
  have hq : M.det * (1 / M.det) = 1 := by field_simp
  apply Matrix.inv_eq_right_inv
  generalize ht : 1 / M.det = t at hq ⊢
  rw [det_four] at hq
  ext i j
  fin_cases i <;> fin_cases j <;> simp [Matrix.mul_apply, Fin.sum_univ_four]
  · linear_combination hq
  · ring
  · ring
  · ring
  · ring
  · linear_combination hq
  · ring
  · ring
  · ring
  · ring
  · linear_combination hq
  · ring
  · ring
  · ring
  · ring
  · linear_combination hq

/-- what the theorem says about one object -/
def OffMat (n : Nat) (B : ℚ) (f : Nat → Nat → F64) (A' : Mat F64) : Prop :=
  A'.m = n ∧ A'.n = n ∧ ∀ i j : Fin n, ∃ r, A'.get (i.val : Int) (j.val : Int) = .ok r ∧
    Off r ((matQ n f)⁻¹ i j) (matQ n f).det (detErr B (perm (n - 1) (minor j.val i.val fun i j => val (f i j))) (n - 1))
      (detErr B (perm n fun i j => val (f i j)) n)

theorem Off.congr {r : F64} {x y D eC eC' eD : ℚ} (h : Off r x D eC eD) (hx : x = y) (hC : eC = eC') : Off r y D eC' eD := by
  rw [← hx, ← hC]; exact h

theorem lim_det {D : ℚ} (h : 1 / 2 ^ 200 ≤ |D|) : 1 ≤ lim * |D| := by
  have : lim * (1 / 2 ^ 200) = 1 := by unfold lim; rw [mul_one_div]; exact div_self (by positivity)
  have h2 := mul_le_mul_of_nonneg_left h (by linarith [lim_ge] : 0 ≤ lim)
  linarith

theorem det_ne {D : ℚ} (h : 1 / 2 ^ 200 ≤ |D|) : D ≠ 0 := by
  intro h0
  rw [h0, abs_zero] at h
  have : (0 : ℚ) < 1 / 2 ^ 200 := by positivity
  linarith

theorem inv2_off {A : Mat F64} {f : Nat → Nat → F64} (h : Is A 2 2 f) (B : ℚ) (h1 : 1 ≤ B) (h2 : B ≤ lim)
    (hf : ∀ i j, i < 2 → j < 2 → Within B (f i j)) (hl : 1 / 2 ^ 200 ≤ |(matQ 2 f).det|)
    (hd2 : 2 * detErr B (perm 2 fun i j => val (f i j)) 2 ≤ |(matQ 2 f).det|) :
    OffMat 2 B f ⟨2, 2, Mat.inv2 (Mat.elems A.data) (lit 1 1 / Mat.det2 (Mat.elems A.data))⟩ := by
  have e0 := elems_is h 0 0 (by omega) (by omega)
  have e1 := elems_is h 1 0 (by omega) (by omega)
  have e2 := elems_is h 0 1 (by omega) (by omega)
  have e3 := elems_is h 1 1 (by omega) (by omega)
  simp only [Nat.reduceMul, Nat.reduceAdd, Nat.zero_mul, Nat.add_zero, Nat.zero_add] at e0 e1 e2 e3
  have w0 : Within B (f 0 0) := hf 0 0 (by omega) (by omega)
  have w1 : Within B (f 1 0) := hf 1 0 (by omega) (by omega)
  have w2 : Within B (f 0 1) := hf 0 1 (by omega) (by omega)
  have w3 : Within B (f 1 1) := hf 1 1 (by omega) (by omega)
  obtain ⟨r, hr, fd, hd⟩ := det2_error h (fun i j hi hj => lim_usual ⟨(hf i j hi hj).1, (hf i j hi hj).2.trans h2⟩) (lit 1 1)
  have er : r = Mat.det2 (Mat.elems A.data) := by
    unfold Mat.det at hr
    rw [h.rows, h.cols, if_pos rfl, if_neg (by omega), if_pos rfl, readAll_is h 4 rfl] at hr
    simp only [Except.map] at hr
    injection hr with hr
    injection hr with _ hr
    exact hr.symm
  rw [er] at fd hd
  have hl' := lim_det hl
  have hh := det_size (by omega) h1 h2 hf
  have hi := inv_two (matQ 2 f) (det_ne hl)
  have em : ∀ i j : Fin 2, matQ 2 f i j = val (f i.val j.val) := fun _ _ => rfl
  have g0 := off_one h1 h2 fd hd hd2 hl' hh w3 (perm 1 (minor 0 0 fun i j => val (f i j)))
  have g1 := off_one h1 h2 fd hd hd2 hl' hh (show Within B (-(f 1 0)) from ⟨finite_neg.2 w1.1, by rw [val_neg, abs_neg]; exact w1.2⟩) (perm 1 (minor 0 1 fun i j => val (f i j)))
  have g2 := off_one h1 h2 fd hd hd2 hl' hh (show Within B (-(f 0 1)) from ⟨finite_neg.2 w2.1, by rw [val_neg, abs_neg]; exact w2.2⟩) (perm 1 (minor 1 0 fun i j => val (f i j)))
  have g3 := off_one h1 h2 fd hd hd2 hl' hh w0 (perm 1 (minor 1 1 fun i j => val (f i j)))
  rw [val_neg] at g1 g2
  refine ⟨rfl, rfl, fun i j => ?_⟩
  rw [hi]
  fin_cases i <;> fin_cases j
  · exact ⟨_, by rw [Mx.Mat.get_nat]; simp only [Mat.inv2, e0, e1, e2, e3]; rfl, g0.congr rfl rfl⟩
  · exact ⟨_, by rw [Mx.Mat.get_nat]; simp only [Mat.inv2, e0, e1, e2, e3]; rfl, g2.congr rfl rfl⟩
  · exact ⟨_, by rw [Mx.Mat.get_nat]; simp only [Mat.inv2, e0, e1, e2, e3]; rfl, g1.congr rfl rfl⟩
  · exact ⟨_, by rw [Mx.Mat.get_nat]; simp only [Mat.inv2, e0, e1, e2, e3]; rfl, g3.congr rfl rfl⟩

theorem inv3_off {A : Mat F64} {f : Nat → Nat → F64} (h : Is A 3 3 f) (B : ℚ) (h1 : 1 ≤ B) (h2 : B ≤ lim)
    (hf : ∀ i j, i < 3 → j < 3 → Within B (f i j)) (hl : 1 / 2 ^ 200 ≤ |(matQ 3 f).det|)
    (hd2 : 2 * detErr B (perm 3 fun i j => val (f i j)) 3 ≤ |(matQ 3 f).det|) :
    OffMat 3 B f ⟨3, 3, Mat.inv3 (Mat.elems A.data) (lit 1 1 / Mat.det3 (Mat.elems A.data))⟩ := by
  have e0 := elems_is h 0 0 (by omega) (by omega)
  have e1 := elems_is h 1 0 (by omega) (by omega)
  have e2 := elems_is h 2 0 (by omega) (by omega)
  have e3 := elems_is h 0 1 (by omega) (by omega)
  have e4 := elems_is h 1 1 (by omega) (by omega)
  have e5 := elems_is h 2 1 (by omega) (by omega)
  have e6 := elems_is h 0 2 (by omega) (by omega)
  have e7 := elems_is h 1 2 (by omega) (by omega)
  have e8 := elems_is h 2 2 (by omega) (by omega)
  simp only [Nat.reduceMul, Nat.reduceAdd, Nat.zero_mul, Nat.add_zero, Nat.zero_add] at e0 e1 e2 e3 e4 e5 e6 e7 e8
  have w0 : Within B (f 0 0) := hf 0 0 (by omega) (by omega)
  have w1 : Within B (f 1 0) := hf 1 0 (by omega) (by omega)
  have w2 : Within B (f 2 0) := hf 2 0 (by omega) (by omega)
  have w3 : Within B (f 0 1) := hf 0 1 (by omega) (by omega)
  have w4 : Within B (f 1 1) := hf 1 1 (by omega) (by omega)
  have w5 : Within B (f 2 1) := hf 2 1 (by omega) (by omega)
  have w6 : Within B (f 0 2) := hf 0 2 (by omega) (by omega)
  have w7 : Within B (f 1 2) := hf 1 2 (by omega) (by omega)
  have w8 : Within B (f 2 2) := hf 2 2 (by omega) (by omega)
  obtain ⟨r, hr, fd, hd⟩ := det3_error h B h1 h2 hf (lit 1 1)
  have er : r = Mat.det3 (Mat.elems A.data) := by
    unfold Mat.det at hr
    rw [h.rows, h.cols, if_pos rfl, if_neg (by omega), if_neg (by omega), if_pos rfl, readAll_is h 9 rfl] at hr
    simp only [Except.map] at hr
    injection hr with hr
    injection hr with _ hr
    exact hr.symm
  rw [er] at fd hd
  have hl' := lim_det hl
  have hh := det_size (by omega) h1 h2 hf
  have hi := inv_three (matQ 3 f) (det_ne hl)
  have em : ∀ i j : Fin 3, matQ 3 f i j = val (f i.val j.val) := fun _ _ => rfl
  have g0 := off_two h1 h2 fd hd hd2 hl' hh w4 w8 w7 w5
  have g1 := off_two h1 h2 fd hd hd2 hl' hh w7 w2 w1 w8
  have g2 := off_two h1 h2 fd hd hd2 hl' hh w1 w5 w4 w2
  have g3 := off_two h1 h2 fd hd hd2 hl' hh w6 w5 w3 w8
  have g4 := off_two h1 h2 fd hd hd2 hl' hh w0 w8 w6 w2
  have g5 := off_two h1 h2 fd hd hd2 hl' hh w3 w2 w0 w5
  have g6 := off_two h1 h2 fd hd hd2 hl' hh w3 w7 w6 w4
  have g7 := off_two h1 h2 fd hd hd2 hl' hh w6 w1 w0 w7
  have g8 := off_two h1 h2 fd hd hd2 hl' hh w0 w4 w3 w1
  refine ⟨rfl, rfl, fun i j => ?_⟩
  rw [hi]
  fin_cases i <;> fin_cases j
  · exact ⟨_, by rw [Mx.Mat.get_nat]; simp only [Mat.inv3, e0, e1, e2, e3, e4, e5, e6, e7, e8]; rfl, g0.congr rfl (congrArg (fun p => detErr B p 2) (by simp only [perm, minor, List.range, List.range.loop, List.map, List.sum_cons, List.sum_nil]; norm_num; try ring))⟩
  · exact ⟨_, by rw [Mx.Mat.get_nat]; simp only [Mat.inv3, e0, e1, e2, e3, e4, e5, e6, e7, e8]; rfl, g3.congr rfl (congrArg (fun p => detErr B p 2) (by simp only [perm, minor, List.range, List.range.loop, List.map, List.sum_cons, List.sum_nil]; norm_num; try ring))⟩
  · exact ⟨_, by rw [Mx.Mat.get_nat]; simp only [Mat.inv3, e0, e1, e2, e3, e4, e5, e6, e7, e8]; rfl, g6.congr rfl (congrArg (fun p => detErr B p 2) (by simp only [perm, minor, List.range, List.range.loop, List.map, List.sum_cons, List.sum_nil]; norm_num; try ring))⟩
  · exact ⟨_, by rw [Mx.Mat.get_nat]; simp only [Mat.inv3, e0, e1, e2, e3, e4, e5, e6, e7, e8]; rfl, g1.congr rfl (congrArg (fun p => detErr B p 2) (by simp only [perm, minor, List.range, List.range.loop, List.map, List.sum_cons, List.sum_nil]; norm_num; try ring))⟩
  · exact ⟨_, by rw [Mx.Mat.get_nat]; simp only [Mat.inv3, e0, e1, e2, e3, e4, e5, e6, e7, e8]; rfl, g4.congr rfl (congrArg (fun p => detErr B p 2) (by simp only [perm, minor, List.range, List.range.loop, List.map, List.sum_cons, List.sum_nil]; norm_num; try ring))⟩
  · exact ⟨_, by rw [Mx.Mat.get_nat]; simp only [Mat.inv3, e0, e1, e2, e3, e4, e5, e6, e7, e8]; rfl, g7.congr rfl (congrArg (fun p => detErr B p 2) (by simp only [perm, minor, List.range, List.range.loop, List.map, List.sum_cons, List.sum_nil]; norm_num; try ring))⟩
  · exact ⟨_, by rw [Mx.Mat.get_nat]; simp only [Mat.inv3, e0, e1, e2, e3, e4, e5, e6, e7, e8]; rfl, g2.congr rfl (congrArg (fun p => detErr B p 2) (by simp only [perm, minor, List.range, List.range.loop, List.map, List.sum_cons, List.sum_nil]; norm_num; try ring))⟩
  · exact ⟨_, by rw [Mx.Mat.get_nat]; simp only [Mat.inv3, e0, e1, e2, e3, e4, e5, e6, e7, e8]; rfl, g5.congr rfl (congrArg (fun p => detErr B p 2) (by simp only [perm, minor, List.range, List.range.loop, List.map, List.sum_cons, List.sum_nil]; norm_num; try ring))⟩
  · exact ⟨_, by rw [Mx.Mat.get_nat]; simp only [Mat.inv3, e0, e1, e2, e3, e4, e5, e6, e7, e8]; rfl, g8.congr rfl (congrArg (fun p => detErr B p 2) (by simp only [perm, minor, List.range, List.range.loop, List.map, List.sum_cons, List.sum_nil]; norm_num; try ring))⟩

theorem inv4_off {A : Mat F64} {f : Nat → Nat → F64} (h : Is A 4 4 f) (B : ℚ) (h1 : 1 ≤ B) (h2 : B ≤ lim)
    (hf : ∀ i j, i < 4 → j < 4 → Within B (f i j)) (hl : 1 / 2 ^ 200 ≤ |(matQ 4 f).det|)
    (hd2 : 2 * detErr B (perm 4 fun i j => val (f i j)) 4 ≤ |(matQ 4 f).det|) :
    OffMat 4 B f ⟨4, 4, Mat.inv4 (Mat.elems A.data) (lit 1 1 / Mat.det4 (Mat.elems A.data))⟩ := by
  have e0 := elems_is h 0 0 (by omega) (by omega)
  have e1 := elems_is h 1 0 (by omega) (by omega)
  have e2 := elems_is h 2 0 (by omega) (by omega)
  have e3 := elems_is h 3 0 (by omega) (by omega)
  have e4 := elems_is h 0 1 (by omega) (by omega)
  have e5 := elems_is h 1 1 (by omega) (by omega)
  have e6 := elems_is h 2 1 (by omega) (by omega)
  have e7 := elems_is h 3 1 (by omega) (by omega)
  have e8 := elems_is h 0 2 (by omega) (by omega)
  have e9 := elems_is h 1 2 (by omega) (by omega)
  have e10 := elems_is h 2 2 (by omega) (by omega)
  have e11 := elems_is h 3 2 (by omega) (by omega)
  have e12 := elems_is h 0 3 (by omega) (by omega)
  have e13 := elems_is h 1 3 (by omega) (by omega)
  have e14 := elems_is h 2 3 (by omega) (by omega)
  have e15 := elems_is h 3 3 (by omega) (by omega)
  simp only [Nat.reduceMul, Nat.reduceAdd, Nat.zero_mul, Nat.add_zero, Nat.zero_add] at e0 e1 e2 e3 e4 e5 e6 e7 e8 e9 e10 e11 e12 e13 e14 e15
  have w0 : Within B (f 0 0) := hf 0 0 (by omega) (by omega)
  have w1 : Within B (f 1 0) := hf 1 0 (by omega) (by omega)
  have w2 : Within B (f 2 0) := hf 2 0 (by omega) (by omega)
  have w3 : Within B (f 3 0) := hf 3 0 (by omega) (by omega)
  have w4 : Within B (f 0 1) := hf 0 1 (by omega) (by omega)
  have w5 : Within B (f 1 1) := hf 1 1 (by omega) (by omega)
  have w6 : Within B (f 2 1) := hf 2 1 (by omega) (by omega)
  have w7 : Within B (f 3 1) := hf 3 1 (by omega) (by omega)
  have w8 : Within B (f 0 2) := hf 0 2 (by omega) (by omega)
  have w9 : Within B (f 1 2) := hf 1 2 (by omega) (by omega)
  have w10 : Within B (f 2 2) := hf 2 2 (by omega) (by omega)
  have w11 : Within B (f 3 2) := hf 3 2 (by omega) (by omega)
  have w12 : Within B (f 0 3) := hf 0 3 (by omega) (by omega)
  have w13 : Within B (f 1 3) := hf 1 3 (by omega) (by omega)
  have w14 : Within B (f 2 3) := hf 2 3 (by omega) (by omega)
  have w15 : Within B (f 3 3) := hf 3 3 (by omega) (by omega)
  obtain ⟨r, hr, fd, hd⟩ := det4_error h B h1 h2 hf (lit 1 1)
  have er : r = Mat.det4 (Mat.elems A.data) := by
    unfold Mat.det at hr
    rw [h.rows, h.cols, if_pos rfl, if_neg (by omega), if_neg (by omega), if_neg (by omega), if_pos rfl, readAll_is h 16 rfl] at hr
    simp only [Except.map] at hr
    injection hr with hr
    injection hr with _ hr
    exact hr.symm
  rw [er] at fd hd
  have hl' := lim_det hl
  have hh := det_size (by omega) h1 h2 hf
  have hi := inv_four (matQ 4 f) (det_ne hl)
  have em : ∀ i j : Fin 4, matQ 4 f i j = val (f i.val j.val) := fun _ _ => rfl
  have g0 := off_six h1 h2 fd hd hd2 hl' hh w5 w10 w15 w9 w14 w7 w13 w6 w11 w5 w14 w11 w9 w6 w15 w13 w10 w7
  have g1 := off_six h1 h2 fd hd hd2 hl' hh w1 w14 w11 w9 w2 w15 w13 w10 w3 w1 w10 w15 w9 w14 w3 w13 w2 w11
  have g2 := off_six h1 h2 fd hd hd2 hl' hh w1 w6 w15 w5 w14 w3 w13 w2 w7 w1 w14 w7 w5 w2 w15 w13 w6 w3
  have g3 := off_six h1 h2 fd hd hd2 hl' hh w1 w10 w7 w5 w2 w11 w9 w6 w3 w1 w6 w11 w5 w10 w3 w9 w2 w7
  have g4 := off_six h1 h2 fd hd hd2 hl' hh w4 w14 w11 w8 w6 w15 w12 w10 w7 w4 w10 w15 w8 w14 w7 w12 w6 w11
  have g5 := off_six h1 h2 fd hd hd2 hl' hh w0 w10 w15 w8 w14 w3 w12 w2 w11 w0 w14 w11 w8 w2 w15 w12 w10 w3
  have g6 := off_six h1 h2 fd hd hd2 hl' hh w0 w14 w7 w4 w2 w15 w12 w6 w3 w0 w6 w15 w4 w14 w3 w12 w2 w7
  have g7 := off_six h1 h2 fd hd hd2 hl' hh w0 w6 w11 w4 w10 w3 w8 w2 w7 w0 w10 w7 w4 w2 w11 w8 w6 w3
  have g8 := off_six h1 h2 fd hd hd2 hl' hh w4 w9 w15 w8 w13 w7 w12 w5 w11 w4 w13 w11 w8 w5 w15 w12 w9 w7
  have g9 := off_six h1 h2 fd hd hd2 hl' hh w0 w13 w11 w8 w1 w15 w12 w9 w3 w0 w9 w15 w8 w13 w3 w12 w1 w11
  have g10 := off_six h1 h2 fd hd hd2 hl' hh w0 w5 w15 w4 w13 w3 w12 w1 w7 w0 w13 w7 w4 w1 w15 w12 w5 w3
  have g11 := off_six h1 h2 fd hd hd2 hl' hh w0 w9 w7 w4 w1 w11 w8 w5 w3 w0 w5 w11 w4 w9 w3 w8 w1 w7
  have g12 := off_six h1 h2 fd hd hd2 hl' hh w4 w13 w10 w8 w5 w14 w12 w9 w6 w4 w9 w14 w8 w13 w6 w12 w5 w10
  have g13 := off_six h1 h2 fd hd hd2 hl' hh w0 w9 w14 w8 w13 w2 w12 w1 w10 w0 w13 w10 w8 w1 w14 w12 w9 w2
  have g14 := off_six h1 h2 fd hd hd2 hl' hh w0 w13 w6 w4 w1 w14 w12 w5 w2 w0 w5 w14 w4 w13 w2 w12 w1 w6
  have g15 := off_six h1 h2 fd hd hd2 hl' hh w0 w5 w10 w4 w9 w2 w8 w1 w6 w0 w9 w6 w4 w1 w10 w8 w5 w2
  refine ⟨rfl, rfl, fun i j => ?_⟩
  rw [hi]
  fin_cases i <;> fin_cases j
  · exact ⟨_, by rw [Mx.Mat.get_nat]; simp only [Mat.inv4, e0, e1, e2, e3, e4, e5, e6, e7, e8, e9, e10, e11, e12, e13, e14, e15]; rfl, g0.congr rfl (congrArg (fun p => detErr B p 3) (by simp only [perm, minor, List.range, List.range.loop, List.map, List.sum_cons, List.sum_nil]; norm_num; try ring))⟩
  · exact ⟨_, by rw [Mx.Mat.get_nat]; simp only [Mat.inv4, e0, e1, e2, e3, e4, e5, e6, e7, e8, e9, e10, e11, e12, e13, e14, e15]; rfl, g4.congr rfl (congrArg (fun p => detErr B p 3) (by simp only [perm, minor, List.range, List.range.loop, List.map, List.sum_cons, List.sum_nil]; norm_num; try ring))⟩
  · exact ⟨_, by rw [Mx.Mat.get_nat]; simp only [Mat.inv4, e0, e1, e2, e3, e4, e5, e6, e7, e8, e9, e10, e11, e12, e13, e14, e15]; rfl, g8.congr rfl (congrArg (fun p => detErr B p 3) (by simp only [perm, minor, List.range, List.range.loop, List.map, List.sum_cons, List.sum_nil]; norm_num; try ring))⟩
  · exact ⟨_, by rw [Mx.Mat.get_nat]; simp only [Mat.inv4, e0, e1, e2, e3, e4, e5, e6, e7, e8, e9, e10, e11, e12, e13, e14, e15]; rfl, g12.congr rfl (congrArg (fun p => detErr B p 3) (by simp only [perm, minor, List.range, List.range.loop, List.map, List.sum_cons, List.sum_nil]; norm_num; try ring))⟩
  · exact ⟨_, by rw [Mx.Mat.get_nat]; simp only [Mat.inv4, e0, e1, e2, e3, e4, e5, e6, e7, e8, e9, e10, e11, e12, e13, e14, e15]; rfl, g1.congr rfl (congrArg (fun p => detErr B p 3) (by simp only [perm, minor, List.range, List.range.loop, List.map, List.sum_cons, List.sum_nil]; norm_num; try ring))⟩
  · exact ⟨_, by rw [Mx.Mat.get_nat]; simp only [Mat.inv4, e0, e1, e2, e3, e4, e5, e6, e7, e8, e9, e10, e11, e12, e13, e14, e15]; rfl, g5.congr rfl (congrArg (fun p => detErr B p 3) (by simp only [perm, minor, List.range, List.range.loop, List.map, List.sum_cons, List.sum_nil]; norm_num; try ring))⟩
  · exact ⟨_, by rw [Mx.Mat.get_nat]; simp only [Mat.inv4, e0, e1, e2, e3, e4, e5, e6, e7, e8, e9, e10, e11, e12, e13, e14, e15]; rfl, g9.congr rfl (congrArg (fun p => detErr B p 3) (by simp only [perm, minor, List.range, List.range.loop, List.map, List.sum_cons, List.sum_nil]; norm_num; try ring))⟩
  · exact ⟨_, by rw [Mx.Mat.get_nat]; simp only [Mat.inv4, e0, e1, e2, e3, e4, e5, e6, e7, e8, e9, e10, e11, e12, e13, e14, e15]; rfl, g13.congr rfl (congrArg (fun p => detErr B p 3) (by simp only [perm, minor, List.range, List.range.loop, List.map, List.sum_cons, List.sum_nil]; norm_num; try ring))⟩
  · exact ⟨_, by rw [Mx.Mat.get_nat]; simp only [Mat.inv4, e0, e1, e2, e3, e4, e5, e6, e7, e8, e9, e10, e11, e12, e13, e14, e15]; rfl, g2.congr rfl (congrArg (fun p => detErr B p 3) (by simp only [perm, minor, List.range, List.range.loop, List.map, List.sum_cons, List.sum_nil]; norm_num; try ring))⟩
  · exact ⟨_, by rw [Mx.Mat.get_nat]; simp only [Mat.inv4, e0, e1, e2, e3, e4, e5, e6, e7, e8, e9, e10, e11, e12, e13, e14, e15]; rfl, g6.congr rfl (congrArg (fun p => detErr B p 3) (by simp only [perm, minor, List.range, List.range.loop, List.map, List.sum_cons, List.sum_nil]; norm_num; try ring))⟩
  · exact ⟨_, by rw [Mx.Mat.get_nat]; simp only [Mat.inv4, e0, e1, e2, e3, e4, e5, e6, e7, e8, e9, e10, e11, e12, e13, e14, e15]; rfl, g10.congr rfl (congrArg (fun p => detErr B p 3) (by simp only [perm, minor, List.range, List.range.loop, List.map, List.sum_cons, List.sum_nil]; norm_num; try ring))⟩
  · exact ⟨_, by rw [Mx.Mat.get_nat]; simp only [Mat.inv4, e0, e1, e2, e3, e4, e5, e6, e7, e8, e9, e10, e11, e12, e13, e14, e15]; rfl, g14.congr rfl (congrArg (fun p => detErr B p 3) (by simp only [perm, minor, List.range, List.range.loop, List.map, List.sum_cons, List.sum_nil]; norm_num; try ring))⟩
  · exact ⟨_, by rw [Mx.Mat.get_nat]; simp only [Mat.inv4, e0, e1, e2, e3, e4, e5, e6, e7, e8, e9, e10, e11, e12, e13, e14, e15]; rfl, g3.congr rfl (congrArg (fun p => detErr B p 3) (by simp only [perm, minor, List.range, List.range.loop, List.map, List.sum_cons, List.sum_nil]; norm_num; try ring))⟩
  · exact ⟨_, by rw [Mx.Mat.get_nat]; simp only [Mat.inv4, e0, e1, e2, e3, e4, e5, e6, e7, e8, e9, e10, e11, e12, e13, e14, e15]; rfl, g7.congr rfl (congrArg (fun p => detErr B p 3) (by simp only [perm, minor, List.range, List.range.loop, List.map, List.sum_cons, List.sum_nil]; norm_num; try ring))⟩
  · exact ⟨_, by rw [Mx.Mat.get_nat]; simp only [Mat.inv4, e0, e1, e2, e3, e4, e5, e6, e7, e8, e9, e10, e11, e12, e13, e14, e15]; rfl, g11.congr rfl (congrArg (fun p => detErr B p 3) (by simp only [perm, minor, List.range, List.range.loop, List.map, List.sum_cons, List.sum_nil]; norm_num; try ring))⟩
  · exact ⟨_, by rw [Mx.Mat.get_nat]; simp only [Mat.inv4, e0, e1, e2, e3, e4, e5, e6, e7, e8, e9, e10, e11, e12, e13, e14, e15]; rfl, g15.congr rfl (congrArg (fun p => detErr B p 3) (by simp only [perm, minor, List.range, List.range.loop, List.map, List.sum_cons, List.sum_nil]; norm_num; try ring))⟩

theorem inv1_off {A : Mat F64} {f : Nat → Nat → F64} (h : Is A 1 1 f) (B : ℚ) (h1 : 1 ≤ B) (h2 : B ≤ lim)
    (hf : ∀ i j, i < 1 → j < 1 → Within B (f i j)) (hl : 1 / 2 ^ 200 ≤ |(matQ 1 f).det|) :
    OffMat 1 B f ⟨1, 1, [lit 1 1 / Mat.elems A.data 0]⟩ := by
  have e0 := elems_is h 0 0 (by omega) (by omega)
  rw [Nat.zero_mul, Nat.add_zero] at e0
  have w0 := hf 0 0 (by omega) (by omega)
  have hD : (matQ 1 f).det = val (f 0 0) := by rw [Matrix.det_fin_one]; rfl
  have hh := det_size (by omega) h1 h2 hf
  have hl' := lim_det hl
  have hne := det_ne hl
  rw [hD] at hh hl' hne
  obtain ⟨fr, _, er⟩ := recip_err w0.1 (D := val (f 0 0)) (eD := 0) (by rw [sub_self, abs_zero]) (by rw [mul_zero]; exact abs_nonneg _) hl' hh
  have hi : (matQ 1 f)⁻¹ = Matrix.of ![![1 / val (f 0 0)]] := by
    apply Matrix.inv_eq_right_inv
    ext i j
    fin_cases i; fin_cases j
    rw [Matrix.mul_apply, Fin.sum_univ_one]
    show val (f 0 0) * (1 / val (f 0 0)) = 1
    field_simp
  refine ⟨rfl, rfl, fun i j => ?_⟩
  rw [hi, hD]
  fin_cases i; fin_cases j
  refine ⟨_, by rw [Mx.Mat.get_nat, e0]; rfl, fr, er.trans ?_⟩
  have hE : detErr B (perm 1 fun i j => val (f i j)) 1 = 0 := rfl
  show _ ≤ 3 * (0 / |val (f 0 0)| + |1 / val (f 0 0)| * (0 / |val (f 0 0)| + 2 * u)) + eta
  rw [zero_div, mul_zero, zero_add, zero_add]
  have := mul_nonneg (abs_nonneg (1 / val (f 0 0))) u_pos.le
  have := eta_pos
  linarith

/-- The inverse of a matrix of up to four rows, with elements up to `B`: if the determinant is not too small compared with the
rounding errors of its own computation, every element is off by at most the relative error of the determinant, plus the error
of the cofactor in proportion to the determinant, each times three. -/
theorem inverse_error {n : Nat} (hn : 1 ≤ n) (hn4 : n ≤ 4) {A : Mat F64} {f : Nat → Nat → F64} (h : Is A n n f) (B : ℚ) (h1 : 1 ≤ B)
    (h2 : B ≤ 2 ^ 200) (hf : ∀ i j, i < n → j < n → Finite (f i j) ∧ |val (f i j)| ≤ B) (hl : 1 / 2 ^ 200 ≤ |(matQ n f).det|)
    (hd : 2 * detErr B (perm n fun i j => val (f i j)) n ≤ |(matQ n f).det|) :
    ∃ A', A.inverse = .ok (.ok, A') ∧ A'.m = n ∧ A'.n = n ∧ ∀ i j : Fin n, ∃ r, A'.get (i.val : Int) (j.val : Int) = .ok r ∧
      Off r ((matQ n f)⁻¹ i j) (matQ n f).det
        (detErr B (perm (n - 1) (minor j.val i.val fun i j => val (f i j))) (n - 1))
        (detErr B (perm n fun i j => val (f i j)) n) := by
  have hc : n = 1 ∨ n = 2 ∨ n = 3 ∨ n = 4 := by omega
  rcases hc with rfl | rfl | rfl | rfl
  · refine ⟨_, ?_, inv1_off h B h1 h2 hf hl⟩
    unfold Mat.inverse
    rw [h.rows, h.cols, if_pos rfl, if_pos rfl, readAll_is h 1 rfl]
    simp only [Except.map]; rfl
  · refine ⟨_, ?_, inv2_off h B h1 h2 hf hl hd⟩
    unfold Mat.inverse
    rw [h.rows, h.cols, if_pos rfl, if_neg (by omega), if_pos rfl, readAll_is h 4 rfl]
    simp only [Except.map]; rfl
  · refine ⟨_, ?_, inv3_off h B h1 h2 hf hl hd⟩
    unfold Mat.inverse
    rw [h.rows, h.cols, if_pos rfl, if_neg (by omega), if_neg (by omega), if_pos rfl, readAll_is h 9 rfl]
    simp only [Except.map]; rfl
  · refine ⟨_, ?_, inv4_off h B h1 h2 hf hl hd⟩
    unfold Mat.inverse
    rw [h.rows, h.cols, if_pos rfl, if_neg (by omega), if_neg (by omega), if_neg (by omega), if_pos rfl, readAll_is h 16 rfl]
    simp only [Except.map]; rfl

/-- the matrix with the elements 3, 1 (first row) and 1, 2 -/
def sample : Mat F64 := ⟨2, 2, [lit 3 1, lit 1 1, lit 1 1, lit 2 1]⟩
def sampleAt (i j : Nat) : F64 := if i = 0 ∧ j = 0 then lit 3 1 else if i = 1 ∧ j = 1 then lit 2 1 else lit 1 1

theorem sample_is : Is sample 2 2 sampleAt := by
  refine ⟨rfl, rfl, rfl, ?_⟩
  intro i j hi hj
  have h1 : i = 0 ∨ i = 1 := by omega
  have h2 : j = 0 ∨ j = 1 := by omega
  rcases h1 with rfl | rfl <;> rcases h2 with rfl | rfl <;> rfl

theorem sample_val : (∀ i j, Finite (sampleAt i j)) ∧ val (sampleAt 0 0) = 3 ∧ val (sampleAt 0 1) = 1 ∧ val (sampleAt 1 0) = 1 ∧
    val (sampleAt 1 1) = 2 := by
  have a := lit_int 1 (by decide)
  have b := lit_int 2 (by decide)
  have c := lit_int 3 (by decide)
  refine ⟨?_, ?_, ?_, ?_, ?_⟩
  · intro i j
    unfold sampleAt
    split
    · exact c.1
    · split
      · exact b.1
      · exact a.1
  · exact c.2.trans (by norm_num)
  · exact a.2.trans (by norm_num)
  · exact a.2.trans (by norm_num)
  · exact b.2.trans (by norm_num)

/-- the conditions hold for a matrix that has an inverse -/
example : ∃ A', sample.inverse = .ok (.ok, A') ∧ A'.m = 2 := by
  obtain ⟨hfin, v0, v1, v2, v3⟩ := sample_val
  have hD : (matQ 2 sampleAt).det = 5 := by
    rw [Matrix.det_fin_two]
    show val (sampleAt 0 0) * val (sampleAt 1 1) - val (sampleAt 0 1) * val (sampleAt 1 0) = 5
    rw [v0, v1, v2, v3]; norm_num
  obtain ⟨A', h1, h2, _⟩ := inverse_error (by omega) (by omega) sample_is 3 (by norm_num)
    ((by norm_num : (3 : ℚ) ≤ 2 ^ 2).trans (pow_le_pow_right₀ (by norm_num) (by norm_num)))
    (by
      intro i j hi hj
      refine ⟨hfin i j, ?_⟩
      have h1 : i = 0 ∨ i = 1 := by omega
      have h2 : j = 0 ∨ j = 1 := by omega
      rcases h1 with rfl | rfl <;> rcases h2 with rfl | rfl
      · rw [v0]; norm_num
      · rw [v1]; norm_num
      · rw [v2]; norm_num
      · rw [v3]; norm_num)
    (by
      rw [hD]
      have : (1 : ℚ) / 2 ^ 200 ≤ 1 := by
        rw [div_le_one (by positivity)]; exact one_le_pow₀ (by norm_num)
      rw [abs_of_pos (by norm_num)]; linarith)
    (by
      rw [hD, detErr_two]
      have hp : (perm 2 fun i j => val (sampleAt i j)) = 7 := by
        simp only [perm, List.range, List.range.loop, List.map, List.sum_cons, List.sum_nil]
        norm_num [v0, v1, v2, v3]
      have e1 : eta ≤ 1 / 1024 := by
        have := lim_eta
        have l := lim_ge
        have : 1 * eta ≤ lim * lim * eta := mul_le_mul_of_nonneg_right (by nlinarith) eta_pos.le
        linarith
      have e2 : lost 2 ≤ 4 / 1024 := by
        unfold lost
        have := mul_le_mul pow2 e1 eta_pos.le (by norm_num)
        push_cast
        linarith
      have e3 : (1 + u) ^ 2 - 1 ≤ 3 / 1024 := by
        have := u_le; have := u_pos; nlinarith
      rw [hp, abs_of_pos (by norm_num)]
      linarith)
  exact ⟨A', h1, h2⟩

end Verif.FpVec
