import Verif.Fp.Rel
import Verif.FpVec.Spec
import Verif.Fp.Mono
import Mathlib.Tactic.Linarith
import Mathlib.Tactic.Ring
import Mathlib.Tactic.Positivity
/-
A calculus of rounding errors, for all doubles including the subnormal ones: `Ap x e a k E` says that the double `x` was
computed for the number `e` by a formula whose terms have absolute values that add up to `a`, with at most `k` roundings on
any way from the arguments to the result, and that underflow has cost at most `E`.
-/
namespace Verif.FpVec
open Verif Verif.Fp

attribute [local irreducible] Fp.one

theorem u_pos : 0 < u := by unfold u; positivity
theorem u_le : u ≤ 1 / 1024 := by unfold u; norm_num
theorem eta_pos : 0 < eta := by unfold eta; positivity

theorem eta_z : eta = (2 : ℚ) ^ (-1074 : ℤ) / 2 := by
  unfold eta
  rw [show (-1074 : ℤ) = -((1074 : Nat) : ℤ) from rfl, zpow_neg, zpow_natCast, one_div, show (1075 : Nat) = 1074 + 1 from rfl,
    pow_succ (2 : ℚ) 1074, mul_inv]
  rfl
theorem huge_z : huge = (2 : ℚ) ^ (1023 : ℤ) := by
  unfold huge
  rw [show (1023 : ℤ) = ((1023 : Nat) : ℤ) from rfl, zpow_natCast]

theorem small_z : (2 : ℚ) ^ (-1022 : ℤ) ≤ 2 ^ 53 * 2 ^ (-1074 : ℤ) := by
  rw [← zpow_natCast (2 : ℚ) 53, ← zpow_add₀ (by norm_num)]
  exact zpow_le_zpow_right₀ (by norm_num) (by norm_num)

/-- one rounding -/
theorem rnd {r : F64} {e : ℚ} (h : Rounds r e) (hb : |e| ≤ huge) : Finite r ∧ |val r - e| ≤ u * |e| + eta := by
  by_cases hs : (2 : ℚ) ^ (-1022 : ℤ) ≤ |e|
  · obtain ⟨f, g⟩ := h.rel (-1022) 1023 (by omega) (by omega) hs (by rw [← huge_z]; exact hb)
    refine ⟨f, g.trans ?_⟩
    have := eta_pos
    unfold u
    rw [div_mul_eq_mul_div, one_mul]
    linarith
  · obtain ⟨f, g⟩ := h.zerr (-1074) (by omega) (by omega) ((not_le.1 hs).le.trans small_z)
    refine ⟨f, ?_⟩
    rw [← eta_z] at g
    have : 0 ≤ u * |e| := mul_nonneg u_pos.le (abs_nonneg e)
    linarith

/-- one rounding of a number in the range of the normal doubles -/
theorem rnd_normal {r : F64} {e : ℚ} (h : Rounds r e) (hs : (2 : ℚ) ^ (-1022 : ℤ) ≤ |e|) (hb : |e| ≤ huge) :
    Finite r ∧ |val r - e| ≤ u * |e| := by
  obtain ⟨f, g⟩ := h.rel (-1022) 1023 (by omega) (by omega) hs (by rw [← huge_z]; exact hb)
  refine ⟨f, g.trans ?_⟩
  unfold u
  rw [div_mul_eq_mul_div, one_mul]

/-- one rounding of a sum of doubles: no loss by underflow -/
theorem rnd_sum {r : F64} {e : ℚ} (h : Rounds r e) (m : ℤ) (hm : e = (m : ℚ) * 2 ^ (-1074 : ℤ)) (hb : |e| ≤ huge) :
    Finite r ∧ |val r - e| ≤ u * |e| := by
  by_cases hs : (2 : ℚ) ^ (-1022 : ℤ) ≤ |e|
  · exact rnd_normal h hs hb
  · have hp : (0 : ℚ) < 2 ^ (-1074 : ℤ) := zpow_pos (by norm_num) _
    have h1 : |(m : ℚ)| * 2 ^ (-1074 : ℤ) ≤ 2 ^ 53 * 2 ^ (-1074 : ℤ) := by
      rw [← abs_of_pos hp, ← abs_mul, ← hm, abs_of_pos hp]
      exact (not_le.1 hs).le.trans small_z
    have h2 : |(m : ℚ)| ≤ 2 ^ 53 := le_of_mul_le_mul_right h1 hp
    have h3 : m.natAbs ≤ 2 ^ 53 := by
      have : ((m.natAbs : Nat) : ℚ) ≤ ((2 ^ 53 : Nat) : ℚ) := by rw [Nat.cast_natAbs]; push_cast; exact h2
      exact_mod_cast this
    have hr := Rp.zgrid m (-1074) h3 (by omega) (by omega)
    rw [← hm] at hr
    obtain ⟨f, v⟩ := h.exact hr
    refine ⟨f, ?_⟩
    rw [v, sub_self, abs_zero]
    exact mul_nonneg u_pos.le (abs_nonneg e)

theorem val_units (x : F64) : val x = (units x : ℚ) * 2 ^ (-1074 : ℤ) := by
  have h := val_eq x
  have e : (2 : ℚ) ^ (-1074 : ℤ) = (2 ^ 1074)⁻¹ := by
    rw [show (-1074 : ℤ) = -((1074 : Nat) : ℤ) from rfl, zpow_neg, zpow_natCast]
  rw [e, ← h]
  generalize hq : (2 : ℚ) ^ 1074 = q
  have : q ≠ 0 := by rw [← hq]; exact pow_ne_zero _ (by norm_num)
  field_simp

theorem add_err {x y : F64} (hx : Finite x) (hy : Finite y) (hb : |val x + val y| ≤ huge) :
    Finite (x + y) ∧ |val (x + y) - (val x + val y)| ≤ u * |val x + val y| :=
  rnd_sum (add_rounds hx hy) (units x + units y) (by rw [val_units x, val_units y]; push_cast; ring) hb
theorem sub_err {x y : F64} (hx : Finite x) (hy : Finite y) (hb : |val x - val y| ≤ huge) :
    Finite (x - y) ∧ |val (x - y) - (val x - val y)| ≤ u * |val x - val y| :=
  rnd_sum (sub_rounds hx hy) (units x - units y) (by rw [val_units x, val_units y]; push_cast; ring) hb
theorem mul_err {x y : F64} (hx : Finite x) (hy : Finite y) (hb : |val x * val y| ≤ huge) :
    Finite (x * y) ∧ |val (x * y) - val x * val y| ≤ u * |val x * val y| + eta :=
  rnd (mul_rounds hx hy) hb

/-! ### The calculus -/

structure Ap (x : F64) (e a : ℚ) (k : Nat) (E : ℚ) : Prop where
  fin : Finite x
  mag : |e| ≤ a
  err : |val x - e| ≤ ((1 + u) ^ k - 1) * a + E
  nn : 0 ≤ E

theorem one_le_pow (k : Nat) : 1 ≤ (1 + u) ^ k := one_le_pow₀ (by linarith [u_pos])
theorem pow_mono {k l : Nat} (h : k ≤ l) : (1 + u) ^ k ≤ (1 + u) ^ l := pow_le_pow_right₀ (by linarith [u_pos]) h

theorem Ap.leaf {x : F64} (h : Finite x) : Ap x (val x) |val x| 0 0 := ⟨h, le_rfl, by simp, le_rfl⟩

theorem Ap.a_nn {x e a k E} (h : Ap x e a k E) : 0 ≤ a := (abs_nonneg e).trans h.mag

theorem Ap.mono {x : F64} {e a E E' : ℚ} {k l : Nat} (h : Ap x e a k E) (hk : k ≤ l) (hE : E ≤ E') : Ap x e a l E' := by
  refine ⟨h.fin, h.mag, h.err.trans ?_, h.nn.trans hE⟩
  have := mul_le_mul_of_nonneg_right (sub_le_sub_right (pow_mono hk) 1) h.a_nn
  linarith

/-- the size of the computed value -/
theorem Ap.size {x : F64} {e a E : ℚ} {k : Nat} (h : Ap x e a k E) : |val x| ≤ (1 + u) ^ k * a + E := by
  have h1 := abs_sub_abs_le_abs_sub (val x) e
  have h2 := h.mag
  have h3 := h.err
  have : ((1 + u) ^ k - 1) * a = (1 + u) ^ k * a - a := by ring
  linarith

theorem sum_step {v e S a E : ℚ} {k : Nat} (hv : |v - S| ≤ u * |S|) (hS : |S - e| ≤ ((1 + u) ^ k - 1) * a + E) (he : |e| ≤ a) :
    |v - e| ≤ ((1 + u) ^ (k + 1) - 1) * a + (1 + u) * E := by
  have t1 : |v - e| ≤ |v - S| + |S - e| := by
    have := abs_add_le (v - S) (S - e); rwa [sub_add_sub_cancel] at this
  have t2 : |S| ≤ |S - e| + |e| := by
    have := abs_add_le (S - e) e; rwa [sub_add_cancel] at this
  have t3 : u * |S| ≤ u * (|S - e| + a) := mul_le_mul_of_nonneg_left (by linarith) u_pos.le
  have t4 : (1 + u) * |S - e| ≤ (1 + u) * (((1 + u) ^ k - 1) * a + E) :=
    mul_le_mul_of_nonneg_left hS (by linarith [u_pos])
  have t5 : ((1 + u) ^ (k + 1) - 1) * a + (1 + u) * E = (1 + u) * (((1 + u) ^ k - 1) * a + E) + u * a := by
    rw [pow_succ]; ring
  rw [t5]
  have t6 : u * (|S - e| + a) = u * |S - e| + u * a := by ring
  have t7 : (1 + u) * |S - e| = |S - e| + u * |S - e| := by ring
  linarith

theorem Ap.add {x y : F64} {e f a b E G : ℚ} {k : Nat} (hx : Ap x e a k E) (hy : Ap y f b k G)
    (hb : (1 + u) ^ k * (a + b) + (E + G) ≤ huge) : Ap (x + y) (e + f) (a + b) (k + 1) ((1 + u) * (E + G)) := by
  have s1 := hx.size
  have s2 := hy.size
  have s3 := abs_add_le (val x) (val y)
  obtain ⟨h1, h2⟩ := add_err hx.fin hy.fin (by
    have : (1 + u) ^ k * (a + b) = (1 + u) ^ k * a + (1 + u) ^ k * b := by ring
    linarith)
  have hm : |e + f| ≤ a + b := (abs_add_le e f).trans (add_le_add hx.mag hy.mag)
  refine ⟨h1, hm, sum_step h2 ?_ hm, mul_nonneg (by linarith [u_pos]) (add_nonneg hx.nn hy.nn)⟩
  have t : val x + val y - (e + f) = (val x - e) + (val y - f) := by ring
  rw [t]
  refine (abs_add_le _ _).trans ?_
  have := hx.err
  have := hy.err
  have : ((1 + u) ^ k - 1) * (a + b) = ((1 + u) ^ k - 1) * a + ((1 + u) ^ k - 1) * b := by ring
  linarith

theorem Ap.sub {x y : F64} {e f a b E G : ℚ} {k : Nat} (hx : Ap x e a k E) (hy : Ap y f b k G)
    (hb : (1 + u) ^ k * (a + b) + (E + G) ≤ huge) : Ap (x - y) (e - f) (a + b) (k + 1) ((1 + u) * (E + G)) := by
  have s1 := hx.size
  have s2 := hy.size
  have s3 : |val x - val y| ≤ |val x| + |val y| := by
    have := abs_add_le (val x) (-val y); rwa [abs_neg, ← sub_eq_add_neg] at this
  obtain ⟨h1, h2⟩ := sub_err hx.fin hy.fin (by
    have : (1 + u) ^ k * (a + b) = (1 + u) ^ k * a + (1 + u) ^ k * b := by ring
    linarith)
  have hm : |e - f| ≤ a + b := by
    have := abs_add_le e (-f); rw [abs_neg, ← sub_eq_add_neg] at this
    exact this.trans (add_le_add hx.mag hy.mag)
  refine ⟨h1, hm, sum_step h2 ?_ hm, mul_nonneg (by linarith [u_pos]) (add_nonneg hx.nn hy.nn)⟩
  have t : val x - val y - (e - f) = (val x - e) + -(val y - f) := by ring
  rw [t]
  refine (abs_add_le _ _).trans ?_
  rw [abs_neg]
  have := hx.err
  have := hy.err
  have : ((1 + u) ^ k - 1) * (a + b) = ((1 + u) ^ k - 1) * a + ((1 + u) ^ k - 1) * b := by ring
  linarith

theorem prod_err {v w e f a b E G : ℚ} {k l : Nat} (hv : |v - e| ≤ ((1 + u) ^ k - 1) * a + E) (hw : |w - f| ≤ ((1 + u) ^ l - 1) * b + G)
    (he : |e| ≤ a) (hf : |f| ≤ b) (hE : 0 ≤ E) :
    |v * w - e * f| ≤ ((1 + u) ^ (k + l) - 1) * (a * b) + ((1 + u) ^ k * a * G + (1 + u) ^ l * b * E + E * G) := by
  have sv : |v| ≤ (1 + u) ^ k * a + E := by
    have h1 := abs_sub_abs_le_abs_sub v e
    have : ((1 + u) ^ k - 1) * a = (1 + u) ^ k * a - a := by ring
    linarith
  have t : v * w - e * f = v * (w - f) + f * (v - e) := by ring
  rw [t]
  refine (abs_add_le _ _).trans ?_
  rw [abs_mul, abs_mul]
  have ha : 0 ≤ a := (abs_nonneg e).trans he
  have hb : 0 ≤ b := (abs_nonneg f).trans hf
  have hP : 0 ≤ (1 + u) ^ k * a + E := (abs_nonneg v).trans sv
  have m1 : |v| * |w - f| ≤ ((1 + u) ^ k * a + E) * (((1 + u) ^ l - 1) * b + G) := mul_le_mul sv hw (abs_nonneg _) hP
  have m2 : |f| * |v - e| ≤ b * (((1 + u) ^ k - 1) * a + E) := mul_le_mul hf hv (abs_nonneg _) hb
  have : ((1 + u) ^ k * a + E) * (((1 + u) ^ l - 1) * b + G) + b * (((1 + u) ^ k - 1) * a + E) =
      ((1 + u) ^ (k + l) - 1) * (a * b) + ((1 + u) ^ k * a * G + (1 + u) ^ l * b * E + E * G) := by
    rw [pow_add]; ring
  linarith

theorem Ap.mul {x y : F64} {e f a b E G : ℚ} {k l : Nat} (hx : Ap x e a k E) (hy : Ap y f b l G)
    (hb : ((1 + u) ^ k * a + E) * ((1 + u) ^ l * b + G) ≤ huge) :
    Ap (x * y) (e * f) (a * b) (k + l + 1) ((1 + u) * ((1 + u) ^ k * a * G + (1 + u) ^ l * b * E + E * G) + eta) := by
  have s1 := hx.size
  have s2 := hy.size
  have s3 : |val x * val y| ≤ huge := by
    rw [abs_mul]
    exact (mul_le_mul s1 s2 (abs_nonneg _) ((abs_nonneg _).trans s1)).trans hb
  obtain ⟨h1, h2⟩ := mul_err hx.fin hy.fin s3
  have hm : |e * f| ≤ a * b := by rw [abs_mul]; exact mul_le_mul hx.mag hy.mag (abs_nonneg _) hx.a_nn
  have hp := prod_err hx.err hy.err hx.mag hy.mag hx.nn
  have hE1 := mul_nonneg (mul_nonneg (by linarith [one_le_pow k] : 0 ≤ (1 + u) ^ k) hx.a_nn) hy.nn
  have hE2 := mul_nonneg (mul_nonneg (by linarith [one_le_pow l] : 0 ≤ (1 + u) ^ l) hy.a_nn) hx.nn
  have hE3 := mul_nonneg hx.nn hy.nn
  refine ⟨h1, hm, ?_, add_nonneg (mul_nonneg (by linarith [u_pos]) (by linarith)) eta_pos.le⟩
  generalize (1 + u) ^ k * a * G + (1 + u) ^ l * b * E + E * G = W at hp hE1 ⊢
  have t1 : |val (x * y) - e * f| ≤ |val (x * y) - val x * val y| + |val x * val y - e * f| := by
    have := abs_add_le (val (x * y) - val x * val y) (val x * val y - e * f); rwa [sub_add_sub_cancel] at this
  have t2 : |val x * val y| ≤ |val x * val y - e * f| + |e * f| := by
    have := abs_add_le (val x * val y - e * f) (e * f); rwa [sub_add_cancel] at this
  have t3 : u * |val x * val y| ≤ u * (|val x * val y - e * f| + a * b) := mul_le_mul_of_nonneg_left (by linarith) u_pos.le
  have t4 : (1 + u) * |val x * val y - e * f| ≤ (1 + u) * (((1 + u) ^ (k + l) - 1) * (a * b) + W) :=
    mul_le_mul_of_nonneg_left hp (by linarith [u_pos])
  have t5 : ((1 + u) ^ (k + l + 1) - 1) * (a * b) + ((1 + u) * W + eta) =
      (1 + u) * (((1 + u) ^ (k + l) - 1) * (a * b) + W) + u * (a * b) + eta := by rw [pow_succ]; ring
  rw [t5]
  have t6 : u * (|val x * val y - e * f| + a * b) = u * |val x * val y - e * f| + u * (a * b) := by ring
  have t7 : (1 + u) * |val x * val y - e * f| = |val x * val y - e * f| + u * |val x * val y - e * f| := by ring
  linarith

theorem Ap.neg {x : F64} {e a E : ℚ} {k : Nat} (h : Ap x e a k E) : Ap (-x) (-e) a k E := by
  refine ⟨finite_neg.2 h.fin, by rw [abs_neg]; exact h.mag, ?_, h.nn⟩
  rw [val_neg]
  have : -val x - -e = -(val x - e) := by ring
  rw [this, abs_neg]; exact h.err

/-- the product of two arguments -/
theorem Ap.prod {x y : F64} (hx : Finite x) (hy : Finite y) (hb : |val x * val y| ≤ huge) :
    Ap (x * y) (val x * val y) |val x * val y| 1 eta := by
  obtain ⟨h1, h2⟩ := mul_err hx hy hb
  exact ⟨h1, le_rfl, by rw [pow_one]; simpa using h2, eta_pos.le⟩

/-- many roundings cost about `u` each -/
theorem pow_lin (k : Nat) (hk : k ≤ 2 ^ 51) : (1 + u) ^ k ≤ 1 + 2 * k * u := by
  induction k with
  | zero => simp
  | succ k ih =>
    have h := ih (by omega)
    have hku : 2 * (k : ℚ) * u ≤ 1 := by
      have : (k : ℚ) ≤ 2 ^ 51 := by exact_mod_cast (by omega : k ≤ 2 ^ 51)
      unfold u
      rw [mul_one_div, div_le_one (by positivity)]
      have e : (2 : ℚ) ^ 53 = 4 * 2 ^ 51 := by norm_num
      rw [e]; linarith
    have := u_pos
    have h1 : (1 + u) ^ (k + 1) ≤ (1 + 2 * k * u) * (1 + u) := by
      rw [pow_succ]; exact mul_le_mul_of_nonneg_right h (by linarith)
    have h2 : (1 + 2 * k * u) * (1 + u) = 1 + 2 * k * u + u + (2 * k * u) * u := by ring
    have h3 : (2 * (k : ℚ) * u) * u ≤ 1 * u := mul_le_mul_of_nonneg_right hku this.le
    push_cast
    linarith

/-! ### Exact results -/

/-- the double `x` is the integer `m` in units of 2^-k -/
structure Gr (k : Nat) (x : F64) (m : Int) : Prop where
  fin : Finite x
  eqv : val x = m / 2 ^ k

theorem Gr.add {k : Nat} {x y : F64} {m n : Int} (hx : Gr k x m) (hy : Gr k y n) (hk : k ≤ 1074) (hb : (m + n).natAbs ≤ 2 ^ 53) :
    Gr k (x + y) (m + n) := by
  have h := add_rounds hx.fin hy.fin
  rw [hx.eqv, hy.eqv, ← add_div] at h
  have e : (m : ℚ) + n = ((m + n : Int) : ℚ) := by push_cast; rfl
  rw [e] at h
  obtain ⟨f, v⟩ := h.exact (Rp.grid (m + n) k hb hk)
  exact ⟨f, v⟩
theorem Gr.sub {k : Nat} {x y : F64} {m n : Int} (hx : Gr k x m) (hy : Gr k y n) (hk : k ≤ 1074) (hb : (m - n).natAbs ≤ 2 ^ 53) :
    Gr k (x - y) (m - n) := by
  have h := sub_rounds hx.fin hy.fin
  rw [hx.eqv, hy.eqv, ← sub_div] at h
  have e : (m : ℚ) - n = ((m - n : Int) : ℚ) := by push_cast; rfl
  rw [e] at h
  obtain ⟨f, v⟩ := h.exact (Rp.grid (m - n) k hb hk)
  exact ⟨f, v⟩
theorem Gr.mul {k l : Nat} {x y : F64} {m n : Int} (hx : Gr k x m) (hy : Gr l y n) (hk : k + l ≤ 1074)
    (hb : (m * n).natAbs ≤ 2 ^ 53) : Gr (k + l) (x * y) (m * n) := by
  have h := mul_rounds hx.fin hy.fin
  have e : val x * val y = ((m * n : Int) : ℚ) / 2 ^ (k + l) := by
    rw [hx.eqv, hy.eqv, pow_add]; push_cast
    rw [div_mul_div_comm]
  rw [e] at h
  obtain ⟨f, v⟩ := h.exact (Rp.grid (m * n) (k + l) hb hk)
  exact ⟨f, v⟩
theorem Gr.neg {k : Nat} {x : F64} {m : Int} (h : Gr k x m) : Gr k (-x) (-m) :=
  ⟨finite_neg.2 h.fin, by rw [val_neg, h.eqv]; push_cast; ring⟩
theorem Gr.zero (k : Nat) : Gr k (lit 0 1) 0 := by
  obtain ⟨f, v⟩ := lit_int 0 (by decide)
  exact ⟨f, by rw [v]; simp⟩

end Verif.FpVec
