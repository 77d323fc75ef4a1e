import Verif.FpLen.Model
import Verif.FpVec.Props
/-
C122: lengths, distances and unit vectors computed with doubles.
-/
namespace Verif.FpLen
open Verif Verif.Fp Verif.Exact Verif.FpVec
open Verif.Mx (V2 V3 Vec)
open Verif.Mx.Mat (sumOf)
open scoped BigOperators

attribute [local irreducible] Fp.one Fp.lit

/-! ### What the results are compared with -/

/-- the length of a vector, exactly -/
noncomputable def norm2 (v : V2 F64) : ℝ := Real.sqrt (rval v.x ^ 2 + rval v.y ^ 2)
noncomputable def norm3 (v : V3 F64) : ℝ := Real.sqrt (rval v.x ^ 2 + rval v.y ^ 2 + rval v.z ^ 2)
noncomputable def normN (v : Vec F64) : ℝ := Real.sqrt (∑ i ∈ Finset.range v.m, rval (at' v.data i) ^ 2)

/-- the distance of two points, exactly -/
noncomputable def gap2 (p q : V2 F64) : ℝ := Real.sqrt ((rval q.x - rval p.x) ^ 2 + (rval q.y - rval p.y) ^ 2)
noncomputable def gap3 (p q : V3 F64) : ℝ :=
  Real.sqrt ((rval q.x - rval p.x) ^ 2 + (rval q.y - rval p.y) ^ 2 + (rval q.z - rval p.z) ^ 2)

/-- the result is finite and not further from `e` than `k` times 2^-53 of it -/
def Acc (k : ℝ) (r : F64) (e : ℝ) : Prop := Finite r ∧ |rval r - e| ≤ k * e / 2 ^ 53

/-! ### The root of a sum of squares -/

theorem root_diff {s t d : ℝ} (hs : 0 < s) (hd : d ≤ 1 / 64) (hd0 : 0 ≤ d) (h : |t - s| ≤ d * s) :
    |Real.sqrt t - Real.sqrt s| ≤ 33 / 64 * d * Real.sqrt s ∧ Real.sqrt t ≤ 65 / 64 * Real.sqrt s := by
  obtain ⟨h1, h2⟩ := abs_le.1 h
  have ht : 0 ≤ t := by nlinarith
  have a := Real.mul_self_sqrt ht
  have b := Real.mul_self_sqrt hs.le
  have pa := Real.sqrt_nonneg t
  have pb : 0 < Real.sqrt s := Real.sqrt_pos.2 hs
  generalize Real.sqrt t = x at *
  generalize Real.sqrt s = y at *
  have hx : (1 - d) * y ≤ x := by
    by_contra hc
    push Not at hc
    have h3 : x * x < ((1 - d) * y) * ((1 - d) * y) := mul_self_lt_mul_self pa hc
    have h4 : (1 - d) * (1 - d) ≤ 1 - d := by nlinarith
    have h5 : ((1 - d) * y) * ((1 - d) * y) ≤ (1 - d) * (y * y) := by
      have := mul_le_mul_of_nonneg_right h4 (mul_self_nonneg y)
      nlinarith
    nlinarith
  have hyx : 0 < x + y := by linarith
  have key : |x - y| * (x + y) ≤ d * (y * y) := by
    have : |x - y| * (x + y) = |t - s| := by
      rw [← a, ← b, ← abs_of_pos hyx, ← abs_mul]
      congr 1
      ring
    rw [this, b]; exact h
  have k2 : |x - y| * ((2 - d) * y) ≤ d * y * y := by
    have : |x - y| * ((2 - d) * y) ≤ |x - y| * (x + y) := mul_le_mul_of_nonneg_left (by linarith) (abs_nonneg _)
    linarith
  have k3 : |x - y| * (2 - d) ≤ d * y := by
    have : |x - y| * (2 - d) * y ≤ d * y * y := by linarith
    exact le_of_mul_le_mul_right this pb
  have k4 : |x - y| * (127 / 64) ≤ d * y := by
    refine le_trans (mul_le_mul_of_nonneg_left ?_ (abs_nonneg _)) k3
    linarith
  have hdy : 0 ≤ d * y := mul_nonneg hd0 pb.le
  have k5 : |x - y| ≤ 33 / 64 * d * y := by nlinarith
  refine ⟨k5, ?_⟩
  have := (abs_le.1 k5).2
  nlinarith

/-- the root of a computed sum `x` of the exact value `S` -/
theorem len_err {x : F64} {S : ℚ} {d k : ℝ} (hx : Finite x) (h0 : 0 ≤ val x) (hS : 0 < S) (hd0 : 0 ≤ d) (hd : d ≤ 1 / 64)
    (h : |(val x : ℝ) - (S : ℝ)| ≤ d * S) (hk : 65 / 64 + 33 / 64 * d * 2 ^ 53 ≤ k) :
    Acc k (sqrt x) (Real.sqrt S) := by
  have hS' : (0 : ℝ) < S := by exact_mod_cast hS
  obtain ⟨h1, h2⟩ := root_diff hS' hd hd0 h
  have h3 := sqrt_rel hx h0
  refine ⟨(sqrt_finite hx h0).1, ?_⟩
  have e : rroot x = Real.sqrt (val x : ℝ) := rfl
  rw [e] at h3
  have hp := Real.sqrt_nonneg (S : ℝ)
  generalize Real.sqrt (S : ℝ) = y at *
  generalize Real.sqrt (val x : ℝ) = t at *
  have h4 : |rval (sqrt x) - y| ≤ |rval (sqrt x) - t| + |t - y| := by
    have := abs_add_le (rval (sqrt x) - t) (t - y); rwa [sub_add_sub_cancel] at this
  rw [le_div_iff₀ (by positivity)]
  rw [le_div_iff₀ (by positivity)] at h3
  have h5 : |rval (sqrt x) - y| * 2 ^ 53 ≤ (65 / 64 + 33 / 64 * d * 2 ^ 53) * y := by nlinarith
  exact h5.trans (mul_le_mul_of_nonneg_right hk hp)

/-- some component is large enough for its square not to underflow -/
def Big1 (x : F64) : Prop := (1 : ℚ) / 2 ^ 480 ≤ |val x|

theorem big_sq {x : F64} (h : Big1 x) : (1 : ℚ) / 2 ^ 960 ≤ val x * val x := by
  have h1 := mul_le_mul h h (by positivity) (abs_nonneg _)
  rw [abs_mul_abs_self] at h1
  refine le_trans (le_of_eq ?_) h1
  rw [div_mul_div_comm, ← pow_add]; norm_num

theorem lost_rel (n : Nat) (hn : n ≤ 2 ^ 46) {S : ℚ} (hS : 1 / 2 ^ 960 ≤ S) : lost n ≤ u / 1024 * S := by
  have h1 := pow_le_two n (hn.trans (by norm_num))
  have h2 : (n : ℚ) ≤ 2 ^ 46 := by exact_mod_cast hn
  have h3 : lost n ≤ 2 ^ 46 * (3 / 2) * eta := by
    unfold lost
    exact mul_le_mul_of_nonneg_right (mul_le_mul h2 h1 (by linarith [one_le_pow n]) (by norm_num)) eta_pos.le
  refine h3.trans ?_
  have h4 : u / 1024 * (1 / 2 ^ 960) ≤ u / 1024 * S := mul_le_mul_of_nonneg_left hS (by have := u_pos; positivity)
  refine le_trans ?_ h4
  unfold u eta
  have e : (2 : ℚ) ^ 1075 = 2 ^ 960 * 2 ^ 115 := by rw [← pow_add]
  rw [e]
  have : (0 : ℚ) < 2 ^ 960 := by positivity
  generalize (2 : ℚ) ^ 960 = w at this
  rw [← sub_nonneg]
  have : 1 / 2 ^ 53 / 1024 * (1 / w) - 2 ^ 46 * (3 / 2) * (1 / (w * 2 ^ 115)) = (1 / 2 ^ 53 / 1024 - 2 ^ 46 * (3 / 2) / 2 ^ 115) * (1 / w) := by
    field_simp
  rw [this]
  exact mul_nonneg (by norm_num) (by positivity)

/-- a sum of squares of `n` numbers: from the error of the sum to that of the root -/
theorem near_len {x : F64} {S : ℚ} {n : Nat} {d k : ℚ} (h : Near x S S n) (hn : n ≤ 2 ^ 46) (hS : 1 / 2 ^ 960 ≤ S)
    (hd : (1 + u) ^ n - 1 + u / 1024 ≤ d) (hd1 : d ≤ 1 / 64) (hk : 65 / 64 + 33 / 64 * d * 2 ^ 53 ≤ k) :
    Acc k (sqrt x) (Real.sqrt S) := by
  have hS0 : 0 < S := lt_of_lt_of_le (by positivity) hS
  have h1 := lost_rel n hn hS
  have h2 : |val x - S| ≤ d * S := by
    refine h.2.trans ?_
    have := mul_le_mul_of_nonneg_right hd hS0.le
    linarith
  have hd0 : 0 ≤ d := by have := one_le_pow n; have := u_pos; linarith
  refine len_err (d := (d : ℝ)) h.1 ?_ hS0 (by exact_mod_cast hd0) ?_ (by exact_mod_cast h2) ?_
  · have := (abs_le.1 h2).1
    nlinarith
  · have := (Rat.cast_le (K := ℝ)).2 hd1
    push_cast at this; exact this
  · have := (Rat.cast_le (K := ℝ)).2 hk
    push_cast at this; exact this

theorem u_num : u = 1 / 9007199254740992 := by unfold u; norm_num

variable (c : Lib)

/-! ### Lengths -/

/-- The computed length of a vector with two components is within 17/8 times 2^-53 of the true length, relative to it, if no
component is above 2^500 and one is at least 2^-480. -/
theorem abs2_accuracy (v : V2 F64) (hv : Usual2 v) (hb : Big1 v.x ∨ Big1 v.y) : Acc (17 / 8) (abs2 c v) (norm2 v) := by
  have hn := dot_error v v hv hv
  have e : |val v.x * val v.x| + |val v.y * val v.y| = val v.x * val v.x + val v.y * val v.y := by
    rw [abs_of_nonneg (mul_self_nonneg _), abs_of_nonneg (mul_self_nonneg _)]
  rw [e] at hn
  have hS : 1 / 2 ^ 960 ≤ val v.x * val v.x + val v.y * val v.y := by
    have h1 := mul_self_nonneg (val v.x)
    have h2 := mul_self_nonneg (val v.y)
    rcases hb with h | h <;> have := big_sq h <;> linarith
  have := near_len (d := 2 * u + u / 512) (k := 17 / 8) hn (by norm_num) hS (by rw [u_num]; norm_num) (by rw [u_num]; norm_num)
    (by rw [u_num]; norm_num)
  have e2 : norm2 v = Real.sqrt ((val v.x * val v.x + val v.y * val v.y : ℚ) : ℝ) := by
    unfold norm2 rval; push_cast; congr 1; ring
  rw [e2, abs2_eq]
  have : Acc ((17 / 8 : ℚ) : ℝ) (sqrt (v.x * v.x + v.y * v.y)) (Real.sqrt ((val v.x * val v.x + val v.y * val v.y : ℚ) : ℝ)) := this
  push_cast at this ⊢
  exact this

/-- With three components: 21/8 times 2^-53. -/
theorem abs3_accuracy (v : V3 F64) (hv : Usual3 v) (hb : Big1 v.x ∨ Big1 v.y ∨ Big1 v.z) : Acc (21 / 8) (abs3 c v) (norm3 v) := by
  have hn := dot3_error v v hv hv
  have e : |val v.x * val v.x| + |val v.y * val v.y| + |val v.z * val v.z| = val v.x * val v.x + val v.y * val v.y + val v.z * val v.z := by
    rw [abs_of_nonneg (mul_self_nonneg _), abs_of_nonneg (mul_self_nonneg _), abs_of_nonneg (mul_self_nonneg _)]
  rw [e] at hn
  have hS : 1 / 2 ^ 960 ≤ val v.x * val v.x + val v.y * val v.y + val v.z * val v.z := by
    have h1 := mul_self_nonneg (val v.x)
    have h2 := mul_self_nonneg (val v.y)
    have h3 := mul_self_nonneg (val v.z)
    rcases hb with h | h | h <;> have := big_sq h <;> linarith
  have := near_len (d := 3 * u + u / 512) (k := 21 / 8) hn (by norm_num) hS (by rw [u_num]; norm_num) (by rw [u_num]; norm_num)
    (by rw [u_num]; norm_num)
  have e2 : norm3 v = Real.sqrt ((val v.x * val v.x + val v.y * val v.y + val v.z * val v.z : ℚ) : ℝ) := by
    unfold norm3 rval; push_cast; congr 1; ring
  rw [e2, abs3_eq]
  have : Acc ((21 / 8 : ℚ) : ℝ) (sqrt (v.x * v.x + v.y * v.y + v.z * v.z)) (Real.sqrt ((val v.x * val v.x + val v.y * val v.y + val v.z * val v.z : ℚ) : ℝ)) := this
  push_cast at this ⊢
  exact this

theorem pow_lin' (k : Nat) (hk : k ≤ 2 ^ 50) : (1 + u) ^ k ≤ 1 + 5 / 4 * k * u := by
  induction k with
  | zero => simp
  | succ k ih =>
    have h := ih (by omega)
    have hku : (k : ℚ) * u ≤ 1 / 8 := by
      have : (k : ℚ) ≤ 2 ^ 50 := by exact_mod_cast (by omega : k ≤ 2 ^ 50)
      have h2 := mul_le_mul_of_nonneg_right this u_pos.le
      refine h2.trans ?_
      rw [u_num]; norm_num
    have := u_pos
    have h1 : (1 + u) ^ (k + 1) ≤ (1 + 5 / 4 * k * u) * (1 + u) := by
      rw [pow_succ]; exact mul_le_mul_of_nonneg_right h (by linarith)
    have h3 : ((k : ℚ) * u) * u ≤ 1 / 8 * u := mul_le_mul_of_nonneg_right hku this.le
    push_cast
    nlinarith

/-- With any number n of components, up to 2^46: n + 2 times 2^-53. -/
theorem absN_accuracy (v : Vec F64) (hl : v.m ≤ v.data.length) (hn : v.m ≤ 2 ^ 46) (hf : ∀ i, i < v.m → Finite (at' v.data i))
    (hs : ∑ i ∈ Finset.range v.m, val (at' v.data i) ^ 2 ≤ 2 ^ 1022) (hb : ∃ i, i < v.m ∧ Big1 (at' v.data i)) :
    ∃ r, absN c v = .ok r ∧ Acc (v.m + 2) r (normN v) := by
  have e : ∀ i, |val (at' v.data i) * val (at' v.data i)| = val (at' v.data i) * val (at' v.data i) :=
    fun i => abs_of_nonneg (mul_self_nonneg _)
  obtain ⟨s, h1, h2⟩ := dotProduct_error v v hl hl (hn.trans (by norm_num)) (fun i hi => ⟨hf i hi, hf i hi⟩) (by
    simp only [e]
    simpa only [pow_two] using hs)
  simp only [e] at h2
  refine ⟨sqrt s, ?_, ?_⟩
  · show (do let s ← @Vec.dotProduct F64 c.libm.toArith v v; return c.libm.sqrt s) = _
    have : @Vec.dotProduct F64 c.libm.toArith v v = .ok s := h1
    rw [this]; rfl
  · have hS : 1 / 2 ^ 960 ≤ ∑ i ∈ Finset.range v.m, val (at' v.data i) * val (at' v.data i) := by
      obtain ⟨i, hi, hb⟩ := hb
      refine (big_sq hb).trans ?_
      exact Finset.single_le_sum (f := fun i => val (at' v.data i) * val (at' v.data i)) (fun _ _ => mul_self_nonneg _) (Finset.mem_range.2 hi)
    have hp := pow_lin' v.m (hn.trans (by norm_num))
    have hm : (v.m : ℚ) ≤ 2 ^ 46 := by exact_mod_cast hn
    have hu := u_num
    have := near_len (d := 5 / 4 * v.m * u + u / 1024) (k := v.m + 2) h2 hn hS (by linarith) (by rw [hu]; linarith) (by rw [hu]; linarith)
    have e2 : normN v = Real.sqrt ((∑ i ∈ Finset.range v.m, val (at' v.data i) * val (at' v.data i) : ℚ) : ℝ) := by
      unfold normN rval
      rw [Rat.cast_sum]
      refine congrArg Real.sqrt (Finset.sum_congr rfl fun _ _ => ?_)
      rw [Rat.cast_mul, pow_two]
    rw [e2]
    have : Acc ((v.m + 2 : ℚ) : ℝ) (sqrt s) (Real.sqrt ((∑ i ∈ Finset.range v.m, val (at' v.data i) * val (at' v.data i) : ℚ) : ℝ)) := this
    push_cast at this ⊢
    exact this

end Verif.FpLen
