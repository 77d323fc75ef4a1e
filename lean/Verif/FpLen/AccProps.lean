import Verif.FpLen.SymProps
/-
C122: accuracy of distances, unit vectors and of the cosine that angles are computed from.
-/
namespace Verif.FpLen
open Verif Verif.Fp Verif.Exact Verif.FpVec
open Verif.Mx (V2 V3 Vec)

attribute [local irreducible] Fp.one Fp.lit

variable (c : Lib)

/-! ### Distances -/

/-- finite and of an absolute value up to 2^499 -/
def Coord (x : F64) : Prop := Fp.Finite x ∧ |val x| ≤ 2 ^ 499

/-- two coordinates that differ by 2^-479 or more -/
def Apart (x y : F64) : Prop := (1 : ℚ) / 2 ^ 479 ≤ |val y - val x|

theorem huge_500 : (2 : ℚ) ^ 500 ≤ huge := by unfold huge; exact pow_le_pow_right₀ (by norm_num) (by norm_num)

/-- a coordinate difference: rounded once, relative to the exact difference -/
theorem diff_err {x y : F64} (hx : Coord x) (hy : Coord y) :
    Usual (y - x) ∧ |val (y - x) - (val y - val x)| ≤ u * |val y - val x| ∧ (Apart x y → Big1 (y - x)) := by
  have h1 : |val y - val x| ≤ 2 ^ 500 := by
    have := _root_.abs_sub (val y) (val x)
    have e : (2 : ℚ) ^ 500 = 2 ^ 499 + 2 ^ 499 := by rw [show (500 : Nat) = 499 + 1 from rfl, pow_succ (2 : ℚ) 499]; ring
    rw [e]
    linarith [hx.2, hy.2]
  have hr := sub_rounds hy.1 hx.1
  obtain ⟨f, e⟩ := sub_err hy.1 hx.1 (h1.trans huge_500)
  have hp := rp_pow 500 (by omega)
  obtain ⟨-, b1, b2⟩ := hr.between hp.neg hp (abs_le.1 h1).1 (abs_le.1 h1).2
  refine ⟨⟨f, abs_le.2 ⟨b1, b2⟩⟩, e, fun ha => ?_⟩
  unfold Apart at ha
  unfold Big1
  have h2 : |val y - val x| ≤ |val (y - x)| + |val (y - x) - (val y - val x)| := by
    have := abs_add_le (val (y - x)) (-(val (y - x) - (val y - val x)))
    rw [_root_.abs_neg] at this
    have e2 : val (y - x) + -(val (y - x) - (val y - val x)) = val y - val x := by ring
    rw [e2] at this
    exact this
  have hu : u ≤ 1 / 2 := u_le.trans (by norm_num)
  have h3 : u * |val y - val x| ≤ 1 / 2 * |val y - val x| := mul_le_mul_of_nonneg_right hu (abs_nonneg _)
  have e3 : (1 : ℚ) / 2 ^ 480 = 1 / 2 * (1 / 2 ^ 479) := by
    rw [show (480 : Nat) = 479 + 1 from rfl, pow_succ (2 : ℚ) 479]
    have : (0 : ℚ) < 2 ^ 479 := by positivity
    generalize (2 : ℚ) ^ 479 = w at this
    field_simp
  rw [e3]
  generalize (1 : ℚ) / 2 ^ 479 = w at *
  linarith

theorem sq_between {d e : ℚ} (h : |d - e| ≤ u * |e|) : (1 - u) ^ 2 * e ^ 2 ≤ d ^ 2 ∧ d ^ 2 ≤ (1 + u) ^ 2 * e ^ 2 := by
  have hu := u_pos
  have hu1 : u ≤ 1 := u_le.trans (by norm_num)
  have h1 : |d| ≤ (1 + u) * |e| := by
    have := abs_sub_abs_le_abs_sub d e; linarith
  have h2 : (1 - u) * |e| ≤ |d| := by
    have := abs_sub_abs_le_abs_sub e d; rw [abs_sub_comm] at this; linarith
  have h0 := abs_nonneg e
  have a := mul_self_le_mul_self (mul_nonneg (by linarith) h0) h2
  have b := mul_self_le_mul_self (abs_nonneg d) h1
  have e1 := abs_mul_abs_self d
  have e2 := abs_mul_abs_self e
  constructor
  · nlinarith
  · nlinarith

/-- from the rounded differences to the exact ones -/
theorem acc_gap {r : F64} {D E : ℚ} {k l : ℝ} (h : Acc k r (Real.sqrt D)) (hk : 0 ≤ k) (hE : 0 ≤ E)
    (h1 : (1 - u) ^ 2 * E ≤ D) (h2 : D ≤ (1 + u) ^ 2 * E) (hl : k * (1 + 1 / 1024) + 1 ≤ l) : Acc l r (Real.sqrt E) := by
  have hu : (u : ℝ) = 1 / 2 ^ 53 := by unfold u; push_cast; rfl
  have hu0 : (0 : ℝ) < (u : ℝ) := by exact_mod_cast u_pos
  have hu1 : (u : ℝ) ≤ 1 / 1024 := by
    have := (Rat.cast_le (K := ℝ)).2 u_le; push_cast at this; exact this
  have hE' : (0 : ℝ) ≤ E := by exact_mod_cast hE
  have a : (1 - (u : ℝ)) * Real.sqrt E ≤ Real.sqrt D := by
    refine Real.le_sqrt_of_sq_le ?_
    rw [mul_pow, Real.sq_sqrt hE']
    have := (Rat.cast_le (K := ℝ)).2 h1; push_cast at this; exact this
  have b : Real.sqrt D ≤ (1 + (u : ℝ)) * Real.sqrt E := by
    rw [Real.sqrt_le_left (mul_nonneg (by linarith) (Real.sqrt_nonneg _)), mul_pow, Real.sq_sqrt hE']
    have := (Rat.cast_le (K := ℝ)).2 h2; push_cast at this; exact this
  refine ⟨h.1, ?_⟩
  have h3 := h.2
  have hp := Real.sqrt_nonneg (E : ℝ)
  generalize Real.sqrt (D : ℝ) = x at *
  generalize Real.sqrt (E : ℝ) = y at *
  have e1 : k * x / 2 ^ 53 = k * x * u := by rw [hu]; ring
  have e2 : l * y / 2 ^ 53 = l * y * u := by rw [hu]; ring
  rw [e1] at h3
  rw [e2]
  have h4 : |rval r - y| ≤ |rval r - x| + |x - y| := by
    have := abs_add_le (rval r - x) (x - y); rwa [sub_add_sub_cancel] at this
  have h5 : |x - y| ≤ u * y := abs_le.2 ⟨by linarith, by linarith⟩
  have h6 : k * x * u ≤ k * ((1 + 1 / 1024) * y) * u := by
    refine mul_le_mul_of_nonneg_right (mul_le_mul_of_nonneg_left ?_ hk) hu0.le
    refine b.trans (mul_le_mul_of_nonneg_right (by linarith) hp)
  have h7 : (k * (1 + 1 / 1024) + 1) * (y * u) ≤ l * (y * u) := mul_le_mul_of_nonneg_right hl (mul_nonneg hp hu0.le)
  nlinarith

/-- The computed distance of two points in space is within 15/4 times 2^-53 of the true distance, relative to it, however close
the points are compared with their coordinates. -/
theorem dist3_accuracy (p q : V3 F64) (hp : Coord p.x ∧ Coord p.y ∧ Coord p.z) (hq : Coord q.x ∧ Coord q.y ∧ Coord q.z)
    (ha : Apart p.x q.x ∨ Apart p.y q.y ∨ Apart p.z q.z) : Acc (15 / 4) (dist3 c p q) (gap3 p q) := by
  obtain ⟨u1, e1, b1⟩ := diff_err hp.1 hq.1
  obtain ⟨u2, e2, b2⟩ := diff_err hp.2.1 hq.2.1
  obtain ⟨u3, e3, b3⟩ := diff_err hp.2.2 hq.2.2
  have h := abs3_accuracy c ⟨q.x - p.x, q.y - p.y, q.z - p.z⟩ ⟨u1, u2, u3⟩ (by
    rcases ha with h | h | h
    · exact Or.inl (b1 h)
    · exact Or.inr (Or.inl (b2 h))
    · exact Or.inr (Or.inr (b3 h)))
  obtain ⟨l1, m1⟩ := sq_between e1
  obtain ⟨l2, m2⟩ := sq_between e2
  obtain ⟨l3, m3⟩ := sq_between e3
  have hn : norm3 ⟨q.x - p.x, q.y - p.y, q.z - p.z⟩ =
      Real.sqrt ((val (q.x - p.x) ^ 2 + val (q.y - p.y) ^ 2 + val (q.z - p.z) ^ 2 : ℚ) : ℝ) := by
    unfold norm3 rval; push_cast; rfl
  have hg : gap3 p q = Real.sqrt (((val q.x - val p.x) ^ 2 + (val q.y - val p.y) ^ 2 + (val q.z - val p.z) ^ 2 : ℚ) : ℝ) := by
    unfold gap3 rval; push_cast; rfl
  rw [hn] at h
  rw [hg, dist3_eq]
  exact acc_gap h (by norm_num) (by positivity) (by linarith) (by linarith) (by norm_num)

theorem dist2_accuracy (p q : V2 F64) (hp : Coord p.x ∧ Coord p.y) (hq : Coord q.x ∧ Coord q.y)
    (ha : Apart p.x q.x ∨ Apart p.y q.y) : Acc (13 / 4) (dist2 c p q) (gap2 p q) := by
  obtain ⟨u1, e1, b1⟩ := diff_err hp.1 hq.1
  obtain ⟨u2, e2, b2⟩ := diff_err hp.2 hq.2
  have h := abs2_accuracy c ⟨q.x - p.x, q.y - p.y⟩ ⟨u1, u2⟩ (by
    rcases ha with h | h
    · exact Or.inl (b1 h)
    · exact Or.inr (b2 h))
  obtain ⟨l1, m1⟩ := sq_between e1
  obtain ⟨l2, m2⟩ := sq_between e2
  have hn : norm2 ⟨q.x - p.x, q.y - p.y⟩ = Real.sqrt ((val (q.x - p.x) ^ 2 + val (q.y - p.y) ^ 2 : ℚ) : ℝ) := by
    unfold norm2 rval; push_cast; rfl
  have hg : gap2 p q = Real.sqrt (((val q.x - val p.x) ^ 2 + (val q.y - val p.y) ^ 2 : ℚ) : ℝ) := by
    unfold gap2 rval; push_cast; rfl
  rw [hn] at h
  rw [hg, dist2_eq]
  exact acc_gap h (by norm_num) (by positivity) (by linarith) (by linarith) (by norm_num)

/-- Two such points that differ have a distance that is not zero. -/
theorem dist3_pos (p q : V3 F64) (hp : Coord p.x ∧ Coord p.y ∧ Coord p.z) (hq : Coord q.x ∧ Coord q.y ∧ Coord q.z)
    (ha : Apart p.x q.x ∨ Apart p.y q.y ∨ Apart p.z q.z) : 0 < val (dist3 c p q) := by
  obtain ⟨-, h⟩ := dist3_accuracy c p q hp hq ha
  have hg : 0 < gap3 p q := by
    unfold gap3
    refine Real.sqrt_pos.2 ?_
    have key : ∀ x y : F64, Apart x y → 0 < (rval y - rval x) ^ 2 := by
      intro x y h
      unfold Apart at h
      have h1 : 0 < |val y - val x| := lt_of_lt_of_le (by positivity) h
      have h2 : val y - val x ≠ 0 := abs_pos.1 h1
      have h3 : rval y - rval x ≠ 0 := by
        unfold rval
        intro h4
        exact h2 (by exact_mod_cast h4)
      positivity
    rcases ha with h | h | h
    · have := key _ _ h; positivity
    · have := key _ _ h; positivity
    · have := key _ _ h; positivity
  have h1 := (abs_le.1 h).1
  have h2 : 15 / 4 * gap3 p q / 2 ^ 53 ≤ 1 / 2 * gap3 p q := by
    rw [div_le_iff₀ (by positivity)]
    have : (0 : ℝ) ≤ gap3 p q := hg.le
    nlinarith
  have h3 : (0 : ℝ) < rval (dist3 c p q) := by linarith
  unfold rval at h3
  exact_mod_cast h3

theorem gap3_tri (p q r : V3 F64) : gap3 p r ≤ gap3 p q + gap3 q r := by
  unfold gap3
  generalize rval p.x = a1; generalize rval p.y = a2; generalize rval p.z = a3
  generalize rval q.x = b1; generalize rval q.y = b2; generalize rval q.z = b3
  generalize rval r.x = d1; generalize rval r.y = d2; generalize rval r.z = d3
  have hx : d1 - a1 = (b1 - a1) + (d1 - b1) := by ring
  have hy : d2 - a2 = (b2 - a2) + (d2 - b2) := by ring
  have hz : d3 - a3 = (b3 - a3) + (d3 - b3) := by ring
  rw [hx, hy, hz]
  generalize b1 - a1 = x; generalize b2 - a2 = y; generalize b3 - a3 = z
  generalize d1 - b1 = x'; generalize d2 - b2 = y'; generalize d3 - b3 = z'
  have p1 := Real.sqrt_nonneg (x ^ 2 + y ^ 2 + z ^ 2)
  have p2 := Real.sqrt_nonneg (x' ^ 2 + y' ^ 2 + z' ^ 2)
  have s1 := Real.sq_sqrt (by positivity : (0 : ℝ) ≤ x ^ 2 + y ^ 2 + z ^ 2)
  have s2 := Real.sq_sqrt (by positivity : (0 : ℝ) ≤ x' ^ 2 + y' ^ 2 + z' ^ 2)
  rw [Real.sqrt_le_left (by positivity)]
  have cs : x * x' + y * y' + z * z' ≤ Real.sqrt (x ^ 2 + y ^ 2 + z ^ 2) * Real.sqrt (x' ^ 2 + y' ^ 2 + z' ^ 2) := by
    rw [← Real.sqrt_mul (by positivity)]
    refine Real.le_sqrt_of_sq_le ?_
    nlinarith [sq_nonneg (x * y' - y * x'), sq_nonneg (y * z' - z * y'), sq_nonneg (x * z' - z * x')]
  nlinarith

/-- The triangle inequality, up to 8 times 2^-53. -/
theorem dist3_triangle (p q r : V3 F64) (hp : Coord p.x ∧ Coord p.y ∧ Coord p.z) (hq : Coord q.x ∧ Coord q.y ∧ Coord q.z)
    (hr : Coord r.x ∧ Coord r.y ∧ Coord r.z) (h1 : Apart p.x q.x ∨ Apart p.y q.y ∨ Apart p.z q.z)
    (h2 : Apart q.x r.x ∨ Apart q.y r.y ∨ Apart q.z r.z) (h3 : Apart p.x r.x ∨ Apart p.y r.y ∨ Apart p.z r.z) :
    rval (dist3 c p r) ≤ (rval (dist3 c p q) + rval (dist3 c q r)) * (1 + 8 / 2 ^ 53) := by
  obtain ⟨-, a1⟩ := dist3_accuracy c p q hp hq h1
  obtain ⟨-, a2⟩ := dist3_accuracy c q r hq hr h2
  obtain ⟨-, a3⟩ := dist3_accuracy c p r hp hr h3
  have t := gap3_tri p q r
  have n1 : 0 ≤ gap3 p q := Real.sqrt_nonneg _
  have n2 : 0 ≤ gap3 q r := Real.sqrt_nonneg _
  have l1 := (abs_le.1 a1).1
  have l2 := (abs_le.1 a2).1
  have l3 := (abs_le.1 a3).2
  generalize rval (dist3 c p r) = x at *
  generalize rval (dist3 c p q) = y at *
  generalize rval (dist3 c q r) = z at *
  generalize gap3 p r = g at *
  generalize gap3 p q = h at *
  generalize gap3 q r = k at *
  have e : ∀ w : ℝ, 15 / 4 * w / 2 ^ 53 = w * (15 / 4 / 2 ^ 53) := fun w => by ring
  rw [e] at l1 l2 l3
  have hx : x ≤ (h + k) * (1 + 15 / 4 / 2 ^ 53) := by
    have : g * (1 + 15 / 4 / 2 ^ 53) ≤ (h + k) * (1 + 15 / 4 / 2 ^ 53) := mul_le_mul_of_nonneg_right t (by norm_num)
    linarith
  have hyz : (h + k) * (1 - 15 / 4 / 2 ^ 53) ≤ y + z := by linarith
  have h4 := mul_le_mul_of_nonneg_right hyz (by norm_num : (0 : ℝ) ≤ 1 + 8 / 2 ^ 53)
  have h5 : (h + k) * (1 + 15 / 4 / 2 ^ 53) ≤ (h + k) * ((1 - 15 / 4 / 2 ^ 53) * (1 + 8 / 2 ^ 53)) :=
    mul_le_mul_of_nonneg_left (by norm_num) (by linarith)
  linarith

/-! ### Unit vectors -/

theorem tol_val : Fp.Finite (lit 1 1000000) ∧ (1 : ℚ) / 2 ^ 20 ≤ val (lit 1 1000000) := by
  have h := lit_rounds 1 1000000 (by omega)
  have h1 := Rp.grid 1 20 (by decide) (by omega)
  have h2 := Rp.int 1 (by decide)
  obtain ⟨f, a, -⟩ := h.between h1 h2 (by norm_num) (by norm_num)
  exact ⟨f, by simpa using a⟩

theorem one_val : Fp.Finite (lit 1 1) ∧ val (lit 1 1) = 1 := by
  obtain ⟨f, v⟩ := lit_int 1 (by decide)
  exact ⟨f, by rw [v]; simp⟩

theorem neg_fin {x : F64} (h : Fp.Finite x) : Fp.Finite (-x) ∧ val (-x) = -val x := ⟨finite_neg.2 h, val_neg x⟩

/-- comparison with zero, within the tolerance of 10^-6 -/
theorem isZero_iff {a : F64} (hf : Fp.Finite a) (h0 : 0 ≤ val a) :
    isEqual a (lit 0 1) = true ↔ val a < val (lit 1 1000000) := by
  obtain ⟨ft, ht⟩ := tol_val
  obtain ⟨fn, hn⟩ := neg_fin ft
  have hd := sub_rounds zero_fin.1 hf
  rw [zero_fin.2, zero_sub] at hd
  obtain ⟨fd, vd⟩ := hd.exact (Rp.of a hf).neg
  have htp : 0 < val (lit 1 1000000) := lt_of_lt_of_le (by positivity) ht
  show (Fp.lt (lit 0 1 - a) (lit 1 1000000) && Fp.lt (-(lit 1 1000000)) (lit 0 1 - a)) = true ↔ _
  rw [Bool.and_eq_true, (compare_val _ _ fd ft).1, (compare_val _ _ fn fd).1, vd, hn]
  constructor
  · rintro ⟨-, h⟩; linarith
  · intro h; exact ⟨by linarith, by linarith⟩

theorem abs3_fin {v : V3 F64} (hv : Usual3 v) : Fp.Finite (abs3 c v) ∧ 0 ≤ val (abs3 c v) := by
  obtain ⟨v1, v2, v3⟩ := hv
  have a1 := add_fin (by omega) (sq_fin v1) (sq_fin v2)
  have s3 : Fp.Finite (v.z * v.z) ∧ 0 ≤ val (v.z * v.z) ∧ val (v.z * v.z) ≤ 2 ^ 1001 := by
    obtain ⟨f, a, b⟩ := sq_fin v3
    exact ⟨f, a, b.trans (pow_le_pow_right₀ (by norm_num) (by omega))⟩
  have a2 := add_fin (by omega) a1 s3
  rw [abs3_eq]
  exact sqrt_finite a2.1 a2.2.1

theorem norm3_big {v : V3 F64} (h : Big1 v.x ∨ Big1 v.y ∨ Big1 v.z) : 0 < norm3 v := by
  unfold norm3
  refine Real.sqrt_pos.2 ?_
  have key : ∀ x : F64, Big1 x → 0 < rval x ^ 2 := by
    intro x h
    unfold Big1 at h
    have h1 : 0 < |val x| := lt_of_lt_of_le (by positivity) h
    have h2 : val x ≠ 0 := abs_pos.1 h1
    have h3 : rval x ≠ 0 := by unfold rval; exact_mod_cast h2
    positivity
  rcases h with h | h | h
  · have := key _ h; positivity
  · have := key _ h; positivity
  · have := key _ h; positivity

/-- a vector that is not tiny has a component that is not tiny -/
theorem big_of_abs {v : V3 F64} (hv : Usual3 v) (h : (1 : ℚ) / 2 ^ 20 ≤ val (abs3 c v)) : Big1 v.x ∨ Big1 v.y ∨ Big1 v.z := by
  by_contra hc
  push Not at hc
  obtain ⟨h1, h2, h3⟩ := hc
  unfold Big1 at h1 h2 h3
  push Not at h1 h2 h3
  obtain ⟨z, -, fz, vz⟩ := (Rp.grid 1 480 (by decide) (by omega)).rounds
  rw [Int.cast_one] at vz
  have hz : |val z| = 1 / 2 ^ 480 := by rw [vz, abs_of_nonneg (by positivity)]
  have hzu : Usual z := ⟨fz, by rw [hz]; refine le_trans ?_ (one_le_pow₀ (by norm_num)); rw [div_le_one (by positivity)]; exact one_le_pow₀ (by norm_num)⟩
  have hw : Usual3 ⟨z, z, z⟩ := ⟨hzu, hzu, hzu⟩
  have hb : Big1 z := hz.ge
  have m := abs3_mono c v ⟨z, z, z⟩ hv hw (by rw [hz]; exact h1.le) (by rw [hz]; exact h2.le) (by rw [hz]; exact h3.le)
  obtain ⟨-, acc⟩ := abs3_accuracy c ⟨z, z, z⟩ hw (Or.inl hb)
  have hn : norm3 ⟨z, z, z⟩ ≤ 2 * (1 / 2 ^ 480) := by
    unfold norm3 rval
    rw [vz, Real.sqrt_le_left (by positivity)]
    push_cast
    have : (0 : ℝ) < 1 / 2 ^ 480 := by positivity
    generalize (1 : ℝ) / 2 ^ 480 = w at this
    nlinarith
  have hp := norm3_big (v := ⟨z, z, z⟩) (Or.inl hb)
  have h5 := (abs_le.1 acc).2
  have h6 : (val (abs3 c v) : ℝ) ≤ rval (abs3 c ⟨z, z, z⟩) := by unfold rval; exact_mod_cast m
  have h7 : ((1 : ℝ) / 2 ^ 20) ≤ (val (abs3 c v) : ℝ) := by
    have := (Rat.cast_le (K := ℝ)).2 h; push_cast at this; exact this
  have h8 : (1 : ℝ) / 2 ^ 480 ≤ 1 / 2 ^ 40 := one_div_le_one_div_of_le (by positivity) (pow_le_pow_right₀ (by norm_num) (by norm_num))
  generalize norm3 ⟨z, z, z⟩ = n at *
  generalize (1 : ℝ) / 2 ^ 480 = w at *
  have h9 : 21 / 8 * n / 2 ^ 53 ≤ n := by
    rw [div_le_iff₀ (by positivity)]; nlinarith
  have h10 : (1 : ℝ) / 2 ^ 40 * 8 ≤ 1 / 2 ^ 20 * (1 / 2) := by norm_num
  have h11 : (0 : ℝ) < 1 / 2 ^ 20 := by positivity
  linarith

/-- one component of a vector that is divided by its length -/
theorem unit_comp {a x : F64} {N : ℝ} (hN : 0 < N) (ha : Acc (21 / 8) a N) (h1 : (1 : ℚ) / 2 ^ 20 ≤ val a) (h2 : val a ≤ 2 ^ 502) (hx : Usual x) :
    Fp.Finite (lit 1 1 / a * x) ∧ |rval (lit 1 1 / a * x) - rval x / N| ≤ 5 / 2 ^ 53 * (|rval x| / N) + 1 / 2 ^ 1075 := by
  have hu := u_pos
  have hu1 := u_le
  have pa : 0 < val a := lt_of_lt_of_le (by positivity) h1
  have hd := div_rounds one_val.1 ha.1 (ne_of_gt pa)
  rw [one_val.2] at hd
  have lo : (2 : ℚ) ^ (-1022 : ℤ) ≤ |1 / val a| := by
    rw [abs_of_pos (by positivity), le_div_iff₀ pa]
    have e1 : (2 : ℚ) ^ (-1022 : ℤ) ≤ 1 / 2 ^ 502 := by
      rw [one_div, ← zpow_natCast (2 : ℚ) 502, ← zpow_neg]
      exact zpow_le_zpow_right₀ (by norm_num) (by norm_num)
    calc (2 : ℚ) ^ (-1022 : ℤ) * val a ≤ 1 / 2 ^ 502 * 2 ^ 502 := mul_le_mul e1 h2 pa.le (by positivity)
      _ = 1 := one_div_mul_cancel (by positivity)
  have hi : |1 / val a| ≤ 2 ^ 20 := by
    rw [abs_of_pos (by positivity), div_le_iff₀ pa]
    calc (1 : ℚ) = 2 ^ 20 * (1 / 2 ^ 20) := by norm_num
      _ ≤ 2 ^ 20 * val a := mul_le_mul_of_nonneg_left h1 (by positivity)
  obtain ⟨fq, eq⟩ := rnd_normal hd lo (hi.trans ((by norm_num : (2 : ℚ) ^ 20 ≤ 2 ^ 20).trans (le_trans (pow_le_pow_right₀ (by norm_num) (by norm_num)) huge_500)))
  generalize hq : lit 1 1 / a = q at *
  have pi : 0 < 1 / val a := by positivity
  rw [abs_of_pos pi] at eq
  have hq2 : |val q| ≤ (1 + u) * (1 / val a) := by
    have := abs_sub_abs_le_abs_sub (val q) (1 / val a)
    rw [abs_of_pos pi] at this
    linarith
  have hq3 : |val q| ≤ 2 ^ 21 := by
    rw [abs_of_pos pi] at hi
    have : (1 + u) * (1 / val a) ≤ 2 * 2 ^ 20 := mul_le_mul (by linarith) hi pi.le (by norm_num)
    refine hq2.trans (this.trans (by norm_num))
  have hqx : |val q * val x| ≤ huge := by
    rw [abs_mul]
    refine (mul_le_mul hq3 hx.2 (abs_nonneg _) (by positivity)).trans ?_
    rw [← pow_add]
    unfold huge
    exact pow_le_pow_right₀ (by norm_num) (by norm_num)
  obtain ⟨fr, er⟩ := mul_err fq hx.1 hqx
  refine ⟨fr, ?_⟩
  -- in exact arithmetic
  have k1 : |val (q * x) - val x * (1 / val a)| ≤ |val x| * (1 / val a) * (2 * u + u * u) + eta := by
    have t1 : |val (q * x) - val x * (1 / val a)| ≤ |val (q * x) - val q * val x| + |val x| * |val q - 1 / val a| := by
      have := abs_add_le (val (q * x) - val q * val x) (val x * (val q - 1 / val a))
      rw [abs_mul] at this
      have e : val (q * x) - val q * val x + val x * (val q - 1 / val a) = val (q * x) - val x * (1 / val a) := by ring
      rwa [e] at this
    have t2 : |val x| * |val q - 1 / val a| ≤ |val x| * (u * (1 / val a)) := mul_le_mul_of_nonneg_left eq (abs_nonneg _)
    have t3 : |val q * val x| ≤ (1 + u) * (1 / val a) * |val x| := by
      rw [abs_mul]; exact mul_le_mul_of_nonneg_right hq2 (abs_nonneg _)
    have t4 : u * |val q * val x| ≤ u * ((1 + u) * (1 / val a) * |val x|) := mul_le_mul_of_nonneg_left t3 hu.le
    nlinarith
  have hum : (u : ℝ) = 1 / 2 ^ 53 := by unfold u; push_cast; rfl
  have hem : (eta : ℝ) = 1 / 2 ^ 1075 := by unfold eta; push_cast; rfl
  have k2 : |rval (q * x) - rval x * (1 / rval a)| ≤ |rval x| * (1 / rval a) * (2 * u + u * u) + eta := by
    unfold rval; exact_mod_cast k1
  have pR : 0 < rval a := by unfold rval; exact_mod_cast pa
  have huR : (0 : ℝ) < u := by exact_mod_cast hu
  have huR1 : (u : ℝ) ≤ 1 / 1024 := by
    have := (Rat.cast_le (K := ℝ)).2 hu1; push_cast at this; exact this
  have acc := ha.2
  have e0 : 21 / 8 * N / 2 ^ 53 = 21 / 8 * N * u := by rw [hum]; ring
  rw [e0] at acc
  rw [← hem, show (5 : ℝ) / 2 ^ 53 = 5 * u by rw [hum]; ring]
  generalize (u : ℝ) = w at *
  generalize (eta : ℝ) = z at *
  generalize rval (q * x) = r at *
  generalize rval x = y at *
  generalize rval a = b at *
  have k3 : |y * (1 / b) - y / N| ≤ |y| / N * (N / b) * (21 / 8 * w) := by
    have e : y * (1 / b) - y / N = y / N * ((N - b) / b) := by field_simp
    rw [e, abs_mul, abs_div, abs_div, abs_of_pos hN, abs_of_pos pR, abs_sub_comm]
    have : |b - N| / b ≤ 21 / 8 * N * w / b := div_le_div_of_nonneg_right acc pR.le
    have h9 := mul_le_mul_of_nonneg_left this (div_nonneg (abs_nonneg y) hN.le)
    refine h9.trans (le_of_eq ?_)
    ring
  have k4 : N / b ≤ 1 + 1 / 128 := by
    rw [div_le_iff₀ pR]
    have := (abs_le.1 acc).1
    have h5 : N * w ≤ N * (1 / 1024) := mul_le_mul_of_nonneg_left huR1 hN.le
    nlinarith
  have k5 : |y| * (1 / b) = |y| / N * (N / b) := by field_simp
  rw [k5] at k2
  have t0 : 0 ≤ |y| / N := div_nonneg (abs_nonneg y) hN.le
  have t5 : |r - y / N| ≤ |r - y * (1 / b)| + |y * (1 / b) - y / N| := by
    have := abs_add_le (r - y * (1 / b)) (y * (1 / b) - y / N); rwa [sub_add_sub_cancel] at this
  generalize |y| / N = t at *
  have t6 : t * (N / b) * (2 * w + w * w + 21 / 8 * w) ≤ t * (1 + 1 / 128) * (4627 / 1000 * w) := by
    refine mul_le_mul (mul_le_mul_of_nonneg_left k4 t0) ?_ (by positivity) (by positivity)
    nlinarith
  have t7 : t * (1 + 1 / 128) * (4627 / 1000 * w) ≤ 5 * w * t := by
    have : 0 ≤ t * w := mul_nonneg t0 huR.le
    nlinarith
  nlinarith

/-- the length of a vector whose components are close to those of a unit vector -/
theorem unit_norm {x y z a b d w e : ℝ} (hw : 0 < w) (hw1 : w ≤ 1 / 2 ^ 53) (he : 0 ≤ e) (he1 : e ≤ w / 1024) (h : a ^ 2 + b ^ 2 + d ^ 2 = 1)
    (hx : |x - a| ≤ 5 * w * |a| + e) (hy : |y - b| ≤ 5 * w * |b| + e) (hz : |z - d| ≤ 5 * w * |d| + e) :
    |Real.sqrt (x ^ 2 + y ^ 2 + z ^ 2) - 1| ≤ 6 * w := by
  have hw2 : w ≤ 1 / 1024 := hw1.trans (by norm_num)
  have le1 : ∀ t : ℝ, t ^ 2 ≤ 1 → |t| ≤ 1 := fun t ht => by
    have : |t| ^ 2 ≤ 1 := by rw [_root_.sq_abs]; exact ht
    nlinarith [abs_nonneg t]
  have a1 := le1 a (by nlinarith [sq_nonneg b, sq_nonneg d])
  have b1 := le1 b (by nlinarith [sq_nonneg a, sq_nonneg d])
  have d1 := le1 d (by nlinarith [sq_nonneg a, sq_nonneg b])
  have key : ∀ p q : ℝ, |q| ≤ 1 → |p - q| ≤ 5 * w * |q| + e → (1 - 5 * w) ^ 2 * q ^ 2 - 2 * e ≤ p ^ 2 ∧ p ^ 2 ≤ (1 + 5 * w) ^ 2 * q ^ 2 + 3 * e := by
    intro p q hq hp
    have q0 := abs_nonneg q
    have u1 : |p| ≤ (1 + 5 * w) * |q| + e := by
      have := abs_sub_abs_le_abs_sub p q; linarith
    have l1 : (1 - 5 * w) * |q| ≤ |p| + e := by
      have := abs_sub_abs_le_abs_sub q p; rw [abs_sub_comm] at this; linarith
    have p0 := abs_nonneg p
    have ep : p ^ 2 = |p| ^ 2 := (_root_.sq_abs p).symm
    have eq : q ^ 2 = |q| ^ 2 := (_root_.sq_abs q).symm
    rw [ep, eq]
    generalize |p| = P at *
    generalize |q| = Q at *
    have e1 : e ≤ 1 / 1024 := he1.trans (by linarith)
    constructor
    · have hL : 0 ≤ (1 - 5 * w) * Q := mul_nonneg (by linarith) q0
      have hL1 : (1 - 5 * w) * Q ≤ 1 := by nlinarith
      rcases le_or_gt e ((1 - 5 * w) * Q) with hh | hh
      · have h3 : ((1 - 5 * w) * Q - e) ^ 2 ≤ P ^ 2 := by
          refine pow_le_pow_left₀ (by linarith) (by linarith) 2
        have h4 : (1 - 5 * w) * Q * e ≤ 1 * e := mul_le_mul_of_nonneg_right hL1 he
        nlinarith [sq_nonneg e]
      · have h3 : ((1 - 5 * w) * Q) * ((1 - 5 * w) * Q) ≤ 1 * e := mul_le_mul hL1 hh.le hL (by norm_num)
        have : 0 ≤ P ^ 2 := sq_nonneg P
        nlinarith
    · have h3 : P ^ 2 ≤ ((1 + 5 * w) * Q + e) ^ 2 := pow_le_pow_left₀ p0 u1 2
      have h4 : (1 + 5 * w) * Q ≤ 1 + 1 / 128 := by nlinarith
      have h5 : (1 + 5 * w) * Q * e ≤ (1 + 1 / 128) * e := mul_le_mul_of_nonneg_right h4 he
      nlinarith
  obtain ⟨x1, x2⟩ := key x a a1 hx
  obtain ⟨y1, y2⟩ := key y b b1 hy
  obtain ⟨z1, z2⟩ := key z d d1 hz
  have lo : (1 - 5 * w) ^ 2 - 6 * e ≤ x ^ 2 + y ^ 2 + z ^ 2 := by
    have : (1 - 5 * w) ^ 2 * a ^ 2 + (1 - 5 * w) ^ 2 * b ^ 2 + (1 - 5 * w) ^ 2 * d ^ 2 = (1 - 5 * w) ^ 2 := by rw [← mul_add, ← mul_add, h, mul_one]
    linarith
  have hi : x ^ 2 + y ^ 2 + z ^ 2 ≤ (1 + 5 * w) ^ 2 + 9 * e := by
    have : (1 + 5 * w) ^ 2 * a ^ 2 + (1 + 5 * w) ^ 2 * b ^ 2 + (1 + 5 * w) ^ 2 * d ^ 2 = (1 + 5 * w) ^ 2 := by rw [← mul_add, ← mul_add, h, mul_one]
    linarith
  have ww : w * w ≤ w * (1 / 1024) := mul_le_mul_of_nonneg_left hw2 hw.le
  have w0 := mul_self_nonneg w
  rw [abs_le]
  constructor
  · have : 1 - 6 * w ≤ Real.sqrt (x ^ 2 + y ^ 2 + z ^ 2) := by
      refine Real.le_sqrt_of_sq_le ?_
      have e1 : (1 - 6 * w) ^ 2 = 1 - 12 * w + 36 * (w * w) := by ring
      have e2 : (1 - 5 * w) ^ 2 = 1 - 10 * w + 25 * (w * w) := by ring
      rw [e1]
      rw [e2] at lo
      linarith
    linarith
  · have : Real.sqrt (x ^ 2 + y ^ 2 + z ^ 2) ≤ 1 + 6 * w := by
      rw [Real.sqrt_le_left (by linarith)]
      have e1 : (1 + 6 * w) ^ 2 = 1 + 12 * w + 36 * (w * w) := by ring
      have e2 : (1 + 5 * w) ^ 2 = 1 + 10 * w + 25 * (w * w) := by ring
      rw [e1]
      rw [e2] at hi
      linarith
    linarith

/-- `r` is `x / N` but for the roundings -/
def Part (r x : F64) (N : ℝ) : Prop := Fp.Finite r ∧ |rval r - rval x / N| ≤ 5 / 2 ^ 53 * (|rval x| / N) + 1 / 2 ^ 1075

theorem norm3_le {v : V3 F64} (hv : Usual3 v) : norm3 v ≤ 2 * 2 ^ 500 := by
  have key : ∀ x : F64, Usual x → rval x ^ 2 ≤ (2 ^ 500 : ℝ) ^ 2 := by
    intro x hx
    rw [← _root_.sq_abs]
    refine pow_le_pow_left₀ (abs_nonneg _) ?_ 2
    have := (Rat.cast_le (K := ℝ)).2 hx.2
    unfold rval
    push_cast at this
    exact this
  unfold norm3
  rw [Real.sqrt_le_left (by positivity)]
  have h1 := key _ hv.1
  have h2 := key _ hv.2.1
  have h3 := key _ hv.2.2
  generalize (2 : ℝ) ^ 500 = w at *
  nlinarith [sq_nonneg w]

/-- The unit vector of a vector with components up to 2^500.  A vector that is computed to be shorter than the tolerance of 10^-6
is returned as it is.  Otherwise every component is within 5 times 2^-53 of the true one, and the true length of the
result is within 6 times 2^-53 of one. -/
theorem unit3_accuracy (v : V3 F64) (hv : Usual3 v) :
    (val (abs3 c v) < val (lit 1 1000000) ∧ unit3 c v = v) ∨
    (val (lit 1 1000000) ≤ val (abs3 c v) ∧ Part (unit3 c v).x v.x (norm3 v) ∧ Part (unit3 c v).y v.y (norm3 v) ∧
      Part (unit3 c v).z v.z (norm3 v) ∧ |norm3 (unit3 c v) - 1| ≤ 6 / 2 ^ 53) := by
  obtain ⟨fa, na⟩ := abs3_fin c hv
  have hz := isZero_iff fa na
  rcases lt_or_ge (val (abs3 c v)) (val (lit 1 1000000)) with h | h
  · exact Or.inl ⟨h, by rw [unit3_eq, if_pos (hz.2 h)]⟩
  · right
    have h20 := tol_val.2.trans h
    have hb := big_of_abs c hv h20
    have hN := norm3_big hb
    have acc := abs3_accuracy c v hv hb
    have h502 : val (abs3 c v) ≤ 2 ^ 502 := by
      have h1 := (abs_le.1 acc.2).2
      have h2 := norm3_le hv
      have h3 : 21 / 8 * norm3 v / 2 ^ 53 ≤ norm3 v := by
        rw [div_le_iff₀ (by positivity)]; nlinarith
      have h4 : rval (abs3 c v) ≤ 2 ^ 502 := by
        have e : (2 : ℝ) ^ 502 = 4 * 2 ^ 500 := by rw [show (502 : Nat) = 500 + 2 from rfl, pow_add (2 : ℝ) 500]; ring
        rw [e]
        clear e
        generalize (2 : ℝ) ^ 500 = W at *
        linarith
      unfold rval at h4
      exact_mod_cast h4
    have e : unit3 c v = ⟨lit 1 1 / abs3 c v * v.x, lit 1 1 / abs3 c v * v.y, lit 1 1 / abs3 c v * v.z⟩ := by
      rw [unit3_eq, if_neg (fun hh => absurd (hz.1 hh) (not_lt.2 h))]
    have px := unit_comp hN acc h20 h502 hv.1
    have py := unit_comp hN acc h20 h502 hv.2.1
    have pz := unit_comp hN acc h20 h502 hv.2.2
    rw [e]
    refine ⟨h, px, py, pz, ?_⟩
    have hsq : (rval v.x / norm3 v) ^ 2 + (rval v.y / norm3 v) ^ 2 + (rval v.z / norm3 v) ^ 2 = 1 := by
      have : norm3 v ^ 2 = rval v.x ^ 2 + rval v.y ^ 2 + rval v.z ^ 2 := Real.sq_sqrt (by positivity)
      rw [div_pow, div_pow, div_pow, ← add_div, ← add_div, ← this]
      exact div_self (pow_ne_zero 2 (ne_of_gt hN))
    have ab : ∀ t : ℝ, |t| / norm3 v = |t / norm3 v| := fun t => by rw [abs_div, abs_of_pos hN]
    have e5 : (5 : ℝ) / 2 ^ 53 = 5 * (1 / 2 ^ 53) := by ring
    have e6 : (6 : ℝ) / 2 ^ 53 = 6 * (1 / 2 ^ 53) := by ring
    have qx := px.2
    have qy := py.2
    have qz := pz.2
    rw [e5, ab] at qx qy qz
    rw [e6]
    refine unit_norm (by positivity) le_rfl (by positivity) ?_ hsq qx qy qz
    rw [div_div, one_div, one_div]
    refine inv_anti₀ (by positivity) ?_
    rw [show (1024 : ℝ) = 2 ^ 10 by norm_num, ← pow_add]
    exact pow_le_pow_right₀ (by norm_num) (by norm_num)


/-! ### Angles -/

/-- the product of the components, exactly -/
noncomputable def dot3 (v w : V3 F64) : ℝ := rval v.x * rval w.x + rval v.y * rval w.y + rval v.z * rval w.z

/-- what `angleTo` gives to `acos` -/
def cosine (v w : V3 F64) : F64 := (v.x * w.x + v.y * w.y + v.z * w.z) / (abs3 c v * abs3 c w)

theorem angle_of_cosine (v w : V3 F64) : angle3 c v w = c.acos (cosine c v w) := angle3_eq c v w

theorem cauchy (v w : V3 F64) :
    |rval v.x * rval w.x| + |rval v.y * rval w.y| + |rval v.z * rval w.z| ≤ norm3 v * norm3 w := by
  unfold norm3
  rw [← Real.sqrt_mul (by positivity)]
  refine Real.le_sqrt_of_sq_le ?_
  rw [abs_mul, abs_mul, abs_mul, ← _root_.sq_abs (rval v.x), ← _root_.sq_abs (rval v.y), ← _root_.sq_abs (rval v.z),
    ← _root_.sq_abs (rval w.x), ← _root_.sq_abs (rval w.y), ← _root_.sq_abs (rval w.z)]
  generalize |rval v.x| = x; generalize |rval v.y| = y; generalize |rval v.z| = z
  generalize |rval w.x| = x'; generalize |rval w.y| = y'; generalize |rval w.z| = z'
  nlinarith [sq_nonneg (x * y' - y * x'), sq_nonneg (y * z' - z * y'), sq_nonneg (x * z' - z * x')]

theorem comp_le_norm (v : V3 F64) : |rval v.x| ≤ norm3 v ∧ |rval v.y| ≤ norm3 v ∧ |rval v.z| ≤ norm3 v := by
  unfold norm3
  refine ⟨Real.le_sqrt_of_sq_le ?_, Real.le_sqrt_of_sq_le ?_, Real.le_sqrt_of_sq_le ?_⟩ <;> rw [_root_.sq_abs]
  · nlinarith [sq_nonneg (rval v.y), sq_nonneg (rval v.z)]
  · nlinarith [sq_nonneg (rval v.x), sq_nonneg (rval v.z)]
  · nlinarith [sq_nonneg (rval v.x), sq_nonneg (rval v.y)]

theorem norm3_ge {v : V3 F64} (h : Big1 v.x ∨ Big1 v.y ∨ Big1 v.z) : (1 : ℝ) / 2 ^ 480 ≤ norm3 v := by
  obtain ⟨h1, h2, h3⟩ := comp_le_norm v
  have key : ∀ x : F64, Big1 x → (1 : ℝ) / 2 ^ 480 ≤ |rval x| := by
    intro x hx
    have := (Rat.cast_le (K := ℝ)).2 hx
    unfold rval
    push_cast at this
    exact this
  rcases h with h | h | h
  · exact (key _ h).trans h1
  · exact (key _ h).trans h2
  · exact (key _ h).trans h3

/-- errors of a quotient -/
theorem quot_err {D' D P NM w : ℝ} (hw : 0 < w) (hw1 : w ≤ 1 / 1024) (hNM : 0 < NM) (hD : |D| ≤ NM) (h1 : |D' - D| ≤ (3 + 1 / 64) * w * NM)
    (h2 : |P - NM| ≤ (6 + 5 / 16) * w * NM) : 0 < P ∧ |D' / P - D / NM| ≤ (9 + 1 / 2) * w := by
  have h3 := abs_le.1 h2
  have hwN : w * NM ≤ 1 / 1024 * NM := mul_le_mul_of_nonneg_right hw1 hNM.le
  have hP : 0 < P := by nlinarith
  have hPN : (1 - 1 / 128) * NM ≤ P := by nlinarith
  refine ⟨hP, ?_⟩
  have e : D' / P - D / NM = ((D' - D) + D / NM * (NM - P)) / P := by field_simp; ring
  rw [e, abs_div, abs_of_pos hP, div_le_iff₀ hP]
  refine (abs_add_le _ _).trans ?_
  rw [abs_mul, abs_sub_comm NM P, abs_div, abs_of_pos hNM]
  have h4 : |D| / NM ≤ 1 := by rw [div_le_one hNM]; exact hD
  have h5 : |D| / NM * |P - NM| ≤ 1 * ((6 + 5 / 16) * w * NM) := mul_le_mul h4 h2 (abs_nonneg _) (by norm_num)
  have h6 : w * ((1 - 1 / 128) * NM) ≤ w * P := mul_le_mul_of_nonneg_left hPN hw.le
  have h7 : 0 ≤ w * NM := mul_nonneg hw.le hNM.le
  nlinarith

/-- The number that `angleTo` gives to `acos` is within 11 times 2^-53 of the true cosine of the angle. -/
theorem cosine_accuracy (v w : V3 F64) (hv : Usual3 v) (hw : Usual3 w) (bv : Big1 v.x ∨ Big1 v.y ∨ Big1 v.z)
    (bw : Big1 w.x ∨ Big1 w.y ∨ Big1 w.z) :
    Fp.Finite (cosine c v w) ∧ |rval (cosine c v w) - dot3 v w / (norm3 v * norm3 w)| ≤ 11 / 2 ^ 53 := by
  obtain ⟨fd, ed⟩ := dot3_error v w hv hw
  obtain ⟨fa, ea⟩ := abs3_accuracy c v hv bv
  obtain ⟨fb, eb⟩ := abs3_accuracy c w hw bw
  have gN := norm3_ge bv
  have gM := norm3_ge bw
  have lN := norm3_le hv
  have lM := norm3_le hw
  have pN := norm3_big bv
  have pM := norm3_big bw
  have hu := u_pos
  have hu1 := u_le
  have hum : (u : ℝ) = 1 / 2 ^ 53 := by unfold u; push_cast; rfl
  have huR : (0 : ℝ) < u := by exact_mod_cast hu
  have huR1 : (u : ℝ) ≤ 1 / 1024 := by
    have := (Rat.cast_le (K := ℝ)).2 hu1; push_cast at this; exact this
  have cs := cauchy v w
  have e0 : ∀ n : ℝ, 21 / 8 * n / 2 ^ 53 = 21 / 8 * n * u := fun n => by rw [hum]; ring
  rw [e0] at ea eb
  -- the sum of the products
  have hlost : (lost 3 : ℝ) ≤ u / 1024 * (norm3 v * norm3 w) := by
    have h1 := lost_rel 3 (by norm_num) (le_refl ((1 : ℚ) / 2 ^ 960))
    have h2 : (lost 3 : ℝ) ≤ u / 1024 * (1 / 2 ^ 960) := by
      have := (Rat.cast_le (K := ℝ)).2 h1; push_cast at this ⊢; exact this
    refine h2.trans (mul_le_mul_of_nonneg_left ?_ (by positivity))
    have h3 := mul_le_mul gN gM (by positivity) pN.le
    refine le_trans (le_of_eq ?_) h3
    rw [div_mul_div_comm, ← pow_add]; norm_num
  have h1 : |rval (v.x * w.x + v.y * w.y + v.z * w.z) - dot3 v w| ≤ (3 + 1 / 64) * u * (norm3 v * norm3 w) := by
    have hh : |rval (v.x * w.x + v.y * w.y + v.z * w.z) - dot3 v w| ≤
        ((1 + (u : ℝ)) ^ 3 - 1) * (|rval v.x * rval w.x| + |rval v.y * rval w.y| + |rval v.z * rval w.z|) + lost 3 := by
      have := (Rat.cast_le (K := ℝ)).2 ed
      unfold rval dot3 rval
      push_cast at this ⊢
      exact this
    have h3 : (1 + (u : ℝ)) ^ 3 - 1 ≤ (3 + 1 / 128) * u := by
      have e1 : (1 + (u : ℝ)) ^ 3 - 1 = 3 * u + 3 * (u * u) + u * (u * u) := by ring
      have h4 : (u : ℝ) * u ≤ u * (1 / 1024) := mul_le_mul_of_nonneg_left huR1 huR.le
      have h5 : (u : ℝ) * (u * u) ≤ u * (1 / 1024) := mul_le_mul_of_nonneg_left (by nlinarith) huR.le
      rw [e1]; linarith
    have h6 := mul_le_mul h3 cs (by positivity) (by positivity)
    have h7 : 0 ≤ (u : ℝ) * (norm3 v * norm3 w) := by positivity
    linarith
  -- the product of the lengths
  have h501 : ∀ (n : ℝ) (a : F64), 0 < n → n ≤ 2 * 2 ^ 500 → |rval a - n| ≤ 21 / 8 * n * u → (1 : ℝ) / 2 ^ 480 ≤ n →
      (1 : ℝ) / 2 ^ 481 ≤ rval a ∧ rval a ≤ 2 ^ 502 := by
    intro n a pn ln hn gn
    have := abs_le.1 hn
    have h3 : n * u ≤ n * (1 / 1024) := mul_le_mul_of_nonneg_left huR1 pn.le
    have e1 : (1 : ℝ) / 2 ^ 481 = 1 / 2 * (1 / 2 ^ 480) := by
      rw [show (481 : Nat) = 480 + 1 from rfl, pow_succ (2 : ℝ) 480, one_div_mul_one_div, mul_comm]
    have e2 : (2 : ℝ) ^ 502 = 4 * 2 ^ 500 := by rw [show (502 : Nat) = 500 + 2 from rfl, pow_add (2 : ℝ) 500]; ring
    rw [e1, e2]
    clear e1 e2
    generalize (2 : ℝ) ^ 500 = W at *
    generalize (1 : ℝ) / 2 ^ 480 = W' at *
    constructor <;> linarith [this.1, this.2]
  obtain ⟨a1, a2⟩ := h501 _ _ pN lN ea gN
  obtain ⟨b1, b2⟩ := h501 _ _ pM lM eb gM
  have qa1 : (1 : ℚ) / 2 ^ 481 ≤ val (abs3 c v) := by
    have : (((1 : ℚ) / 2 ^ 481 : ℚ) : ℝ) ≤ ((val (abs3 c v) : ℚ) : ℝ) := by push_cast; exact a1
    exact_mod_cast this
  have qb1 : (1 : ℚ) / 2 ^ 481 ≤ val (abs3 c w) := by
    have : (((1 : ℚ) / 2 ^ 481 : ℚ) : ℝ) ≤ ((val (abs3 c w) : ℚ) : ℝ) := by push_cast; exact b1
    exact_mod_cast this
  have qa2 : val (abs3 c v) ≤ 2 ^ 502 := by
    have : ((val (abs3 c v) : ℚ) : ℝ) ≤ (((2 : ℚ) ^ 502 : ℚ) : ℝ) := by push_cast; exact a2
    exact_mod_cast this
  have qb2 : val (abs3 c w) ≤ 2 ^ 502 := by
    have : ((val (abs3 c w) : ℚ) : ℝ) ≤ (((2 : ℚ) ^ 502 : ℚ) : ℝ) := by push_cast; exact b2
    exact_mod_cast this
  have qpa : 0 < val (abs3 c v) := lt_of_lt_of_le (by positivity) qa1
  have qpb : 0 < val (abs3 c w) := lt_of_lt_of_le (by positivity) qb1
  obtain ⟨fp, ep⟩ := rnd_normal (mul_rounds fa fb) (by
    rw [abs_of_pos (mul_pos qpa qpb)]
    refine le_trans ?_ (mul_le_mul qa1 qb1 (by positivity) qpa.le)
    rw [div_mul_div_comm, ← pow_add, one_mul, one_div, ← zpow_natCast (2 : ℚ), ← zpow_neg]
    exact zpow_le_zpow_right₀ (by norm_num) (by norm_num)) (by
    rw [abs_of_pos (mul_pos qpa qpb)]
    refine (mul_le_mul qa2 qb2 qpb.le (by positivity)).trans ?_
    rw [← pow_add]; unfold huge
    exact pow_le_pow_right₀ (by norm_num) (by norm_num))
  rw [abs_of_pos (mul_pos qpa qpb)] at ep
  have h2 : |rval (abs3 c v * abs3 c w) - norm3 v * norm3 w| ≤ (6 + 5 / 16) * u * (norm3 v * norm3 w) := by
    have ep' : |rval (abs3 c v * abs3 c w) - rval (abs3 c v) * rval (abs3 c w)| ≤ u * (rval (abs3 c v) * rval (abs3 c w)) := by
      unfold rval; exact_mod_cast ep
    clear a1 a2 b1 b2 gN gM lN lM qa1 qa2 qb1 qb2 ep hlost
    generalize rval (abs3 c v * abs3 c w) = P at *
    have pa : 0 < rval (abs3 c v) := by unfold rval; exact_mod_cast qpa
    have pb : 0 < rval (abs3 c w) := by unfold rval; exact_mod_cast qpb
    generalize rval (abs3 c v) = a at *
    generalize rval (abs3 c w) = b at *
    generalize norm3 v = N at *
    generalize norm3 w = M at *
    generalize (u : ℝ) = t at *
    have pNM : 0 < N * M := mul_pos pN pM
    have k1 : |a * b - N * M| ≤ (5 + 9 / 32) * t * (N * M) := by
      have e : a * b - N * M = (a - N) * (b - M) + (a - N) * M + N * (b - M) := by ring
      rw [e]
      refine (abs_add_le _ _).trans ?_
      refine (add_le_add_left (abs_add_le _ _) _).trans ?_
      rw [abs_mul, abs_mul, abs_mul, abs_of_pos pN, abs_of_pos pM]
      have m1 : |a - N| * |b - M| ≤ (21 / 8 * N * t) * (21 / 8 * M * t) := mul_le_mul ea eb (abs_nonneg _) (by positivity)
      have m2 : |a - N| * M ≤ 21 / 8 * N * t * M := mul_le_mul_of_nonneg_right ea pM.le
      have m3 : N * |b - M| ≤ N * (21 / 8 * M * t) := mul_le_mul_of_nonneg_left eb pN.le
      have m4 : (N * M * t) * t ≤ (N * M * t) * (1 / 1024) := mul_le_mul_of_nonneg_left huR1 (by positivity)
      have m5 : 0 ≤ N * M * t := by positivity
      nlinarith
    have k2 : a * b ≤ (1 + 1 / 128) * (N * M) := by
      have := (abs_le.1 k1).2
      have m4 : t * (N * M) ≤ 1 / 1024 * (N * M) := mul_le_mul_of_nonneg_right huR1 pNM.le
      nlinarith
    have k3 : |P - N * M| ≤ |P - a * b| + |a * b - N * M| := by
      have := abs_add_le (P - a * b) (a * b - N * M); rwa [sub_add_sub_cancel] at this
    have k4 : t * (a * b) ≤ t * ((1 + 1 / 128) * (N * M)) := mul_le_mul_of_nonneg_left k2 huR.le
    have k5 : 0 ≤ t * (N * M) := by positivity
    nlinarith
  have hD : |dot3 v w| ≤ norm3 v * norm3 w := by
    refine le_trans ?_ cs
    unfold dot3
    exact (abs_add_le _ _).trans (add_le_add_left (abs_add_le _ _) _)
  obtain ⟨pP, hQ⟩ := quot_err huR huR1 (mul_pos pN pM) hD h1 h2
  have qP : 0 < val (abs3 c v * abs3 c w) := by unfold rval at pP; exact_mod_cast pP
  have hr := div_rounds fd fp (ne_of_gt qP)
  have hDN : |dot3 v w / (norm3 v * norm3 w)| ≤ 1 := by
    rw [abs_div, abs_of_pos (mul_pos pN pM), div_le_one (mul_pos pN pM)]; exact hD
  have hQ1 : |rval (v.x * w.x + v.y * w.y + v.z * w.z) / rval (abs3 c v * abs3 c w)| ≤ 1 + 1 / 64 := by
    have := abs_sub_abs_le_abs_sub (rval (v.x * w.x + v.y * w.y + v.z * w.z) / rval (abs3 c v * abs3 c w)) (dot3 v w / (norm3 v * norm3 w))
    have h9 : (9 + 1 / 2) * (u : ℝ) ≤ 1 / 64 := by linarith
    linarith
  have qQ1 : |val (v.x * w.x + v.y * w.y + v.z * w.z) / val (abs3 c v * abs3 c w)| ≤ 1 + 1 / 64 := by
    have : ((|val (v.x * w.x + v.y * w.y + v.z * w.z) / val (abs3 c v * abs3 c w)| : ℚ) : ℝ) ≤ ((1 + 1 / 64 : ℚ) : ℝ) := by
      push_cast; exact hQ1
    exact_mod_cast this
  obtain ⟨fq, eq⟩ := rnd hr (qQ1.trans (le_trans (by norm_num) (le_trans (by norm_num : (2 : ℚ) ≤ 2 ^ 10) huge_ge)))
  refine ⟨fq, ?_⟩
  have eqR : |rval (cosine c v w) - rval (v.x * w.x + v.y * w.y + v.z * w.z) / rval (abs3 c v * abs3 c w)| ≤
      u * |rval (v.x * w.x + v.y * w.y + v.z * w.z) / rval (abs3 c v * abs3 c w)| + eta := by
    unfold cosine rval; exact_mod_cast eq
  have heta : (eta : ℝ) ≤ u / 64 := by
    have : eta ≤ u / 64 := by
      refine eta_le_one.trans ?_
      unfold u; norm_num
    have := (Rat.cast_le (K := ℝ)).2 this; push_cast at this; exact this
  have h11 : (11 : ℝ) / 2 ^ 53 = 11 * u := by rw [hum]; ring
  rw [h11]
  have tri := abs_add_le (rval (cosine c v w) - rval (v.x * w.x + v.y * w.y + v.z * w.z) / rval (abs3 c v * abs3 c w))
    (rval (v.x * w.x + v.y * w.y + v.z * w.z) / rval (abs3 c v * abs3 c w) - dot3 v w / (norm3 v * norm3 w))
  rw [sub_add_sub_cancel] at tri
  have h12 := mul_le_mul_of_nonneg_left hQ1 huR.le
  linarith

/-! ### Integers are among the numbers all this applies to -/

theorem usual_int (n : Int) (h : n.natAbs ≤ 2 ^ 53) : Usual (lit n 1) := by
  obtain ⟨f, v⟩ := lit_int n h
  refine ⟨f, ?_⟩
  rw [v]
  have : |(n : ℚ)| ≤ 2 ^ 53 := by
    have : ((n.natAbs : Nat) : ℚ) ≤ ((2 ^ 53 : Nat) : ℚ) := by exact_mod_cast h
    rw [Nat.cast_natAbs] at this; push_cast at this ⊢; exact this
  exact this.trans (pow_le_pow_right₀ (by norm_num) (by norm_num))
theorem big_int (n : Int) (h : n.natAbs ≤ 2 ^ 53) (h0 : n ≠ 0) : Big1 (lit n 1) := by
  obtain ⟨f, v⟩ := lit_int n h
  unfold Big1
  rw [v]
  have : (1 : ℚ) ≤ |(n : ℚ)| := by
    have h1 : 1 ≤ |n| := Int.one_le_abs h0
    have : ((1 : Int) : ℚ) ≤ ((|n| : Int) : ℚ) := by exact_mod_cast h1
    push_cast at this; exact this
  refine le_trans ?_ this
  rw [div_le_one (by positivity)]; exact one_le_pow₀ (by norm_num)
theorem coord_int (n : Int) (h : n.natAbs ≤ 2 ^ 53) : Coord (lit n 1) := by
  obtain ⟨f, v⟩ := lit_int n h
  refine ⟨f, ?_⟩
  rw [v]
  have : |(n : ℚ)| ≤ 2 ^ 53 := by
    have : ((n.natAbs : Nat) : ℚ) ≤ ((2 ^ 53 : Nat) : ℚ) := by exact_mod_cast h
    rw [Nat.cast_natAbs] at this; push_cast at this ⊢; exact this
  exact this.trans (pow_le_pow_right₀ (by norm_num) (by norm_num))
theorem apart_int (m n : Int) (hm : m.natAbs ≤ 2 ^ 53) (hn : n.natAbs ≤ 2 ^ 53) (h : m ≠ n) : Apart (lit m 1) (lit n 1) := by
  unfold Apart
  rw [(lit_int m hm).2, (lit_int n hn).2]
  have : (1 : ℚ) ≤ |(n : ℚ) - m| := by
    have h1 : 1 ≤ |n - m| := Int.one_le_abs (by omega)
    have : ((1 : Int) : ℚ) ≤ ((|n - m| : Int) : ℚ) := by exact_mod_cast h1
    push_cast at this; exact this
  refine le_trans ?_ this
  rw [div_le_one (by positivity)]; exact one_le_pow₀ (by norm_num)

-- the vector (3, 0, -7) and the points (1, 2, 3) and (1, 2, 4)
example := abs3_accuracy c ⟨lit 3 1, lit 0 1, lit (-7) 1⟩ ⟨usual_int _ (by decide), usual_int _ (by decide), usual_int _ (by decide)⟩
  (Or.inl (big_int _ (by decide) (by decide)))
example := unit3_accuracy c ⟨lit 3 1, lit 0 1, lit (-7) 1⟩ ⟨usual_int _ (by decide), usual_int _ (by decide), usual_int _ (by decide)⟩
example := dist3_accuracy c ⟨lit 1 1, lit 2 1, lit 3 1⟩ ⟨lit 1 1, lit 2 1, lit 4 1⟩
  ⟨coord_int _ (by decide), coord_int _ (by decide), coord_int _ (by decide)⟩ ⟨coord_int _ (by decide), coord_int _ (by decide), coord_int _ (by decide)⟩
  (Or.inr (Or.inr (apart_int _ _ (by decide) (by decide) (by decide))))
example := cosine_accuracy c ⟨lit 3 1, lit 0 1, lit (-7) 1⟩ ⟨lit 1 1, lit 2 1, lit 3 1⟩ ⟨usual_int _ (by decide), usual_int _ (by decide), usual_int _ (by decide)⟩
  ⟨usual_int _ (by decide), usual_int _ (by decide), usual_int _ (by decide)⟩ (Or.inl (big_int _ (by decide) (by decide)))
  (Or.inl (big_int _ (by decide) (by decide)))

end Verif.FpLen
