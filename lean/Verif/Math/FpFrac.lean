import Verif.Math.FpMore
import Verif.Math.FpProps
import Verif.Fp.Rel
/-
C109: angles, rounding to decimal places and the machine epsilon (Math.cpp:35-79, 217-224) on doubles.
-/
namespace Verif.Math.Fl
open Verif Verif.Fp

/-- `M_PI` of math.h -/
def PI : F64 := lit 314159265358979323846 100000000000000000000
/-- Math.cpp:36 -/
def T_PI : F64 := lit 1 1 / PI
/-- Math.cpp:37 -/
def T_180 : F64 := lit 1 1 / lit 180 1

/-- Math.cpp:39-42 -/
def degToRad (deg : F64) : F64 := deg * PI * T_180
/-- Math.cpp:44-47 -/
def radToDeg (rad : F64) : F64 := rad * lit 180 1 * T_PI

/-- Math.cpp:73-79; `factor` is the result of `std::pow(10, digits)`, the integer result of `round` is converted to double.  (The
variant for float, 64-71, does the same with its argument converted to double and rounds the result to float: FpFloat.lean.) -/
def roundFrac (factor value : F64) : Res F64 := do
  let n ← round (value * factor)
  return ofInt n / factor

/-- Math.cpp:221, the loop; `none` if it does not end within `fuel` steps -/
def epsLoop : Nat → F64 → Option F64
  | 0, _ => none
  | fuel + 1, epsilon =>
    if eq (lit 1 1 + lit 1 2 * epsilon) (lit 1 1) = false then epsLoop fuel (lit 1 2 * epsilon) else some epsilon

/-- Math.cpp:217-224 -/
def doubleMaschineEpsilon (fuel : Nat) : Option F64 := (epsLoop fuel (lit 1 1)).map (fun e => e / lit 2 1)

/-! ### facts about the constants -/

theorem pi_fin : Finite PI := by decide +kernel
theorem tpi_fin : Finite T_PI := by decide +kernel
theorem t180_fin : Finite T_180 := by decide +kernel
theorem pi_bits : PI = .num false 0x400921FB54442D18 (by decide) := by decide +kernel
theorem eps_eq : doubleMaschineEpsilon 60 = some (lit 1 (2 ^ 53)) := by decide +kernel
theorem tie_up : lit 1 1 + lit 1 (2 ^ 53) = lit 1 1 := by decide +kernel
theorem next_up : lt (lit 1 1) (lit 1 1 + .num false 0x3CA0000000000001 (by decide)) = true := by decide +kernel
theorem eps_bits : lit 1 (2 ^ 53) = .num false 0x3CA0000000000000 (by decide) := by decide +kernel

theorem roundtrip_inexact_13 : eq (radToDeg (degToRad (lit 13 1))) (lit 13 1) = false := by decide +kernel
theorem halfturn_exact : degToRad (lit 180 1) = PI ∧ radToDeg PI = lit 180 1 := by decide +kernel
theorem frac_2675 : roundFrac (lit 100 1) (lit 2675 1000) = .ok (lit 268 100) ∧ units (lit 2675 1000) * 1000 < 2675 * one := by
  decide +kernel
theorem frac_ub : roundFrac (lit (10 ^ 10) 1) (lit (10 ^ 9) 1) = .error .ub := by decide +kernel
theorem frac_example : roundFrac (lit 1000 1) (lit 314159 100000) = .ok (lit 3142 1000) ∧
    roundFrac (lit 1000 1) (lit (-314159) 100000) = .ok (lit (-3142) 1000) := by decide +kernel

theorem pi_rounds : Rounds PI (314159265358979323846 / 100000000000000000000) := by
  have h := lit_rounds 314159265358979323846 100000000000000000000 (by decide)
  have e : ((314159265358979323846 : Int) : ℚ) / ((100000000000000000000 : Nat) : ℚ) = 314159265358979323846 / 100000000000000000000 := by
    norm_num
  rw [e] at h
  exact h

attribute [local irreducible] PI T_PI T_180 Fp.lit Fp.ofInt

theorem pi_val : (3 : ℚ) < val PI ∧ val PI < 4 := by
  have h := pi_rounds.err 51 (by decide) (by rw [abs_of_pos (by norm_num)]; norm_num)
  rw [abs_le] at h
  constructor
  · have := h.1; norm_num at this ⊢; linarith
  · have := h.2; norm_num at this ⊢; linarith

/-! ### relative errors -/

/-- `r` is `e` up to the relative error `d` -/
def Rel (d r e : ℚ) : Prop := |r - e| ≤ d * |e|

theorem Rel.mul {d f r e s g : ℚ} (h : Rel d r e) (k : Rel f s g) (hd : 0 ≤ d) (_hf : 0 ≤ f) : Rel (d + f + d * f) (r * s) (e * g) := by
  unfold Rel at *
  have e1 : r * s - e * g = (r - e) * (s - g) + (r - e) * g + e * (s - g) := by ring
  have a1 := abs_add_le ((r - e) * (s - g) + (r - e) * g) (e * (s - g))
  have a2 := abs_add_le ((r - e) * (s - g)) ((r - e) * g)
  rw [abs_mul, abs_mul] at a2
  rw [abs_mul e] at a1
  have m1 : |r - e| * |s - g| ≤ (d * |e|) * (f * |g|) := mul_le_mul h k (abs_nonneg _) (by positivity)
  have m2 : |r - e| * |g| ≤ (d * |e|) * |g| := mul_le_mul_of_nonneg_right h (abs_nonneg _)
  have m3 : |e| * |s - g| ≤ |e| * (f * |g|) := mul_le_mul_of_nonneg_left k (abs_nonneg _)
  rw [e1, abs_mul e g]
  calc _ ≤ _ := a1
    _ ≤ (d * |e|) * (f * |g|) + (d * |e|) * |g| + |e| * (f * |g|) := by linarith
    _ = _ := by ring

theorem Rel.trans {d f r e g : ℚ} (h : Rel d r e) (k : Rel f e g) (hd : 0 ≤ d) : Rel (d + f + d * f) r g := by
  unfold Rel at *
  have a := abs_sub_le r e g
  have b : |e| ≤ (1 + f) * |g| := by
    have := abs_sub_abs_le_abs_sub e g
    linarith
  have c : d * |e| ≤ d * ((1 + f) * |g|) := mul_le_mul_of_nonneg_left b hd
  calc _ ≤ _ := a
    _ ≤ d * ((1 + f) * |g|) + f * |g| := by linarith
    _ = _ := by ring

theorem Rel.mono {d f r e : ℚ} (h : Rel d r e) (hdf : d ≤ f) : Rel f r e :=
  le_trans h (mul_le_mul_of_nonneg_right hdf (abs_nonneg _))

theorem Rel.bounds {d r e : ℚ} (h : Rel d r e) (hd : d ≤ 1 / 2) : |e| / 2 ≤ |r| ∧ |r| ≤ 2 * |e| := by
  unfold Rel at h
  have h1 := abs_sub_abs_le_abs_sub r e
  have h2 := abs_sub_abs_le_abs_sub e r
  rw [abs_sub_comm] at h2
  have h3 : d * |e| ≤ 1 / 2 * |e| := mul_le_mul_of_nonneg_right hd (abs_nonneg _)
  have := abs_nonneg e
  constructor <;> linarith

/-- the unit roundoff -/
def u : ℚ := 1 / 2 ^ 53

theorem Rounds.toRel {r : F64} {e : ℚ} (h : Rounds r e) (L N : ℤ) (hL : -1022 ≤ L) (hN : N ≤ 1023) (h1 : (2 : ℚ) ^ L ≤ |e|)
    (h2 : |e| ≤ 2 ^ N) : Finite r ∧ Rel u (val r) e := by
  obtain ⟨f, g⟩ := h.rel L N hL hN h1 h2
  refine ⟨f, ?_⟩
  unfold Rel u
  rw [div_mul_eq_mul_div, one_mul]
  exact g

theorem one_val : val (lit 1 1) = 1 ∧ Finite (lit 1 1) := by
  have := lit_int 1 (by decide)
  exact ⟨by rw [this.2]; norm_num, this.1⟩
theorem v180 : val (lit 180 1) = 180 ∧ Finite (lit 180 1) := by
  have := lit_int 180 (by decide)
  exact ⟨by rw [this.2]; norm_num, this.1⟩

theorem t180_rel : Rel u (val T_180) (1 / 180) := by
  have h := div_rounds one_val.2 v180.2 (by rw [v180.1]; norm_num)
  rw [one_val.1, v180.1] at h
  have e : T_180 = lit 1 1 / lit 180 1 := by unfold T_180; rfl
  rw [← e] at h
  exact (Rounds.toRel h (-10) 0 (by decide) (by decide) (by rw [abs_of_pos (by norm_num)]; norm_num)
    (by rw [abs_of_pos (by norm_num)]; norm_num)).2

theorem tpi_rel : Rel u (val T_PI) (1 / val PI) := by
  obtain ⟨p1, p2⟩ := pi_val
  have h := div_rounds one_val.2 pi_fin (by linarith)
  rw [one_val.1] at h
  have e : T_PI = lit 1 1 / PI := by unfold T_PI; rfl
  rw [← e] at h
  have hp : (0 : ℚ) < 1 / val PI := by apply one_div_pos.2; linarith
  refine (Rounds.toRel h (-2) 0 (by decide) (by decide) ?_ ?_).2
  · rw [abs_of_pos hp, le_div_iff₀ (by linarith)]; norm_num; linarith
  · rw [abs_of_pos hp, div_le_iff₀ (by linarith)]; norm_num; linarith

theorem u_pos : (0 : ℚ) ≤ u := by unfold u; positivity

/-- one multiplication by a constant that is itself off by `d` -/
theorem step {x c : F64} {d e g : ℚ} (hx : Finite x) (hc : Finite c) (h : Rel d (val x) e) (k : Rel u (val c) g) (hd : 0 ≤ d)
    (hd2 : d ≤ 1 / 8) (L N : ℤ) (hL : -1021 ≤ L) (hN : N ≤ 1022) (h1 : (2 : ℚ) ^ L ≤ |e * g|) (h2 : |e * g| ≤ 2 ^ N) :
    Finite (x * c) ∧ Rel (d + 3 * u) (val (x * c)) (e * g) := by
  have hm := h.mul k hd u_pos
  have hu : u ≤ 1 / 1000 := by unfold u; norm_num
  have hdu : d * u ≤ 1 / 8 * u := mul_le_mul_of_nonneg_right hd2 u_pos
  have hb := hm.bounds (by linarith)
  have hr := mul_rounds hx hc
  obtain ⟨f, g'⟩ := Rounds.toRel hr (L - 1) (N + 1) (by omega) (by omega)
    (by rw [zpow_sub_one₀ (by norm_num)]; have := hb.1; linarith)
    (by rw [zpow_add_one₀ (by norm_num)]; have := hb.2; linarith)
  refine ⟨f, (g'.trans hm u_pos).mono ?_⟩
  have h3 : u * (d + u + d * u) ≤ u * (1 / 2) := mul_le_mul_of_nonneg_left (by linarith) u_pos
  have := u_pos
  linarith

theorem Rel.refl (x : ℚ) : Rel 0 x x := by unfold Rel; simp
theorem Rel.refl_u (x : ℚ) : Rel u x x := by unfold Rel; rw [sub_self, abs_zero]; exact mul_nonneg u_pos (abs_nonneg _)

/-- the usual range of angles, and far more -/
def Usual (x : F64) : Prop := Finite x ∧ (2 : ℚ) ^ (-1000 : ℤ) ≤ |val x| ∧ |val x| ≤ 2 ^ (1000 : ℤ)

theorem two_le {a b c : ℚ} {L M : ℤ} (h : (2 : ℚ) ^ L ≤ |a|) (hb : (2 : ℚ) ^ M ≤ b) (_hc : a = c) : (2 : ℚ) ^ (L + M) ≤ |a * b| := by
  have hb0 : 0 < b := lt_of_lt_of_le (zpow_pos (by norm_num) _) hb
  rw [abs_mul, abs_of_pos hb0, zpow_add₀ (by norm_num)]
  exact mul_le_mul h hb (zpow_pos (by norm_num) _).le (abs_nonneg _)

theorem le_two {a b : ℚ} {L M : ℤ} (h : |a| ≤ (2 : ℚ) ^ L) (hb0 : 0 < b) (hb : b ≤ (2 : ℚ) ^ M) : |a * b| ≤ (2 : ℚ) ^ (L + M) := by
  rw [abs_mul, abs_of_pos hb0, zpow_add₀ (by norm_num)]
  exact mul_le_mul h hb hb0.le (zpow_pos (by norm_num) _).le

/-- **C109 (degrees).** The angle in radians is right up to six units of roundoff (relative to the double `M_PI`). -/
theorem degToRad_error_partial (x : F64) (hx : Usual x) :
    Finite (degToRad x) ∧ Rel (6 * u) (val (degToRad x)) (val x * val PI * (1 / 180)) := by
  obtain ⟨f, l, h⟩ := hx
  obtain ⟨p1, p2⟩ := pi_val
  have a1 := two_le (b := val PI) (M := 1) l (by norm_num; linarith) rfl
  have a2 := le_two (b := val PI) (M := 2) h (by linarith) (by norm_num; linarith)
  obtain ⟨f1, r1⟩ := step f pi_fin (Rel.refl _) (Rel.refl_u _) le_rfl (by norm_num) _ _ (by decide) (by decide) a1 a2
  have b1 := two_le (b := 1 / 180) (M := -8) a1 (by norm_num) rfl
  have b2 := le_two (b := 1 / 180) (M := 0) a2 (by norm_num) (by norm_num)
  have hu : u ≤ 1 / 1000 := by unfold u; norm_num
  have hu0 := u_pos
  obtain ⟨f2, r2⟩ := step f1 t180_fin r1 t180_rel (by linarith) (by linarith) _ _ (by decide) (by decide) b1 b2
  exact ⟨f2, r2.mono (by linarith)⟩

/-- **C109 (round trip).** Degrees, radians and degrees again: the same angle up to 13 units of roundoff (about 1.5E-15, relatively).  It
need not be the same double (`roundtrip_inexact_13`). -/
theorem angle_roundtrip_partial (x : F64) (hx : Usual x) :
    Finite (radToDeg (degToRad x)) ∧ Rel (13 * u) (val (radToDeg (degToRad x))) (val x) := by
  obtain ⟨f, r⟩ := degToRad_error_partial x hx
  obtain ⟨_, l, h⟩ := hx
  obtain ⟨p1, p2⟩ := pi_val
  have hu : u ≤ 1 / 1000 := by unfold u; norm_num
  have hu0 := u_pos
  have a1 := two_le (b := val PI) (M := 1) l (by norm_num; linarith) rfl
  have a2 := le_two (b := val PI) (M := 2) h (by linarith) (by norm_num; linarith)
  have b1 := two_le (b := 1 / 180) (M := -8) a1 (by norm_num) rfl
  have b2 := le_two (b := 1 / 180) (M := 0) a2 (by norm_num) (by norm_num)
  have c1 := two_le (b := 180) (M := 7) b1 (by norm_num) rfl
  have c2 := le_two (b := 180) (M := 8) b2 (by norm_num) (by norm_num)
  have k180 : Rel u (val (lit 180 1)) 180 := by rw [v180.1]; exact Rel.refl_u _
  obtain ⟨f1, r1⟩ := step f v180.2 r k180 (by linarith) (by linarith) _ _ (by decide) (by decide) c1 c2
  have hp : (0 : ℚ) < 1 / val PI := by apply one_div_pos.2; linarith
  have d1 := two_le (b := 1 / val PI) (M := -2) c1 (by rw [le_div_iff₀ (by linarith)]; norm_num; linarith) rfl
  have d2 := le_two (b := 1 / val PI) (M := 0) c2 hp (by rw [div_le_iff₀ (by linarith)]; norm_num; linarith)
  obtain ⟨f2, r2⟩ := step f1 tpi_fin r1 tpi_rel (by linarith) (by linarith) _ _ (by decide) (by decide) d1 d2
  have e : val x * val PI * (1 / 180) * 180 * (1 / val PI) = val x := by
    have : val PI ≠ 0 := by linarith
    field_simp
  rw [e] at r2
  exact ⟨f2, r2.mono (by linarith)⟩

/-! ### rounding to decimal places -/

/-- `round` below 2^52: the nearest integer up to 2^-54 -/
theorem round_near (y : F64) (hy : Finite y) (h : |val y| ≤ 2 ^ 52) : ∃ n, round y = .ok n ∧ |val y - n| ≤ 1 / 2 + 1 / 2 ^ 54 := by
  by_cases hh : |val y| = 1 / 2 - 1 / 2 ^ 54
  · have hb : val (.num false 0x3FDFFFFFFFFFFFFF (by decide)) = 1 / 2 - 1 / 2 ^ 54 := by
      have h1 := val_eq (.num false 0x3FDFFFFFFFFFFFFF (by decide))
      have h2 : units (.num false 0x3FDFFFFFFFFFFFFF (by decide)) = 9007199254740991 * 2 ^ 1020 := by decide +kernel
      rw [h2] at h1
      push_cast at h1
      have hp : (2 : ℚ) ^ 1074 ≠ 0 := by positivity
      have h3 : (1 / 2 - 1 / 2 ^ 54 : ℚ) * 2 ^ 1074 = 9007199254740991 * 2 ^ 1020 := by
        rw [show (2 : ℚ) ^ 1074 = 2 ^ 54 * 2 ^ 1020 by rw [← pow_add], ← mul_assoc]
        congr 1
        norm_num
      exact mul_right_cancel₀ hp (h1.trans h3.symm)
    have hb' : val (.num true 0x3FDFFFFFFFFFFFFF (by decide)) = -(1 / 2 - 1 / 2 ^ 54) := by
      rw [← hb, ← val_neg]
      rfl
    have h0 : val y ≠ 0 := by
      intro h0
      rw [h0, abs_zero] at hh
      norm_num at hh
    rcases abs_eq (by norm_num : (0 : ℚ) ≤ 1 / 2 - 1 / 2 ^ 54) |>.1 hh with hv | hv
    · have e := val_inj hy (y := .num false 0x3FDFFFFFFFFFFFFF (by decide)) (by decide) (hv.trans hb.symm) h0
      refine ⟨1, by rw [e]; exact round_half_below.1, ?_⟩
      rw [hv, abs_le]
      constructor <;> norm_num
    · have e := val_inj hy (y := .num true 0x3FDFFFFFFFFFFFFF (by decide)) (by decide) (hv.trans hb'.symm) h0
      refine ⟨-1, by rw [e]; exact round_half_below.2, ?_⟩
      rw [hv, abs_le]
      constructor <;> norm_num
  · obtain ⟨n, h1, h2⟩ := round_fp_partial y hy (lt_of_le_of_lt h (by norm_num)) hh (by
      intro m hm h3 _
      exfalso
      rw [hm] at h
      have : |m| ≤ 2 ^ 52 := by exact_mod_cast h
      omega)
    refine ⟨n, h1, le_trans h2.1 ?_⟩
    norm_num

/-- the factor for `d` decimal places -/
structure Factor (factor : F64) (d : Nat) : Prop where
  fin : Finite factor
  val : val factor = 10 ^ d
  le : d ≤ 22

theorem ofInt_val (n : Int) (h : |n| ≤ 2 ^ 53) : Finite (ofInt n) ∧ val (ofInt n) = n := by
  have : n.natAbs ≤ 2 ^ 53 := by have := abs_le.1 h; omega
  have e : ofInt n = lit n 1 := by unfold ofInt; rfl
  rw [e]
  exact lit_int n this

/-- **C109 (decimal places).** The result is the double nearest to a number with `d` decimal places, and this number is off by at most half
a unit of the last place, plus rounding of the product. -/
theorem roundFrac_spec_partial (factor x : F64) (d k : Nat) (hf : Factor factor d) (hx : Finite x) (hk1 : 1 ≤ k) (hk : k ≤ 53)
    (h : |val x * 10 ^ d| ≤ 2 ^ 53 / 2 ^ k) :
    ∃ (n : Int) (r : F64), roundFrac factor x = .ok r ∧ Rounds r (n / 10 ^ d) ∧ Finite r ∧
      |(n : ℚ) - val x * 10 ^ d| ≤ 1 / 2 + 1 / 2 ^ k ∧ |n| ≤ 2 ^ 52 ∧ round (x * factor) = .ok n ∧ r = ofInt n / factor := by
  have hr := mul_rounds hx hf.fin
  rw [hf.val] at hr
  obtain ⟨fy, by1⟩ := abs_le_of_grid (by omega : k ≤ 1074) h hr
  have herr := hr.err k (by omega) h
  have hle : (2 : ℚ) ^ 53 / 2 ^ k ≤ 2 ^ 52 := by
    rw [div_le_iff₀ (by positivity)]
    have : (2 : ℚ) ^ 1 ≤ 2 ^ k := pow_le_pow_right₀ (by norm_num) hk1
    calc (2 : ℚ) ^ 53 = 2 ^ 52 * 2 ^ 1 := by norm_num
      _ ≤ 2 ^ 52 * 2 ^ k := mul_le_mul_of_nonneg_left this (by norm_num)
  obtain ⟨n, hn, hd⟩ := round_near (x * factor) fy (le_trans by1 hle)
  have hpk : (1 : ℚ) / 2 ^ 53 ≤ 1 / 2 ^ k := one_div_le_one_div_of_le (by positivity) (pow_le_pow_right₀ (by norm_num) hk)
  have hnabs : |n| ≤ 2 ^ 52 := by
    have h1 : |(n : ℚ)| ≤ 2 ^ 52 + (1 / 2 + 1 / 2 ^ 54) := by
      have h2 := abs_sub_abs_le_abs_sub (n : ℚ) (val (x * factor))
      rw [abs_sub_comm] at h2
      linarith
    have h3 : |(n : ℚ)| < 2 ^ 52 + 1 := by
      have : (1 : ℚ) / 2 + 1 / 2 ^ 54 < 1 := by norm_num
      linarith
    have h4 : ((|n| : Int) : ℚ) < ((2 ^ 52 + 1 : Int) : ℚ) := by rw [Int.cast_abs]; norm_num; norm_num at h3; exact h3
    have : |n| < 2 ^ 52 + 1 := by exact_mod_cast h4
    omega
  obtain ⟨fi, vi⟩ := ofInt_val n (le_trans hnabs (by norm_num))
  have hp : (0 : ℚ) < 10 ^ d := by positivity
  have hdv := div_rounds fi hf.fin (by rw [hf.val]; exact hp.ne')
  rw [vi, hf.val] at hdv
  have hone : (1 : ℚ) ≤ 10 ^ d := one_le_pow₀ (by norm_num)
  have hfin : Finite (ofInt n / factor) := by
    refine (abs_le_of_grid (k := 0) (by decide) ?_ hdv).1
    rw [abs_div, abs_of_pos hp]
    have h5 : |(n : ℚ)| ≤ 2 ^ 52 := by exact_mod_cast hnabs
    calc |(n : ℚ)| / 10 ^ d ≤ |(n : ℚ)| := div_le_self (abs_nonneg _) hone
      _ ≤ _ := by norm_num; norm_num at h5; linarith
  refine ⟨n, ofInt n / factor, by simp only [roundFrac, hn]; rfl, hdv, hfin, ?_, hnabs, hn, rfl⟩
  have t := abs_sub_le (n : ℚ) (val (x * factor)) (val x * 10 ^ d)
  rw [abs_sub_comm (n : ℚ) (val (x * factor))] at t
  have h54 : (1 : ℚ) / 2 ^ 54 = 1 / 2 * (1 / 2 ^ 53) := by norm_num
  have e2 : (1 : ℚ) / 2 / 2 ^ k = 1 / 2 * (1 / 2 ^ k) := by rw [div_div, one_div_mul_one_div]
  rw [e2] at herr
  linarith

/-- **C109 (idempotent).** What is rounded already stays as it is, to the last bit. -/
theorem roundFrac_idem_partial (factor x : F64) (d : Nat) (hf : Factor factor d) (hx : Finite x) (h : |val x * 10 ^ d| ≤ 2 ^ 49) :
    ∃ r, roundFrac factor x = .ok r ∧ roundFrac factor r = .ok r := by
  obtain ⟨n, r, hr, hro, hfi, hd, _, _, he⟩ := roundFrac_spec_partial factor x d 4 hf hx (by decide) (by decide)
    (by norm_num; norm_num at h; exact h)
  refine ⟨r, hr, ?_⟩
  have hp : (0 : ℚ) < 10 ^ d := by positivity
  have hone : (1 : ℚ) ≤ 10 ^ d := one_le_pow₀ (by norm_num)
  have hn : |(n : ℚ)| ≤ 2 ^ 50 := by
    have := abs_sub_abs_le_abs_sub (n : ℚ) (val x * 10 ^ d)
    have e : (2 : ℚ) ^ 49 + 1 ≤ 2 ^ 50 := by norm_num
    have e2 : (1 : ℚ) / 2 + 1 / 2 ^ 4 ≤ 1 := by norm_num
    linarith
  -- the product is near to n again
  have hback : |val r * 10 ^ d - n| ≤ 1 / 8 := by
    by_cases h0 : n = 0
    · have hz : ((n : ℚ) / 10 ^ d) = 0 := by rw [h0]; simp
      have hv := (exact_zero hro hz).2
      rw [hv, h0]; norm_num
    · have hq : |(n : ℚ) / 10 ^ d| = |(n : ℚ)| / 10 ^ d := by rw [abs_div, abs_of_pos hp]
      have h1 : (1 : ℚ) ≤ |(n : ℚ)| := by
        have : (1 : Int) ≤ |n| := Int.one_le_abs h0
        exact_mod_cast this
      have hL : (2 : ℚ) ^ (-100 : ℤ) ≤ |(n : ℚ) / 10 ^ d| := by
        rw [hq, le_div_iff₀ hp]
        have : (10 : ℚ) ^ d ≤ 10 ^ 22 := pow_le_pow_right₀ (by norm_num) hf.le
        calc (2 : ℚ) ^ (-100 : ℤ) * 10 ^ d ≤ 2 ^ (-100 : ℤ) * 10 ^ 22 := mul_le_mul_of_nonneg_left this (by positivity)
          _ ≤ 1 := by norm_num
          _ ≤ _ := h1
      have hN : |(n : ℚ) / 10 ^ d| ≤ 2 ^ (50 : ℤ) := by
        rw [hq]
        exact le_trans (div_le_self (abs_nonneg _) hone) hn
      obtain ⟨_, hrel⟩ := hro.rel (-100) 50 (by decide) (by decide) hL hN
      have e1 : val r * 10 ^ d - n = (val r - n / 10 ^ d) * 10 ^ d := by field_simp
      rw [e1, abs_mul, abs_of_pos hp]
      calc |val r - n / 10 ^ d| * 10 ^ d ≤ |(n : ℚ) / 10 ^ d| / 2 ^ 53 * 10 ^ d := mul_le_mul_of_nonneg_right hrel hp.le
        _ = |(n : ℚ)| / 2 ^ 53 := by rw [hq]; field_simp
        _ ≤ 2 ^ 50 / 2 ^ 53 := div_le_div_of_nonneg_right hn (by positivity)
        _ = 1 / 8 := by norm_num
  have hsize : |val r * 10 ^ d| ≤ 2 ^ 51 := by
    have := abs_sub_abs_le_abs_sub (val r * 10 ^ d) (n : ℚ)
    have e : (2 : ℚ) ^ 50 + 1 / 8 ≤ 2 ^ 51 := by norm_num
    linarith
  obtain ⟨n', r', hr', _, _, hd', _, _, he'⟩ := roundFrac_spec_partial factor r d 2 hf hfi (by decide) (by decide)
    (by norm_num; norm_num at hsize; exact hsize)
  have hnn : n' = n := by
    have hclose : |(n' : ℚ) - n| < 1 := by
      have := abs_sub_le (n' : ℚ) (val r * 10 ^ d) n
      norm_num at hd'
      linarith
    have h1 : |n' - n| < 1 := by exact_mod_cast hclose
    have h2 := Int.abs_lt_one_iff.1 h1
    omega
  rw [hr', he', hnn, ← he]

/-- Rounding twice: 2.675 is (as a double) less than 2.675, so 2.67 is nearer, but the result is 2.68. -/
theorem roundFrac_wrong : roundFrac (lit 100 1) (lit 2675 1000) = .ok (lit 268 100) ∧ val (lit 2675 1000) < 2675 / 1000 := by
  refine ⟨frac_2675.1, ?_⟩
  have h := frac_2675.2
  have hv := val_eq (lit 2675 1000)
  have h2 : ((units (lit 2675 1000) : Int) : ℚ) * 1000 < 2675 * ((one : Nat) : ℚ) := by exact_mod_cast h
  rw [one_cast, ← hv] at h2
  have hp : (0 : ℚ) < 2 ^ 1074 := by positivity
  rw [lt_div_iff₀ (by norm_num)]
  have h3 : (val (lit 2675 1000) * 1000) * 2 ^ 1074 < 2675 * 2 ^ 1074 := by
    rw [mul_right_comm]; exact h2
  exact lt_of_mul_lt_mul_right h3 hp.le

/-! ### machine epsilon -/

theorem epsLoop_mono (a : Nat) (e r : F64) (h : epsLoop a e = some r) (b : Nat) (hb : a ≤ b) : epsLoop b e = some r := by
  induction a generalizing e b with
  | zero => cases h
  | succ a ih =>
    obtain ⟨c, rfl⟩ : ∃ c, b = c + 1 := ⟨b - 1, by omega⟩
    simp only [epsLoop] at h ⊢
    split at h
    · rename_i hc
      rw [if_pos hc]
      exact ih _ h c (by omega)
    · rename_i hc
      rw [if_neg hc]
      exact h

/-- **C109 (epsilon).** The loop ends, with 2^-53; and this is the bound: adding a double up to it to 1 gives 1, adding any larger one
does not. -/
theorem epsilon_spec (fuel : Nat) (hfuel : 60 ≤ fuel) : ∃ e, doubleMaschineEpsilon fuel = some e ∧ e = lit 1 (2 ^ 53) ∧
    ∀ x : F64, Finite x → le zero x = true →
      (le x e = true → eq (lit 1 1 + x) (lit 1 1) = true) ∧ (lt e x = true → lt (lit 1 1) (lit 1 1 + x) = true) := by
  have hfu : doubleMaschineEpsilon fuel = some (lit 1 (2 ^ 53)) := by
    have h := eps_eq
    unfold doubleMaschineEpsilon at h ⊢
    cases e : epsLoop 60 (lit 1 1) with
    | none => rw [e] at h; cases h
    | some r => rw [epsLoop_mono 60 _ r e fuel hfuel]; rw [e] at h; exact h
  refine ⟨lit 1 (2 ^ 53), hfu, rfl, ?_⟩
  intro x hx h0
  have f1 := one_val.2
  have fz : Finite zero := by decide
  have uz : units zero = 0 := by decide
  rw [le_iff fz.ne_nan hx.ne_nan, uz] at h0
  have fe : Finite (lit 1 (2 ^ 53)) := by rw [eps_bits]; decide
  constructor
  · intro h
    rw [le_iff hx.ne_nan fe.ne_nan] at h
    rw [eq_iff (add_ne_nan f1 hx) f1.ne_nan]
    have a := add_mono f1 hx f1 fe (by omega)
    rw [tie_up] at a
    have b := le_add_of f1 hx f1.rep (by omega)
    omega
  · intro h
    rw [lt_iff fe.ne_nan hx.ne_nan] at h
    have fn : Finite (.num false 0x3CA0000000000001 (by decide)) := by decide
    have hs : units (.num false 0x3CA0000000000001 (by decide)) ≤ units x := by
      cases x with
      | nan => exact absurd rfl hx.ne_nan
      | num s b hb =>
        rw [eps_bits] at h
        simp only [units] at h h0 ⊢
        cases s with
        | true =>
          simp only [sgn] at h h0
          have : (0 : Int) ≤ (mag 0x3CA0000000000000 : Int) := Int.natCast_nonneg _
          simp only [if_true] at h
          rw [if_neg (by decide)] at h
          have : (0 : Int) ≤ (mag b : Int) := Int.natCast_nonneg _
          omega
        | false =>
          simp only [sgn, Bool.false_eq_true, if_false] at h ⊢
          have hlt : mag 0x3CA0000000000000 < mag b := by exact_mod_cast h
          have hb2 : 0x3CA0000000000000 < b := by
            by_contra hc
            have := mag_le (show b ≤ 0x3CA0000000000000 by omega)
            omega
          exact_mod_cast mag_le (show 0x3CA0000000000001 ≤ b by omega)
    have a := add_mono f1 fn f1 hx (by omega)
    have b := next_up
    rw [lt_iff f1.ne_nan (add_ne_nan f1 fn)] at b
    rw [lt_iff f1.ne_nan (add_ne_nan f1 hx)]
    omega

/-! ### cases that meet the hypotheses -/

example : Usual (lit 180 1) := by
  refine ⟨v180.2, ?_, ?_⟩
  · rw [v180.1, abs_of_pos (by norm_num)]
    exact le_trans (zpow_le_zpow_right₀ (by norm_num) (by decide : (-1000 : ℤ) ≤ 0)) (by norm_num)
  · rw [v180.1, abs_of_pos (by norm_num)]
    exact le_trans (by norm_num : (180 : ℚ) ≤ 2 ^ (8 : ℤ)) (zpow_le_zpow_right₀ (by norm_num) (by decide : (8 : ℤ) ≤ 1000))
example : Factor (lit 1000 1) 3 := by
  have := lit_int 1000 (by decide)
  exact ⟨this.1, by rw [this.2]; norm_num, by decide⟩
example : |val (lit 7 1) * 10 ^ 3| ≤ (2 : ℚ) ^ 49 := by
  rw [(lit_int 7 (by decide)).2]; norm_num

end Verif.Math.Fl
