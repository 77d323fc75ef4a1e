import Verif.Math.FpFrac
import Verif.Fp32.Rel
import Verif.Guess.Lemmas
import Verif.Xml.Typed
/-
C109, C56: the variants of Math.cpp for `float` (Math.cpp:64-71, 183-186, 226-233).
-/
namespace Verif.Math.Single
open Verif Verif.Fp32
open Verif.Guess (toDouble)
open Verif.Xml (toFloat)

/-- Math.cpp:64-71; `factor` is the result of `std::pow(10, digits)`, a `double`, so that the product and the quotient are computed in
`double` too -/
def roundFrac (factor : Fp.F64) (f : F32) : Res F32 := do
  let n ← Fl.round (toDouble f * factor)
  return toFloat (Fp.ofInt n / factor)

/-- Math.cpp:183-186 -/
def interpolate (b e p : F32) : F32 := b + p * (e - b)

/-- Math.cpp:230, the loop; `none` if it does not end within `fuel` steps -/
def epsLoop : Nat → F32 → Option F32
  | 0, _ => none
  | fuel + 1, epsilon =>
    if eq (lit 1 1 + lit 1 2 * epsilon) (lit 1 1) = false then epsLoop fuel (lit 1 2 * epsilon) else some epsilon

/-- Math.cpp:226-233; the quotient by the `double` 2.0 is exact (`toFloat` of it gives the same as division in `float`) -/
def floatMaschineEpsilon (fuel : Nat) : Option F32 := (epsLoop fuel (lit 1 1)).map (fun e => toFloat (toDouble e / Fp.lit 2 1))

/-! ### facts about numbers -/

theorem eps_eq : floatMaschineEpsilon 30 = some (lit 1 (2 ^ 24)) := by decide +kernel
theorem tie_up : lit 1 1 + lit 1 (2 ^ 24) = lit 1 1 := by decide +kernel
theorem next_up : lt (lit 1 1) (lit 1 1 + .num false 0x33800001 (by decide)) = true := by decide +kernel
theorem eps_bits : lit 1 (2 ^ 24) = .num false 0x33800000 (by decide) := by decide +kernel

theorem frac_example : roundFrac (Fp.lit 100 1) (lit 2675 1000) = .ok (lit 267 100) ∧
    roundFrac (Fp.lit 1000 1) (lit (-314159) 100000) = .ok (lit (-3142) 1000) := by decide +kernel

/-- the end value is not reached -/
theorem interpolate_end : ∃ b e : F32, Finite b ∧ Finite e ∧ eq (interpolate b e (lit 1 1)) e = false :=
  ⟨lit 1 1, lit 1 10000, by decide +kernel, by decide +kernel, by decide +kernel⟩

attribute [local irreducible] Fp.lit Fp.ofInt Fp32.lit

/-! ### conversion -/

theorem toFloat_rounds {y : Fp.F64} (hy : Fp.Finite y) : Rounds (toFloat y) (Fp.val y) := by
  cases y with
  | nan => exact absurd hy (by simp [Fp.Finite])
  | num s b hb =>
    have hlt : b < Fp.infBits := hy
    simp only [toFloat]
    rw [if_neg (by omega)]
    refine ⟨s, _, 2 ^ 925, rfl, Nat.two_pow_pos _, ?_⟩
    have := Fp.val_eq (.num s b hb)
    have hu : Fp.units (.num s b hb) = Fp.sgn s (Fp.mag b) := rfl
    rw [hu] at this
    rw [← this]
    push_cast
    rw [← pow_add]

/-! ### interpolation -/

theorem units_mul_zero {p e : F32} (hp : Finite p) (he : Finite e) (h : val p = 0) : Finite (p * e) ∧ val (p * e) = 0 := by
  have hr := mul_rounds hp he
  rw [h, zero_mul] at hr
  have := hr.exact (by have := Rp.int 0 (by decide); simpa using this)
  exact this

/-- **C56 (interpolation of `float`).** With the fraction 0 it gives the begin value; a larger fraction never gives a smaller value when
the end is not below the begin.  Missing: the end value is not hit exactly (`interpolate_end`). -/
theorem interpolate_partial (b e : F32) (hb : Finite b) (hd : Finite (e - b)) :
    (∀ p, Finite p → val p = 0 → Finite (interpolate b e p) ∧ val (interpolate b e p) = val b) ∧
    (0 ≤ val (e - b) → ∀ p q, Finite p → Finite q → val p ≤ val q → Finite (p * (e - b)) → Finite (q * (e - b)) →
      val (interpolate b e p) ≤ val (interpolate b e q)) := by
  constructor
  · intro p hp h0
    obtain ⟨h1, h2⟩ := units_mul_zero hp hd h0
    have hr := add_rounds hb h1
    rw [h2, add_zero] at hr
    exact hr.exact (Rp.of b hb)
  · intro h0 p q hp hq hle fp fq
    have m := (mul_rounds hp hd).mono (mul_rounds hq hd) (mul_le_mul_of_nonneg_right hle h0)
    exact (add_rounds hb fp).mono (add_rounds hb fq) (by linarith)

/-! ### rounding to decimal places -/

/-- the factor for `d` decimal places; up to 12 places it fits 28 bits times a power of two -/
structure Factor (factor : Fp.F64) (d : Nat) : Prop where
  fin : Fp.Finite factor
  val : Fp.val factor = 10 ^ d
  le : d ≤ 12

/-- a finite `float` is an integer of 24 bits times a power of two -/
theorem float_form {f : F32} (hf : Finite f) : ∃ (m : Int) (e : Nat), m.natAbs ≤ 2 ^ 24 ∧ e ≤ 253 ∧ val f * 2 ^ 149 = m * 2 ^ e := by
  obtain ⟨e, q, h1, h2, h3⟩ := rep_bits hf.rep
  have hv := val_eq f
  rcases Int.natAbs_eq (units f) with h | h
  · exact ⟨q, e, by simp; omega, by omega, by rw [hv, h, h1]; push_cast; rfl⟩
  · exact ⟨-q, e, by simp; omega, by omega, by rw [hv, h, h1]; push_cast; ring⟩

/-- the product of a `float` and a factor: an integer of at most 52 bits times a power of two, hence exact in `double` -/
theorem product {factor : Fp.F64} {d : Nat} {f : F32} (hF : Factor factor d) (hf : Finite f) :
    Fp.Finite (toDouble f * factor) ∧ Fp.val (toDouble f * factor) = val f * 10 ^ d ∧
      ∃ (M : Int) (e : Nat), M.natAbs < 2 ^ 52 ∧ val f * 10 ^ d * 2 ^ 149 = M * 2 ^ e := by
  obtain ⟨fd, vd⟩ := Guess.toDouble_val hf
  obtain ⟨m, e, hm, he, hv⟩ := float_form hf
  have h5 : 5 ^ d ≤ 5 ^ 12 := Nat.pow_le_pow_right (by decide) hF.le
  have hM : (m * 5 ^ d).natAbs < 2 ^ 52 := by
    rw [Int.natAbs_mul, Int.natAbs_pow]
    calc m.natAbs * 5 ^ d ≤ 2 ^ 24 * 5 ^ 12 := Nat.mul_le_mul hm h5
      _ < 2 ^ 52 := by norm_num
  have hv2 : val f * 10 ^ d * 2 ^ 149 = ((m * 5 ^ d : Int) : ℚ) * 2 ^ (e + d) := by
    rw [show (10 : ℚ) = 5 * 2 by norm_num, mul_pow, pow_add]
    push_cast
    calc val f * (5 ^ d * 2 ^ d) * 2 ^ 149 = (val f * 2 ^ 149) * (5 ^ d * 2 ^ d) := by ring
      _ = _ := by rw [hv]; ring
  have hr := Fp.mul_rounds fd hF.fin
  rw [vd, hF.val] at hr
  have hp : Fp.Rp (val f * 10 ^ d) := by
    have hle := hF.le
    have h := Fp.Rp.zgrid (m * 5 ^ d) ((e + d : Nat) - 149 : Int) (by omega) (by omega) (by omega)
    have e1 : ((m * 5 ^ d : Int) : ℚ) * 2 ^ ((e + d : Nat) - 149 : Int) = val f * 10 ^ d := by
      rw [zpow_sub₀ (by norm_num), zpow_natCast, show ((2 : ℚ) ^ (149 : Int)) = 2 ^ 149 from by norm_cast, ← mul_div_assoc,
        ← hv2, mul_div_assoc, div_self (by positivity), mul_one]
    rwa [e1] at h
  obtain ⟨fin, hval⟩ := hr.exact hp
  exact ⟨fin, hval, m * 5 ^ d, e + d, hM, hv2⟩

/-- the integer chosen is right without exception -/
theorem chosen {factor : Fp.F64} {d : Nat} {f : F32} (hF : Factor factor d) (hf : Finite f) (h : |val f * 10 ^ d| < 2 ^ 63) :
    ∃ n, Fl.round (toDouble f * factor) = .ok n ∧ Fl.IsRounded (val f * 10 ^ d) n := by
  obtain ⟨fp, vp, M, e, hM, hv⟩ := product hF hf
  have key : ∀ (a : Int) (k : Nat), val f * 10 ^ d * 2 ^ k = a → k ≤ 149 → a * 2 ^ (149 - k) = M * 2 ^ e := by
    intro a k ha hk
    have : ((a : ℚ)) * 2 ^ (149 - k) = M * 2 ^ e := by
      rw [← ha, ← hv, mul_assoc, ← pow_add]
      congr 2
      omega
    exact_mod_cast this
  have := Fl.round_fp_partial (toDouble f * factor) fp (by rw [vp]; exact h) ?_ ?_
  · rw [vp] at this; exact this
  · -- an odd number of 53 bits is no such product
    rw [vp]
    intro hh
    obtain ⟨a, ha, hav⟩ : ∃ a : Int, a.natAbs = 2 ^ 53 - 1 ∧ val f * 10 ^ d * 2 ^ 54 = a := by
      rcases abs_choice (val f * 10 ^ d) with h | h
      · rw [h] at hh; exact ⟨2 ^ 53 - 1, by decide, by rw [hh]; norm_num⟩
      · rw [h] at hh
        refine ⟨-(2 ^ 53 - 1), by decide, ?_⟩
        have : val f * 10 ^ d = -(1 / 2 - 1 / 2 ^ 54) := by linarith
        rw [this]; norm_num
    have hk := key a 54 hav (by decide)
    have hn := congrArg Int.natAbs hk
    rw [Int.natAbs_mul, Int.natAbs_mul, Int.natAbs_pow, Int.natAbs_pow, ha] at hn
    rcases Nat.lt_or_ge e 96 with h2 | h2
    · have : M.natAbs * (2 : Int).natAbs ^ e < 2 ^ 52 * 2 ^ 95 := by
        calc M.natAbs * 2 ^ e ≤ M.natAbs * 2 ^ 95 := Nat.mul_le_mul_left _ (Nat.pow_le_pow_right (by decide) (by omega))
          _ < _ := Nat.mul_lt_mul_of_pos_right hM (Nat.two_pow_pos _)
      rw [← hn] at this
      norm_num at this
    · obtain ⟨k, rfl⟩ : ∃ k, e = 95 + (k + 1) := ⟨e - 96, by omega⟩
      have h4 : (2 ^ 53 - 1 : Nat) * 2 ^ 95 = (M.natAbs * 2 ^ (k + 1)) * 2 ^ 95 := by
        calc (2 ^ 53 - 1 : Nat) * 2 ^ 95 = M.natAbs * 2 ^ (95 + (k + 1)) := hn
          _ = _ := by rw [pow_add]; ring
      have h5 := Nat.eq_of_mul_eq_mul_right (Nat.two_pow_pos _) h4
      rw [Nat.pow_succ 2 k, ← Nat.mul_assoc] at h5
      generalize M.natAbs * 2 ^ k = z at h5
      omega
  · intro a ha h1 h2
    rw [vp] at ha
    have hk := key a 0 (by rw [ha]; simp) (by decide)
    rcases Nat.lt_or_ge e 150 with h3 | h3
    · exfalso
      have hn := congrArg Int.natAbs hk
      rw [Int.natAbs_mul, Int.natAbs_mul, Int.natAbs_pow, Int.natAbs_pow] at hn
      have h4 : M.natAbs * (2 : Int).natAbs ^ e < 2 ^ 52 * 2 ^ 149 := by
        calc M.natAbs * 2 ^ e ≤ M.natAbs * 2 ^ 149 := Nat.mul_le_mul_left _ (Nat.pow_le_pow_right (by decide) (by omega))
          _ < _ := Nat.mul_lt_mul_of_pos_right hM (Nat.two_pow_pos _)
      rw [← hn] at h4
      have h5 : a.natAbs < 2 ^ 52 := Nat.lt_of_mul_lt_mul_right h4
      have h6 : |a| < 2 ^ 52 := by rw [Int.abs_eq_natAbs]; exact_mod_cast h5
      exact absurd h1 (not_lt.2 h6.le)
    · obtain ⟨k, rfl⟩ : ∃ k, e = 149 + (k + 1) := ⟨e - 150, by omega⟩
      have h4 : a * 2 ^ 149 = (M * 2 ^ (k + 1)) * 2 ^ 149 := by
        calc a * 2 ^ 149 = M * 2 ^ (149 + (k + 1)) := hk
          _ = _ := by rw [pow_add]; ring
      have h5 := Int.eq_of_mul_eq_mul_right (by positivity) h4
      rw [h5, pow_succ, ← mul_assoc]
      omega

/-- relative error of the two roundings of the quotient -/
def err : ℚ := 1 / 2 ^ 24 + 1 / 2 ^ 52

/-- the integer chosen is a `double` -/
theorem chosen_val {factor : Fp.F64} {d : Nat} {f : F32} (hF : Factor factor d) (hf : Finite f) (h : |val f * 10 ^ d| < 2 ^ 63)
    {n : Int} (hn : Fl.IsRounded (val f * 10 ^ d) n) : Fp.Finite (Fp.ofInt n) ∧ Fp.val (Fp.ofInt n) = n := by
  rcases Nat.lt_or_ge (2 ^ 53) n.natAbs with hb | hb
  · -- the product is an integer
    obtain ⟨fp, vp, M, e, hM, hv⟩ := product hF hf
    have hint : ∃ z : Int, val f * 10 ^ d = z := by
      rcases Nat.lt_or_ge e 149 with h3 | h3
      · exfalso
        have h4 : |val f * 10 ^ d| * 2 ^ 149 ≤ 2 ^ 52 * 2 ^ 149 := by
          have e1 : |val f * 10 ^ d| * 2 ^ 149 = |(M : ℚ)| * 2 ^ e := by
            rw [← abs_of_pos (show (0 : ℚ) < 2 ^ 149 by positivity), ← abs_mul, hv, abs_mul, abs_of_pos (show (0 : ℚ) < 2 ^ e by positivity)]
          rw [e1]
          have h5 : |(M : ℚ)| ≤ 2 ^ 52 := by
            have : |M| ≤ 2 ^ 52 := by rw [Int.abs_eq_natAbs]; exact_mod_cast hM.le
            exact_mod_cast this
          exact mul_le_mul h5 (pow_le_pow_right₀ (by norm_num) h3.le) (by positivity) (by positivity)
        have h5 := le_of_mul_le_mul_right h4 (by positivity : (0 : ℚ) < 2 ^ 149)
        have h6 := abs_sub_abs_le_abs_sub (n : ℚ) (val f * 10 ^ d)
        rw [abs_sub_comm] at h6
        have h7 := hn.1
        have h8 : (2 : ℚ) ^ 53 < |(n : ℚ)| := by
          have : (2 : Int) ^ 53 < |n| := by rw [Int.abs_eq_natAbs]; exact_mod_cast hb
          exact_mod_cast this
        have h9 : (2 : ℚ) ^ 53 = 2 * 2 ^ 52 := by norm_num
        have h10 : (1 : ℚ) ≤ 2 ^ 52 := by norm_num
        linarith
      · obtain ⟨k, rfl⟩ : ∃ k, e = k + 149 := ⟨e - 149, by omega⟩
        refine ⟨M * 2 ^ k, ?_⟩
        have hp : (2 : ℚ) ^ 149 ≠ 0 := by positivity
        refine mul_right_cancel₀ hp ?_
        rw [hv, pow_add]; push_cast; ring
    obtain ⟨z, hz⟩ := hint
    have hzn : z = n := by
      have h1 := hn.1
      rw [hz] at h1
      have h2 : |((z - n : Int) : ℚ)| < 1 := by push_cast; linarith
      have h3 : |z - n| < 1 := by exact_mod_cast h2
      have := Int.abs_lt_one_iff.1 h3
      omega
    have hr := Fp.lit_rounds n 1 (by decide)
    have hp : Fp.Rp ((n : ℚ) / ((1 : Nat) : ℚ)) := by
      rw [Nat.cast_one, div_one, ← hzn, ← hz, ← vp]
      exact Fp.Rp.of _ fp
    have := hr.exact hp
    rw [Nat.cast_one, div_one] at this
    rw [Guess.ofInt64]
    exact this
  · rw [Guess.ofInt64]
    exact Fp.lit_int n hb

/-- **C109 (decimal places, `float`).** Up to 12 places the integer of the last place is always the nearest one, halves away from zero
(for `double` this is false, `Fl.roundFrac_wrong`); the result is the `float` nearest to the `double` nearest to the quotient, and the
quotient up to the error of the two roundings.  Missing: a product of 2^63 or more (`frac_ub`). -/
theorem roundFrac_spec_partial (factor : Fp.F64) (f : F32) (d : Nat) (hF : Factor factor d) (hf : Finite f)
    (h : |val f * 10 ^ d| < 2 ^ 63) :
    ∃ (n : Int) (r : F32), roundFrac factor f = .ok r ∧ Fl.IsRounded (val f * 10 ^ d) n ∧ Finite r ∧
      |val r - n / 10 ^ d| ≤ err * |(n : ℚ) / 10 ^ d| ∧ Fl.round (toDouble f * factor) = .ok n ∧
      r = toFloat (Fp.ofInt n / factor) := by
  obtain ⟨n, hn, hr⟩ := chosen hF hf h
  obtain ⟨fi, vi⟩ := chosen_val hF hf h hr
  have hp : (0 : ℚ) < 10 ^ d := by positivity
  have hdv := Fp.div_rounds fi hF.fin (by rw [hF.val]; exact hp.ne')
  rw [vi, hF.val] at hdv
  refine ⟨n, toFloat (Fp.ofInt n / factor), by simp only [roundFrac, hn]; rfl, hr, ?_⟩
  by_cases h0 : n = 0
  · have hz : (n : ℚ) / 10 ^ d = 0 := by rw [h0]; simp
    obtain ⟨f1, v1⟩ := Fl.exact_zero hdv hz
    have hr2 := toFloat_rounds f1
    rw [v1] at hr2
    obtain ⟨f2, v2⟩ := hr2.exact (by have := Rp.int 0 (by decide); simpa using this)
    refine ⟨f2, ?_, hn, rfl⟩
    rw [v2, hz]; simp
  · have h1 : (1 : ℚ) ≤ |(n : ℚ)| := by
      have : (1 : Int) ≤ |n| := Int.one_le_abs h0
      exact_mod_cast this
    have hn64 : |(n : ℚ)| ≤ 2 ^ 64 := by
      have := abs_sub_abs_le_abs_sub (n : ℚ) (val f * 10 ^ d)
      rw [abs_sub_comm] at this
      have h2 := hr.1
      have e : (2 : ℚ) ^ 63 + 1 / 2 ≤ 2 ^ 64 := by norm_num
      linarith
    have hq : |(n : ℚ) / 10 ^ d| = |(n : ℚ)| / 10 ^ d := by rw [abs_div, abs_of_pos hp]
    have hone : (1 : ℚ) ≤ 10 ^ d := one_le_pow₀ (by norm_num)
    have hL : (2 : ℚ) ^ (-40 : ℤ) ≤ |(n : ℚ) / 10 ^ d| := by
      rw [hq, le_div_iff₀ hp]
      have : (10 : ℚ) ^ d ≤ 10 ^ 12 := pow_le_pow_right₀ (by norm_num) hF.le
      calc (2 : ℚ) ^ (-40 : ℤ) * 10 ^ d ≤ 2 ^ (-40 : ℤ) * 10 ^ 12 := mul_le_mul_of_nonneg_left this (by positivity)
        _ ≤ 1 := by norm_num
        _ ≤ _ := h1
    have hN : |(n : ℚ) / 10 ^ d| ≤ 2 ^ (64 : ℤ) := by
      rw [hq]
      exact le_trans (div_le_self (abs_nonneg _) hone) hn64
    obtain ⟨f1, r1⟩ := hdv.rel (-40) 64 (by decide) (by decide) hL hN
    obtain ⟨q, hqd⟩ : ∃ q : ℚ, q = (n : ℚ) / 10 ^ d := ⟨_, rfl⟩
    obtain ⟨v, hvd⟩ : ∃ v : ℚ, v = Fp.val (Fp.ofInt n / factor) := ⟨_, rfl⟩
    have hr2 := toFloat_rounds f1
    rw [← hqd] at hL hN r1 ⊢
    rw [← hvd] at r1 hr2
    have hq0 : 0 ≤ |q| := abs_nonneg _
    have b1 := abs_sub_abs_le_abs_sub v q
    have b2 := abs_sub_abs_le_abs_sub q v
    rw [abs_sub_comm q v] at b2
    have e53 : |q| / 2 ^ 53 ≤ |q| / 2 := div_le_div_of_nonneg_left hq0 (by norm_num) (by norm_num)
    obtain ⟨f2, r2⟩ := hr2.rel (-41) 65 (by decide) (by decide)
      (by
        have h40 : (2 : ℚ) ^ (-41 : ℤ) = 2 ^ (-40 : ℤ) / 2 := by norm_num
        rw [h40]
        have hv1 : |q| / 2 ≤ |v| := by linarith
        exact le_trans (div_le_div_of_nonneg_right hL (by norm_num)) hv1)
      (by
        have h65 : (2 : ℚ) ^ (65 : ℤ) = 2 * 2 ^ (64 : ℤ) := by norm_num
        rw [h65]
        have hv1 : |v| ≤ 2 * |q| := by linarith
        exact le_trans hv1 (mul_le_mul_of_nonneg_left hN (by norm_num)))
    refine ⟨f2, ?_, hn, rfl⟩
    have t := abs_sub_le (val (toFloat (Fp.ofInt n / factor))) v q
    have hv2 : |v| ≤ |q| + |q| / 2 ^ 53 := by linarith
    have hv3 : |v| / 2 ^ 24 ≤ (|q| + |q| / 2 ^ 53) / 2 ^ 24 := div_le_div_of_nonneg_right hv2 (by positivity)
    have e1 : (|q| + |q| / 2 ^ 53) / 2 ^ 24 + |q| / 2 ^ 53 ≤ err * |q| := by
      unfold err
      have : (|q| + |q| / 2 ^ 53) / 2 ^ 24 + |q| / 2 ^ 53 = (1 / 2 ^ 24 + 1 / 2 ^ 53 / 2 ^ 24 + 1 / 2 ^ 53) * |q| := by ring
      rw [this]
      exact mul_le_mul_of_nonneg_right (by norm_num) hq0
    linarith

/-- **C109 (idempotent, `float`).** What is rounded already stays as it is, to the last bit. -/
theorem roundFrac_idem_partial (factor : Fp.F64) (f : F32) (d : Nat) (hF : Factor factor d) (hf : Finite f)
    (h : |val f * 10 ^ d| ≤ 2 ^ 22) : ∃ r, roundFrac factor f = .ok r ∧ roundFrac factor r = .ok r := by
  obtain ⟨n, r, hr, hi, hfi, he, _, hre⟩ := roundFrac_spec_partial factor f d hF hf (lt_of_le_of_lt h (by norm_num))
  refine ⟨r, hr, ?_⟩
  have hp : (0 : ℚ) < 10 ^ d := by positivity
  have hn : |(n : ℚ)| ≤ 2 ^ 22 + 1 / 2 := by
    have := abs_sub_abs_le_abs_sub (n : ℚ) (val f * 10 ^ d)
    rw [abs_sub_comm] at this
    have h2 := hi.1
    linarith
  have hback : |val r * 10 ^ d - n| ≤ 3 / 8 := by
    have e1 : val r * 10 ^ d - n = (val r - n / 10 ^ d) * 10 ^ d := by field_simp
    rw [e1, abs_mul, abs_of_pos hp]
    calc |val r - n / 10 ^ d| * 10 ^ d ≤ err * |(n : ℚ) / 10 ^ d| * 10 ^ d := mul_le_mul_of_nonneg_right he hp.le
      _ = err * |(n : ℚ)| := by rw [abs_div, abs_of_pos hp]; field_simp
      _ ≤ err * (2 ^ 22 + 1 / 2) := mul_le_mul_of_nonneg_left hn (by unfold err; positivity)
      _ ≤ 3 / 8 := by unfold err; norm_num
  have hsize : |val r * 10 ^ d| < 2 ^ 63 := by
    have := abs_sub_abs_le_abs_sub (val r * 10 ^ d) (n : ℚ)
    have e : (2 : ℚ) ^ 22 + 1 / 2 + 3 / 8 < 2 ^ 63 := by norm_num
    linarith
  obtain ⟨n', r', hr', hi', _, _, _, hre'⟩ := roundFrac_spec_partial factor r d hF hfi hsize
  have hnn : n' = n := by
    have h1 := hi'.1
    have hclose : |(n' : ℚ) - n| < 1 := by
      have := abs_sub_le (n' : ℚ) (val r * 10 ^ d) n
      rw [abs_sub_comm (n' : ℚ) (val r * 10 ^ d)] at this
      linarith
    have h1 : |n' - n| < 1 := by exact_mod_cast hclose
    have h2 := Int.abs_lt_one_iff.1 h1
    omega
  rw [hr', hre', hnn, ← hre]

/-- products from 2^63 on: the conversion to `int64` is undefined behaviour -/
theorem frac_ub : roundFrac (Fp.lit (10 ^ 10) 1) (Fp32.lit (10 ^ 9) 1) = .error .ub := by
  unfold Fp.lit Fp32.lit
  decide +kernel

/-! ### machine epsilon -/

theorem epsLoop_mono (a : Nat) (e r : F32) (h : epsLoop a e = some r) (b : Nat) (hb : a ≤ b) : epsLoop b e = some r := by
  induction a generalizing e b with
  | zero => cases h
  | succ a ih =>
    obtain ⟨c, rfl⟩ : ∃ c, b = c + 1 := ⟨b - 1, by omega⟩
    simp only [epsLoop] at h ⊢
    split at h
    · rename_i hc
      rw [if_pos hc]
      exact ih _ h c (by omega)
    · rename_i hc
      rw [if_neg hc]
      exact h

/-- **C109 (epsilon, `float`).** The loop ends, with 2^-24; and this is the bound: adding a `float` up to it to 1 gives 1, adding any
larger one does not. -/
theorem epsilon_spec (fuel : Nat) (hfuel : 30 ≤ fuel) : ∃ e, floatMaschineEpsilon fuel = some e ∧ e = lit 1 (2 ^ 24) ∧
    ∀ x : F32, Finite x → le zero x = true →
      (le x e = true → eq (lit 1 1 + x) (lit 1 1) = true) ∧ (lt e x = true → lt (lit 1 1) (lit 1 1 + x) = true) := by
  have hfu : floatMaschineEpsilon fuel = some (lit 1 (2 ^ 24)) := by
    have h := eps_eq
    unfold floatMaschineEpsilon at h ⊢
    cases e : epsLoop 30 (lit 1 1) with
    | none => rw [e] at h; cases h
    | some r => rw [epsLoop_mono 30 _ r e fuel hfuel]; rw [e] at h; exact h
  refine ⟨lit 1 (2 ^ 24), hfu, rfl, ?_⟩
  intro x hx h0
  have f1 : Finite (lit 1 1) := (lit_int 1 (by decide)).1
  have fz : Finite zero := by decide
  have uz : units zero = 0 := by decide
  rw [le_iff fz.ne_nan hx.ne_nan, uz] at h0
  have fe : Finite (lit 1 (2 ^ 24)) := by rw [eps_bits]; decide
  constructor
  · intro h
    rw [le_iff hx.ne_nan fe.ne_nan] at h
    rw [eq_iff (add_ne_nan f1 hx) f1.ne_nan]
    have a := add_mono f1 hx f1 fe (by omega)
    rw [tie_up] at a
    have b := le_add_of f1 hx f1.rep (by omega)
    omega
  · intro h
    rw [lt_iff fe.ne_nan hx.ne_nan] at h
    have fn : Finite (.num false 0x33800001 (by decide)) := by decide
    have hs : units (.num false 0x33800001 (by decide)) ≤ units x := by
      cases x with
      | nan => exact absurd rfl hx.ne_nan
      | num s b hb =>
        rw [eps_bits] at h
        simp only [units] at h h0 ⊢
        cases s with
        | true =>
          simp only [sgn] at h h0
          have : (0 : Int) ≤ (mag 0x33800000 : Int) := Int.natCast_nonneg _
          simp only [if_true] at h
          rw [if_neg (by decide)] at h
          have : (0 : Int) ≤ (mag b : Int) := Int.natCast_nonneg _
          omega
        | false =>
          simp only [sgn, Bool.false_eq_true, if_false] at h ⊢
          have hlt : mag 0x33800000 < mag b := by exact_mod_cast h
          have hb2 : 0x33800000 < b := by
            by_contra hc
            have := mag_le (show b ≤ 0x33800000 by omega)
            omega
          exact_mod_cast mag_le (show 0x33800001 ≤ b by omega)
    have a := add_mono f1 fn f1 hx (by omega)
    have b := next_up
    rw [lt_iff f1.ne_nan (add_ne_nan f1 fn)] at b
    rw [lt_iff f1.ne_nan (add_ne_nan f1 hx)]
    omega

/-! ### cases that meet the hypotheses -/

theorem factor_1000 : Factor (Fp.lit 1000 1) 3 := by
  have := Fp.lit_int 1000 (by decide)
  exact ⟨this.1, by rw [this.2]; norm_num, by decide⟩
example : |val (lit 7 1) * 10 ^ 3| ≤ (2 : ℚ) ^ 22 := by
  rw [(lit_int 7 (by decide)).2]; norm_num

end Verif.Math.Single
