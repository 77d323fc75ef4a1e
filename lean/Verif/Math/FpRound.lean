import Verif.Math.FpModel
import Verif.Fp.Mono
/-
Lemmas for `jm::round(double)` (C56).
-/
namespace Verif.Math.Fl
open Verif Verif.Fp

/-- half in units -/
def half : Nat := 2 ^ 1073

theorem one_eq : one = 2 * half := by
  unfold one half
  rw [← Nat.pow_succ']

theorem half_pos : 0 < half := Nat.two_pow_pos _

theorem lit_half : lit 1 2 = .num false 0x3FE0000000000000 (by decide) := by decide +kernel
theorem finite_half : Finite (lit 1 2) := by decide +kernel
theorem units_half : units (lit 1 2) = half := by decide +kernel

theorem one_pos' : 0 < one := Nat.two_pow_pos _
theorem units_zero : units zero = 0 := by decide +kernel
theorem zero_ne_nan : zero ≠ .nan := by decide
theorem two53_one : 2 ^ 53 * one = 2 ^ (1074 + 53) := by decide +kernel
theorem two52_one : 2 ^ 52 * one = 2 ^ (1073 + 53) := by decide +kernel
theorem two53_1021 : 2 ^ 53 * 2 ^ 1021 = one := by decide +kernel
theorem one_def : one = 2 ^ 1074 := rfl
theorem half_def : half = 2 ^ 1073 := rfl

attribute [local irreducible] one half lit zero

theorem toIntRange_finite (lo hi : Int) (x : F64) (h : Finite x) :
    toIntRange lo hi x = if lo ≤ Int.tdiv (units x) one ∧ Int.tdiv (units x) one ≤ hi then
      .ok (Int.tdiv (units x) one) else .error .ub := by
  cases x with
  | nan => exact absurd h id
  | num s b hb =>
    have h' : b < infBits := h
    simp only [toIntRange, units]
    rw [if_neg (by omega)]
    rfl

/-- integral parts of finite doubles are doubles -/
theorem rep_trunc (b : Nat) (hb : b < infBits) : Rep ((mag b / one : Nat) * (one : Int)) := by
  by_cases h : mag b < 2 ^ (1074 + 53)
  · have hq : mag b / one ≤ 2 ^ 53 := by
      rw [← two53_one] at h
      exact Nat.le_of_lt ((Nat.div_lt_iff_lt_mul one_pos').2 h)
    exact rep_int _ (by rw [Int.natAbs_natCast]; exact hq)
  · have he := expo_gt (b := b) 1074 (by omega)
    have hd : one ∣ mag b := by
      rw [one_def]; unfold mag
      exact Dvd.dvd.mul_left (Nat.pow_dvd_pow 2 (Nat.le_of_lt he)) _
    refine ⟨b, hb, ?_⟩
    rw [← Int.natCast_mul, Int.natAbs_natCast, Nat.div_mul_cancel hd]

/-- the integer part of a nonnegative double, converted -/
theorem floor_conv (x : F64) (b : Nat) (hb : b < infBits) (hx : Finite x) (h : units x = mag b) :
    Finite (floor x) ∧ units (floor x) = (mag b / one : Nat) * (one : Int) := by
  cases x with
  | nan => exact absurd hx id
  | num s c hc =>
    have h' : c < infBits := hx
    simp only [units] at h
    simp only [floor]
    rw [if_neg (by omega), h]
    have e : Int.fdiv (mag b : Int) one = ((mag b / one : Nat) : Int) := by
      rw [Int.fdiv_eq_ediv_of_nonneg _ (by omega)]; exact (Int.natCast_ediv _ _).symm
    rw [e]
    have hr := rep_trunc b hb
    have hu := units_ofUnits_exact1 s _ hr
    exact ⟨finite_ofUnits (by rw [hu]; exact hr), hu⟩

theorem ceil_conv (x : F64) (b : Nat) (hb : b < infBits) (hx : Finite x) (h : units x = -(mag b : Int)) :
    Finite (ceil x) ∧ units (ceil x) = -((mag b / one : Nat) * (one : Int)) := by
  cases x with
  | nan => exact absurd hx id
  | num s c hc =>
    have h' : c < infBits := hx
    simp only [units] at h
    simp only [ceil]
    rw [if_neg (by omega), h, Int.neg_neg]
    have e : Int.fdiv (mag b : Int) one = ((mag b / one : Nat) : Int) := by
      rw [Int.fdiv_eq_ediv_of_nonneg _ (by omega)]; exact (Int.natCast_ediv _ _).symm
    rw [e, Int.neg_mul]
    have hr := (rep_trunc b hb).neg
    have hu := units_ofUnits_exact1 s _ hr
    exact ⟨finite_ofUnits (by rw [hu]; exact hr), hu⟩

theorem tdiv_mul_one (n : Int) : Int.tdiv (n * one) one = n :=
  Int.mul_tdiv_cancel _ (by have := one_pos; omega)

theorem sgn_false (m : Nat) : sgn false m = m := rfl
theorem sgn_true (m : Nat) : sgn true m = -(m : Int) := rfl

/-- the bits of `|x| + 0.5` -/
def upBits (x : F64) : Nat := roundBits ((units x).natAbs + half) 1

theorem lt_zero_iff (x : F64) (h : Finite x) : lt zero x = true ↔ 0 < units x := by
  rw [lt_iff zero_ne_nan h.ne_nan, units_zero]

/-- `round` rounds `|x| + 0.5` down and puts the sign back -/
theorem round_eq (x : F64) (hx : Finite x) (hB : upBits x < infBits) :
    let n : Int := if 0 < units x then (mag (upBits x) / one : Nat) else -((mag (upBits x) / one : Nat) : Int)
    round x = if -(2 ^ 63) ≤ n ∧ n ≤ 2 ^ 63 - 1 then .ok n else .error .ub := by
  intro n
  unfold round toInt64
  by_cases hp : 0 < units x
  · rw [if_pos ((lt_zero_iff x hx).2 hp)]
    obtain ⟨s, e⟩ := add_finite hx finite_half
    have hu : units (x + lit 1 2) = mag (upBits x) := by
      rw [e, units_ofUnits, units_half]
      have n1 : (units x + (half : Int)).natAbs = (units x).natAbs + half := by omega
      have n2 : decide (units x + (half : Int) < 0) = false := by rw [decide_eq_false_iff_not]; omega
      rw [n1, n2, ← upBits, sgn_false, Nat.min_eq_left (Nat.le_of_lt hB)]
    have hf : Finite (x + lit 1 2) := by
      rw [e]; exact finite_ofUnits (by rw [← e, hu]; exact ⟨_, hB, (Int.natAbs_natCast _).symm⟩)
    obtain ⟨f1, f2⟩ := floor_conv _ _ hB hf hu
    rw [toIntRange_finite _ _ _ f1, f2, tdiv_mul_one]
    have : n = ((mag (upBits x) / one : Nat) : Int) := if_pos hp
    rw [this]
  · have hz : lt zero x = false := by rw [← Bool.not_eq_true, lt_zero_iff x hx]; exact hp
    rw [hz]; simp only [Bool.false_eq_true, if_false]
    obtain ⟨s, e⟩ := sub_finite hx finite_half
    have hu : units (x - lit 1 2) = -(mag (upBits x) : Int) := by
      have h0 := half_pos
      rw [e, units_ofUnits, units_half]
      have n1 : (units x - (half : Int)).natAbs = (units x).natAbs + half := by omega
      have n2 : decide (units x - (half : Int) < 0) = true := by rw [decide_eq_true_eq]; omega
      rw [n1, n2, ← upBits, sgn_true, Nat.min_eq_left (Nat.le_of_lt hB)]
    have hf : Finite (x - lit 1 2) := by
      rw [e]; exact finite_ofUnits (by rw [← e, hu]; exact Rep.neg ⟨_, hB, (Int.natAbs_natCast _).symm⟩)
    obtain ⟨f1, f2⟩ := ceil_conv _ _ hB hf hu
    rw [toIntRange_finite _ _ _ f1, f2]
    have : n = -((mag (upBits x) / one : Nat) : Int) := if_neg hp
    rw [this, ← Int.neg_mul, tdiv_mul_one]

/-! ### when the addition of 0.5 does not cross an integer -/

theorem up_lower (X : Nat) (hX : X < 2 ^ 53 * one) :
    one * ((X + half) / one) ≤ mag (roundBits (X + half) 1) := by
  have hr := rep_int (((X + half) / one : Nat)) (by
    rw [Int.natAbs_natCast]
    have h1 : X + half < 2 ^ 53 * one + one := by rw [one_eq] at *; have := half_pos; omega
    have h2 : (X + half) / one < 2 ^ 53 + 1 := by
      rw [Nat.div_lt_iff_lt_mul one_pos', Nat.add_mul, Nat.one_mul]; exact h1
    omega)
  obtain ⟨c, hc, hm⟩ := hr
  have e : mag c = one * ((X + half) / one) := by
    rw [hm, ← Int.natCast_mul, Int.natAbs_natCast, Nat.mul_comm]
  have hle : mag c ≤ X + half := by rw [e]; exact Nat.mul_div_le _ _
  have := round_mono (mag c) 1 (X + half) 1 (by omega) (by omega) (by omega)
  have e2 := round_exact c 1 (by omega)
  rw [Nat.one_mul] at e2
  rw [e2] at this
  rw [← e]; exact mag_le this

/-- an upper bound that is a bit pattern -/
theorem up_upper (n Y : Nat) (hY : ∃ c, mag c = Y) (h : n ≤ Y) : mag (roundBits n 1) ≤ Y := by
  obtain ⟨c, hc⟩ := hY
  have := round_mono n 1 (mag c) 1 (by omega) (by omega) (by omega)
  have e2 := round_exact c 1 (by omega)
  rw [Nat.one_mul] at e2
  rw [e2] at this
  rw [← hc]; exact mag_le this

theorem pat (k m : Nat) (hm : m ≤ 2 ^ 53) (hk : k ≤ 2045) : ∃ c, mag c = m * 2 ^ k := by
  obtain ⟨c, -, h, -⟩ := grid_rep k m hm hk; exact ⟨c, h⟩

/-- general case: from one on -/
theorem up_main (b : Nat) (h1 : one ≤ mag b) (h2 : mag b < 2 ^ 52 * one) :
    mag (roundBits (mag b + half) 1) < one * ((mag b + half) / one + 1) := by
  obtain ⟨-, hm1, hm2⟩ := bits_split b
  obtain ⟨e, he⟩ : ∃ e, e = expo b := ⟨_, rfl⟩
  obtain ⟨q, hq⟩ : ∃ q, q = mant b := ⟨_, rfl⟩
  have hX : mag b = q * 2 ^ e := by rw [he, hq]; rfl
  rw [← he, ← hq] at hm2
  rw [← hq] at hm1
  have he1 : e ≤ 1073 := by
    rw [he]
    apply expo_le
    rw [← two52_one]; exact h2
  have he0 : 1021 ≤ e := by
    by_contra hc
    have h3 : q * 2 ^ e ≤ q * 2 ^ 1021 := Nat.mul_le_mul_left _ (Nat.pow_le_pow_right (by omega) (by omega))
    have h4 : q * 2 ^ 1021 < 2 ^ 53 * 2 ^ 1021 := Nat.mul_lt_mul_of_pos_right hm1 (Nat.two_pow_pos _)
    rw [two53_1021] at h4
    rw [← hX] at h3
    generalize q * 2 ^ 1021 = Z at *
    omega
  -- everything is a multiple of 2^e
  obtain ⟨f, hf⟩ : ∃ f, f = 1073 - e := ⟨_, rfl⟩
  have hH : half = 2 ^ f * 2 ^ e := by rw [half_def]; rw [← Nat.pow_add]; congr 1; omega
  have hO : one = 2 * 2 ^ f * 2 ^ e := by rw [one_eq, hH]; ring
  obtain ⟨F, hF⟩ : ∃ F, F = 2 ^ f := ⟨_, rfl⟩
  have hFpos : 0 < F := by rw [hF]; exact Nat.two_pow_pos _
  obtain ⟨E, hE⟩ : ∃ E, E = 2 ^ e := ⟨_, rfl⟩
  have hEpos : 0 < E := by rw [hE]; exact Nat.two_pow_pos _
  have hdiv : (mag b + half) / one = (q + F) / (2 * F) := by
    rw [hX, hH, hO, ← hF, ← hE, ← Nat.add_mul, Nat.mul_div_mul_right _ _ hEpos]
  rw [hdiv]
  have hsum : mag b + half = (q + F) * E := by rw [hX, hH, ← hF, ← hE]; ring
  rw [hsum, hO, ← hF, ← hE]
  obtain ⟨N, hN⟩ : ∃ N, N = (q + F) / (2 * F) := ⟨_, rfl⟩
  rw [← hN]
  have hup : q + F < 2 * F * (N + 1) := by
    rw [hN]; exact Nat.lt_mul_div_succ _ (by omega)
  have hgoal : 2 * F * E * (N + 1) = 2 * F * (N + 1) * E := by ring
  rw [hgoal]
  -- 2^53 is a multiple of 2F
  have hFd : ∃ G, 2 ^ 53 = 2 * F * G := by
    refine ⟨2 ^ (52 - f), ?_⟩
    rw [hF, show (2 : Nat) * 2 ^ f * 2 ^ (52 - f) = 2 ^ (1 + f + (52 - f)) by
      rw [Nat.pow_add, Nat.pow_add]]
    congr 1; omega
  obtain ⟨G, hG⟩ := hFd
  by_cases hc : 2 * F * (N + 1) ≤ 2 ^ 53
  · have := up_upper ((q + F) * E) ((2 * F * (N + 1) - 1) * E)
      (by rw [hE]; exact pat e _ (by omega) (by omega)) (Nat.mul_le_mul_right _ (by omega))
    refine Nat.lt_of_le_of_lt this (Nat.mul_lt_mul_of_pos_right (by omega) hEpos)
  · -- the sum leaves the binade: it is at most 2^53 + F, less than the next integer
    have hNG : G ≤ N := by
      by_contra hcc
      have : 2 * F * (N + 1) ≤ 2 * F * G := Nat.mul_le_mul_left _ (by omega)
      omega
    have hlow : 2 * F * G + 2 * F ≤ 2 * F * (N + 1) := by
      have : 2 * F * (G + 1) ≤ 2 * F * (N + 1) := Nat.mul_le_mul_left _ (by omega)
      rw [Nat.mul_add] at this; omega
    by_cases hf0 : f = 0
    · -- 2^e is one half, q + F is at most 2^53
      have hF1 : F = 1 := by rw [hF, hf0]; rfl
      have := up_upper ((q + F) * E) ((q + F) * E)
        (by rw [hE]; exact pat e _ (by omega) (by omega)) (Nat.le_refl _)
      exact Nat.lt_of_le_of_lt this (Nat.mul_lt_mul_of_pos_right hup hEpos)
    · have hF2 : ∃ F', F = 2 * F' := by
        refine ⟨2 ^ (f - 1), ?_⟩
        rw [hF, ← Nat.pow_succ']; congr 1; omega
      obtain ⟨F', hF'⟩ := hF2
      have hFle : F ≤ 2 ^ 52 := by
        rw [hF]; exact Nat.pow_le_pow_right (by omega) (by omega)
      have := up_upper ((q + F) * E) ((2 ^ 52 + F') * (2 * E))
        (by
          rw [hE, ← Nat.pow_succ']
          exact pat (e + 1) _ (by omega) (by omega))
        (by
          rw [← Nat.mul_assoc]
          exact Nat.mul_le_mul_right _ (by omega))
      refine Nat.lt_of_le_of_lt this ?_
      rw [← Nat.mul_assoc]
      exact Nat.mul_lt_mul_of_pos_right (by omega) hEpos

/-- from one half to one -/
theorem up_mid (X : Nat) (h1 : half ≤ X) (h2 : X < one) :
    mag (roundBits (X + half) 1) < one * ((X + half) / one + 1) := by
  have hN : (X + half) / one = 1 := by
    rw [one_eq] at *
    have := half_pos
    exact Nat.div_eq_of_lt_le (by omega) (by omega)
  rw [hN]
  have := up_upper (X + half) (3 * half) (by rw [half_def]; exact pat 1073 3 (by omega) (by omega))
    (by rw [one_eq] at h2; omega)
  have := half_pos
  rw [one_eq]; omega

/-- below one half, except its predecessor -/
theorem up_low (b : Nat) (h1 : mag b < half) (h2 : mag b ≠ half - 2 ^ 1020) :
    mag (roundBits (mag b + half) 1) < one * ((mag b + half) / one + 1) := by
  have hN : (mag b + half) / one = 0 := by
    rw [one_eq, Nat.div_eq_zero_iff]; right; omega
  rw [hN, Nat.mul_add, Nat.mul_zero, Nat.zero_add, Nat.mul_one]
  -- 1/2 and its two predecessors
  have e0 : mag 0x3FE0000000000000 = half := by decide +kernel
  have e1 : mag 0x3FDFFFFFFFFFFFFF = half - 2 ^ 1020 := by decide +kernel
  have e2 : mag 0x3FDFFFFFFFFFFFFE = half - 2 ^ 1021 := by decide +kernel
  have b1 : b < 0x3FE0000000000000 := by rw [← mag_lt_iff, e0]; exact h1
  have b2 : b ≠ 0x3FDFFFFFFFFFFFFF := fun h => h2 (by rw [h, e1])
  have b3 : mag b ≤ half - 2 ^ 1021 := by rw [← e2]; exact mag_le (by omega)
  have hh : 2 ^ 1021 ≤ half := by rw [half_def]; exact Nat.pow_le_pow_right (by omega) (by omega)
  have := up_upper (mag b + half) (one - 2 ^ 1021) ⟨0x3FEFFFFFFFFFFFFF, by decide +kernel⟩
    (by rw [one_eq]; generalize (2 : Nat) ^ 1021 = P at *; omega)
  have hp : 0 < 2 ^ 1021 := Nat.two_pow_pos _
  have ho : half ≤ one := by rw [one_eq]; omega
  generalize (2 : Nat) ^ 1021 = P at *
  omega

end Verif.Math.Fl
