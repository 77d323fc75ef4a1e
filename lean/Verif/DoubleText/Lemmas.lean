import Verif.DoubleText.Model
import Verif.DoubleText.Spec
import Verif.Fp.Rel
import Mathlib.Tactic.Ring
import Mathlib.Tactic.FieldSimp
import Mathlib.Tactic.NormNum
/-
Rounding to ten digits, and reading.
-/
namespace Verif.DoubleText
open Verif Verif.Str Verif.Fp Verif.DoubleText.Spec

theorem one_pos' : 0 < (Fp.one : Nat) := by unfold Fp.one; exact Nat.two_pow_pos _
theorem one_le : (Fp.one : Nat) ≤ 10 ^ 400 := by unfold Fp.one; decide +kernel

attribute [local irreducible] Fp.one

/-! ### reading -/

/-- numerator and denominator of `m * 10^e` units -/
theorem strtod_frac (m : Nat) (e : Int) : ∃ n d : Nat, 0 < d ∧ (n : ℚ) / d = m * (10 : ℚ) ^ e ∧
    ∀ neg, strtod neg m e = mk neg (min (infBits - 1) (roundBits (n * Fp.one) d)) := by
  by_cases he : 0 ≤ e
  · refine ⟨m * 10 ^ e.toNat, 1, by omega, ?_, fun neg => ?_⟩
    · push_cast
      rw [div_one, ← zpow_natCast, Int.toNat_of_nonneg he]
    · unfold strtod; rw [if_pos he]
  · refine ⟨m, 10 ^ (-e).toNat, by positivity, ?_, fun neg => ?_⟩
    · push_cast
      rw [← zpow_natCast, Int.toNat_of_nonneg (by omega), zpow_neg, div_inv_eq_mul]
    · unfold strtod; rw [if_neg he]

/-- the exact value -/
def exact (neg : Bool) (m : Nat) (e : Int) : ℚ := (if neg then -1 else 1) * m * (10 : ℚ) ^ e

theorem strtod_fin (neg : Bool) (m : Nat) (e : Int) : Finite (strtod neg m e) := by
  obtain ⟨n, d, -, -, h⟩ := strtod_frac m e
  rw [h]
  have : 0 < infBits := by decide
  show min _ infBits < infBits
  omega

theorem rounds_bits (neg : Bool) (n d : Nat) (hd : 0 < d) :
    Rounds (mk neg (roundBits (n * Fp.one) d)) ((if neg then -1 else 1) * (n / d : ℚ)) := by
  refine ⟨neg, sgn neg (n * Fp.one), d, ?_, hd, ?_⟩
  · unfold ofUnits
    by_cases h0 : n = 0
    · subst h0
      have hs : sgn neg (0 * Fp.one) = 0 := by rw [Nat.zero_mul]; cases neg <;> rfl
      rw [if_pos hs, Nat.zero_mul, round_zero]
    · have hp : 0 < n * Fp.one := Nat.mul_pos (by omega) one_pos'
      have hs : sgn neg (n * Fp.one) ≠ 0 ∧ decide (sgn neg (n * Fp.one) < 0) = neg ∧ (sgn neg (n * Fp.one)).natAbs = n * Fp.one := by
        generalize n * Fp.one = k at hp
        cases neg <;> simp only [sgn, if_true, Bool.false_eq_true, if_false, decide_eq_true_eq, decide_eq_false_iff_not] <;> omega
      rw [if_neg hs.1, hs.2.1, hs.2.2]
  · have h1 : (Fp.one : ℚ) = 2 ^ 1074 := one_cast
    have hd' : (d : ℚ) ≠ 0 := by positivity
    have : ((sgn neg (n * Fp.one) : Int) : ℚ) = (if neg then -1 else 1) * (n * 2 ^ 1074 : ℚ) := by
      rw [← h1]
      cases neg <;> simp [sgn]
    rw [this]
    field_simp

/-- reading rounds to nearest, as long as the number is not too large -/
theorem strtod_rounds (neg : Bool) (m : Nat) (e : Int) (h : |exact neg m e| ≤ val largest) :
    Rounds (strtod neg m e) (exact neg m e) := by
  obtain ⟨n, d, hd, hq, hs⟩ := strtod_frac m e
  have hr := rounds_bits neg n d hd
  have he : exact neg m e = (if neg then -1 else 1) * (n / d : ℚ) := by rw [hq]; unfold exact; ring
  rw [← he] at hr
  have hf := (hr.between (Rp.of _ largest_fin).neg (Rp.of _ largest_fin) (abs_le.1 h).1 (abs_le.1 h).2).1
  have hb : roundBits (n * Fp.one) d < infBits := by
    have h1 : min (roundBits (n * Fp.one) d) infBits < infBits := hf
    omega
  rw [hs, Nat.min_eq_right (by omega)]
  exact hr

theorem val_largest_neg : val (mk true (infBits - 1)) = -val largest := by
  have : mk true (infBits - 1) = -largest := by decide +kernel
  rw [this, val_neg]

/-- too large numbers become the largest double -/
theorem strtod_large (neg : Bool) (m : Nat) (e : Int) (h : val largest < |exact neg m e|) :
    |val (strtod neg m e) - exact neg m e| = |exact neg m e| - val largest ∨ Rounds (strtod neg m e) (exact neg m e) := by
  obtain ⟨n, d, hd, hq, hs⟩ := strtod_frac m e
  have hr := rounds_bits neg n d hd
  have he : exact neg m e = (if neg then -1 else 1) * (n / d : ℚ) := by rw [hq]; unfold exact; ring
  by_cases hb : roundBits (n * Fp.one) d < infBits
  · right
    rw [hs, Nat.min_eq_right (by omega), he]
    exact hr
  · left
    have h0 : (0 : ℚ) ≤ n / d := by positivity
    rw [hs, Nat.min_eq_left (by omega)]
    rw [he] at h ⊢
    cases neg with
    | true =>
      rw [val_largest_neg]
      simp only [if_true, neg_mul, one_mul, abs_neg] at h ⊢
      rw [abs_of_nonneg h0] at h ⊢
      rw [abs_of_nonneg (by linarith)]
      ring
    | false =>
      show |val largest - _| = _
      simp only [Bool.false_eq_true, if_false, one_mul] at h ⊢
      rw [abs_of_nonneg h0] at h ⊢
      rw [abs_of_nonpos (by linarith)]
      ring

/-- reading gives the nearest finite double -/
theorem strtod_nearest (neg : Bool) (m : Nat) (e : Int) : Nearest (strtod neg m e) (exact neg m e) := by
  have key : Rounds (strtod neg m e) (exact neg m e) → Nearest (strtod neg m e) (exact neg m e) :=
    fun h => h.nearest (strtod_fin neg m e)
  by_cases h : |exact neg m e| ≤ val largest
  · exact key (strtod_rounds neg m e h)
  · rcases strtod_large neg m e (not_le.1 h) with h' | h'
    · intro z hz
      have h1 := mag_lt_inf hz
      have h2 : |exact neg m e| - (|val z|) ≤ |val z - exact neg m e| := by
        rw [abs_sub_comm]; exact abs_sub_abs_le_abs_sub _ _
      refine ⟨by rw [h']; linarith, fun heq hne => ?_⟩
      exfalso
      rw [h'] at heq
      have h3 : |val z| = val largest := by linarith
      -- both have the sign of the number
      have hd2 : |val z - exact neg m e| = |exact neg m e| - (|val z|) := by rw [h3]; exact heq.symm
      have hd1 : |val (strtod neg m e) - exact neg m e| = |exact neg m e| - (|val z|) := by rw [h3]; exact h'
      have hlt : |val z| < |exact neg m e| := by rw [h3]; exact not_le.1 h
      have hs : |val (strtod neg m e)| ≤ |val z| := by rw [h3]; exact mag_lt_inf (strtod_fin neg m e)
      generalize val (strtod neg m e) = a at *
      generalize val z = b at *
      generalize exact neg m e = q at *
      apply hne
      rcases abs_cases b with ⟨b1, b2⟩ | ⟨b1, b2⟩ <;> rcases abs_cases q with ⟨q1, q2⟩ | ⟨q1, q2⟩ <;>
        rcases abs_cases (b - q) with ⟨c1, c2⟩ | ⟨c1, c2⟩ <;> rcases abs_cases (a - q) with ⟨d1, d2⟩ | ⟨d1, d2⟩ <;>
        rcases abs_cases a with ⟨a1, a2⟩ | ⟨a1, a2⟩ <;> linarith
    · exact key h'

/-! ### ten digits -/

theorem roundEven_half (n d : Nat) (hd : 0 < d) : |(roundEven n d : ℚ) - n / d| ≤ 1 / 2 := by
  have hd' : (0 : ℚ) < d := by positivity
  have hn : (n : ℚ) = d * ((n / d : Nat) : ℚ) + ((n % d : Nat) : ℚ) := by exact_mod_cast (Nat.div_add_mod n d).symm
  have hv : (n : ℚ) / d = ((n / d : Nat) : ℚ) + ((n % d : Nat) : ℚ) / d := by
    rw [hn]; field_simp
  have hv : (n : ℚ) / d = ((n / d : Nat) : ℚ) + ((n % d : Nat) : ℚ) / d := hv
  rw [hv]
  have hlt : ((n % d : Nat) : ℚ) < d := by exact_mod_cast Nat.mod_lt n hd
  have h0 : (0 : ℚ) ≤ ((n % d : Nat) : ℚ) / d := by positivity
  have low : 2 * (n % d) ≤ d → ((n % d : Nat) : ℚ) / d ≤ 1 / 2 := by
    intro h
    rw [div_le_div_iff₀ hd' (by norm_num)]
    have : ((2 * (n % d) : Nat) : ℚ) ≤ d := by exact_mod_cast h
    push_cast at this
    linarith
  have high : d ≤ 2 * (n % d) → 1 / 2 ≤ ((n % d : Nat) : ℚ) / d := by
    intro h
    rw [div_le_div_iff₀ (by norm_num) hd']
    have : (d : ℚ) ≤ ((2 * (n % d) : Nat) : ℚ) := by exact_mod_cast h
    push_cast at this
    linarith
  have h1 : ((n % d : Nat) : ℚ) / d ≤ 1 := by rw [div_le_one hd']; exact hlt.le
  generalize ((n % d : Nat) : ℚ) / d = f at *
  unfold roundEven
  split
  · have := low (by omega)
    rw [abs_le]; constructor <;> linarith
  · split
    · have := high (by omega)
      push_cast
      rw [abs_le]; constructor <;> linarith
    · have a := low (by omega)
      have b := high (by omega)
      split
      · rw [abs_le]; constructor <;> linarith
      · push_cast
        rw [abs_le]; constructor <;> linarith

/-- no integer is nearer than one at most 1/2 away -/
theorem half_nearest {t : ℚ} {M : ℤ} (h : |(M : ℚ) - t| ≤ 1 / 2) (m : ℤ) : |(M : ℚ) - t| ≤ |(m : ℚ) - t| := by
  by_cases hm : m = M
  · rw [hm]
  · have h1 : (1 : ℚ) ≤ |(m : ℚ) - M| := by
      have : (1 : ℤ) ≤ |m - M| := Int.one_le_abs (sub_ne_zero.2 hm)
      exact_mod_cast this
    have h2 : |(m : ℚ) - M| ≤ |(m : ℚ) - t| + |(M : ℚ) - t| := by
      have := abs_sub_le (m : ℚ) t M
      rw [abs_sub_comm t] at this
      exact this
    linarith

/-- the decimal exponent -/
theorem expo10_spec (u : Nat) (hu : 0 < u) : (10 : ℚ) ^ expo10 u ≤ u / (Fp.one : Nat) ∧
    (u : ℚ) / (Fp.one : Nat) < (10 : ℚ) ^ (expo10 u + 1) := by
  have ho := one_pos'
  have hK : u * 10 ^ 400 / Fp.one ≠ 0 := by
    have : Fp.one ≤ u * 10 ^ 400 := one_le.trans (Nat.le_mul_of_pos_left _ hu)
    have := Nat.div_pos this ho
    omega
  have h1 : 10 ^ Nat.log 10 (u * 10 ^ 400 / Fp.one) ≤ u * 10 ^ 400 / Fp.one := Nat.pow_log_le_self 10 hK
  have h2 : u * 10 ^ 400 / Fp.one < 10 ^ (Nat.log 10 (u * 10 ^ 400 / Fp.one) + 1) := Nat.lt_pow_succ_log_self (by omega) _
  unfold expo10
  generalize Nat.log 10 (u * 10 ^ 400 / Fp.one) = L at *
  rw [Nat.le_div_iff_mul_le ho] at h1
  rw [Nat.div_lt_iff_lt_mul ho] at h2
  have ho' : (0 : ℚ) < (Fp.one : Nat) := by exact_mod_cast ho
  have hc : (0 : ℚ) < 10 ^ 400 := by positivity
  have h1' : (10 : ℚ) ^ L * (Fp.one : Nat) ≤ u * 10 ^ 400 := by exact_mod_cast h1
  have h2' : (u : ℚ) * 10 ^ 400 < 10 ^ (L + 1) * (Fp.one : Nat) := by exact_mod_cast h2
  have e1 : (10 : ℚ) ^ ((L : ℤ) - 400) = 10 ^ L / 10 ^ 400 := by
    rw [zpow_sub₀ (by norm_num), zpow_natCast]
    rfl
  have e2 : (10 : ℚ) ^ ((L : ℤ) - 400 + 1) = 10 ^ (L + 1) / 10 ^ 400 := by
    rw [show ((L : ℤ) - 400 + 1) = ((L + 1 : Nat) : ℤ) - 400 by push_cast; ring, zpow_sub₀ (by norm_num), zpow_natCast]
    rfl
  rw [e1, e2]
  generalize (10 : ℚ) ^ 400 = c at *
  refine ⟨?_, ?_⟩
  · rw [div_le_div_iff₀ hc ho']; linarith
  · rw [div_lt_div_iff₀ ho' hc]; linarith

theorem scaled_half (u : Nat) (k : Int) : |(scaled u k : ℚ) - u / (Fp.one : Nat) / 10 ^ k| ≤ 1 / 2 := by
  have ho := one_pos'
  unfold scaled
  split
  · rename_i hk
    have h := roundEven_half u (Fp.one * 10 ^ k.toNat) (by positivity)
    have e : (10 : ℚ) ^ k = 10 ^ k.toNat := by rw [← zpow_natCast, Int.toNat_of_nonneg hk]
    rw [e, div_div]
    push_cast at h
    exact h
  · rename_i hk
    have h := roundEven_half (u * 10 ^ (-k).toNat) Fp.one ho
    have e : (10 : ℚ) ^ k = 1 / 10 ^ (-k).toNat := by
      rw [← zpow_natCast, Int.toNat_of_nonneg (by omega), zpow_neg, one_div, inv_inv]
    rw [e, div_div_eq_mul_div, div_one]
    push_cast at h
    rw [show (u : ℚ) / (Fp.one : Nat) * 10 ^ (-k).toNat = u * 10 ^ (-k).toNat / (Fp.one : Nat) by ring]
    exact h

/-- rounding at the place of the tenth digit -/
theorem nearest_ten {v : ℚ} {X : ℤ} {M : Nat} (h1 : (10 : ℚ) ^ X ≤ v) (h2 : v < 10 ^ (X + 1))
    (hM : |(M : ℚ) - v / 10 ^ (X - 9)| ≤ 1 / 2) :
    10 ^ 9 ≤ M ∧ M ≤ 10 ^ 10 ∧ ∀ q, Ten q → |M * (10 : ℚ) ^ (X - 9) - v| ≤ |q - v| := by
  have hc : (0 : ℚ) < 10 ^ (X - 9) := zpow_pos (by norm_num) _
  have e1 : (10 : ℚ) ^ X = 10 ^ 9 * 10 ^ (X - 9) := by
    rw [← zpow_natCast (10 : ℚ) 9, ← zpow_add₀ (by norm_num)]; congr 1; push_cast; ring
  have e2 : (10 : ℚ) ^ (X + 1) = 10 ^ 10 * 10 ^ (X - 9) := by
    rw [← zpow_natCast (10 : ℚ) 10, ← zpow_add₀ (by norm_num)]; congr 1; push_cast; ring
  -- in units of the last place
  obtain ⟨t, ht⟩ : ∃ t, v = t * 10 ^ (X - 9) := ⟨v / 10 ^ (X - 9), by field_simp⟩
  have t1 : (10 : ℚ) ^ 9 ≤ t := by
    rw [ht, e1] at h1; exact le_of_mul_le_mul_right h1 hc
  have t2 : t < (10 : ℚ) ^ 10 := by
    rw [ht, e2] at h2; exact lt_of_mul_lt_mul_right h2 hc.le
  have hM' : |((M : ℤ) : ℚ) - t| ≤ 1 / 2 := by
    have : v / 10 ^ (X - 9) = t := by rw [ht]; field_simp
    rw [this] at hM; exact_mod_cast hM
  have near := half_nearest hM'
  have scale : ∀ a : ℚ, |a * 10 ^ (X - 9) - v| = |a - t| * 10 ^ (X - 9) := by
    intro a
    rw [ht, ← sub_mul, abs_mul, abs_of_pos hc]
  refine ⟨?_, ?_, ?_⟩
  · have := near (10 ^ 9)
    by_contra hlt
    have h3 : (M : ℚ) + 1 ≤ 10 ^ 9 := by exact_mod_cast Nat.lt_of_not_le hlt
    push_cast at this hM'
    rw [abs_of_nonpos (by linarith), abs_of_nonpos (by linarith)] at this
    linarith
  · have := near (10 ^ 10)
    by_contra hlt
    have h3 : (10 : ℚ) ^ 10 + 1 ≤ M := by exact_mod_cast Nat.lt_of_not_le hlt
    push_cast at this hM'
    rw [abs_of_nonneg (by linarith), abs_of_nonneg (by linarith)] at this
    linarith
  · rintro q ⟨N, Y, hN, rfl⟩
    rw [scale]
    by_cases hY : X - 9 ≤ Y
    · have e3 : (N : ℚ) * 10 ^ Y = ((N * 10 ^ (Y - (X - 9)).toNat : ℤ) : ℚ) * 10 ^ (X - 9) := by
        push_cast
        rw [mul_assoc, ← zpow_natCast (10 : ℚ), ← zpow_add₀ (by norm_num)]
        congr 2
        omega
      rw [e3, scale]
      exact mul_le_mul_of_nonneg_right (by exact_mod_cast near _) hc.le
    · have e4 : (10 : ℚ) ^ (X - 10) ≥ 10 ^ Y := zpow_le_zpow_right₀ (by norm_num) (by omega)
      have e5 : (10 : ℚ) ^ X = 10 ^ 10 * 10 ^ (X - 10) := by
        rw [← zpow_natCast (10 : ℚ) 10, ← zpow_add₀ (by norm_num)]; congr 1; push_cast; ring
      have hy : (0 : ℚ) < 10 ^ Y := zpow_pos (by norm_num) _
      have hNq : (N : ℚ) ≤ 10 ^ 10 := by
        have : N ≤ 10 ^ 10 := by omega
        exact_mod_cast this
      have hq : (N : ℚ) * 10 ^ Y ≤ 10 ^ X := by
        rw [e5]
        calc (N : ℚ) * 10 ^ Y ≤ 10 ^ 10 * 10 ^ Y := mul_le_mul_of_nonneg_right hNq hy.le
          _ ≤ 10 ^ 10 * 10 ^ (X - 10) := mul_le_mul_of_nonneg_left e4 (by norm_num)
      have hn := near (10 ^ 9)
      push_cast at hn
      rw [← scale]
      calc |(M : ℚ) * 10 ^ (X - 9) - v| = |(M : ℚ) - t| * 10 ^ (X - 9) := scale _
        _ ≤ |(10 : ℚ) ^ 9 - t| * 10 ^ (X - 9) := mul_le_mul_of_nonneg_right (by exact_mod_cast hn) hc.le
        _ = |10 ^ X - v| := by rw [← scale, e1]
        _ ≤ |(N : ℚ) * 10 ^ Y - v| := by
          rw [abs_of_nonpos (by linarith), abs_of_nonpos (by linarith)]
          linarith

/-- the ten digits -/
theorem ten_spec (u : Nat) (hu : 0 < u) : 10 ^ 9 ≤ (ten u).1 ∧ (ten u).1 < 10 ^ 10 ∧
    Rounded (u / (Fp.one : Nat)) ((ten u).1 * (10 : ℚ) ^ ((ten u).2 - 9)) ∧
    |((ten u).1 : ℚ) * 10 ^ ((ten u).2 - 9) - u / (Fp.one : Nat)| ≤ (u / (Fp.one : Nat)) / (2 * 10 ^ 9) := by
  obtain ⟨h1, h2⟩ := expo10_spec u hu
  have hs := scaled_half u (expo10 u - 9)
  obtain ⟨a, b, c⟩ := nearest_ten h1 h2 hs
  have hc : (0 : ℚ) < 10 ^ (expo10 u - 9) := zpow_pos (by norm_num) _
  have e1 : (10 : ℚ) ^ expo10 u = 10 ^ 9 * 10 ^ (expo10 u - 9) := by
    rw [← zpow_natCast (10 : ℚ) 9, ← zpow_add₀ (by norm_num)]; congr 1; push_cast; ring
  have herr : |(scaled u (expo10 u - 9) : ℚ) * 10 ^ (expo10 u - 9) - u / (Fp.one : Nat)| ≤ (u / (Fp.one : Nat)) / (2 * 10 ^ 9) := by
    have e3 : (scaled u (expo10 u - 9) : ℚ) * 10 ^ (expo10 u - 9) - u / (Fp.one : Nat) =
        ((scaled u (expo10 u - 9) : ℚ) - u / (Fp.one : Nat) / 10 ^ (expo10 u - 9)) * 10 ^ (expo10 u - 9) := by field_simp
    rw [e3, abs_mul, abs_of_pos hc]
    have := mul_le_mul_of_nonneg_right hs hc.le
    rw [le_div_iff₀ (by norm_num)]
    rw [e1] at h1
    linarith
  simp only [ten]
  split
  · rename_i hM
    have e2 : (scaled u (expo10 u - 9) : ℚ) * 10 ^ (expo10 u - 9) = ((10 ^ 9 : Nat) : ℚ) * 10 ^ (expo10 u + 1 - 9) := by
      rw [hM]
      push_cast
      rw [show expo10 u + 1 - 9 = 1 + (expo10 u - 9) by ring, zpow_add₀ (by norm_num), zpow_one]
      ring
    rw [e2] at c herr
    refine ⟨le_refl _, by norm_num, ⟨⟨((10 ^ 9 : Nat) : ℤ), _, by norm_num, by push_cast; rfl⟩, c⟩, herr⟩
  · rename_i hM
    exact ⟨a, lt_of_le_of_ne b hM, ⟨⟨(scaled u (expo10 u - 9) : ℤ), _, by omega, by push_cast; rfl⟩, c⟩, herr⟩

end Verif.DoubleText
