import Verif.Math.FpRound
/-
C56 for doubles: `round`, `sign`, `interpolate`, `probability` in IEEE arithmetic.
-/
namespace Verif.Math.Fl
open Verif Verif.Fp

theorem two63_one_lt : 2 ^ 65 * one < mag infBits := by decide +kernel
theorem one_pow : one = 2 ^ 1074 := rfl

attribute [local irreducible] one half lit zero

/-- below 2^52 only the predecessor of one half goes wrong -/
theorem up_small (b : Nat) (h : mag b < 2 ^ 52 * one) (hne : mag b ≠ half - 2 ^ 1020) :
    mag (roundBits (mag b + half) 1) / one = (mag b + half) / one := by
  have h1 := up_lower (mag b) (by have := one_pos'; omega)
  have h2 : mag (roundBits (mag b + half) 1) < one * ((mag b + half) / one + 1) := by
    by_cases c1 : mag b < half
    · exact up_low b c1 hne
    · by_cases c2 : mag b < one
      · exact up_mid _ (by omega) c2
      · exact up_main b (by omega) h
  exact Nat.div_eq_of_lt_le (by rw [Nat.mul_comm]; exact h1) (by rw [Nat.mul_comm]; exact h2)

/-- from 2^52 to 2^53: integers; one half is a tie -/
theorem up_tie (b : Nat) (h1 : 2 ^ 52 * one ≤ mag b) (h2 : mag b < 2 ^ 53 * one) :
    ∃ q, mag b = q * one ∧ mag (roundBits (mag b + half) 1) = (if q % 2 = 0 then q else q + 1) * one := by
  have e1 := expo_gt (b := b) 1073 (by rw [← two52_one]; exact h1)
  have e2 := expo_le (b := b) 1074 (by rw [← two53_one]; exact h2)
  have e : expo b = 1074 := by omega
  have ho : (2 : Nat) ^ expo b = one := by rw [e, one_pow]
  obtain ⟨hb, -, -⟩ := bits_split b
  have hm : mag b = mant b * one := by rw [← ho]; rfl
  refine ⟨mant b, hm, ?_⟩
  have ht := round_tie b (mag b + half) (by rw [ho, one_eq]; omega)
  rw [e] at hb
  have hpar : b % 2 = mant b % 2 := by omega
  rw [ht, hpar]
  split
  · exact hm
  · rw [mag_succ, ho, hm, Nat.add_mul, Nat.one_mul]

/-- from 2^53 on one half is absorbed -/
theorem up_large (b : Nat) (h : 2 ^ 53 * one ≤ mag b) :
    roundBits (mag b + half) 1 = b ∧ ∃ q, mag b = q * one := by
  have e1 := expo_gt (b := b) 1074 (by rw [← two53_one]; exact h)
  have hp : 2 * one ≤ 2 ^ expo b := by
    rw [one_pow, ← Nat.pow_succ']
    exact Nat.pow_le_pow_right (by omega) e1
  have h0 := one_pos'
  refine ⟨round_absorb b _ (by omega) (by
    generalize 2 ^ expo b = P at *
    have := one_eq
    omega), ?_⟩
  have hd : one ∣ mag b := by
    rw [one_pow]; unfold mag
    exact Dvd.dvd.mul_left (Nat.pow_dvd_pow 2 (Nat.le_of_lt e1)) _
  obtain ⟨q, hq⟩ := hd
  exact ⟨q, by rw [hq, Nat.mul_comm]⟩

/-- the bit pattern of a finite double -/
theorem bits_of (x : F64) (hx : Finite x) : ∃ b, b < infBits ∧ mag b = (units x).natAbs := hx.rep

theorem up_lt_inf (n : Nat) (h : n < 2 ^ 64 * one) : roundBits n 1 < infBits := by
  obtain ⟨c, -, hc, -⟩ := grid_rep (1074 + 64) 1 (by omega) (by omega)
  have hc' : mag c = 2 ^ 64 * one := by
    rw [hc, one_pow, Nat.one_mul, ← Nat.pow_add, Nat.add_comm]
  have h1 := round_mono n 1 (mag c) 1 (by omega) (by omega) (by omega)
  have e2 := round_exact c 1 (by omega)
  rw [Nat.one_mul] at e2
  rw [e2] at h1
  have : c < infBits := by
    rw [← mag_lt_iff, hc']
    have := two63_one_lt
    have := one_pos'
    omega
  omega

/-- the absolute value of a double in units and as a number -/
theorem abs_val (x : F64) : |val x| * (one : ℚ) = ((units x).natAbs : ℚ) := by
  have e : (one : ℚ) = 2 ^ 1074 := by rw [one_pow]; push_cast; rfl
  rw [e]
  have hp : (0 : ℚ) < 2 ^ 1074 := by positivity
  unfold val; rw [abs_div, abs_of_pos hp, div_mul_cancel₀ _ (ne_of_gt hp), Nat.cast_natAbs]; push_cast; rfl

theorem abs_val_lt (x : F64) (c : Nat) : |val x| < c ↔ (units x).natAbs < c * one := by
  have hp : (0 : ℚ) < (one : ℚ) := by exact_mod_cast one_pos'
  rw [← mul_lt_mul_iff_left₀ hp, abs_val]
  exact_mod_cast Iff.rfl

/-- what `round` should return: a nearest integer, the one farther from zero in the middle -/
def IsRounded (v : ℚ) (n : Int) : Prop := |v - n| ≤ 1 / 2 ∧ (|v - n| = 1 / 2 → |v| < |(n : ℚ)|)

theorem isRounded_of (x : F64) (N : Nat) (h1 : one * N ≤ (units x).natAbs + half)
    (h2 : (units x).natAbs + half < one * (N + 1)) :
    IsRounded (val x) (if 0 < units x then (N : Int) else -(N : Int)) := by
  obtain ⟨n, hn⟩ : ∃ n : Int, n = if 0 < units x then (N : Int) else -(N : Int) := ⟨_, rfl⟩
  rw [← hn]
  have hone : (one : ℚ) = 2 * half := by rw [one_eq]; push_cast; rfl
  have hp : (0 : ℚ) < half := by exact_mod_cast half_pos
  have hv : val x * one = units x := by
    have := val_eq x
    rw [show (one : ℚ) = 2 ^ 1074 by rw [one_pow]; push_cast; rfl]; exact this
  have habs : |val x - n| * one = |(units x : ℚ) - n * one| := by
    have hpo : (0 : ℚ) < one := by rw [hone]; linarith
    nth_rewrite 1 [← abs_of_pos hpo]
    rw [← abs_mul, sub_mul, hv]
  have hN : (n.natAbs : Nat) = N := by rw [hn]; split <;> omega
  -- integers
  have hI : (units x - n * one).natAbs = (((units x).natAbs : Int) - one * N).natAbs := by
    rw [hn]
    split
    · have : (N : Int) * one = one * N := Int.mul_comm _ _
      rw [this]; omega
    · have : -(N : Int) * one = -(one * N) := by rw [Int.neg_mul, Int.mul_comm]
      rw [this]; omega
  have hN1 : one * (N + 1) = one * N + one := by ring
  have hb : (units x - n * one).natAbs ≤ half ∧
      ((units x - n * one).natAbs = half → (units x).natAbs < one * N) := by
    rw [hI]
    have e : ((one * N : Nat) : Int) = (one : Int) * N := by push_cast; rfl
    rw [hN1, one_eq] at h2
    rw [one_eq] at h1 e ⊢
    generalize 2 * half * N = Z at *
    rw [← e]
    omega
  have hcast : |(units x : ℚ) - n * one| = ((units x - n * one).natAbs : ℚ) := by
    rw [Nat.cast_natAbs]; push_cast; rfl
  constructor
  · have : |val x - n| * one ≤ half := by rw [habs, hcast]; exact_mod_cast hb.1
    rw [hone] at this
    have h3 : |val x - n| * 2 ≤ 1 := by
      by_contra hc
      push Not at hc
      nlinarith
    linarith
  · intro he
    have : ((units x - n * one).natAbs : ℚ) = half := by
      rw [← hcast, ← habs, he, hone]; ring
    have h3 := hb.2 (by exact_mod_cast this)
    have h4 : |val x| * one < |(n : ℚ)| * one := by
      rw [abs_val]
      have : |(n : ℚ)| = (n.natAbs : ℚ) := by rw [Nat.cast_natAbs]; push_cast; rfl
      rw [this, hN]
      have : ((units x).natAbs : ℚ) < ((one * N : Nat) : ℚ) := by exact_mod_cast h3
      push_cast at this
      linarith
    have hpo : (0 : ℚ) < one := by rw [hone]; linarith
    exact lt_of_mul_lt_mul_right h4 (le_of_lt hpo)

/-- `round` returns the nearest integer for every double of absolute value below 2^63, except for
the two doubles next to ±0.5 and the odd integers between 2^52 and 2^53. Missing: those, because
the result is wrong (`round_half_below`, `round_odd`). -/
theorem round_fp_partial (x : F64) (hx : Finite x) (hr : |val x| < 2 ^ 63)
    (hh : |val x| ≠ 1 / 2 - 1 / 2 ^ 54)
    (hodd : ∀ m : Int, val x = m → 2 ^ 52 < |m| → |m| < 2 ^ 53 → m % 2 = 0) :
    ∃ n, round x = .ok n ∧ IsRounded (val x) n := by
  obtain ⟨b, hb, hm⟩ := bits_of x hx
  have hp := one_pos'
  have hX : (units x).natAbs < 2 ^ 63 * one := by
    have := (abs_val_lt x (2 ^ 63)).1 (by exact_mod_cast hr); exact this
  have hB : upBits x < infBits := by
    unfold upBits; apply up_lt_inf; have := one_eq; omega
  have hN : mag (upBits x) / one = ((units x).natAbs + half) / one := by
    unfold upBits
    rw [← hm]
    by_cases c1 : mag b < 2 ^ 52 * one
    · refine up_small b c1 (fun he => hh ?_)
      have : |val x| * one = (1 / 2 - 1 / 2 ^ 54) * one := by
        rw [abs_val, ← hm, he]
        have e1 : ((half - 2 ^ 1020 : Nat) : ℚ) = half - 2 ^ 1020 := by
          rw [Nat.cast_sub]
          · push_cast; rfl
          · rw [half_def]; exact Nat.pow_le_pow_right (by omega) (by omega)
        rw [e1, one_pow, half_def]
        push_cast
        have p1 : (2 : ℚ) ^ 1073 = 2 ^ 53 * 2 ^ 1020 := by rw [← pow_add]
        have p2 : (2 : ℚ) ^ 1074 = 2 ^ 54 * 2 ^ 1020 := by rw [← pow_add]
        rw [p1, p2]
        generalize (2 : ℚ) ^ 1020 = P
        norm_num
        ring
      exact mul_right_cancel₀ (by exact_mod_cast (Nat.pos_iff_ne_zero.1 hp)) this
    · by_cases c2 : mag b < 2 ^ 53 * one
      · obtain ⟨q, hq, hqe⟩ := up_tie b (by omega) c2
        have hq1 : 2 ^ 52 ≤ q := by
          by_contra hc
          have : q * one < 2 ^ 52 * one := Nat.mul_lt_mul_of_pos_right (by omega) hp
          omega
        have hq2 : q < 2 ^ 53 := by
          by_contra hc
          have : 2 ^ 53 * one ≤ q * one := Nat.mul_le_mul_right _ (by omega)
          omega
        have hev : q % 2 = 0 := by
          by_cases hq0 : q = 2 ^ 52
          · omega
          · obtain ⟨m, hmm⟩ : ∃ m : Int, m = if 0 < units x then (q : Int) else -(q : Int) := ⟨_, rfl⟩
            have hval : val x = m := by
              have hone : (one : ℚ) = 2 ^ 1074 := by rw [one_pow]; push_cast; rfl
              have hv := val_eq x
              rw [← hone] at hv
              have hu : units x = m * one := by
                have : ((units x).natAbs : Int) = q * one := by rw [← hm, hq]; push_cast; rfl
                rw [hmm]; split
                · omega
                · rw [Int.neg_mul]; omega
              have : val x * one = m * one := by rw [hv, hu]; push_cast; rfl
              exact mul_right_cancel₀ (by exact_mod_cast (Nat.pos_iff_ne_zero.1 hp)) this
            have habs : |m| = (q : Int) := by
              rw [Int.abs_eq_natAbs, hmm]; split <;> omega
            have := hodd m hval (by rw [habs]; omega) (by rw [habs]; omega)
            rw [hmm] at this
            split at this <;> omega
        rw [hqe, if_pos hev, Nat.mul_div_cancel _ hp, hq]
        rw [Nat.div_eq_of_lt_le (by rw [Nat.mul_comm]; rw [Nat.mul_comm]; omega)]
        have := one_eq; have := half_pos
        rw [Nat.add_mul]; omega
      · obtain ⟨h1, q, hq⟩ := up_large b (by omega)
        rw [h1, hq, Nat.mul_div_cancel _ hp]
        have := one_eq; have := half_pos
        exact (Nat.div_eq_of_lt_le (by omega) (by rw [Nat.add_mul]; omega)).symm
  have heq := round_eq x hx hB
  simp only at heq
  rw [hN] at heq
  obtain ⟨N, hNd⟩ : ∃ N, N = ((units x).natAbs + half) / one := ⟨_, rfl⟩
  rw [← hNd] at heq
  have hN1 : one * N ≤ (units x).natAbs + half := by rw [hNd]; exact Nat.mul_div_le _ _
  have hN2 : (units x).natAbs + half < one * (N + 1) := by rw [hNd]; exact Nat.lt_mul_div_succ _ hp
  have hNlt : N < 2 ^ 63 := by
    rw [hNd, Nat.div_lt_iff_lt_mul hp]
    -- doubles below 2^63 are at most 2^63 - 1024
    by_cases c : mag b < 2 ^ 53 * one
    · have := one_eq; omega
    · obtain ⟨-, q, hq⟩ := up_large b (by omega)
      have hq3 : q < 2 ^ 63 := by
        by_contra hc
        have : 2 ^ 63 * one ≤ q * one := Nat.mul_le_mul_right _ (by omega)
        omega
      have : (q + 1) * one ≤ 2 ^ 63 * one := Nat.mul_le_mul_right _ (by omega)
      rw [Nat.add_mul] at this
      have := one_eq; have := half_pos
      omega
  refine ⟨_, ?_, isRounded_of x N hN1 hN2⟩
  rw [heq, if_pos]
  split <;> omega

-- the hypotheses are met by ordinary numbers
example : round (lit 5 2) = .ok 3 ∧ round (lit (-5) 2) = .ok (-3) ∧ round (lit 49 100) = .ok 0 ∧
    round (lit (-51) 100) = .ok (-1) ∧ round (lit (10 ^ 15) 7) = .ok 142857142857143 := by decide +kernel

/-- 0.49999999999999994, the largest double below one half, is rounded to 1 -/
theorem round_half_below : round (.num false 0x3FDFFFFFFFFFFFFF (by decide)) = .ok 1 ∧
    round (.num true 0x3FDFFFFFFFFFFFFF (by decide)) = .ok (-1) := by decide +kernel

/-- odd integers between 2^52 and 2^53 are changed -/
theorem round_odd (x : F64) (hx : Finite x) (m : Int) (hv : val x = m) (h1 : 2 ^ 52 < |m|) (h2 : |m| < 2 ^ 53)
    (hodd : m % 2 = 1) : round x = .ok (if 0 < m then m + 1 else m - 1) := by
  obtain ⟨b, hb, hm⟩ := bits_of x hx
  have hp := one_pos'
  have hone : (one : ℚ) = 2 ^ 1074 := by rw [one_pow]; push_cast; rfl
  have hu : units x = m * one := by
    have h := val_eq x
    rw [hv, ← hone] at h
    exact_mod_cast h.symm
  have hua : (units x).natAbs = m.natAbs * one := by rw [hu, Int.natAbs_mul, Int.natAbs_natCast]
  rw [Int.abs_eq_natAbs] at h1 h2
  have g1 : 2 ^ 52 * one ≤ mag b := by rw [hm, hua]; exact Nat.mul_le_mul_right _ (by omega)
  have g2 : mag b < 2 ^ 53 * one := by rw [hm, hua]; exact Nat.mul_lt_mul_of_pos_right (by omega) hp
  obtain ⟨q, hq, hqe⟩ := up_tie b g1 g2
  have hqm : q = m.natAbs := by
    apply Nat.eq_of_mul_eq_mul_right hp
    rw [← hq, hm, hua]
  have hB : upBits x < infBits := by
    unfold upBits; apply up_lt_inf
    rw [← hm]; have := one_eq; omega
  have heq := round_eq x hx hB
  simp only at heq
  have hmag : mag (upBits x) = (q + 1) * one := by
    unfold upBits; rw [← hm, hqe, if_neg (by omega)]
  rw [hmag, Nat.mul_div_cancel _ hp] at heq
  have hpos : 0 < units x ↔ 0 < m := by
    rw [hu]
    constructor
    · intro h; by_contra hc
      have := Int.mul_nonpos_of_nonpos_of_nonneg (show m ≤ 0 by omega) (show (0 : Int) ≤ one by omega)
      omega
    · intro h; exact Int.mul_pos h (by omega)
  rw [heq]
  by_cases hmp : 0 < m
  · rw [if_pos (hpos.2 hmp), if_pos hmp, if_pos (by omega)]
    congr 1; omega
  · rw [if_neg (fun h => hmp (hpos.1 h)), if_neg hmp, if_pos (by omega)]
    congr 1; omega

example : round (ofInt 4503599627370497) = .ok 4503599627370498 := by decide +kernel

/-- numbers outside the range of `int64` and NaN are undefined behaviour -/
theorem round_ub : round .nan = .error .ub ∧ round (mk false infBits) = .error .ub ∧
    round (ofInt (2 ^ 63)) = .error .ub := by decide +kernel

/-- `sign`, for every double; NaN has sign 0 -/
theorem sign_fp (x : F64) : (∀ _ : x ≠ .nan, sign x = (units x).sign) ∧ sign .nan = 0 := by
  refine ⟨fun h => ?_, by decide +kernel⟩
  unfold sign
  have e1 := @lt_iff zero x zero_ne_nan h
  have e2 := @lt_iff x zero h zero_ne_nan
  rw [units_zero] at e1 e2
  rcases Int.lt_trichotomy (units x) 0 with h | h | h
  · rw [if_neg (by rw [e1]; omega), if_pos (by rw [e2]; omega), Int.sign_eq_neg_one_of_neg h]; rfl
  · rw [if_neg (by rw [e1]; omega), if_neg (by rw [e2]; omega), h]; rfl
  · rw [if_pos (by rw [e1]; omega), if_neg (by rw [e2]; omega), Int.sign_eq_one_of_pos h]; rfl

/-! ### interpolation -/

theorem units_mul_zero {p e : F64} (hp : Finite p) (he : Finite e) (h : units p = 0) :
    Finite (p * e) ∧ units (p * e) = 0 := by
  obtain ⟨s, hs⟩ := mul_finite hp he
  rw [hs, h, Int.zero_mul]
  have := units_ofUnits_exact s 0 one one_pos' rep_zero
  rw [Int.zero_mul] at this
  exact ⟨finite_ofUnits (by rw [this]; exact rep_zero), this⟩

/-- Interpolation with the fraction 0 gives the begin value; a larger fraction never gives a
smaller value when `b ≤ e`. Missing: the end value is not hit exactly (`interpolate_end`). -/
theorem interpolate_fp_partial (b e : F64) (hb : Finite b) (hd : Finite (e - b)) :
    (∀ p, Finite p → units p = 0 → units (interpolate b e p) = units b) ∧
    (0 ≤ units (e - b) → ∀ p q, Finite p → Finite q → le p q = true →
      Finite (p * (e - b)) → Finite (q * (e - b)) →
      le (interpolate b e p) (interpolate b e q) = true) := by
  constructor
  · intro p hp h0
    obtain ⟨h1, h2⟩ := units_mul_zero hp hd h0
    have := add_exact hb h1 (by rw [h2, Int.add_zero]; exact hb.rep)
    show units (b + p * (e - b)) = _
    rw [this.2, h2, Int.add_zero]
  · intro h0 p q hp hq hle fp fq
    show le (b + p * (e - b)) (b + q * (e - b)) = true
    rw [le_iff (add_ne_nan hb fp) (add_ne_nan hb fq)]
    rw [le_iff hp.ne_nan hq.ne_nan] at hle
    have := mul_mono hp hd hq hd (Int.mul_le_mul_of_nonneg_right hle h0)
    exact add_mono hb fp hb fq (by omega)

example : Finite (lit 3 10 - lit (-1) 10) ∧ interpolate (lit (-1) 10) (lit 3 10) (lit 1 2) = lit 1 10 := by
  decide +kernel

/-- the end value is not reached, and even exceeded: from -0.1 to 0.2 the last value is
0.20000000000000004 -/
theorem interpolate_end : lt (lit 2 10) (interpolate (lit (-1) 10) (lit 2 10) (lit 1 1)) = true := by
  decide +kernel

/-- `probability(0)` is true when the random number is 0, and `probability(1)` always is -/
theorem probability_bounds (value : Int) (h : 0 ≤ value) (h' : value ≤ 10000) :
    probability 0 (lit 0 1) = .ok true ∧ probability value (lit 1 1) = .ok true ∧
    (0 < value → probability value (lit 0 1) = .ok false) := by
  have e0 : toIntRange (-(2 ^ 31)) (2 ^ 31 - 1) (lit 0 1 * ofInt 10000) = .ok 0 := by decide +kernel
  have e1 : toIntRange (-(2 ^ 31)) (2 ^ 31 - 1) (lit 1 1 * ofInt 10000) = .ok 10000 := by decide +kernel
  refine ⟨?_, ?_, fun h0 => ?_⟩
  · simp only [probability, e0, bind, Except.bind, pure, Except.pure]; rfl
  · simp only [probability, e1, bind, Except.bind, pure, Except.pure]; simp [h']
  · simp only [probability, e0, bind, Except.bind, pure, Except.pure]; simp; omega

end Verif.Math.Fl
