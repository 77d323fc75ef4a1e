import Verif.Math.FpProps
import Verif.Fp.Val
/-
C56: `random()` on Linux, macOS and Windows, and how often `probability` is true.
-/
namespace Verif.Math.Fl
open Verif Verif.Fp

/-! ### Model -/

/-- the state `uint16 x[3]` as a number: POSIX, x[2] has the most significant bits -/
def state48 (z0 z1 z2 : Nat) : Nat := z0 % 2 ^ 16 + 2 ^ 16 * (z1 % 2 ^ 16) + 2 ^ 32 * (z2 % 2 ^ 16)

/-- POSIX: one step of the linear congruential generator -/
def step48 (s : Nat) : Nat := (0x5DEECE66D * s + 0xB) % 2 ^ 48

/-- POSIX `erand48`: the new state divided by 2^48 -/
def erand48 (s : Nat) : F64 := lit (step48 s : Int) (2 ^ 48)

/-- Math.cpp:153-161 `random()` on macOS and Linux; `z0`, `z1`, `z2` are the results of `rand()` -/
def random01 (z0 z1 z2 : Nat) : F64 := erand48 (state48 z0 z1 z2)

/-- Math.cpp:162-166 `random()` on Windows, where `RAND_MAX` is 32767 -/
def random01Win (z : Nat) : F64 := ofInt z / ofInt 32767

/-! ### Theorems -/

theorem ofInt_eq (n : Int) : ofInt n = lit n 1 := rfl

theorem step48_lt (s : Nat) : step48 s < 2 ^ 48 := Nat.mod_lt _ (by decide)

attribute [local irreducible] lit ofInt step48

theorem grid48 (k : Nat) (h : k < 2 ^ 48) : Finite (lit (k : Int) (2 ^ 48)) ∧ val (lit (k : Int) (2 ^ 48)) = (k : ℚ) / 2 ^ 48 := by
  have hr := lit_rounds (k : Int) (2 ^ 48) (Nat.two_pow_pos 48)
  have hg : Rp (((k : Int) : ℚ) / 2 ^ 48) := Rp.grid (k : Int) 48 (by
    rw [Int.natAbs_natCast]
    exact Nat.le_of_lt (Nat.lt_trans h (by decide))) (by decide)
  have hr' : Rounds (lit (k : Int) (2 ^ 48)) (((k : Int) : ℚ) / 2 ^ 48) := by
    have e : (((2 ^ 48 : Nat) : ℚ)) = 2 ^ 48 := Nat.cast_pow 2 48
    rw [e] at hr; exact hr
  obtain ⟨f, v⟩ := hr'.exact hg
  exact ⟨f, by rw [v, Int.cast_natCast]⟩

theorem random01_val (z0 z1 z2 : Nat) : Finite (random01 z0 z1 z2) ∧ val (random01 z0 z1 z2) = (step48 (state48 z0 z1 z2) : ℚ) / 2 ^ 48 := by
  unfold random01 erand48
  exact grid48 _ (step48_lt _)

/-- The random number is at least 0 and less than 1, whatever `rand()` returns. -/
theorem random01_range (z0 z1 z2 : Nat) :
    Finite (random01 z0 z1 z2) ∧ 0 ≤ val (random01 z0 z1 z2) ∧ val (random01 z0 z1 z2) < 1 := by
  obtain ⟨f, v⟩ := random01_val z0 z1 z2
  refine ⟨f, ?_, ?_⟩
  · rw [v]; positivity
  · rw [v, div_lt_one (by positivity)]
    have h : ((step48 (state48 z0 z1 z2) : Nat) : ℚ) < ((2 ^ 48 : Nat) : ℚ) := Nat.cast_lt.2 (step48_lt _)
    rw [Nat.cast_pow] at h; exact h

/-- the inverse of the multiplier -/
theorem mult_inverse : 0x5DEECE66D * 0xDFE05BCB1365 % 2 ^ 48 = 1 := by decide

/-- the state that leads to k -/
def back48 (k : Nat) : Nat := 0xDFE05BCB1365 * (k + (2 ^ 48 - 0xB)) % 2 ^ 48

theorem back48_lt (k : Nat) : back48 k < 2 ^ 48 := Nat.mod_lt _ (by decide)

theorem back_unique {k s : Nat} (hs : s < 2 ^ 48) (h : step48 s = k) : s = back48 k := by
  unfold step48 at h
  have h1 : (0x5DEECE66D * s) % 2 ^ 48 = (k + (2 ^ 48 - 0xB)) % 2 ^ 48 := by omega
  have h2 : 0xDFE05BCB1365 * (0x5DEECE66D * s) % 2 ^ 48 = 0xDFE05BCB1365 * (k + (2 ^ 48 - 0xB)) % 2 ^ 48 := by
    rw [Nat.mul_mod, h1, ← Nat.mul_mod]
  unfold back48
  rw [← h2]
  have e : 0xDFE05BCB1365 * (0x5DEECE66D * s) = 0x5DEECE66D * 0xDFE05BCB1365 * s := by ring
  rw [e, Nat.mul_mod, mult_inverse, Nat.one_mul, Nat.mod_mod, Nat.mod_eq_of_lt hs]

theorem step_back {k : Nat} (hk : k < 2 ^ 48) : step48 (back48 k) = k := by
  have h2 : 0x5DEECE66D * back48 k % 2 ^ 48 = (k + (2 ^ 48 - 0xB)) % 2 ^ 48 := by
    unfold back48
    rw [Nat.mul_mod, Nat.mod_mod, ← Nat.mul_mod]
    have e : 0x5DEECE66D * (0xDFE05BCB1365 * (k + (2 ^ 48 - 0xB))) = 0x5DEECE66D * 0xDFE05BCB1365 * (k + (2 ^ 48 - 0xB)) := by ring
    rw [e, Nat.mul_mod, mult_inverse, Nat.one_mul, Nat.mod_mod]
  unfold step48
  omega

attribute [local irreducible] back48

theorem state_split {s : Nat} (hs : s < 2 ^ 48) : state48 (s % 2 ^ 16) (s / 2 ^ 16 % 2 ^ 16) (s / 2 ^ 32) = s := by
  unfold state48; omega

theorem state_inj {y0 y1 y2 z0 z1 z2 : Nat} (h0 : y0 < 2 ^ 16) (h1 : y1 < 2 ^ 16) (h2 : y2 < 2 ^ 16) (g0 : z0 < 2 ^ 16) (g1 : z1 < 2 ^ 16)
    (g2 : z2 < 2 ^ 16) (h : state48 y0 y1 y2 = state48 z0 z1 z2) : y0 = z0 ∧ y1 = z1 ∧ y2 = z2 := by
  unfold state48 at h; omega

theorem state_lt (y0 y1 y2 : Nat) : state48 y0 y1 y2 < 2 ^ 48 := by unfold state48; omega

/-- Every multiple of 2^-48 below 1 occurs: exactly one state leads to it. -/
theorem random01_every (k : Nat) (hk : k < 2 ^ 48) :
    ∃ z0 z1 z2, z0 < 2 ^ 16 ∧ z1 < 2 ^ 16 ∧ z2 < 2 ^ 16 ∧ val (random01 z0 z1 z2) = (k : ℚ) / 2 ^ 48 ∧
      ∀ y0 y1 y2, y0 < 2 ^ 16 → y1 < 2 ^ 16 → y2 < 2 ^ 16 → val (random01 y0 y1 y2) = (k : ℚ) / 2 ^ 48 → y0 = z0 ∧ y1 = z1 ∧ y2 = z2 := by
  have hs := back48_lt k
  have b0 : back48 k % 2 ^ 16 < 2 ^ 16 := Nat.mod_lt _ (by decide)
  have b1 : back48 k / 2 ^ 16 % 2 ^ 16 < 2 ^ 16 := Nat.mod_lt _ (by decide)
  have b2 : back48 k / 2 ^ 32 < 2 ^ 16 := by omega
  refine ⟨back48 k % 2 ^ 16, back48 k / 2 ^ 16 % 2 ^ 16, back48 k / 2 ^ 32, b0, b1, b2, ?_, ?_⟩
  · rw [(random01_val _ _ _).2, state_split hs, step_back hk]
  · intro y0 y1 y2 h0 h1 h2 h
    rw [(random01_val _ _ _).2, div_left_inj' (by positivity), Nat.cast_inj] at h
    have := back_unique (state_lt y0 y1 y2) h
    exact state_inj h0 h1 h2 b0 b1 b2 (this.trans (state_split hs).symm)

/-- On Windows the random number is between 0 and 1; 1 itself occurs, for the largest value of `rand()` only. -/
theorem random01Win_range (z : Nat) (hz : z ≤ 32767) :
    Finite (random01Win z) ∧ 0 ≤ val (random01Win z) ∧ val (random01Win z) ≤ 1 := by
  have fz := lit_int (z : Int) (by omega)
  have fm := lit_int 32767 (by decide)
  rw [← ofInt_eq] at fz fm
  have e1 : val (ofInt (z : Int)) = (z : ℚ) := by rw [fz.2, Int.cast_natCast]
  have e2 : val (ofInt 32767) = 32767 := by rw [fm.2]; norm_num
  have hr := div_rounds (x := ofInt z) (y := ofInt 32767) fz.1 fm.1 (by rw [e2]; norm_num)
  rw [e1, e2] at hr
  have hz' : (z : ℚ) ≤ 32767 := by exact_mod_cast hz
  exact hr.between (by simpa using Rp.int 0 (by decide)) (by simpa using Rp.int 1 (by decide)) (by positivity)
    (by rw [div_le_one (by norm_num)]; exact hz')

theorem random01Win_one : random01Win 32767 = lit 1 1 := by decide +kernel

/-- `probability(p)` for p from 0 to 1: there is a threshold `t`, the whole part of 10000·p up to one rounding, such that the answer is
true for exactly the random numbers 0 … t of the range 0 … 10000: for t + 1 of the 10001 values. -/
theorem probability_threshold (p : F64) (hp : Finite p) (h0 : 0 ≤ val p) (h1 : val p ≤ 1) :
    ∃ t : Int, 0 ≤ t ∧ t ≤ 10000 ∧ (t : ℚ) ≤ 10000 * val p + 1 / 2 ^ 40 ∧ 10000 * val p < t + 1 + 1 / 2 ^ 40 ∧
      (∀ v : Int, probability v p = .ok (decide (v ≤ t))) ∧
      (((List.range 10001).filter fun v : Nat => decide ((v : Int) ≤ t)).length : Int) = t + 1 := by
  have fm := lit_int 10000 (by decide)
  rw [← ofInt_eq] at fm
  have hr := mul_rounds (x := p) (y := ofInt 10000) hp fm.1
  have e2 : val (ofInt 10000) = 10000 := by rw [fm.2]; norm_num
  rw [e2] at hr
  obtain ⟨f, b1, b2⟩ := hr.between (lo := 0) (hi := 10000) (by simpa using Rp.int 0 (by decide)) (by simpa using Rp.int 10000 (by decide))
    (by positivity) (by linarith)
  have herr := hr.err 39 (by decide) (by
    rw [abs_of_nonneg (by positivity)]
    have : (10000 : ℚ) ≤ 2 ^ 53 / 2 ^ 39 := by norm_num
    linarith)
  have e40 : (1 : ℚ) / 2 / 2 ^ 39 = 1 / 2 ^ 40 := by norm_num
  rw [e40, abs_le] at herr
  have hfl := Int.floor_le (val (p * ofInt 10000))
  have hfu := Int.lt_floor_add_one (val (p * ofInt 10000))
  have ht0 : 0 ≤ ⌊val (p * ofInt 10000)⌋ := Int.floor_nonneg.2 b1
  have ht1 : ⌊val (p * ofInt 10000)⌋ ≤ 10000 := by
    have : ((⌊val (p * ofInt 10000)⌋ : Int) : ℚ) ≤ ((10000 : Int) : ℚ) := by push_cast; linarith
    exact_mod_cast this
  have hrange := toIntRange_nonneg f (-(2 ^ 31)) (2 ^ 31 - 1) (by decide) b1
  rw [if_pos (by omega)] at hrange
  generalize ⌊val (p * ofInt 10000)⌋ = t at *
  refine ⟨t, ht0, ht1, by linarith [herr.2], by linarith [herr.1], ?_, ?_⟩
  · intro v
    simp only [probability, hrange, bind, Except.bind, pure, Except.pure]
  · obtain ⟨n, rfl⟩ := Int.eq_ofNat_of_zero_le ht0
    have hn : n + 1 ≤ 10001 := by omega
    have : (List.range 10001).filter (fun v : Nat => decide ((v : Int) ≤ (n : Int))) = List.range (n + 1) := by
      have e : (List.range 10001) = List.range (n + 1) ++ (List.range (10001 - (n + 1))).map (n + 1 + ·) := by
        rw [← List.range_add]; congr 1; omega
      rw [e, List.filter_append]
      have a : (List.range (n + 1)).filter (fun v : Nat => decide ((v : Int) ≤ (n : Int))) = List.range (n + 1) := by
        rw [List.filter_eq_self]; intro v hv; have := List.mem_range.1 hv; simp; omega
      have b : ((List.range (10001 - (n + 1))).map (n + 1 + ·)).filter (fun v : Nat => decide ((v : Int) ≤ (n : Int))) = [] := by
        rw [List.filter_eq_nil_iff]; intro v hv
        obtain ⟨j, -, rfl⟩ := List.mem_map.1 hv
        simp; omega
      rw [a, b, List.append_nil]
    rw [this, List.length_range]; push_cast; rfl

/-- A probability of 214748.3648 and more is undefined behaviour: the threshold does not fit an `int32`. -/
theorem probability_ub (p : F64) (v : Int) (hf : Finite (p * ofInt 10000)) (h : 2 ^ 31 ≤ val (p * ofInt 10000)) :
    probability v p = .error .ub := by
  have hrange := toIntRange_nonneg hf (-(2 ^ 31)) (2 ^ 31 - 1) (by decide) (by linarith [show (0 : ℚ) ≤ 2 ^ 31 by positivity])
  have : (2 ^ 31 : Int) ≤ ⌊val (p * ofInt 10000)⌋ := Int.le_floor.2 (by push_cast; exact h)
  rw [if_neg (by omega)] at hrange
  simp only [probability, hrange, bind, Except.bind]

example : Finite (lit 1 4) ∧ (probability 2500 (lit 1 4)).toOption = some true ∧ (probability 2501 (lit 1 4)).toOption = some false ∧
    (probability 0 (lit 300000 1)).toOption = none ∧ random01 1 2 3 = lit 0x7126ABC6E678 (2 ^ 48) := by decide +kernel

end Verif.Math.Fl
