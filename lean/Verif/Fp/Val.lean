import Verif.Fp.Mono
import Mathlib.Algebra.Order.Round
import Mathlib.Data.Rat.Floor
/-
The rounded operations in terms of the rational values: bounds by representable numbers,
monotonicity, absolute rounding error.
-/
namespace Verif.Fp
open Verif

/-- `r` is the result of rounding the exact value `e` -/
def Rounds (r : F64) (e : ℚ) : Prop :=
  ∃ s n d, r = ofUnits s n d ∧ 0 < d ∧ e * (d * 2 ^ 1074) = (n : Int)

/-- a rational number that is a finite double -/
def Rp (q : ℚ) : Prop := ∃ m : Int, Rep m ∧ q * 2 ^ 1074 = m

theorem Rp.of (x : F64) (h : Finite x) : Rp (val x) := ⟨units x, h.rep, val_eq x⟩

theorem Rp.neg {q : ℚ} (h : Rp q) : Rp (-q) := by
  obtain ⟨m, h1, h2⟩ := h
  exact ⟨-m, h1.neg, by push_cast; rw [← h2]; ring⟩

/-- a grid point: an integer of at most 53 bits times a power of two -/
theorem Rp.grid (m : Int) (k : Nat) (hm : m.natAbs ≤ 2 ^ 53) (hk : k ≤ 1074) : Rp ((m : ℚ) / 2 ^ k) := by
  refine ⟨_, rep_grid m (1074 - k) hm (by omega), ?_⟩
  have h : (2 : ℚ) ^ 1074 = 2 ^ (1074 - k) * 2 ^ k := by rw [← pow_add]; congr 1; omega
  rw [h]; push_cast; field_simp

theorem Rp.int (m : Int) (hm : m.natAbs ≤ 2 ^ 53) : Rp m := by
  have := Rp.grid m 0 hm (by omega)
  simpa using this

theorem units_le_val {x y : F64} : units x ≤ units y ↔ val x ≤ val y := by
  have h2 : (0 : ℚ) < 2 ^ 1074 := by positivity
  unfold val
  rw [div_le_div_iff_of_pos_right h2]
  exact_mod_cast Iff.rfl

theorem Rounds.mono {r r' : F64} {e e' : ℚ} (h : Rounds r e) (h' : Rounds r' e') (hle : e ≤ e') :
    val r ≤ val r' := by
  obtain ⟨s, n, d, rfl, hd, hn⟩ := h
  obtain ⟨s', n', d', rfl, hd', hn'⟩ := h'
  rw [← units_le_val]
  refine units_ofUnits_mono s s' n n' d d' hd hd' ?_
  have h1 : (n : ℚ) * d' ≤ n' * d := by
    rw [← hn, ← hn']
    have h3 : (0 : ℚ) ≤ d * d' * 2 ^ 1074 := by positivity
    calc e * (d * 2 ^ 1074) * d' = e * (d * d' * 2 ^ 1074) := by ring
      _ ≤ e' * (d * d' * 2 ^ 1074) := mul_le_mul_of_nonneg_right hle h3
      _ = _ := by ring
  exact_mod_cast h1

theorem Rp.rounds {q : ℚ} (h : Rp q) : ∃ r, Rounds r q ∧ Finite r ∧ val r = q := by
  obtain ⟨m, h1, h2⟩ := h
  have e := units_ofUnits_exact1 false m h1
  refine ⟨ofUnits false m 1, ⟨false, m, 1, rfl, by omega, by rw [← h2]; push_cast; ring⟩, ?_, ?_⟩
  · exact finite_ofUnits (by rw [e]; exact h1)
  · unfold val; rw [e, ← h2]; field_simp

theorem Rounds.ne_nan {r : F64} {e : ℚ} (h : Rounds r e) : r ≠ .nan := by
  obtain ⟨s, n, d, rfl, _, _⟩ := h; exact ofUnits_ne_nan _ _ _

/-- rounding does not cross a representable number -/
theorem Rounds.between {r : F64} {e lo hi : ℚ} (h : Rounds r e) (hlo : Rp lo) (hhi : Rp hi)
    (h1 : lo ≤ e) (h2 : e ≤ hi) : Finite r ∧ lo ≤ val r ∧ val r ≤ hi := by
  obtain ⟨a, ha, fa, va⟩ := hlo.rounds
  obtain ⟨b, hb, fb, vb⟩ := hhi.rounds
  have m1 := ha.mono h h1
  have m2 := h.mono hb h2
  refine ⟨?_, va ▸ m1, vb ▸ m2⟩
  rw [finite_iff h.ne_nan]
  rw [← units_le_val] at m1 m2
  have := units_lt_inf fa
  have := units_lt_inf fb
  omega

theorem Rounds.exact {r : F64} {e : ℚ} (h : Rounds r e) (he : Rp e) : Finite r ∧ val r = e := by
  obtain ⟨f, a, b⟩ := h.between he he (le_refl _) (le_refl _)
  exact ⟨f, le_antisymm b a⟩

theorem Rounds.nearest {r : F64} {e : ℚ} (h : Rounds r e) (hf : Finite r) : Nearest r e := by
  obtain ⟨s, n, d, rfl, hd, hn⟩ := h
  exact ofUnits_Nearest s n d hd e hn hf

theorem abs_le_of_grid {e : ℚ} {k : Nat} (hk : k ≤ 1074) (h : |e| ≤ 2 ^ 53 / 2 ^ k) {r : F64}
    (hr : Rounds r e) : Finite r ∧ |val r| ≤ 2 ^ 53 / 2 ^ k := by
  have hp := Rp.grid (2 ^ 53) k (by decide) hk
  have hn := hp.neg
  push_cast at hp hn
  obtain ⟨f, a, b⟩ := hr.between hn hp (by have := abs_le.1 h; exact this.1) (abs_le.1 h).2
  exact ⟨f, abs_le.2 ⟨a, b⟩⟩

/-- the absolute error: half a unit in the last place of the largest number of that size -/
theorem Rounds.err {r : F64} {e : ℚ} (h : Rounds r e) (k : Nat) (hk : k ≤ 1074)
    (he : |e| ≤ 2 ^ 53 / 2 ^ k) : |val r - e| ≤ 1 / 2 / 2 ^ k := by
  obtain ⟨f, -⟩ := abs_le_of_grid hk he h
  have h2 : (0 : ℚ) < 2 ^ k := by positivity
  have hr : |(round (e * 2 ^ k) : ℚ) - e * 2 ^ k| ≤ 1 / 2 := by
    rw [abs_sub_comm]; exact abs_sub_round _
  have hm : (round (e * 2 ^ k)).natAbs ≤ 2 ^ 53 := by
    have h3 : |e * 2 ^ k| ≤ 2 ^ 53 := by
      rw [abs_mul, abs_of_pos h2]; rwa [le_div_iff₀ h2] at he
    have h4 : |(round (e * 2 ^ k) : ℚ)| ≤ 2 ^ 53 + 1 / 2 := by
      have := abs_sub_abs_le_abs_sub (round (e * 2 ^ k) : ℚ) (e * 2 ^ k)
      linarith
    have h5 : ((round (e * 2 ^ k)).natAbs : ℚ) < ((2 ^ 53 + 1 : Nat) : ℚ) := by
      rw [Nat.cast_natAbs]; push_cast; linarith
    have : (round (e * 2 ^ k)).natAbs < 2 ^ 53 + 1 := by exact_mod_cast h5
    omega
  obtain ⟨z, hz, fz, vz⟩ := (Rp.grid _ k hm hk).rounds
  have := (h.nearest f z fz).1
  refine this.trans ?_
  rw [vz]
  have e1 : (round (e * 2 ^ k) : ℚ) / 2 ^ k - e = (round (e * 2 ^ k) - e * 2 ^ k) / 2 ^ k := by field_simp
  rw [e1, abs_div, abs_of_pos h2]
  exact div_le_div_of_nonneg_right hr h2.le

/-! ### The operations round -/

theorem add_rounds {x y : F64} (hx : Finite x) (hy : Finite y) : Rounds (x + y) (val x + val y) := by
  obtain ⟨s, e⟩ := add_finite hx hy
  refine ⟨s, _, 1, e, by omega, ?_⟩
  push_cast
  rw [← val_eq, ← val_eq]; ring

theorem sub_rounds {x y : F64} (hx : Finite x) (hy : Finite y) : Rounds (x - y) (val x - val y) := by
  obtain ⟨s, e⟩ := sub_finite hx hy
  refine ⟨s, _, 1, e, by omega, ?_⟩
  push_cast
  rw [← val_eq, ← val_eq]; ring

theorem mul_rounds {x y : F64} (hx : Finite x) (hy : Finite y) : Rounds (x * y) (val x * val y) := by
  obtain ⟨s, e⟩ := mul_finite hx hy
  refine ⟨s, _, one, e, Nat.two_pow_pos _, ?_⟩
  have : ((one : Nat) : ℚ) = 2 ^ 1074 := by unfold one; push_cast; rfl
  rw [this]
  push_cast
  rw [← val_eq, ← val_eq]; ring

theorem div_rounds {x y : F64} (hx : Finite x) (hy : Finite y) (h0 : val y ≠ 0) :
    Rounds (x / y) (val x / val y) := by
  obtain ⟨s, n, d, hd, e, he⟩ := div_finite hx hy h0
  exact ⟨s, n, d, e, hd, he⟩

theorem lit_rounds (n : Int) (d : Nat) (hd : 0 < d) : Rounds (lit n d) (n / d) := by
  refine ⟨false, n * one, d, rfl, hd, ?_⟩
  have : ((one : Nat) : ℚ) = 2 ^ 1074 := by unfold one; push_cast; rfl
  have hd' : (d : ℚ) ≠ 0 := by positivity
  push_cast
  rw [this]; field_simp

theorem lit_int (n : Int) (h : n.natAbs ≤ 2 ^ 53) : Finite (lit n 1) ∧ val (lit n 1) = n := by
  have := lit_rounds n 1 (by omega)
  rw [Nat.cast_one, div_one] at this
  exact this.exact (Rp.int n h)

theorem val_zero : val zero = 0 := by
  unfold val; rw [show units zero = 0 by decide]; simp

theorem fmax_val {x y : F64} (hx : Finite x) (hy : Finite y) :
    Finite (fmax x y) ∧ val (fmax x y) = max (val x) (val y) := by
  have h := (compare_val x y hx hy).1
  unfold fmax
  split
  · rename_i hl; exact ⟨hy, (max_eq_right (h.1 hl).le).symm⟩
  · rename_i hl; exact ⟨hx, (max_eq_left (not_lt.1 (fun hh => hl (h.2 hh)))).symm⟩

theorem fmin_val {x y : F64} (hx : Finite x) (hy : Finite y) :
    Finite (fmin x y) ∧ val (fmin x y) = min (val x) (val y) := by
  have h := (compare_val y x hy hx).1
  unfold fmin
  split
  · rename_i hl; exact ⟨hy, (min_eq_right (h.1 hl).le).symm⟩
  · rename_i hl; exact ⟨hx, (min_eq_left (not_lt.1 (fun hh => hl (h.2 hh)))).symm⟩

theorem one_cast : ((one : Nat) : ℚ) = 2 ^ 1074 := by unfold one; push_cast; rfl

theorem floor_units (x : F64) : ⌊val x⌋ = units x / (one : Int) := by
  have h := Rat.floor_intCast_div_natCast (units x) one
  rw [one_cast] at h
  exact h

/-- conversion of a number that is not negative to an integer type -/
theorem toIntRange_nonneg {x : F64} (hx : Finite x) (lo hi : Int) (hlo : lo ≤ 0) (h0 : 0 ≤ val x) :
    toIntRange lo hi x = if ⌊val x⌋ ≤ hi then .ok ⌊val x⌋ else .error .ub := by
  have hf : 0 ≤ ⌊val x⌋ := Int.floor_nonneg.2 h0
  have hu := floor_units x
  cases x with
  | nan => exact absurd hx id
  | num s b hb =>
    have h1 : b < infBits := hx
    have hu0 : 0 ≤ sgn s (mag b) := by
      have h2 : (0 : ℚ) < 2 ^ 1074 := by positivity
      have := mul_nonneg h0 h2.le
      rw [val_eq] at this
      exact_mod_cast this
    have e : Int.tdiv (sgn s (mag b)) one = ⌊val (.num s b hb)⌋ := by
      rw [hu, Int.tdiv_eq_ediv_of_nonneg hu0]; rfl
    simp only [toIntRange]
    rw [if_neg (by omega), e]
    generalize ⌊val (.num s b hb)⌋ = v at *
    by_cases hv : v ≤ hi
    · rw [if_pos ⟨by omega, hv⟩, if_pos hv]
    · rw [if_neg (fun h => hv h.2), if_neg hv]

/-- `floor` gives the floor -/
theorem floor_val {x : F64} (hx : Finite x) (hm : (⌊val x⌋).natAbs ≤ 2 ^ 53) :
    Finite (floor x) ∧ val (floor x) = ⌊val x⌋ := by
  have hu := floor_units x
  cases x with
  | nan => exact absurd hx id
  | num s b hb =>
    have h1 : b < infBits := hx
    have e : Int.fdiv (sgn s (mag b)) one = ⌊val (.num s b hb)⌋ := by
      rw [hu, Int.fdiv_eq_ediv_of_nonneg _ (by omega)]; rfl
    have hr : Rounds (floor (.num s b hb)) ⌊val (.num s b hb)⌋ := by
      refine ⟨s, ⌊val (.num s b hb)⌋ * one, 1, ?_, by omega, ?_⟩
      · simp only [floor]
        rw [if_neg (by omega), e]
      · rw [← one_cast]; push_cast; ring
    exact hr.exact (Rp.int _ hm)

end Verif.Fp
