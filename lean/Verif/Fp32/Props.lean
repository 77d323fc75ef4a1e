import Verif.Fp32.Lemmas
import Mathlib.Algebra.Order.Field.Basic
import Mathlib.Data.Rat.Cast.Order
import Mathlib.Tactic.FieldSimp
/-
The model of floats is IEEE 754 arithmetic: every operation returns a finite float that no
other finite float is nearer to the exact result, the one with an even last bit if there are
two. These theorems are about the model only: they show that the arithmetic used in the models
of the code is the standard's.
-/
namespace Verif.Fp32
open Verif

/-- the number a finite float stands for -/
def val (x : F32) : ℚ := (units x : ℚ) / 2 ^ 149

/-- the last bit of the pattern -/
def oddBits : F32 → Bool
  | .nan => false
  | .num _ b _ => b % 2 = 1

/-- no pattern is nearer than the rounded one -/
theorem round_nearest (n d c : Nat) (hd : 0 < d) :
    ((n : Int) - d * mag (roundBits n d)).natAbs ≤ ((n : Int) - d * mag c).natAbs ∧
    (((n : Int) - d * mag (roundBits n d)).natAbs = ((n : Int) - d * mag c).natAbs →
      c ≠ roundBits n d → roundBits n d % 2 = 0) := by
  obtain ⟨⟨hu, hue⟩, hl⟩ := round_bracket n d hd
  generalize roundBits n d = B at *
  rcases Nat.lt_trichotomy c B with h | h | h
  · obtain ⟨hl, hle⟩ := hl (by omega)
    have e1 : mag c ≤ mag (B - 1) := mag_le (by omega)
    have e2 : mag (B - 1) < mag B := mag_lt (by omega)
    have f1 : d * mag c ≤ d * mag (B - 1) := Nat.mul_le_mul_left _ e1
    have f2 : d * mag (B - 1) < d * mag B := Nat.mul_lt_mul_of_pos_left e2 hd
    rw [Nat.mul_add] at hl hle
    have g1 : (d : Int) * mag B = ((d * mag B : Nat) : Int) := by push_cast; rfl
    have g2 : (d : Int) * mag c = ((d * mag c : Nat) : Int) := by push_cast; rfl
    rw [g1, g2]
    generalize d * mag B = X at *
    generalize d * mag c = Y at *
    generalize d * mag (B - 1) = Z at *
    refine ⟨by omega, fun he _ => hle ?_⟩
    omega
  · subst h; exact ⟨Nat.le_refl _, fun _ h => absurd rfl h⟩
  · have e1 : mag (B + 1) ≤ mag c := mag_le (by omega)
    have e2 : mag B < mag (B + 1) := mag_lt (by omega)
    have f1 : d * mag (B + 1) ≤ d * mag c := Nat.mul_le_mul_left _ e1
    have f2 : d * mag B < d * mag (B + 1) := Nat.mul_lt_mul_of_pos_left e2 hd
    rw [Nat.mul_add] at hu hue
    have g1 : (d : Int) * mag B = ((d * mag B : Nat) : Int) := by push_cast; rfl
    have g2 : (d : Int) * mag c = ((d * mag c : Nat) : Int) := by push_cast; rfl
    rw [g1, g2]
    generalize d * mag B = X at *
    generalize d * mag c = Y at *
    generalize d * mag (B + 1) = Z at *
    refine ⟨by omega, fun he _ => hue ?_⟩
    omega

/-- `ofUnits` rounds to nearest, ties to even (in units) -/
theorem ofUnits_nearest (s : Bool) (n : Int) (d : Nat) (hd : 0 < d)
    (hf : Finite (ofUnits s n d)) (z : F32) (hz : Finite z) :
    (n - d * units (ofUnits s n d)).natAbs ≤ (n - d * units z).natAbs ∧
    ((n - d * units (ofUnits s n d)).natAbs = (n - d * units z).natAbs →
      units z ≠ units (ofUnits s n d) → oddBits (ofUnits s n d) = false) := by
  have hz' : ∃ t c, units z = sgn t (mag c) := by
    cases z with
    | nan => exact absurd hz id
    | num t c hc => exact ⟨t, c, rfl⟩
  obtain ⟨t, c, ec⟩ := hz'
  obtain ⟨B, hB⟩ : ∃ B, B = roundBits n.natAbs d := ⟨_, rfl⟩
  have hlt : B < infBits := by
    by_cases h0 : n = 0
    · rw [hB, h0]; show roundBits 0 d < _; rw [round_zero]; decide
    · simp only [ofUnits, if_neg h0, mk, Finite] at hf
      rw [hB]; omega
  have hu : units (ofUnits s n d) = sgn (decide (n < 0)) (mag B) := by
    rw [units_ofUnits, ← hB, Nat.min_eq_left (Nat.le_of_lt hlt)]
  have hodd : oddBits (ofUnits s n d) = decide (B % 2 = 1) := by
    by_cases h0 : n = 0
    · have : B = 0 := by rw [hB, h0]; exact round_zero d
      rw [this]; simp [ofUnits, h0, mk, oddBits]
    · simp only [ofUnits, if_neg h0, mk, oddBits]
      rw [← hB, Nat.min_eq_left (Nat.le_of_lt hlt)]
  obtain ⟨h1, h2⟩ := round_nearest n.natAbs d c hd
  rw [← hB] at h1 h2
  rw [hu, ec, hodd]
  have key1 : (n - d * sgn (decide (n < 0)) (mag B)).natAbs = ((n.natAbs : Int) - d * mag B).natAbs := by
    unfold sgn
    by_cases hn : n < 0
    · simp only [hn, decide_true, if_true, Int.mul_neg]; omega
    · simp only [hn, decide_false, Bool.false_eq_true, if_false]; omega
  have hpos : (0 : Int) ≤ d * mag c := by
    have : (d : Int) * mag c = ((d * mag c : Nat) : Int) := by push_cast; rfl
    omega
  have key2 : ((n.natAbs : Int) - d * mag c).natAbs ≤ (n - d * sgn t (mag c)).natAbs := by
    unfold sgn
    cases t with
    | true => simp only [if_true, Int.mul_neg]; omega
    | false => simp only [Bool.false_eq_true, if_false]; omega
  have hposB : (0 : Int) ≤ d * mag B := by
    have : (d : Int) * mag B = ((d * mag B : Nat) : Int) := by push_cast; rfl
    omega
  rw [key1]
  refine ⟨by omega, fun he hne => ?_⟩
  have hc : c ≠ B := by
    intro hcb
    subst hcb
    -- the same magnitude, other sign: the distance would be larger unless both are 0
    apply hne
    by_cases hm : mag c = 0
    · rw [hm]; unfold sgn; split <;> split <;> rfl
    · have hp : (0 : Int) < d * mag c := by
        have : (d : Int) * mag c = ((d * mag c : Nat) : Int) := by push_cast; rfl
        have := Nat.mul_pos hd (Nat.pos_of_ne_zero hm)
        omega
      rw [← key1] at he
      unfold sgn at he ⊢
      by_cases hn : n < 0
      · cases t with
        | true => simp [hn]
        | false =>
          simp only [hn, decide_true, if_true, Int.mul_neg, Bool.false_eq_true, if_false] at he
          omega
      · cases t with
        | false => simp [hn]
        | true =>
          by_cases hn0 : n = 0
          · subst hn0
            exfalso
            rw [hB] at hm
            exact hm (by show mag (roundBits 0 d) = 0; rw [round_zero, mag_zero])
          · simp only [hn, decide_false, if_true, Int.mul_neg, Bool.false_eq_true, if_false] at he
            omega
  have := h2 (by omega) hc
  simp only [decide_eq_false_iff_not]; omega

/-- what IEEE 754 demands of a result `r` for the exact value `e` -/
def Nearest (r : F32) (e : ℚ) : Prop :=
  ∀ z, Finite z → |val r - e| ≤ |val z - e| ∧
    (|val r - e| = |val z - e| → val z ≠ val r → oddBits r = false)

theorem val_eq (x : F32) : val x * 2 ^ 149 = units x := by
  unfold val; field_simp

theorem ofUnits_Nearest (s : Bool) (n : Int) (d : Nat) (hd : 0 < d) (e : ℚ)
    (he : e * (d * 2 ^ 149) = n) (hf : Finite (ofUnits s n d)) : Nearest (ofUnits s n d) e := by
  intro z hz
  obtain ⟨h1, h2⟩ := ofUnits_nearest s n d hd hf z hz
  have hd' : (0 : ℚ) < (d : ℚ) * 2 ^ 149 := by positivity
  have conv : ∀ x : F32, |val x - e| * (d * 2 ^ 149) = (((n - d * units x).natAbs : Nat) : ℚ) := by
    intro x
    have h := abs_of_pos hd'
    rw [← h, ← abs_mul, sub_mul, he]
    have : val x * ((d : ℚ) * 2 ^ 149) = d * units x := by rw [← val_eq x]; ring
    rw [this, Nat.cast_natAbs, abs_sub_comm]
    push_cast; rfl
  refine ⟨?_, fun heq hne => h2 ?_ ?_⟩
  · have : |val (ofUnits s n d) - e| * (d * 2 ^ 149) ≤ |val z - e| * (d * 2 ^ 149) := by
      rw [conv, conv]; exact_mod_cast h1
    exact le_of_mul_le_mul_right this hd'
  · have : |val (ofUnits s n d) - e| * (d * 2 ^ 149) = |val z - e| * (d * 2 ^ 149) := by rw [heq]
    rw [conv, conv] at this
    exact_mod_cast this
  · intro hu; exact hne (by unfold val; rw [hu])

/-- sums are rounded to nearest -/
theorem add_nearest (x y : F32) (hx : Finite x) (hy : Finite y) (h : Finite (x + y)) :
    Nearest (x + y) (val x + val y) := by
  obtain ⟨s, e⟩ := add_finite hx hy
  rw [e] at h ⊢
  refine ofUnits_Nearest s _ 1 (by omega) _ ?_ h
  rw [show (val x + val y) * (((1 : Nat) : ℚ) * 2 ^ 149) = val x * 2 ^ 149 + val y * 2 ^ 149 by push_cast; ring,
    val_eq, val_eq]
  push_cast; rfl

theorem val_neg (x : F32) : val (-x) = -val x := by
  unfold val; rw [units_neg]; push_cast; ring

theorem sub_nearest (x y : F32) (hx : Finite x) (hy : Finite y) (h : Finite (x - y)) :
    Nearest (x - y) (val x - val y) := by
  have := add_nearest x (-y) hx (finite_neg.2 hy) h
  rw [val_neg, ← sub_eq_add_neg] at this
  exact this

theorem mul_finite {x y : F32} (hx : Finite x) (hy : Finite y) :
    ∃ s, x * y = ofUnits s (units x * units y) one := by
  cases x with
  | nan => exact absurd hx id
  | num s a ha => cases y with
    | nan => exact absurd hy id
    | num t b hb =>
      have h1 : a < infBits := hx
      have h2 : b < infBits := hy
      refine ⟨s != t, ?_⟩
      show mul _ _ = _
      simp only [mul, units]
      rw [if_neg (by omega)]
      congr 1
      cases s <;> cases t <;> simp [sgn]

theorem mul_nearest (x y : F32) (hx : Finite x) (hy : Finite y) (h : Finite (x * y)) :
    Nearest (x * y) (val x * val y) := by
  obtain ⟨s, e⟩ := mul_finite hx hy
  rw [e] at h ⊢
  refine ofUnits_Nearest s _ one (Nat.two_pow_pos _) _ ?_ h
  rw [show (val x * val y) * ((one : ℚ) * 2 ^ 149) = (val x * 2 ^ 149) * (val y * 2 ^ 149) by
    unfold one; push_cast; ring, val_eq, val_eq]
  push_cast; rfl

theorem div_finite {x y : F32} (hx : Finite x) (hy : Finite y) (h0 : val y ≠ 0) :
    ∃ s n d, 0 < d ∧ x / y = ofUnits s n d ∧ val x / val y * ((d : ℚ) * 2 ^ 149) = (n : ℚ) := by
  cases x with
  | nan => exact absurd hx id
  | num s a ha => cases y with
    | nan => exact absurd hy id
    | num t b hb =>
      have h1 : a < infBits := hx
      have h2 : b < infBits := hy
      have hb0 : b ≠ 0 := by
        intro e; apply h0; subst e
        have : units (.num t 0 hb) = 0 := by cases t <;> simp [units, sgn, mag_zero]
        unfold val; rw [this]; norm_num
      have hmb : mag b ≠ 0 := fun e => hb0 (mag_eq_zero.1 e)
      refine ⟨s != t, sgn (s != t) (mag a * one), mag b, Nat.pos_of_ne_zero hmb, ?_, ?_⟩
      · show div _ _ = _
        simp only [div]
        rw [if_neg (by omega), if_neg (by omega), if_neg hb0]
      · have hmq : (mag b : ℚ) ≠ 0 := by exact_mod_cast hmb
        have ex : val (.num s a ha) = (sgn s (mag a) : ℚ) / 2 ^ 149 := rfl
        have ey : val (.num t b hb) = (sgn t (mag b) : ℚ) / 2 ^ 149 := rfl
        rw [ex, ey]
        have hone : ((2 : ℚ) ^ 149) ≠ 0 := by positivity
        generalize hP : (2 : ℚ) ^ 149 = P at *
        have hoP : (one : ℚ) = P := by rw [← hP]; unfold one; push_cast; rfl
        cases s <;> cases t <;>
          simp only [sgn, Bool.bne_true, Bool.bne_false, Bool.not_true, Bool.not_false, if_true,
            Bool.false_eq_true, if_false, Int.cast_neg, Int.cast_natCast, Nat.cast_mul, hoP,
            bne_self_eq_false, Bool.true_bne, Bool.false_bne, Int.cast_mul, Int.natCast_mul] <;> field_simp <;>
          push_cast <;> rw [hoP]

theorem div_nearest (x y : F32) (hx : Finite x) (hy : Finite y) (h0 : val y ≠ 0)
    (h : Finite (x / y)) : Nearest (x / y) (val x / val y) := by
  obtain ⟨s, n, d, hd, e, he⟩ := div_finite hx hy h0
  rw [e] at h ⊢
  exact ofUnits_Nearest s n d hd _ he h

/-- literals and converted integers are rounded to nearest -/
theorem lit_nearest (n : Int) (d : Nat) (hd : 0 < d) (h : Finite (lit n d)) :
    Nearest (lit n d) ((n : ℚ) / d) := by
  unfold lit at h ⊢
  refine ofUnits_Nearest false _ d hd _ ?_ h
  have : (d : ℚ) ≠ 0 := by exact_mod_cast (Nat.pos_iff_ne_zero.1 hd)
  unfold one; push_cast; field_simp <;> norm_num

/-- comparisons compare the values -/
theorem compare_val (x y : F32) (hx : Finite x) (hy : Finite y) :
    (lt x y = true ↔ val x < val y) ∧ (le x y = true ↔ val x ≤ val y) ∧
    (eq x y = true ↔ val x = val y) := by
  have hp : (0 : ℚ) < 2 ^ 149 := by positivity
  rw [lt_iff hx.ne_nan hy.ne_nan, le_iff hx.ne_nan hy.ne_nan, eq_iff hx.ne_nan hy.ne_nan]
  unfold val
  refine ⟨?_, ?_, ?_⟩
  · rw [div_lt_div_iff_of_pos_right hp]; exact_mod_cast Iff.rfl
  · rw [div_le_div_iff_of_pos_right hp]; exact_mod_cast Iff.rfl
  · rw [div_left_inj' (ne_of_gt hp)]; exact_mod_cast Iff.rfl

-- the hypotheses are met, and rounding really happens
example : Finite (lit 1 10 + lit 2 10) ∧ Finite (lit 1 1 / lit 3 1) ∧ Finite (lit 1 10) := by
  decide +kernel

end Verif.Fp32
