import Verif.Xml.Typed
import Verif.DoubleText.Props
import Verif.Guess.Lemmas
/-
Ten significant digits are enough for a `float`: writing it as text and reading it yields the same `float`.
-/
namespace Verif.Xml.TypedFloat
open Verif Verif.Xml

/-- a fraction that is nearer to the number with the bits `c` than 2^-25 times that number is rounded to it -/
theorem round_near (n d c : Nat) (hd : 0 < d) (h1 : 2 ^ 25 * n < (2 ^ 25 + 1) * (d * Fp32.mag c))
    (h2 : (2 ^ 25 - 1) * (d * Fp32.mag c) < 2 ^ 25 * n) : Fp32.roundBits n d = c := by
  obtain ⟨⟨hu, -⟩, hl⟩ := Fp32.round_bracket n d hd
  generalize Fp32.roundBits n d = B at *
  rcases Nat.lt_trichotomy B c with h | h | h
  · exfalso
    have hc : c = (c - 1) + 1 := by omega
    have e1 : Fp32.mag (B + 1) ≤ Fp32.mag c := Fp32.mag_le (by omega)
    have e2 : Fp32.mag B ≤ Fp32.mag (c - 1) := Fp32.mag_le (by omega)
    have e3 := Fp32.mag_succ (c - 1)
    rw [← hc] at e3
    obtain ⟨-, b2, -⟩ := Fp32.bits_split (c - 1)
    have e4 : Fp32.mag (c - 1) = Fp32.mant (c - 1) * 2 ^ Fp32.expo (c - 1) := rfl
    generalize 2 ^ Fp32.expo (c - 1) = g at *
    have e5 : Fp32.mag (c - 1) + g ≤ 2 ^ 24 * g := by
      rw [e4]
      have : (Fp32.mant (c - 1) + 1) * g ≤ 2 ^ 24 * g := Nat.mul_le_mul_right _ (by omega)
      rw [Nat.add_mul, Nat.one_mul] at this; exact this
    have e6 : d * (Fp32.mag B + Fp32.mag (B + 1)) ≤ d * (Fp32.mag (c - 1) + Fp32.mag c) := Nat.mul_le_mul_left _ (by omega)
    have e7 : d * Fp32.mag c ≤ 2 ^ 24 * (d * g) := by
      rw [e3, Nat.mul_left_comm]; exact Nat.mul_le_mul_left _ e5
    have e8 : d * (Fp32.mag (c - 1) + Fp32.mag c) + d * g = 2 * (d * Fp32.mag c) := by rw [e3]; ring
    generalize d * g = G at *
    generalize d * Fp32.mag c = M at *
    omega
  · exact h
  · exfalso
    obtain ⟨hl, -⟩ := hl (by omega)
    have e1 : Fp32.mag (c + 1) ≤ Fp32.mag B := Fp32.mag_le (by omega)
    have e2 : Fp32.mag c ≤ Fp32.mag (B - 1) := Fp32.mag_le (by omega)
    have e3 := Fp32.mag_succ c
    obtain ⟨-, b2, -⟩ := Fp32.bits_split c
    have e4 : Fp32.mag c = Fp32.mant c * 2 ^ Fp32.expo c := rfl
    generalize 2 ^ Fp32.expo c = g at *
    have e5 : Fp32.mag c ≤ 2 ^ 24 * g := by
      rw [e4]; exact Nat.mul_le_mul_right _ (by omega)
    have e6 : d * (Fp32.mag c + Fp32.mag (c + 1)) ≤ d * (Fp32.mag (B - 1) + Fp32.mag B) := Nat.mul_le_mul_left _ (by omega)
    have e7 : d * Fp32.mag c ≤ 2 ^ 24 * (d * g) := by
      rw [Nat.mul_left_comm]; exact Nat.mul_le_mul_left _ e5
    have e8 : d * (Fp32.mag c + Fp32.mag (c + 1)) = 2 * (d * Fp32.mag c) + d * g := by rw [e3]; ring
    generalize d * g = G at *
    generalize d * Fp32.mag c = M at *
    omega

/-- a double that differs from a `float` by at most a billionth is converted to it -/
theorem toFloat_near (x : Fp32.F32) (y : Fp.F64) (hx : Fp32.Finite x) (hy : Fp.Finite y) (h0 : Fp32.val x ≠ 0)
    (h : |Fp.val y - Fp32.val x| ≤ |Fp32.val x| / 10 ^ 9) : toFloat y = x := by
  cases x with
  | nan => exact absurd hx id
  | num s b hb =>
    cases y with
    | nan => exact absurd hy id
    | num t e he =>
      have hb1 : b < Fp32.infBits := hx
      have he1 : e < Fp.infBits := hy
      have vx : Fp32.val (.num s b hb) * 2 ^ 149 = (Fp32.sgn s (Fp32.mag b) : Int) := Fp32.val_eq _
      have vy : Fp.val (.num t e he) * 2 ^ 1074 = (Fp.sgn t (Fp.mag e) : Int) := Fp.val_eq _
      generalize Fp32.val (.num s b hb) = p at *
      generalize Fp.val (.num t e he) = q at *
      have vx' : p * 2 ^ 1074 = ((Fp32.sgn s (Fp32.mag b) * 2 ^ 925 : Int) : ℚ) := by
        push_cast; rw [← vx, mul_assoc, ← pow_add]
      have h3 : |((Fp.sgn t (Fp.mag e) - Fp32.sgn s (Fp32.mag b) * 2 ^ 925 : Int) : ℚ)| * 10 ^ 9 ≤ |((Fp32.sgn s (Fp32.mag b) * 2 ^ 925 : Int) : ℚ)| := by
        rw [Int.cast_sub, ← vx', ← vy, ← sub_mul, abs_mul, abs_mul, abs_of_pos (by positivity : (0 : ℚ) < 2 ^ 1074)]
        rw [le_div_iff₀ (by positivity)] at h
        calc _ = |q - p| * 10 ^ 9 * 2 ^ 1074 := by ring
          _ ≤ _ := mul_le_mul_of_nonneg_right h (by positivity)
      have h4 : |(Fp.sgn t (Fp.mag e) - Fp32.sgn s (Fp32.mag b) * 2 ^ 925 : Int)| * 10 ^ 9 ≤ |Fp32.sgn s (Fp32.mag b) * 2 ^ 925| := by
        exact_mod_cast h3
      have hm0 : Fp32.mag b ≠ 0 := by
        intro hz
        rw [hz] at vx
        apply h0
        have : (Fp32.sgn s 0 : Int) = 0 := by cases s <;> rfl
        rw [this] at vx
        have : (2 : ℚ) ^ 149 ≠ 0 := by positivity
        simpa [this] using vx
      simp only [toFloat]
      rw [if_neg (by omega)]
      have hd : 0 < 2 ^ 925 := Nat.two_pow_pos _
      have hD' : (2 : Int) ^ 925 = ((2 ^ 925 : Nat) : Int) := (Nat.cast_pow 2 925).symm
      rw [hD', Int.abs_eq_natAbs, Int.abs_eq_natAbs] at h4
      generalize 2 ^ 925 = D at *
      have hpos : 0 < D * Fp32.mag b := Nat.mul_pos hd (by omega)
      have hc : ((Fp32.mag b : Int) * (D : Int)) = ((D * Fp32.mag b : Nat) : Int) := by push_cast; ring
      have hneg : (-(Fp32.mag b : Int) * (D : Int)) = -((D * Fp32.mag b : Nat) : Int) := by push_cast; ring
      have hst : s = t := by
        cases s <;> cases t <;> simp only [Fp.sgn, Fp32.sgn, if_true, Bool.false_eq_true, if_false, hc, hneg] at h4 ⊢
        · generalize D * Fp32.mag b = M at *; omega
        · generalize D * Fp32.mag b = M at *; omega
      subst hst
      have hr : Fp32.roundBits (Fp.mag e) D = b := by
        refine round_near _ _ _ hd ?_ ?_
        · generalize D * Fp32.mag b = M at *
          cases s <;> simp only [Fp.sgn, Fp32.sgn, if_true, Bool.false_eq_true, if_false, hc, hneg] at h4 <;> omega
        · generalize D * Fp32.mag b = M at *
          cases s <;> simp only [Fp.sgn, Fp32.sgn, if_true, Bool.false_eq_true, if_false, hc, hneg] at h4 <;> omega
      have hn0 : 0 < Fp.mag e := by
        generalize D * Fp32.mag b = M at *
        cases s <;> simp only [Fp.sgn, Fp32.sgn, if_true, Bool.false_eq_true, if_false, hc, hneg] at h4 <;> omega
      have hmk : ∀ s, Fp32.mk s b = .num s b hb := fun s => by
        unfold Fp32.mk; congr 1; exact Nat.min_eq_left hb
      cases s
      · simp only [Fp32.ofUnits, Fp.sgn, Bool.false_eq_true, if_false]
        rw [if_neg (by omega), show decide ((Fp.mag e : Int) < 0) = false by simp, Int.natAbs_natCast, hr]; exact hmk false
      · simp only [Fp32.ofUnits, Fp.sgn, if_true]
        rw [if_neg (by omega), show decide (-(Fp.mag e : Int) < 0) = true by simp; omega, Int.natAbs_neg, Int.natAbs_natCast, hr]; exact hmk true

theorem zero_text : ∀ s, toFloat (DoubleText.toDouble (DoubleText.valueOf (Guess.toDouble (Fp32.mk s 0)))) = Fp32.mk s 0 := by
  intro s; cases s <;> decide +kernel

/-- **Every finite `float` is read back exactly**: written as text and read again it is the same, including the sign of zero. -/
theorem float_returns (x : Fp32.F32) (hx : Fp32.Finite x) :
    toFloat (DoubleText.toDouble (DoubleText.valueOf (Guess.toDouble x))) = x := by
  by_cases h0 : Fp32.val x = 0
  · cases x with
    | nan => exact absurd hx id
    | num s b hb =>
      have hu : (Fp32.units (.num s b hb) : ℚ) = 0 := by rw [← Fp32.val_eq, h0, zero_mul]
      have hu' : Fp32.sgn s (Fp32.mag b) = 0 := by exact_mod_cast hu
      have hm : Fp32.mag b = 0 := by
        cases s <;> simp only [Fp32.sgn, if_true, Bool.false_eq_true, if_false] at hu' <;> omega
      obtain rfl : b = 0 := Fp32.mag_eq_zero.1 hm
      exact zero_text s
  · obtain ⟨f, v⟩ := Guess.toDouble_val hx
    obtain ⟨g, hc⟩ := DoubleText.roundtrip_close _ f
    rw [v] at hc
    exact toFloat_near x _ hx g h0 hc

end Verif.Xml.TypedFloat
