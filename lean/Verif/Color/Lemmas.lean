import Verif.Color.Model
import Verif.Fp32.Val
import Mathlib.Tactic.Linarith
import Mathlib.Tactic.Positivity
import Mathlib.Tactic.FieldSimp
/-
Values of the floats that occur in the colour functions.
-/
namespace Verif.Color
open Verif Verif.Fp32 Color

attribute [local irreducible] lit one zero

theorem byte_lt (b : Byte) : b.toNat < 256 := b.isLt

theorem val_ofInt (n : Int) (h : n.natAbs ≤ 2 ^ 24) : Finite (ofInt n) ∧ val (ofInt n) = n := lit_int n h

theorem val_fl (b : Byte) : Finite (fl b) ∧ val (fl b) = b.toNat := by
  have := byte_lt b
  have := val_ofInt (b.toNat : Int) (by omega)
  simpa [fl] using this

theorem val_diff (a b : Byte) : Finite (diff a b) ∧ val (diff a b) = (a.toNat : ℚ) - b.toNat := by
  have := byte_lt a
  have := byte_lt b
  have := val_ofInt ((a.toNat : Int) - b.toNat) (by omega)
  simpa [diff] using this

theorem rp_one : Rp 1 := by simpa using Rp.int 1 (by decide)
theorem rp_zero : Rp 0 := by simpa using Rp.int 0 (by decide)
theorem rp_nat (n : Nat) (h : n ≤ 2 ^ 24) : Rp n := by simpa using Rp.int (n : Int) (by omega)

theorem lit1 : Finite (lit 1 1) ∧ val (lit 1 1) = 1 := by simpa using lit_int 1 (by decide)
theorem lit255 : Finite (lit 255 1) ∧ val (lit 255 1) = 255 := by simpa using lit_int 255 (by decide)
theorem lit60 : Finite (lit 60 1) ∧ val (lit 60 1) = 60 := by simpa using lit_int 60 (by decide)
theorem lit360 : Finite (lit 360 1) ∧ val (lit 360 1) = 360 := by simpa using lit_int 360 (by decide)

/-- results of rounding a number between 0 and 1 stay there -/
theorem unit_between {r : F32} {e : ℚ} (h : Rounds r e) (h0 : 0 ≤ e) (h1 : e ≤ 1) :
    Finite r ∧ 0 ≤ val r ∧ val r ≤ 1 := h.between rp_zero rp_one h0 h1

theorem frac_rounds (b : Byte) : Rounds (frac b) (b.toNat / 255) := by
  have h := div_rounds (val_fl b).1 lit255.1 (by rw [lit255.2]; norm_num)
  rw [(val_fl b).2, lit255.2] at h
  exact h

theorem frac_unit (b : Byte) : Finite (frac b) ∧ 0 ≤ val (frac b) ∧ val (frac b) ≤ 1 := by
  have hb := byte_lt b
  have h : (b.toNat : ℚ) ≤ 255 := by exact_mod_cast (by omega : b.toNat ≤ 255)
  refine unit_between (frac_rounds b) (by positivity) ?_
  rw [div_le_one (by norm_num)]; exact h

theorem frac_mono {a b : Byte} (h : a.toNat ≤ b.toNat) : val (frac a) ≤ val (frac b) := by
  refine (frac_rounds a).mono (frac_rounds b) ?_
  have : (a.toNat : ℚ) ≤ b.toNat := by exact_mod_cast h
  linarith

theorem frac_pos {b : Byte} (h : b ≠ 0) : 1 / 256 ≤ val (frac b) := by
  have h1 : 1 ≤ b.toNat := by
    rcases Nat.eq_zero_or_pos b.toNat with h0 | h0
    · exact absurd (BitVec.eq_of_toNat_eq h0) h
    · exact h0
  have h2 : (1 : ℚ) ≤ b.toNat := by exact_mod_cast h1
  have hlo : Rp (1 / 256) := by
    have := Rp.grid 1 8 (by decide) (by decide)
    norm_num at this ⊢; exact this
  have hb : (b.toNat : ℚ) ≤ 255 := by have := byte_lt b; exact_mod_cast (by omega : b.toNat ≤ 255)
  exact ((frac_rounds b).between hlo rp_one (by linarith) (by linarith)).2.1

theorem frac_err (b : Byte) : |val (frac b) - b.toNat / 255| ≤ 1 / 2 / 2 ^ 24 := by
  have hb : (b.toNat : ℚ) ≤ 255 := by have := byte_lt b; exact_mod_cast (by omega : b.toNat ≤ 255)
  refine (frac_rounds b).err 24 (by decide) ?_
  rw [abs_of_nonneg (by positivity)]
  norm_num
  linarith

theorem frac_zero : val (frac 0) = 0 := by
  have := ((frac_rounds 0).exact (by simpa using rp_zero)).2
  simpa using this

theorem frac_255 : val (frac 255) = 1 := by
  have e : (((255 : Byte).toNat : Nat) : ℚ) / 255 = 1 := by
    rw [show (255 : Byte).toNat = 255 from rfl]; norm_num
  have h := frac_rounds 255
  rw [e] at h
  exact (h.exact rp_one).2

/-- the conversion of a float to `uint8` -/
theorem toByte_ok {x : F32} (hx : Finite x) (h0 : 0 ≤ val x) (h1 : val x < 256) :
    ∃ v : Byte, toByte x = .ok v ∧ (v.toNat : Int) = ⌊val x⌋ := by
  have hf0 : 0 ≤ ⌊val x⌋ := Int.floor_nonneg.2 h0
  have hf1 : ⌊val x⌋ < 256 := Int.floor_lt.2 (by exact_mod_cast h1)
  refine ⟨BitVec.ofInt 8 ⌊val x⌋, ?_, ?_⟩
  · unfold toByte
    rw [toIntRange_nonneg hx 0 255 (le_refl _) h0, if_pos (by omega)]
    rfl
  · rw [BitVec.toNat_ofInt]; omega

theorem toByte_ub {x : F32} (hx : Finite x) (h1 : 256 ≤ val x) : toByte x = .error .ub := by
  have hf : (256 : Int) ≤ ⌊val x⌋ := Int.le_floor.2 (by exact_mod_cast h1)
  unfold toByte
  rw [toIntRange_nonneg hx 0 255 (le_refl _) (by linarith), if_neg (by omega)]
  rfl

theorem toByte_nan : toByte .nan = .error .ub := rfl

/-- the floor of a number between two integers -/
theorem floor_between {x : ℚ} {a b : Int} (h0 : (a : ℚ) ≤ x) (h1 : x < b + 1) : a ≤ ⌊x⌋ ∧ ⌊x⌋ ≤ b :=
  ⟨Int.le_floor.2 h0, Int.lt_add_one_iff.1 (Int.floor_lt.2 (by exact_mod_cast h1))⟩

/-- the error of a product of numbers between 0 and 1 -/
theorem mul_err {a b a' b' e f : ℚ} (ha : |a - a'| ≤ e) (hb : |b - b'| ≤ f) (b0 : 0 ≤ b) (b1 : b ≤ 1)
    (a0 : 0 ≤ a') (a1 : a' ≤ 1) : |a * b - a' * b'| ≤ e + f := by
  have h : a * b - a' * b' = (a - a') * b + a' * (b - b') := by ring
  rw [h]
  refine (abs_add_le _ _).trans ?_
  rw [abs_mul, abs_mul, abs_of_nonneg b0, abs_of_nonneg a0]
  have h1 := mul_le_mul_of_nonneg_left b1 (abs_nonneg (a - a'))
  have h2 := mul_le_mul_of_nonneg_right a1 (abs_nonneg (b - b'))
  linarith

theorem byte_frac (b : Byte) : (0 : ℚ) ≤ b.toNat / 255 ∧ (b.toNat : ℚ) / 255 ≤ 1 := by
  have : (b.toNat : ℚ) ≤ 255 := by have := byte_lt b; exact_mod_cast (by omega : b.toNat ≤ 255)
  exact ⟨by positivity, by rw [div_le_one (by norm_num)]; exact this⟩

/-- rounding down a number that is close to `m` -/
theorem floor_close {x m d : ℚ} {r : Byte} (h : |x - m| ≤ d) (hr : (r.toNat : Int) = ⌊x⌋) :
    (r.toNat : ℚ) ≤ m + d ∧ m < r.toNat + 1 + d := by
  have l1 := Int.floor_le x
  have l2 := Int.lt_floor_add_one x
  rw [← hr] at l1 l2
  push_cast at l1 l2
  have := abs_le.1 h
  constructor <;> linarith

end Verif.Color
