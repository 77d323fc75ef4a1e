import Verif.Math.Model
namespace Verif.Math
open Verif

/-- Bit `i` of the `or` of `y`, `y>>1`, …, `y>>(n-1)`. -/
def Smear (n : Nat) (y z : BitVec 32) : Prop := ∀ i, z.getLsbD i = true ↔ ∃ j, j < n ∧ y.getLsbD (i + j) = true

theorem smear_one (y : BitVec 32) : Smear 1 y y := by
  intro i
  constructor
  · intro h; exact ⟨0, by omega, h⟩
  · rintro ⟨j, hj, h⟩
    have : j = 0 := by omega
    subst this; exact h

theorem smear_double {n : Nat} {y z : BitVec 32} (h : Smear n y z) : Smear (2 * n) y (z ||| (z >>> n)) := by
  intro i
  rw [BitVec.getLsbD_or, BitVec.getLsbD_ushiftRight, Bool.or_eq_true, h i, h (n + i)]
  constructor
  · rintro (⟨j, hj, e⟩ | ⟨j, hj, e⟩)
    · exact ⟨j, by omega, e⟩
    · exact ⟨n + j, by omega, by rw [← e]; congr 1; omega⟩
  · rintro ⟨j, hj, e⟩
    by_cases hjn : j < n
    · exact .inl ⟨j, hjn, e⟩
    · exact .inr ⟨j - n, by omega, by rw [← e]; congr 1; omega⟩

/-- Bit length: for `0 < y` there is `k` with `2^k ≤ y < 2^(k+1)`. -/
theorem exists_log (y : Nat) (h : 0 < y) : ∃ k, 2 ^ k ≤ y ∧ y < 2 ^ (k + 1) :=
  ⟨y.log2, Nat.log2_self_le (by omega), Nat.lt_log2_self⟩

theorem smear_full {y z : BitVec 32} (h : Smear 32 y z) (k : Nat) (hk : k < 32)
    (h1 : 2 ^ k ≤ y.toNat) (h2 : y.toNat < 2 ^ (k + 1)) : z.toNat = 2 ^ (k + 1) - 1 := by
  apply Nat.eq_of_testBit_eq
  intro i
  rw [Nat.testBit_two_pow_sub_one]
  have hb : y.getLsbD k = true := by
    rw [BitVec.getLsbD]
    rw [Nat.testBit_eq_decide_div_mod_eq]
    have : y.toNat / 2 ^ k = 1 := by
      have a : y.toNat / 2 ^ k < 2 := by
        rw [Nat.div_lt_iff_lt_mul (Nat.two_pow_pos k)]
        rw [Nat.pow_succ] at h2; omega
      have b : 1 ≤ y.toNat / 2 ^ k := by
        rw [Nat.le_div_iff_mul_le (Nat.two_pow_pos k)]; omega
      omega
    simp [this]
  have hz : z.toNat.testBit i = z.getLsbD i := rfl
  rw [hz]
  by_cases hi : i < k + 1
  · rw [decide_eq_true hi]
    rw [h i]
    exact ⟨k - i, by omega, by rw [← hb]; congr 1; omega⟩
  · rw [decide_eq_false hi]
    apply Bool.eq_false_iff.mpr
    intro hc
    obtain ⟨j, hj, e⟩ := (h i).1 hc
    have := Nat.testBit_lt_two_pow (x := y.toNat) (i := i + j)
      (Nat.lt_of_lt_of_le h2 (Nat.pow_le_pow_right (by omega) (by omega)))
    rw [BitVec.getLsbD, this] at e
    cases e

theorem smear_zero {z : BitVec 32} (h : Smear 32 0#32 z) : z = 0#32 := by
  apply BitVec.eq_of_getLsbD_eq
  intro i _
  rw [BitVec.getLsbD_zero, Bool.eq_false_iff]
  intro hc
  obtain ⟨j, _, e⟩ := (h i).1 hc
  simp at e

theorem ceil_smear (x : BitVec 32) : ∃ z, Smear 32 (x - 1#32) z ∧ ceilPowerOf2 x = z + 1#32 :=
  ⟨_, smear_double (smear_double (smear_double (smear_double (smear_double (smear_one (x - 1#32)))))), rfl⟩

/-- `n & (n-1) = 0` for positive `n` exactly for powers of two. -/
theorem and_pred {n : Nat} (h : 0 < n) : n &&& (n - 1) = 0 ↔ ∃ k, n = 2 ^ k := by
  constructor
  · intro hz
    obtain ⟨k, h1, h2⟩ := exists_log n h
    refine ⟨k, ?_⟩
    apply Decidable.byContradiction
    intro hne
    have hk : ∀ m, 2 ^ k ≤ m → m < 2 ^ (k+1) → m.testBit k = true := by
      intro m a b
      rw [Nat.testBit_eq_decide_div_mod_eq]
      have : m / 2 ^ k = 1 := by
        have a : m / 2 ^ k < 2 := by
          rw [Nat.div_lt_iff_lt_mul (Nat.two_pow_pos k)]
          rw [Nat.pow_succ] at b; omega
        have b : 1 ≤ m / 2 ^ k := by
          rw [Nat.le_div_iff_mul_le (Nat.two_pow_pos k)]; omega
        omega
      simp [this]
    have t1 := hk n h1 h2
    have t2 := hk (n - 1) (by omega) (by omega)
    have : (n &&& (n - 1)).testBit k = true := by rw [Nat.testBit_and, t1, t2]; rfl
    rw [hz] at this
    simp at this
  · rintro ⟨k, rfl⟩
    apply Nat.eq_of_testBit_eq
    intro i
    rw [Nat.testBit_and, Nat.testBit_two_pow, Nat.testBit_two_pow_sub_one]
    simp; omega

end Verif.Math
