import Verif.Guess.Model
import Verif.Guess.Spec
import Verif.Fp.Val
import Verif.Fp32.Val
import Mathlib.Tactic.NormNum
import Mathlib.Tactic.Linarith
import Mathlib.Tactic.FieldSimp
/-
The two floating point comparisons of `guess` are exact.
-/
namespace Verif.Guess
open Verif Verif.Guess.Spec

/-- conversion to double does not change the value -/
theorem toDouble_val {x : Fp32.F32} (h : Fp32.Finite x) : Fp.Finite (toDouble x) ∧ Fp.val (toDouble x) = Fp32.val x := by
  cases x with
  | nan => exact absurd h (by simp [Fp32.Finite])
  | num s b hb =>
    have hlt : b < Fp32.infBits := h
    have hu : Fp32.units (.num s b hb) = Fp32.sgn s (Fp32.mag b) := rfl
    simp only [toDouble]
    rw [if_neg (by omega), ← hu]
    have hr : Fp.Rounds (Fp.ofUnits s (Fp32.units (.num s b hb) * 2 ^ 925) 1) (Fp32.val (.num s b hb)) := by
      refine ⟨s, _, 1, rfl, by omega, ?_⟩
      have := Fp32.val_eq (.num s b hb)
      push_cast
      rw [← this, show (2 : ℚ) ^ 1074 = 2 ^ 149 * 2 ^ 925 by rw [← pow_add]]
      ring
    apply hr.exact
    obtain ⟨e, q, h1, h2, h3⟩ := Fp32.rep_bits h.rep
    obtain ⟨z, hz, hzq⟩ : ∃ z : Int, Fp32.units (.num s b hb) = z * 2 ^ e ∧ z.natAbs = q := by
      rcases Int.natAbs_eq (Fp32.units (.num s b hb)) with h | h
      · exact ⟨q, by rw [h, h1]; push_cast; rfl, by simp⟩
      · exact ⟨-q, by rw [h, h1]; push_cast; ring, by simp⟩
    have he := h3.2
    refine ⟨z * 2 ^ (e + 925), Fp.rep_grid z (e + 925) (by omega) (by omega), ?_⟩
    have hv := Fp32.val_eq (.num s b hb)
    rw [hz] at hv
    push_cast at hv ⊢
    rw [show (2 : ℚ) ^ 1074 = 2 ^ 149 * 2 ^ 925 by rw [← pow_add], ← mul_assoc, hv, pow_add]
    ring

theorem ofInt32 (n : Int) : Fp32.ofInt n = Fp32.lit n 1 := rfl
theorem ofInt64 (n : Int) : Fp.ofInt n = Fp.lit n 1 := rfl
theorem units_nine : Fp32.units (Fp32.lit 9 10) = 15099494 * 2 ^ 125 := by decide +kernel
theorem nan32 : Fp32.lit 1 2 * Fp32.ofInt 0 = Fp32.zero := by decide +kernel
theorem nan64 : Fp.lit 1 2 * Fp.ofInt 0 = Fp.zero := by decide +kernel

theorem zero_div32 {x : Fp32.F32} (h : Fp32.Finite x) (v : Fp32.val x = 0) : x / Fp32.zero = .nan := by
  have hu : Fp32.units x = 0 := by
    have := Fp32.val_eq x; rw [v, zero_mul] at this; exact_mod_cast this.symm
  cases x with
  | nan => rfl
  | num s b hb =>
    have hm : Fp32.mag b = 0 := by
      have : Fp32.sgn s (Fp32.mag b) = 0 := hu
      unfold Fp32.sgn at this; split at this <;> omega
    have h0 : b = 0 := Fp32.mag_eq_zero.1 hm
    subst h0
    show Fp32.div _ _ = _
    simp [Fp32.div, Fp32.zero, Fp32.mk, Fp32.infBits]

theorem zero_div64 {x : Fp.F64} (h : Fp.Finite x) (v : Fp.val x = 0) : x / Fp.zero = .nan := by
  have hu : Fp.units x = 0 := by
    have := Fp.val_eq x; rw [v, zero_mul] at this; exact_mod_cast this.symm
  cases x with
  | nan => rfl
  | num s b hb =>
    have hm : Fp.mag b = 0 := by
      have : Fp.sgn s (Fp.mag b) = 0 := hu
      unfold Fp.sgn at this; split at this <;> omega
    have h0 : b = 0 := Fp.mag_eq_zero.1 hm
    subst h0
    show Fp.div _ _ = _
    simp [Fp.div, Fp.zero, Fp.mk, Fp.infBits]

theorem lt_nan (y : Fp.F64) : Fp.lt y .nan = false := by cases y <;> rfl

attribute [local irreducible] Fp.lit Fp32.lit Fp.ofInt Fp32.ofInt Fp.ofUnits Fp32.ofUnits Fp.val Fp32.val Fp.units Fp32.units
  Fp.add Fp.mul Fp.div Fp32.add Fp32.mul Fp32.div

/-- the counters hold small integers -/
def Holds (x : Fp32.F32) (n : Nat) : Prop := Fp32.Finite x ∧ Fp32.val x = n

theorem Holds.inc {x : Fp32.F32} {n : Nat} (h : Holds x n) (hn : n < 4096) : Holds (x + Fp32.lit 1 1) (n + 1) := by
  obtain ⟨f1, v1⟩ := Fp32.lit_int 1 (by decide)
  have hr := Fp32.add_rounds h.1 f1
  rw [h.2, v1] at hr
  have := hr.exact (by have := Fp32.Rp.int (n + 1) (by omega); push_cast at this ⊢; exact this)
  refine ⟨this.1, ?_⟩
  rw [this.2]; push_cast; rfl

theorem frame32 {f : Nat} (hf : f ≤ 4096) : Fp32.Finite (Fp32.lit 1 2 * Fp32.ofInt f) ∧ Fp32.val (Fp32.lit 1 2 * Fp32.ofInt f) = (f : ℚ) / 2 := by
  obtain ⟨f1, v1⟩ := (Fp32.lit_rounds 1 2 (by omega)).exact (by have := Fp32.Rp.grid 1 1 (by decide) (by omega); push_cast at this ⊢; simpa using this)
  obtain ⟨f2, v2⟩ := Fp32.lit_int f (by omega)
  rw [ofInt32]
  have hr := Fp32.mul_rounds f1 f2
  rw [v1, v2] at hr
  have := hr.exact (by
    have := Fp32.Rp.grid f 1 (by omega) (by omega); push_cast at this ⊢; rw [show (1 : ℚ) / 2 * f = f / 2 ^ 1 by ring]; exact this)
  refine ⟨this.1, ?_⟩
  rw [this.2]; push_cast; ring

theorem frame64 {f : Nat} (hf : f ≤ 4096) : Fp.Finite (Fp.lit 1 2 * Fp.ofInt f) ∧ Fp.val (Fp.lit 1 2 * Fp.ofInt f) = (f : ℚ) / 2 := by
  obtain ⟨f1, v1⟩ := (Fp.lit_rounds 1 2 (by omega)).exact (by have := Fp.Rp.grid 1 1 (by decide) (by omega); push_cast at this ⊢; simpa using this)
  obtain ⟨f2, v2⟩ := Fp.lit_int f (by omega)
  rw [ofInt64]
  have hr := Fp.mul_rounds f1 f2
  rw [v1, v2] at hr
  have := hr.exact (by
    have := Fp.Rp.grid f 1 (by omega) (by omega); push_cast at this ⊢; rw [show (1 : ℚ) / 2 * f = f / 2 ^ 1 by ring]; exact this)
  refine ⟨this.1, ?_⟩
  rw [this.2]; push_cast; ring

/-- 0.9 as a double lies between these grid points -/
theorem nine_tenths : Fp.Finite (Fp.lit 9 10) ∧ (15099494 : ℚ) / 2 ^ 24 ≤ Fp.val (Fp.lit 9 10) ∧ Fp.val (Fp.lit 9 10) < 943719 / 2 ^ 20 := by
  have hr := Fp.lit_rounds 9 10 (by omega)
  obtain ⟨f, a, b⟩ := hr.between (lo := 15099494 / 2 ^ 24) (hi := 30198989 / 2 ^ 25)
    (by have := Fp.Rp.grid 15099494 24 (by decide) (by omega); push_cast at this ⊢; exact this)
    (by have := Fp.Rp.grid 30198989 25 (by decide) (by omega); push_cast at this ⊢; exact this) (by norm_num) (by norm_num)
  refine ⟨f, a, lt_of_le_of_lt b (by norm_num)⟩

/-- as a float it is not larger -/
theorem nine_tenths32 : Fp32.val (Fp32.lit 9 10) ≤ 15099494 / 2 ^ 24 := by
  have := Fp32.val_eq (Fp32.lit 9 10)
  rw [units_nine] at this
  norm_num at this ⊢
  linarith

theorem many1_iff {c : Fp32.F32} {n f : Nat} (h : Holds c n) (hf : f ≤ 4096) (hnf : n ≤ f) : many1 c f = true ↔ 9 * f < 20 * n := by
  obtain ⟨ff, fv⟩ := frame32 hf
  by_cases h0 : f = 0
  · subst h0
    obtain rfl : n = 0 := by omega
    refine iff_of_false ?_ (by omega)
    rw [many1, show ((0 : Nat) : Int) = 0 from rfl, nan32, zero_div32 h.1 (by simpa using h.2), toDouble, lt_nan]; simp
  · have hfp : (0 : ℚ) < f := by exact_mod_cast Nat.pos_of_ne_zero h0
    have hr := Fp32.div_rounds h.1 ff (by rw [fv]; positivity)
    rw [h.2, fv] at hr
    have hr0 : (n : ℚ) / (f / 2) ≤ 2 := by
      rw [div_le_iff₀ (by positivity)]
      have : (n : ℚ) ≤ f := by exact_mod_cast hnf
      linarith
    have hrl : (0 : ℚ) ≤ (n : ℚ) / (f / 2) := by positivity
    obtain ⟨fin, l0, u0⟩ := hr.between (by have := Fp32.Rp.int 0 (by decide); push_cast at this; exact this)
      (by have := Fp32.Rp.int 2 (by decide); push_cast at this; exact this) hrl hr0
    obtain ⟨fd, vd⟩ := toDouble_val fin
    unfold many1
    rw [(Fp.compare_val _ _ nine_tenths.1 fd).1, vd]
    constructor
    · intro hlt
      by_contra hc
      have hle : (n : ℚ) / (f / 2) ≤ (9 : Int) / (10 : Nat) := by
        rw [div_le_iff₀ (by positivity)]
        have : (20 * n : ℚ) ≤ 9 * f := by exact_mod_cast Nat.not_lt.1 hc
        push_cast; linarith
      have := hr.mono (Fp32.lit_rounds 9 10 (by omega)) hle
      have := nine_tenths32
      have := nine_tenths.2.1
      linarith
    · intro hc
      have hge : (943719 : ℚ) / 2 ^ 20 ≤ (n : ℚ) / (f / 2) := by
        rw [le_div_iff₀ (by positivity)]
        have h1 : (9 * f + 1 : ℚ) ≤ 20 * n := by exact_mod_cast hc
        have h2 : (f : ℚ) ≤ 4096 := by exact_mod_cast hf
        norm_num
        linarith
      obtain ⟨_, l1, _⟩ := hr.between (by have := Fp32.Rp.grid 943719 20 (by decide) (by omega); push_cast at this; exact this)
        (by have := Fp32.Rp.int 2 (by decide); push_cast at this; exact this) hge hr0
      exact lt_of_lt_of_le nine_tenths.2.2 l1

theorem many2_iff {c : Fp32.F32} {n f : Nat} (h : Holds c n) (hf : f ≤ 4096) (hnf : n ≤ f) : many2 c f = true ↔ 9 * f < 20 * n := by
  obtain ⟨ff, fv⟩ := frame64 hf
  obtain ⟨cd, cv⟩ := toDouble_val h.1
  rw [h.2] at cv
  by_cases h0 : f = 0
  · subst h0
    obtain rfl : n = 0 := by omega
    refine iff_of_false ?_ (by omega)
    rw [many2, show ((0 : Nat) : Int) = 0 from rfl, nan64, zero_div64 cd (by simpa using cv), lt_nan]; simp
  · have hfp : (0 : ℚ) < f := by exact_mod_cast Nat.pos_of_ne_zero h0
    have hr := Fp.div_rounds cd ff (by rw [fv]; positivity)
    rw [cv, fv] at hr
    have hr0 : (n : ℚ) / (f / 2) ≤ 2 := by
      rw [div_le_iff₀ (by positivity)]
      have : (n : ℚ) ≤ f := by exact_mod_cast hnf
      linarith
    have hrl : (0 : ℚ) ≤ (n : ℚ) / (f / 2) := by positivity
    obtain ⟨fin, l0, u0⟩ := hr.between (by have := Fp.Rp.int 0 (by decide); push_cast at this; exact this)
      (by have := Fp.Rp.int 2 (by decide); push_cast at this; exact this) hrl hr0
    unfold many2
    rw [(Fp.compare_val _ _ nine_tenths.1 fin).1]
    constructor
    · intro hlt
      by_contra hc
      have hle : (n : ℚ) / (f / 2) ≤ (9 : Int) / (10 : Nat) := by
        rw [div_le_iff₀ (by positivity)]
        have : (20 * n : ℚ) ≤ 9 * f := by exact_mod_cast Nat.not_lt.1 hc
        push_cast; linarith
      have := hr.mono (Fp.lit_rounds 9 10 (by omega)) hle
      linarith
    · intro hc
      have hge : (943719 : ℚ) / 2 ^ 20 ≤ (n : ℚ) / (f / 2) := by
        rw [le_div_iff₀ (by positivity)]
        have h1 : (9 * f + 1 : ℚ) ≤ 20 * n := by exact_mod_cast hc
        have h2 : (f : ℚ) ≤ 4096 := by exact_mod_cast hf
        norm_num
        linarith
      obtain ⟨_, l1, _⟩ := hr.between (by have := Fp.Rp.grid 943719 20 (by decide) (by omega); push_cast at this; exact this)
        (by have := Fp.Rp.int 2 (by decide); push_cast at this; exact this) hge hr0
      exact lt_of_lt_of_le nine_tenths.2.2 l1

end Verif.Guess
