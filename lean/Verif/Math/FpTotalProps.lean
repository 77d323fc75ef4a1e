import Verif.Math.FpTolProps
import Verif.Fp.Val
/-
C55: at least one of "less", "equal" and "greater" holds for doubles that are zero or not tiny; for tiny ones possibly none.
-/
namespace Verif.Math.Fl
open Verif Verif.Fp

/-- None of the three holds for a = -(R - 2^-72) and b = 3·2^-74, where R is the tolerance: the difference is rounded up to R. -/
theorem tolerance_gap : ∃ a b : F64, Finite a ∧ Finite b ∧ isLess a b = false ∧ isEqual a b = false ∧ isGreater a b = false :=
  ⟨.num true 0x3EB0C6F7A0B5ED8C (by decide), lit 3 (2 ^ 74), by decide +kernel⟩

theorem units_R_val : (units RESABS : Int) = 0x10C6F7A0B5ED8D * 2 ^ 1002 := by decide +kernel

attribute [local irreducible] RESABS

theorem val_R : val RESABS = (0x10C6F7A0B5ED8D : Int) / 2 ^ 72 := by
  unfold val
  rw [units_R_val, div_eq_div_iff (by positivity) (by positivity), Int.cast_mul, mul_assoc]
  congr 1
  rw [Int.cast_pow, Int.cast_ofNat, ← pow_add]

/-- multiples of 2^-72 -/
def OnR (x : F64) : Prop := ∃ m : Int, val x = m / 2 ^ 72

theorem sgn_mul (s : Bool) (m k : Nat) : sgn s (m * k) = sgn s m * (k : Int) := by
  unfold sgn; cases s <;> simp

/-- zero and the doubles from 2^-20 on -/
theorem onR_of {x : F64} (hx : Finite x) (h : val x = 0 ∨ (1 : ℚ) / 2 ^ 20 ≤ |val x|) : OnR x := by
  rcases h with h | h
  · exact ⟨0, by rw [h]; simp⟩
  cases x with
  | nan => exact absurd hx id
  | num s b hb =>
    have hm : mag b = (units (.num s b hb)).natAbs := by
      show mag b = (sgn s (mag b)).natAbs
      unfold sgn; cases s <;> simp
    have hbig : 2 ^ (1001 + 53) ≤ mag b := by
      rw [hm]
      have hp : (0 : ℚ) < 2 ^ 1074 := by positivity
      have h2 : ((2 : ℚ) ^ 1054) ≤ |((units (.num s b hb) : Int) : ℚ)| := by
        unfold val at h
        rw [abs_div, abs_of_pos hp, div_le_div_iff₀ (by positivity) hp, one_mul] at h
        have e : (2 : ℚ) ^ 1074 = 2 ^ 1054 * 2 ^ 20 := by rw [← pow_add]
        rw [e] at h
        exact le_of_mul_le_mul_right h (by positivity)
      rw [← Int.cast_abs] at h2
      have h3 : ((2 ^ 1054 : Int) : ℚ) ≤ ((|units (.num s b hb)| : Int) : ℚ) := by
        rw [Int.cast_pow, Int.cast_ofNat]; exact h2
      have h4 := Int.cast_le.1 h3
      rw [Int.abs_eq_natAbs] at h4
      have e : ((2 ^ 1054 : Nat) : Int) = 2 ^ 1054 := Nat.cast_pow 2 _
      rw [← e] at h4
      exact Int.ofNat_le.1 h4
    have he : 1001 < expo b := expo_gt 1001 hbig
    have hu : units (.num s b hb) = sgn s (mant b * 2 ^ (expo b - 1002)) * ((2 ^ 1002 : Nat) : Int) := by
      rw [← sgn_mul, Nat.mul_assoc, ← Nat.pow_add, Nat.sub_add_cancel he]
      rfl
    refine ⟨sgn s (mant b * 2 ^ (expo b - 1002)), ?_⟩
    unfold val
    rw [hu, div_eq_div_iff (by positivity) (by positivity), Int.cast_mul, mul_assoc]
    congr 1
    rw [Int.cast_natCast, Nat.cast_pow, Nat.cast_ofNat, ← pow_add]

/-- a difference that is rounded to at least R is at least R -/
theorem diff_R {a b : F64} (ha : Finite a) (hb : Finite b) (ga : OnR a) (gb : OnR b) (h : val RESABS ≤ val (b - a)) :
    val RESABS ≤ val b - val a := by
  by_contra hc
  rw [not_le] at hc
  obtain ⟨m, em⟩ := ga
  obtain ⟨n, en⟩ := gb
  have hp : (0 : ℚ) < 2 ^ 72 := by positivity
  rw [em, en, val_R, ← sub_div, div_lt_div_iff_of_pos_right hp, ← Int.cast_sub, Int.cast_lt] at hc
  have hle : n - m ≤ 0x10C6F7A0B5ED8C := by omega
  obtain ⟨r', h1, _, h3⟩ := (Rp.grid 0x10C6F7A0B5ED8C 72 (by decide) (by decide)).rounds
  have hmono := (sub_rounds hb ha).mono h1 (by
    rw [em, en, ← sub_div, div_le_div_iff_of_pos_right hp, ← Int.cast_sub]
    exact Int.cast_le.2 hle)
  rw [h3] at hmono
  rw [val_R] at h
  have h5 := le_trans h hmono
  rw [div_le_div_iff_of_pos_right hp, Int.cast_le] at h5
  exact absurd h5 (by decide)

theorem add_R_le {a b : F64} (ha : Finite a) (hb : Finite b) (h : val RESABS ≤ val b - val a) : le (a + RESABS) b = true := by
  rw [le_iff (add_ne_nan ha finite_R) hb.ne_nan, units_le_val]
  obtain ⟨r', h1, _, h3⟩ := (Rp.of b hb).rounds
  have := (add_rounds ha finite_R).mono h1 (by linarith)
  rw [h3] at this; exact this

/-- Two doubles of which each is zero or at least 2^-20 (about 9.54·10^-7) in magnitude: at least one of the three comparisons holds. -/
theorem tolerance_total (a b : F64) (ha : Finite a) (hb : Finite b) (ga : val a = 0 ∨ (1 : ℚ) / 2 ^ 20 ≤ |val a|)
    (gb : val b = 0 ∨ (1 : ℚ) / 2 ^ 20 ≤ |val b|) : isLess a b = true ∨ isEqual a b = true ∨ isGreater a b = true := by
  have oa := onR_of ha ga
  have ob := onR_of hb gb
  have hn := sub_ne_nan hb ha
  by_cases h1 : val RESABS ≤ val (b - a)
  · left
    exact add_R_le ha hb (diff_R ha hb oa ob h1)
  by_cases h2 : val (b - a) ≤ -val RESABS
  · right; right
    have h3 : val RESABS ≤ val (a - b) := by
      rcases sub_anti a b with ⟨hh, -⟩ | ⟨-, -, he⟩
      · exact absurd hh (sub_ne_nan ha hb)
      · have : val (b - a) = -val (a - b) := by
          unfold val; rw [he, Int.cast_neg, neg_div]
        linarith
    exact add_R_le hb ha (diff_R hb ha ob oa h3)
  · right; left
    show (lt (b - a) RESABS && lt (-RESABS) (b - a)) = true
    rw [Bool.and_eq_true, lt_iff hn R_ne_nan, lt_iff negR_ne_nan hn]
    constructor
    · by_contra hc
      exact h1 (units_le_val.1 (by omega))
    · by_contra hc
      refine h2 ?_
      have h4 : val (b - a) ≤ val (-RESABS) := units_le_val.1 (by omega)
      have h5 : val (-RESABS) = -val RESABS := by
        unfold val; rw [units_neg, Int.cast_neg, neg_div]
      rw [h5] at h4; exact h4

example : Finite (lit 1 10) ∧ isLess (lit 1 10) (lit 2 10) = true ∧ isEqual (lit 1 10) (lit 1 10) = true := by decide +kernel

end Verif.Math.Fl
