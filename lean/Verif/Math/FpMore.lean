import Verif.Math.FpProps
import Verif.Math.FpTolProps
import Verif.Fp.Val
/-
More of C55 and C56 for doubles: `isGreaterEqual`, `isNaN`, interpolation between two positions.
-/
namespace Verif.Math.Fl
open Verif Verif.Fp

theorem R_val : |val RESABS - 1 / 10 ^ 6| ≤ 1 / 2 / 2 ^ 60 := by
  have h := lit_rounds 1 1000000 (by decide)
  have e : ((1 : Int) : ℚ) / ((1000000 : Nat) : ℚ) = 1 / 10 ^ 6 := by norm_num
  rw [e] at h
  exact h.err 60 (by decide) (by rw [abs_of_pos (by norm_num)]; norm_num)

theorem R_le : val RESABS ≤ 1 / 10 ^ 6 := by
  have hp : (0 : ℚ) < 2 ^ 1074 := by positivity
  have := R_le_exact
  unfold val
  rw [div_le_iff₀ hp]
  have : ((10 ^ 6 * units RESABS : Int) : ℚ) ≤ ((2 ^ 1074 : Int) : ℚ) := by exact_mod_cast this
  push_cast at this
  linarith

attribute [local irreducible] RESABS lit one zero

/-- `isGreaterEqual` is false if the first number is at least 10^-6 less; it is true for doubles
below 2^29 if the first number is at most 9·10^-7 less. Missing: as for `tolerance_fp_partial`. -/
theorem isGreaterEqual_fp_partial (a b : F64) (ha : Finite a) (hb : Finite b) :
    (1 / 10 ^ 6 ≤ val b - val a → isGreaterEqual a b = false) ∧
    (|val a| < 2 ^ 29 → |val b| < 2 ^ 29 → val b - val a ≤ 9 / 10 ^ 7 → isGreaterEqual a b = true) := by
  have hr := sub_rounds hb finite_R
  constructor
  · intro h
    obtain ⟨x, hx, fx, vx⟩ := (Rp.of a ha).rounds
    have hm := hx.mono hr (by have := R_le; linarith)
    rw [vx, ← units_le_val] at hm
    show lt (b - RESABS) a = false
    rw [← Bool.not_eq_true, lt_iff hr.ne_nan ha.ne_nan]
    omega
  · intro hA hB h
    have hR := abs_le.1 R_val
    have hB' := abs_lt.1 hB
    have hbd : |val b - val RESABS| ≤ 2 ^ 53 / 2 ^ 23 := by
      rw [abs_le]
      norm_num at hR hB' ⊢
      constructor <;> linarith
    have e := abs_le.1 (hr.err 23 (by decide) hbd)
    obtain ⟨ff, -⟩ := abs_le_of_grid (by decide) hbd hr
    show lt (b - RESABS) a = true
    rw [(compare_val _ _ ff ha).1]
    norm_num at hR e h ⊢
    linarith

example : isGreaterEqual (lit 1 1) (lit 2 1) = false ∧ isGreaterEqual (lit 2 1) (lit 2 1) = true ∧
    isGreaterEqual (lit 1 1) (lit 10000005 10000000) = true := by decide +kernel

/-- `isNaN` recognises NaN and nothing else -/
theorem isNaN_iff (d : F64) : isNaN d = true ↔ d = .nan := by
  cases d with
  | nan => simp [isNaN, eq]
  | num s b h => simp [isNaN, eq]

theorem exact_zero {x : F64} {e : ℚ} (h : Rounds x e) (he : e = 0) : Finite x ∧ val x = 0 := by
  subst he
  exact h.exact (by simpa using Rp.int 0 (by decide))

/-- Interpolation between two positions: at the first position the value is the first value,
at the second position it is that of `interpolate(.., 1)`, and in between it grows with the
position if the values grow. Missing: the end value is not exact (`interpolate_end`). -/
theorem interpolateRange_fp_partial (vb ve b e : F64) (hvb : Finite vb) (hve : Finite (ve - vb)) (hb : Finite b)
    (he : Finite e) (hbe : val b < val e) (hd : Finite (e - b)) :
    (val (interpolateRange vb ve b e b) = val vb) ∧
    (val (interpolateRange vb ve b e e) = val (interpolate vb ve (lit 1 1))) ∧
    (0 ≤ val (ve - vb) → ∀ p q, Finite p → Finite q → val b ≤ val p → val p ≤ val q → val q ≤ val e →
      val (interpolateRange vb ve b e p) ≤ val (interpolateRange vb ve b e q)) := by
  have rz : Rp 0 := by simpa using Rp.int 0 (by decide)
  have ro : Rp 1 := by simpa using Rp.int 1 (by decide)
  have hD := sub_rounds he hb
  -- the distance is positive
  have hpos : 0 < val (e - b) := by
    have h1 : lt b e = true := (compare_val b e hb he).1.2 hbe
    have h2 : units b + 1 ≤ units e := by rw [lt_iff hb.ne_nan he.ne_nan] at h1; omega
    have h3 : 1 ≤ units (e - b) := by
      refine le_sub_of he hb ?_ (by omega)
      have := rep_grid 1 0 (by decide) (by decide)
      simpa using this
    have hp : (0 : ℚ) < 2 ^ 1074 := by positivity
    unfold val
    apply div_pos _ hp
    exact_mod_cast h3
  -- the fraction
  have frac : ∀ p, Finite p → val b ≤ val p → val p ≤ val e →
      Rounds (p - b) (val p - val b) ∧ Finite (p - b) ∧ Rounds ((p - b) / (e - b)) (val (p - b) / val (e - b)) ∧
      Finite ((p - b) / (e - b)) ∧ 0 ≤ val ((p - b) / (e - b)) ∧ val ((p - b) / (e - b)) ≤ 1 := by
    intro p hp h1 h2
    have hr := sub_rounds hp hb
    have hm : val (p - b) ≤ val (e - b) := hr.mono hD (by linarith)
    obtain ⟨z, hz, fz, vz⟩ := rz.rounds
    have h0 : 0 ≤ val (p - b) := by rw [← vz]; exact hz.mono hr (by linarith)
    have ff : Finite (p - b) := by
      rw [finite_iff hr.ne_nan]
      rw [← vz, ← units_le_val] at h0
      rw [← units_le_val] at hm
      have := units_lt_inf fz
      have := units_lt_inf hd
      omega
    have hq := div_rounds ff hd (by linarith)
    obtain ⟨x, y, z⟩ := hq.between rz ro (div_nonneg h0 hpos.le) ((div_le_one hpos).2 hm)
    exact ⟨hr, ff, hq, x, y, z⟩
  have prod : ∀ p, Finite p → 0 ≤ val p → val p ≤ 1 → Rounds (p * (ve - vb)) (val p * val (ve - vb)) ∧
      Finite (p * (ve - vb)) := by
    intro p hp h0 h1
    have hr := mul_rounds hp hve
    have hv := Rp.of _ hve
    rcases le_total 0 (val (ve - vb)) with h | h
    · exact ⟨hr, (hr.between rz hv (mul_nonneg h0 h) (by nlinarith)).1⟩
    · exact ⟨hr, (hr.between hv rz (by nlinarith) (by nlinarith)).1⟩
  refine ⟨?_, ?_, ?_⟩
  · obtain ⟨hr, ff, hq, fq, q0, q1⟩ := frac b hb (le_refl _) hbe.le
    obtain ⟨-, e1⟩ := exact_zero hr (sub_self _)
    obtain ⟨-, e2⟩ := exact_zero hq (by rw [e1, zero_div])
    obtain ⟨hp, fp⟩ := prod _ fq q0 q1
    obtain ⟨-, e3⟩ := exact_zero hp (by rw [e2, zero_mul])
    have hs := add_rounds hvb fp
    rw [e3, add_zero] at hs
    exact (hs.exact (Rp.of _ hvb)).2
  · obtain ⟨hr, ff, hq, fq, q0, q1⟩ := frac e he hbe.le (le_refl _)
    rw [div_self hpos.ne'] at hq
    have e1 := (hq.exact ro).2
    obtain ⟨fl, vl⟩ := lit_int 1 (by decide)
    push_cast at vl
    obtain ⟨hp, fp⟩ := prod _ fq q0 q1
    obtain ⟨hp', fp'⟩ := prod (lit 1 1) fl (by rw [vl]; norm_num) (by rw [vl])
    rw [e1] at hp
    rw [vl] at hp'
    have ep : val ((e - b) / (e - b) * (ve - vb)) = val (lit 1 1 * (ve - vb)) :=
      le_antisymm (hp.mono hp' (le_refl _)) (hp'.mono hp (le_refl _))
    have hs := add_rounds hvb fp
    have hs' := add_rounds hvb fp'
    rw [ep] at hs
    exact le_antisymm (hs.mono hs' (le_refl _)) (hs'.mono hs (le_refl _))
  · intro hv p q fp fq h1 h2 h3
    obtain ⟨hr, ff, hq, fp', p0, p1⟩ := frac p fp h1 (by linarith)
    obtain ⟨hr', ff', hq', fq', q0, q1⟩ := frac q fq (by linarith) h3
    have m1 : val (p - b) ≤ val (q - b) := hr.mono hr' (by linarith)
    have m2 : val ((p - b) / (e - b)) ≤ val ((q - b) / (e - b)) :=
      hq.mono hq' (div_le_div_of_nonneg_right m1 hpos.le)
    obtain ⟨hp, fpp⟩ := prod _ fp' p0 p1
    obtain ⟨hp', fpq⟩ := prod _ fq' q0 q1
    have m3 := hp.mono hp' (mul_le_mul_of_nonneg_right m2 hv)
    exact (add_rounds hvb fpp).mono (add_rounds hvb fpq) (by linarith)

example : interpolateRange (lit 10 1) (lit 20 1) (lit 2 1) (lit 4 1) (lit 3 1) = lit 15 1 := by decide +kernel

end Verif.Math.Fl
