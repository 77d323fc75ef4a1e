import Verif.Math.FpProps
import Verif.Fp.Val
/-
C56: how far `interpolate` for doubles is from the exact value.
-/
namespace Verif.Math.Fl
open Verif Verif.Fp

theorem bound_rp (k : Nat) (hk : k ≤ 1074) : Rp ((2 : ℚ) ^ 52 / 2 ^ k) ∧ Rp (-((2 : ℚ) ^ 52 / 2 ^ k)) := by
  have h := Rp.grid (2 ^ 52) k (by decide) hk
  rw [Int.cast_pow, Int.cast_ofNat] at h
  exact ⟨h, h.neg⟩

theorem within {r : F64} {e B : ℚ} (h : Rounds r e) (hB : Rp B) (hB' : Rp (-B)) (he : |e| ≤ B) : Finite r ∧ |val r| ≤ B := by
  rw [abs_le] at he
  obtain ⟨f, a, b⟩ := h.between hB' hB he.1 he.2
  exact ⟨f, abs_le.2 ⟨a, b⟩⟩

/-- The number `interpolate` returns for a position from 0 to 1 differs from the exact value by at most 3/2·2^-k, if the end points are
together at most 2^(52-k) in magnitude: by three roundings.  At the end (p = 1) it differs from the end point by at most 2^-k. -/
theorem interpolate_error (k : Nat) (hk : k ≤ 1074) (b e p : F64) (hb : Finite b) (he : Finite e) (hp : Finite p)
    (hB : |val b| + |val e| ≤ 2 ^ 52 / 2 ^ k) (p0 : 0 ≤ val p) (p1 : val p ≤ 1) :
    Finite (interpolate b e p) ∧
    |val (interpolate b e p) - (val b + val p * (val e - val b))| ≤ 3 / 2 / 2 ^ k ∧
    (val p = 1 → |val (interpolate b e p) - val e| ≤ 1 / 2 ^ k) := by
  have h2 : (0 : ℚ) < 2 ^ k := by positivity
  obtain ⟨g1, g2⟩ := bound_rp k hk
  have hdouble : (2 : ℚ) ^ 53 / 2 ^ k = 2 ^ 52 / 2 ^ k + 2 ^ 52 / 2 ^ k := by rw [pow_succ (2 : ℚ) 52]; ring
  have hBpos : (0 : ℚ) ≤ 2 ^ 52 / 2 ^ k := by positivity
  have hd0 : |val e - val b| ≤ 2 ^ 52 / 2 ^ k := by
    have := abs_sub (val e) (val b)
    linarith
  have rd := sub_rounds he hb
  obtain ⟨fd, bd⟩ := within rd g1 g2 hd0
  have ed := rd.err k hk (by rw [hdouble]; linarith)
  have ht0 : |val p * val (e - b)| ≤ 2 ^ 52 / 2 ^ k := by
    rw [abs_mul, abs_of_nonneg p0]
    calc val p * |val (e - b)| ≤ 1 * |val (e - b)| := mul_le_mul_of_nonneg_right p1 (abs_nonneg _)
      _ ≤ _ := by rw [one_mul]; exact bd
  have rt := mul_rounds hp fd
  obtain ⟨ft, bt⟩ := within rt g1 g2 ht0
  have et := rt.err k hk (by rw [hdouble]; linarith)
  have rs := add_rounds hb ft
  have hs0 : |val b + val (p * (e - b))| ≤ 2 ^ 53 / 2 ^ k := by
    rw [hdouble]
    have := abs_add_le (val b) (val (p * (e - b)))
    have := abs_nonneg (val e)
    linarith
  have es := rs.err k hk hs0
  have fs := (abs_le_of_grid hk hs0 rs).1
  have e3 : (3 : ℚ) / 2 / 2 ^ k = 1 / 2 / 2 ^ k + 1 / 2 / 2 ^ k + 1 / 2 / 2 ^ k := by ring
  have e2 : (1 : ℚ) / 2 ^ k = 1 / 2 / 2 ^ k + 1 / 2 / 2 ^ k := by ring
  have hpd : |val p * (val (e - b) - (val e - val b))| ≤ 1 / 2 / 2 ^ k := by
    rw [abs_mul, abs_of_nonneg p0]
    calc val p * |val (e - b) - (val e - val b)| ≤ 1 * |val (e - b) - (val e - val b)| := mul_le_mul_of_nonneg_right p1 (abs_nonneg _)
      _ ≤ _ := by rw [one_mul]; exact ed
  refine ⟨fs, ?_, fun h1 => ?_⟩
  · show |val (b + p * (e - b)) - _| ≤ _
    rw [abs_le] at *
    constructor <;> nlinarith [es.1, es.2, et.1, et.2, hpd.1, hpd.2]
  · have ht : val (p * (e - b)) = val (e - b) := by
      have : Rounds (p * (e - b)) (val (e - b)) := by rw [h1, one_mul] at rt; exact rt
      exact (this.exact (Rp.of _ fd)).2
    show |val (b + p * (e - b)) - _| ≤ _
    rw [ht] at es
    rw [abs_le] at *
    constructor <;> linarith [es.1, es.2, ed.1, ed.2]

/-- so it leaves the range between the end points by at most 3/2·2^-k -/
theorem interpolate_range (k : Nat) (hk : k ≤ 1074) (b e p : F64) (hb : Finite b) (he : Finite e) (hp : Finite p)
    (hB : |val b| + |val e| ≤ 2 ^ 52 / 2 ^ k) (p0 : 0 ≤ val p) (p1 : val p ≤ 1) (hbe : val b ≤ val e) :
    val b - 3 / 2 / 2 ^ k ≤ val (interpolate b e p) ∧ val (interpolate b e p) ≤ val e + 3 / 2 / 2 ^ k := by
  obtain ⟨-, h, -⟩ := interpolate_error k hk b e p hb he hp hB p0 p1
  rw [abs_le] at h
  constructor <;> nlinarith [h.1, h.2, mul_nonneg p0 (sub_nonneg.2 hbe), mul_nonneg (sub_nonneg.2 p1) (sub_nonneg.2 hbe)]

/-- a difference of different numbers is not rounded to zero -/
theorem diff_pos {b e : F64} (hb : Finite b) (he : Finite e) (h : val b < val e) : 0 < val (e - b) := by
  have hp : (0 : ℚ) < 2 ^ 1074 := by positivity
  have hg := Rp.grid 1 1074 (by decide) le_rfl
  obtain ⟨r, h1, -, h3⟩ := hg.rounds
  have hle : ((1 : Int) : ℚ) / 2 ^ 1074 ≤ val e - val b := by
    unfold val at h ⊢
    rw [div_lt_div_iff_of_pos_right hp, Int.cast_lt] at h
    rw [← sub_div, div_le_div_iff_of_pos_right hp, ← Int.cast_sub]
    exact Int.cast_le.2 (by omega)
  have := h1.mono (sub_rounds he hb) hle
  rw [h3] at this
  have : (0 : ℚ) < ((1 : Int) : ℚ) / 2 ^ 1074 := by rw [Int.cast_one]; positivity
  linarith

/-- The variant with a position between `begin` and `end`: the same range. -/
theorem interpolateRange_range (k : Nat) (hk : k ≤ 1074) (vb ve b e pos : F64) (hvb : Finite vb) (hve : Finite ve) (hb : Finite b)
    (he : Finite e) (hpos : Finite pos) (hd : Finite (e - b)) (hn : Finite (pos - b)) (hB : |val vb| + |val ve| ≤ 2 ^ 52 / 2 ^ k)
    (hbe : val b < val e) (h1 : val b ≤ val pos) (h2 : val pos ≤ val e) (hv : val vb ≤ val ve) :
    val vb - 3 / 2 / 2 ^ k ≤ val (interpolateRange vb ve b e pos) ∧ val (interpolateRange vb ve b e pos) ≤ val ve + 3 / 2 / 2 ^ k := by
  have hq := diff_pos hb he hbe
  have zero_rp : Rp 0 := by simpa using Rp.int 0 (by decide)
  have one_rp : Rp 1 := by simpa using Rp.int 1 (by decide)
  have n1 := (sub_rounds hpos hb).mono (sub_rounds he hb) (by linarith)
  have n0 : 0 ≤ val (pos - b) := by
    obtain ⟨r, q1, -, q3⟩ := zero_rp.rounds
    have := q1.mono (sub_rounds hpos hb) (by linarith)
    rw [q3] at this; exact this
  obtain ⟨fp, p0, p1⟩ := (div_rounds hn hd (ne_of_gt hq)).between zero_rp one_rp (div_nonneg n0 hq.le) ((div_le_one hq).2 n1)
  exact interpolate_range k hk vb ve _ hvb hve fp hB p0 p1 hv

/-- for end points up to 1000 in magnitude: 5.2·10^-13 -/
example : (1000 + 1000 : ℚ) ≤ 2 ^ 52 / 2 ^ 41 ∧ (3 / 2 / 2 ^ 41 : ℚ) < 1 / 10 ^ 12 ∧ Finite (lit 1000 1) := by
  refine ⟨by norm_num, by norm_num, by decide +kernel⟩

end Verif.Math.Fl
