import Verif.DoubleFmt.Parts
import Verif.Str.ArgProps
/-
C94: numbers with a fixed number of decimal places.
-/
namespace Verif.DoubleFmt
open Verif Verif.Str Verif.Num Verif.Fp Verif.Math.Fl Verif.DoubleFmt.Spec

attribute [local irreducible] Fp.one Fp.lit Fp.ofInt Fp.zero

/-! ### the sign -/

theorem resabs_bounds : Finite RESABS ∧ (999999 / 10 ^ 12 : ℚ) ≤ val RESABS ∧ val RESABS ≤ 1000001 / 10 ^ 12 := by
  have h := lit_rounds 1 1000000 (by decide)
  have e := h.err 53 (by decide) (by norm_num)
  have hb := h.between (lo := 0) (hi := 1) (by simpa using Rp.int 0 (by decide)) (by simpa using Rp.int 1 (by decide))
    (by norm_num) (by norm_num)
  refine ⟨hb.1, ?_⟩
  have e' := abs_le.1 e
  change -(1 / 2 / 2 ^ 53) ≤ val RESABS - _ ∧ val RESABS - _ ≤ _ at e'
  obtain ⟨e1, e2⟩ := e'
  norm_num at e1 e2 ⊢
  constructor <;> linarith

theorem zero_fin : Finite zero ∧ val zero = 0 := ⟨by unfold Fp.zero; decide +kernel, val_zero⟩

/-- the minus is shown exactly from -RESABS on -/
theorem isLess_zero {x : F64} (hx : Finite x) (hb : |val x| < 2 ^ 63) : isLess x zero = true ↔ val x ≤ -val RESABS := by
  obtain ⟨fR, R0, R1⟩ := resabs_bounds
  have h := add_rounds hx fR
  have hb' := abs_lt.1 hb
  have rpL : Rp (-(2 ^ 64)) := by
    have := (Rp.grid 1 0 (by decide) (by decide)).neg
    have h2 : Rp ((2 : ℚ) ^ 64) := by
      refine ⟨2 ^ 64 * 2 ^ 1074, ?_, by push_cast; ring⟩
      have := rep_grid 1 (64 + 1074) (by decide) (by decide)
      rw [one_mul, pow_add] at this
      exact this
    exact h2.neg
  have rpH : Rp (2 ^ 64) := by have := rpL.neg; rwa [neg_neg] at this
  have fin := (h.between rpL rpH (by norm_num at *; linarith) (by norm_num at *; linarith)).1
  unfold isLess
  rw [(compare_val _ _ fin zero_fin.1).2.1, zero_fin.2]
  have rp0 : Rp 0 := by simpa using Rp.int 0 (by decide)
  constructor
  · intro hle
    by_contra hn
    have hpos : 0 < val x + val RESABS := by linarith
    -- the sum of two doubles is at least the smallest double
    have hmin : (1 : ℚ) / 2 ^ 1074 ≤ val x + val RESABS := by
      have e : val x + val RESABS = ((units x + units RESABS : Int) : ℚ) / 2 ^ 1074 := by
        unfold val; push_cast; ring
      have hp : (0 : ℚ) < 2 ^ 1074 := by positivity
      rw [e] at hpos ⊢
      have h1 : (0 : ℚ) < ((units x + units RESABS : Int) : ℚ) := by
        by_contra hc
        exact absurd hpos (not_lt.2 (div_nonpos_of_nonpos_of_nonneg (not_lt.1 hc) hp.le))
      have h2 : (1 : ℚ) ≤ ((units x + units RESABS : Int) : ℚ) := by
        have : (0 : Int) < units x + units RESABS := by exact_mod_cast h1
        exact_mod_cast this
      exact div_le_div_of_nonneg_right h2 hp.le
    have rpm : Rp (1 / 2 ^ 1074) := by simpa using Rp.grid 1 1074 (by decide) (by decide)
    have := (h.between rpm rpH hmin (by norm_num at *; linarith)).2.1
    have hp : (0 : ℚ) < 1 / 2 ^ 1074 := by positivity
    exact absurd (lt_of_lt_of_le hp this) (not_lt.2 hle)
  · intro hle
    exact (h.between rpL rp0 (by norm_num at *; linarith) (by linarith)).2.2

/-! ### the decimal places -/

theorem pow10_val (p : Nat) (hp : p ≤ 14) : Finite (pow10 p) ∧ val (pow10 p) = 10 ^ p := by
  unfold pow10
  rw [if_neg (by omega)]
  have h1 : (10 : Nat) ^ p ≤ 10 ^ 14 := Nat.pow_le_pow_right (by decide) hp
  have h := lit_int (10 ^ p) (by rw [Int.natAbs_pow]; exact h1.trans (by decide))
  rw [Int.toNat_natCast]
  exact ⟨h.1, by rw [h.2]; push_cast; rfl⟩

theorem abs_fin {x : F64} (hx : Finite x) : Finite (Fp.abs x) ∧ val (Fp.abs x) = |val x| := by
  cases x with
  | nan => exact absurd hx id
  | num s b hb =>
    refine ⟨hx, ?_⟩
    show val (.num false b hb) = _
    rw [abs_val]
    have e : val (.num false b hb) = (sgn false (mag b) : ℚ) / (one : Nat) := by unfold val; rw [one_cast]; rfl
    rw [e]
    simp [sgn]

/-- the digits behind the point and one more, with the rounding errors of the two multiplications -/
theorem digits_close (x : F64) (fx : Finite x) (hf : |val x| < 1) (p : Nat) (hp : p ≤ 14) :
    Finite (x * ofInt 10 * pow10 p) ∧
    |(|val (x * ofInt 10 * pow10 p)|) - |val x| * 10 ^ (p + 1)| ≤ 16 / 100 := by
  obtain ⟨f10, v10⟩ : Finite (ofInt 10) ∧ val (ofInt 10) = 10 := by
    have := lit_int 10 (by decide)
    unfold Fp.ofInt
    exact ⟨this.1, by rw [this.2]; norm_num⟩
  obtain ⟨fp, vp⟩ := pow10_val p hp
  have m1 := mul_rounds fx f10
  rw [v10] at m1
  have a1 : |val x * 10| ≤ 16 := by rw [abs_mul]; norm_num; linarith
  have e1 := m1.err 49 (by decide) (by norm_num at a1 ⊢; exact a1)
  have rp16 : Rp 16 := by simpa using Rp.int 16 (by decide)
  have b1 := abs_le.1 a1
  obtain ⟨fw, lo, hi⟩ := m1.between rp16.neg rp16 b1.1 b1.2
  have m2 := mul_rounds fw fp
  rw [vp] at m2
  have hpow : (10 : ℚ) ^ p ≤ 10 ^ 14 := pow_le_pow_right₀ (by norm_num) hp
  have hpow0 : (0 : ℚ) < 10 ^ p := by positivity
  have aw : |val (x * ofInt 10)| ≤ 10 + 1 / 2 ^ 50 := by
    have h1 := abs_sub_abs_le_abs_sub (val (x * ofInt 10)) (val x * 10)
    have h2 : |val x * 10| ≤ 10 := by rw [abs_mul]; norm_num; linarith
    norm_num at e1 ⊢
    linarith
  have a2 : |val (x * ofInt 10) * 10 ^ p| ≤ 2 ^ 50 := by
    rw [abs_mul, abs_of_pos hpow0]
    have := mul_le_mul aw hpow hpow0.le (by positivity)
    refine this.trans ?_
    norm_num
  have e2 := m2.err 3 (by decide) (by norm_num at a2 ⊢; exact a2)
  have rp50 : Rp (2 ^ 50) := by
    have := Rp.int (2 ^ 50) (by decide)
    push_cast at this
    exact this
  have b2 := abs_le.1 a2
  have fu := (m2.between rp50.neg rp50 b2.1 b2.2).1
  refine ⟨fu, ?_⟩
  have t1 := abs_abs_sub_abs_le (val (x * ofInt 10 * pow10 p)) (val x * 10 ^ (p + 1))
  rw [abs_mul (val x), abs_of_pos (by positivity : (0 : ℚ) < 10 ^ (p + 1))] at t1
  refine t1.trans ?_
  have split : val (x * ofInt 10 * pow10 p) - val x * 10 ^ (p + 1) =
      (val (x * ofInt 10 * pow10 p) - val (x * ofInt 10) * 10 ^ p) + (val (x * ofInt 10) - val x * 10) * 10 ^ p := by
    rw [pow_succ]; ring
  rw [split]
  refine (abs_add_le _ _).trans ?_
  have h3 : |(val (x * ofInt 10) - val x * 10) * 10 ^ p| ≤ 1 / 2 / 2 ^ 49 * 10 ^ 14 := by
    rw [abs_mul, abs_of_pos hpow0]
    exact mul_le_mul e1 hpow hpow0.le (by positivity)
  norm_num at e2 h3 ⊢
  linarith

theorem ok_bind {α β : Type} (a : α) (f : α → Res β) : ((Except.ok a : Res α) >>= f) = f a := rfl

section
attribute [local irreducible] toInt64 fmod1 pow10 isLess flip carry assemble roundLast

/-- the steps of the function one after the other -/
theorem valueOf_steps (x : F64) (p : Int) (trunc : Bool) (b0 B n : Int) (h1 : toInt64 x = .ok b0)
    (h2 : flip (isLess x zero) b0 = .ok B) (h3 : toInt64 (Fp.abs (fmod1 x * ofInt 10 * pow10 p)) = .ok n)
    (r : Int × Int) (h4 : carry (pow10 p) B (roundLast n) = .ok r) :
    valueOf x p trunc = assemble (isLess x zero) r.1 r.2 p trunc := by
  simp only [valueOf, h1, ok_bind, h2, h3, h4]

end

theorem roundLast_nat (n : Nat) : roundLast n = ((n + 5) / 10 : Nat) := by
  unfold roundLast
  rw [Int.tmod_eq_emod_of_nonneg (by omega), Int.tdiv_eq_ediv_of_nonneg (by omega)]
  split <;> omega

/-- what the code computes before it puts the text together -/
theorem valueOf_parts (x : F64) (hx : Finite x) (hb : |val x| < 2 ^ 63) (p : Nat) (hp : p ≤ 14) (trunc : Bool) :
    ∃ (neg : Bool) (B D : Nat), D < 10 ^ p ∧ valueOf x p trunc = assemble neg B D p trunc ∧
      Rendered x p neg (B * 10 ^ p + D) := by
  obtain ⟨B, f, f0, f1, hsum, fm, vm, hbig, hint⟩ := parts hx
  have hint := hint hb
  obtain ⟨fu, hu⟩ := digits_close (fmod1 x) fm (by rw [vm]; exact f1) p hp
  rw [vm] at hu
  have hneg := isLess_zero hx hb
  obtain ⟨fR, R0, R1⟩ := resabs_bounds
  have hB : (B : ℚ) < 2 ^ 63 := by linarith
  have hB' : B < 2 ^ 63 := by exact_mod_cast hB
  -- the whole part
  have hflip : flip (isLess x zero) (if val x < 0 then -(B : Int) else B) = .ok (B : Int) := by
    unfold flip
    cases hl : isLess x zero with
    | true =>
      have h1 := hneg.1 hl
      have hlt : val x < 0 := by norm_num at R0; linarith
      simp only [if_true, if_pos hlt]
      rw [show -(B : Int) * -1 = B by ring]
      unfold i64 minInt64 maxInt64
      rw [if_pos (by omega)]
    | false =>
      rw [if_neg (by simp)]
      by_cases hv : val x < 0
      · rw [if_pos hv]
        have : -val RESABS < val x := by
          by_contra hc
          rw [not_lt] at hc
          rw [hneg.2 hc] at hl
          exact absurd hl (by simp)
        have hB1 : (B : ℚ) < 1 := by
          have h2 : |val x| < 1 := by rw [abs_of_neg hv]; norm_num at R1; linarith
          linarith
        have hB0 : B = 0 := by
          have : B < 1 := by exact_mod_cast hB1
          omega
        subst hB0; rfl
      · rw [if_neg hv]
  -- the digits
  obtain ⟨fa, va⟩ := abs_fin fu
  set y := |val (fmod1 x * ofInt 10 * pow10 p)| with hy
  have y0 : 0 ≤ y := abs_nonneg _
  have hpow : (10 : ℚ) ^ (p + 1) ≤ 10 ^ 15 := pow_le_pow_right₀ (by norm_num) (by omega)
  have hpow0 : (0 : ℚ) < 10 ^ (p + 1) := by positivity
  have hfp : f * 10 ^ (p + 1) < 10 ^ (p + 1) := by nlinarith
  have hu' := abs_le.1 hu
  have y1 : y < 10 ^ 16 := by norm_num at hpow ⊢; linarith [hu'.2]
  obtain ⟨n, hn⟩ : ∃ n : Nat, ⌊y⌋ = n := ⟨⌊y⌋.toNat, by have := Int.floor_nonneg.2 y0; omega⟩
  have hn1 : (n : ℚ) ≤ y := by have := Int.floor_le y; rw [hn] at this; exact_mod_cast this
  have hn2 : y < n + 1 := by have := Int.lt_floor_add_one y; rw [hn] at this; exact_mod_cast this
  have hafter : toInt64 (Fp.abs (fmod1 x * ofInt 10 * pow10 p)) = .ok (n : Int) := by
    unfold toInt64
    rw [toIntRange_nonneg fa _ _ (by norm_num) (by rw [va]; exact y0), va, hn, if_pos]
    have hc : (10 : ℚ) ^ 16 < 2 ^ 63 - 1 := by norm_num
    have : (n : ℚ) < 2 ^ 63 - 1 := by linarith
    have : (n : Int) < 2 ^ 63 - 1 := by exact_mod_cast this
    omega
  set D := (n + 5) / 10 with hD
  have hDn : 10 * D ≤ n + 5 ∧ n + 5 < 10 * D + 10 := by omega
  have hDq1 : (10 : ℚ) * D ≤ n + 5 := by exact_mod_cast hDn.1
  have hDq2 : (n : ℚ) + 5 + 1 ≤ 10 * D + 10 := by exact_mod_cast hDn.2
  have hps : (10 : ℚ) ^ (p + 1) = 10 * 10 ^ p := by rw [pow_succ]; ring
  have hclose : |(D : ℚ) - f * 10 ^ p| ≤ 1 / 2 + 1 / 50 := by
    rw [hps] at hu'
    rw [abs_le]
    constructor <;> nlinarith [hu'.1, hu'.2]
  have hDle : D ≤ 10 ^ p := by
    have h1 : (D : ℚ) < 10 ^ p + 1 := by
      have := (abs_le.1 hclose).2
      have h2 : f * 10 ^ p ≤ 10 ^ p := by nlinarith [(by positivity : (0 : ℚ) < 10 ^ p)]
      linarith
    have : D < 10 ^ p + 1 := by exact_mod_cast h1
    omega
  obtain ⟨fp, vp⟩ := pow10_val p hp
  have h14 : (10 : Nat) ^ p ≤ 10 ^ 14 := Nat.pow_le_pow_right (by decide) hp
  obtain ⟨fD, vD⟩ : Finite (ofInt D) ∧ val (ofInt D) = D := by
    have := lit_int (D : Int) (by rw [Int.natAbs_natCast]; exact (hDle.trans h14).trans (by decide))
    unfold Fp.ofInt
    exact ⟨this.1, by rw [this.2]; norm_num⟩
  have heq := (compare_val (ofInt D) (pow10 p) fD fp).2.2
  rw [vD, vp] at heq
  -- the parts of the number
  have hR : ∀ N : Nat, (N : ℚ) = B * 10 ^ p + D → Rendered x p (isLess x zero) N := by
    intro N hN
    refine ⟨?_, ?_, ?_⟩
    · rw [hN, hsum]
      have : (B : ℚ) * 10 ^ p + D - 10 ^ p * (B + f) = D - f * 10 ^ p := by ring
      rw [this]; exact hclose
    · intro h; have := hneg.1 h; norm_num at R0; linarith
    · intro h; exact hneg.2 (by linarith)
  by_cases hc : D = 10 ^ p
  · refine ⟨isLess x zero, B + 1, 0, by positivity, ?_, hR _ (by push_cast; rw [hc]; push_cast; ring)⟩
    have hf : f ≠ 0 := by
      intro e
      rw [e, hc] at hclose
      push_cast at hclose
      have h1 : (1 : ℚ) ≤ 10 ^ p := one_le_pow₀ (by norm_num)
      rw [zero_mul, sub_zero, abs_of_pos (by positivity)] at hclose
      linarith
    have hb53 := hbig hf
    have hB53 : B < 2 ^ 53 := by
      have : (B : ℚ) < 2 ^ 53 := by linarith
      exact_mod_cast this
    have hcar : carry (pow10 p) (B : Int) (D : Int) = .ok (((B + 1 : Nat) : Int), ((0 : Nat) : Int)) := by
      unfold carry
      rw [if_pos (heq.2 (by rw [hc]; push_cast; rfl))]
      unfold i64 minInt64 maxInt64
      rw [if_pos (by omega)]
      rfl
    exact valueOf_steps x p trunc _ _ _ hint hflip hafter _ (by rw [roundLast_nat]; exact hcar)
  · refine ⟨isLess x zero, B, D, by omega, ?_, hR _ (by push_cast; rfl)⟩
    have hcar : carry (pow10 p) (B : Int) (D : Int) = .ok ((B : Int), (D : Int)) := by
      unfold carry
      rw [if_neg]
      intro h
      exact hc (by exact_mod_cast heq.1 h)
    exact valueOf_steps x p trunc _ _ _ hint hflip hafter _ (by rw [roundLast_nat]; exact hcar)

/-! ### C94 -/

/-- A number with `p` decimal places, 1 to 14: the text is the number rounded to `p` places, written with exactly
`p` digits behind the comma.  `x` is any double of absolute value below 2^63. -/
theorem valueOf_fixed_partial (x : F64) (hx : Finite x) (hb : |val x| < 2 ^ 63) (p : Nat) (h1 : 1 ≤ p) (hp : p ≤ 14) :
    ∃ neg N, valueOf x p false = .ok (fixedText neg N p) ∧ Rendered x p neg N := by
  obtain ⟨neg, B, D, hD, he, hr⟩ := valueOf_parts x hx hb p hp false
  exact ⟨neg, _, by rw [he, assemble_fixed neg B D p h1 hD], hr⟩

/-- With `trunc` the zeros at the end are left out, and the comma if nothing follows; here 0 decimal places work too. -/
theorem valueOf_short_partial (x : F64) (hx : Finite x) (hb : |val x| < 2 ^ 63) (p : Nat) (hp : p ≤ 14) :
    ∃ neg N, valueOf x p true = .ok (shortText neg N p) ∧ Rendered x p neg N := by
  obtain ⟨neg, B, D, hD, he, hr⟩ := valueOf_parts x hx hb p hp true
  exact ⟨neg, _, by rw [he, assemble_short neg B D p hD], hr⟩

/-- A number with at most `p` decimal places is written exactly. -/
theorem rendered_exact {x : F64} {p : Nat} {neg : Bool} {N : Nat} (h : Rendered x p neg N) (M : Nat)
    (hM : (M : ℚ) = 10 ^ p * |val x|) : N = M := by
  have hc := h.close
  rw [← hM] at hc
  have h1 := abs_le.1 hc
  have a : (N : ℚ) < M + 1 := by linarith [h1.2]
  have b : (M : ℚ) < N + 1 := by linarith [h1.1]
  have a' : N < M + 1 := by exact_mod_cast a
  have b' : M < N + 1 := by exact_mod_cast b
  omega

/-- Whole numbers: the digits, a comma and zeros. -/
theorem valueOf_whole (x : F64) (hx : Finite x) (n : Nat) (hn : n < 2 ^ 63) (hv : val x = n) (p : Nat) (h1 : 1 ≤ p)
    (hp : p ≤ 14) : valueOf x p false = .ok (dec n ++ [0x2c] ++ List.replicate p 0x30) ∧ valueOf x p true = .ok (dec n) := by
  have hq : (n : ℚ) < 2 ^ 63 := by exact_mod_cast hn
  have hab : |val x| = n := by rw [hv, abs_of_nonneg (by positivity)]
  have hb : |val x| < 2 ^ 63 := by rw [hab]; exact hq
  have key : ∀ neg N, Rendered x p neg N → neg = false ∧ N = n * 10 ^ p := by
    intro neg N hr
    refine ⟨?_, rendered_exact hr _ (by rw [hab]; push_cast; ring)⟩
    cases neg
    · rfl
    · have := hr.sign rfl
      rw [hv] at this
      have h0 : (0 : ℚ) ≤ n := by positivity
      linarith
  have e1 : n * 10 ^ p / 10 ^ p = n := Nat.mul_div_cancel _ (by positivity)
  have e2 : n * 10 ^ p % 10 ^ p = 0 := Nat.mul_mod_left _ _
  constructor
  · obtain ⟨neg, N, he, hr⟩ := valueOf_fixed_partial x hx hb p h1 hp
    obtain ⟨rfl, rfl⟩ := key _ _ hr
    rw [he]
    unfold fixedText
    rw [e1, e2, padded_zero]
    rfl
  · obtain ⟨neg, N, he, hr⟩ := valueOf_short_partial x hx hb p hp
    obtain ⟨rfl, rfl⟩ := key _ _ hr
    rw [he]
    unfold shortText
    rw [e1, e2, if_pos rfl]
    simp [Spec.sign]

/-- `arg(value, width, precision)` puts that text in place of the placeholder (see `Arg.arg_spec_partial`): without a
precision the number rounded to 10 places without zeros at the end, else with exactly that many places. -/
theorem argDouble_spec_partial (s : List Ch) (x : F64) (hx : Finite x) (hb : |val x| < 2 ^ 63) (width : Int) (fill : Ch) :
    (∀ precision : Int, precision < 0 → ∃ neg N, Rendered x 10 neg N ∧
      argDouble s x width precision fill = .ok (Arg.arg s (shortText neg N 10) width fill)) ∧
    (∀ p : Nat, 1 ≤ p → p ≤ 14 → ∃ neg N, Rendered x p neg N ∧
      argDouble s x width p fill = .ok (Arg.arg s (fixedText neg N p) width fill)) := by
  constructor
  · intro precision hp
    obtain ⟨neg, N, he, hr⟩ := valueOf_short_partial x hx hb 10 (by decide)
    rw [Nat.cast_ofNat] at he
    refine ⟨neg, N, hr, ?_⟩
    unfold argDouble
    cases ha : Arg.argIndicies s with
    | none => simp [Arg.arg, ha]
    | some _ =>
      simp only [if_pos hp]
      rw [he, ok_bind]
      rfl
  · intro p h1 hp
    obtain ⟨neg, N, he, hr⟩ := valueOf_fixed_partial x hx hb p h1 hp
    refine ⟨neg, N, hr, ?_⟩
    unfold argDouble
    cases ha : Arg.argIndicies s with
    | none => simp [Arg.arg, ha]
    | some _ =>
      simp only
      rw [if_neg (by omega), he, ok_bind]
      rfl

/-! ### Where the code is wrong -/

/-- **C94 fails** for 0 decimal places: a digit is shown, and it is always 0. -/
theorem no_places : valueOf (lit 5 2) 0 false = .ok (txt "3,0") ∧ valueOf (lit 7 1) 0 false = .ok (txt "7,0") := by decide +kernel

/-- **C94 fails** for small negative numbers: the minus is lost, though the digits are shown. -/
theorem sign_lost : valueOf (lit (-5) 10000000) 7 false = .ok (txt "0,0000005") := by decide +kernel

/-- **C94 fails**: a number that is rounded to 0 keeps its minus. -/
theorem negative_zero : valueOf (lit (-1) 1000) 2 false = .ok (txt "-0,00") ∧ valueOf (lit (-1) 1000) 2 true = .ok (txt "-0") := by
  decide +kernel

/-- **C94 fails** for 16 and more places: the last digits are wrong, and from 18 on the behaviour is undefined.
(The double nearest to 0.9999999999999999 is 0.99999999999999988898.) -/
theorem many_places : valueOf (lit 9999999999999999 (10 ^ 16)) 16 false = .ok (txt "0,9999999999999998") ∧
    valueOf (lit 95 100) 18 false = .error .ub := by decide +kernel

/-- **C94 fails** for numbers outside the range of `int64`, and for the smallest number of the range, infinities and
NaN: undefined behaviour. -/
theorem large_numbers : valueOf (lit (2 ^ 63) 1) 2 false = .error .ub ∧ valueOf (lit (-2 ^ 63) 1) 2 false = .error .ub ∧
    valueOf (lit (10 ^ 30) 1) 2 false = .error .ub ∧ valueOf .nan 2 false = .error .ub ∧
    valueOf (mk false infBits) 2 false = .error .ub := by decide +kernel

/-- A half is rounded by the decimal digits the multiplications give: the double 0.15 is a bit less than 0.15. -/
theorem half_rounded_up : valueOf (lit 15 100) 1 false = .ok (txt "0,2") ∧ val (lit 15 100) < 15 / 100 := by
  constructor
  · decide +kernel
  · have e : 100 * units (lit 15 100) < 15 * (one : Nat) := by decide +kernel
    have h2 : (100 : ℚ) * (units (lit 15 100) : ℚ) < 15 * ((one : Nat) : ℚ) := by exact_mod_cast e
    have hp : (0 : ℚ) < ((one : Nat) : ℚ) := by exact_mod_cast one_pos
    unfold val
    rw [← one_cast, div_lt_iff₀ hp]
    linarith

-- concrete numbers
example : valueOf (lit 314159 100000) 2 false = .ok (txt "3,14") ∧ valueOf (lit (-314159) 100000) 3 false = .ok (txt "-3,142") ∧
    valueOf (lit 9996 1000) 2 false = .ok (txt "10,00") ∧ valueOf (lit 9996 1000) 2 true = .ok (txt "10") ∧
    valueOf (lit 5 2) 10 true = .ok (txt "2,5") := by decide +kernel
example : argDouble (txt "x=%1!") (lit 5 2) 6 (-1) 0x20 = .ok (txt "x=   2,5!") := by decide +kernel
-- the hypotheses can be met, and the specification gives the expected texts
example : fixedText true 3142 3 = txt "-3,142" ∧ shortText false 250 2 = txt "2,5" := by decide +kernel
example : Finite (lit (-314159) 100000) := by decide +kernel

end Verif.DoubleFmt
