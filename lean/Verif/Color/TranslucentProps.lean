import Verif.Color.BlendProps
/-
C70: blending onto a translucent background.
-/
namespace Verif.Color
open Verif Verif.Fp32 Color

attribute [local irreducible] lit one zero

/-- The colour component of "foreground over background" by Porter and Duff: the components
weighted by their alphas, divided by the alpha `ac` of the result (all on the scale 0 to 255). -/
def over (cb ab cf af ac : Byte) : ℚ :=
  ((af.toNat : ℚ) * cf.toNat * 255 + (255 - af.toNat) * ab.toNat * cb.toNat) / (255 * ac.toNat)

/-- the value of the numerator of Color.cpp:467 -/
theorem pdNum_err (cb ab cf af : Byte) :
    Finite (frac af * frac cf + (lit 1 1 - frac af) * frac ab * frac cb) ∧
    0 ≤ val (frac af * frac cf + (lit 1 1 - frac af) * frac ab * frac cb) ∧
    |val (frac af * frac cf + (lit 1 1 - frac af) * frac ab * frac cb) -
      (af.toNat / 255 * (cf.toNat / 255) + (1 - af.toNat / 255) * (ab.toNat / 255) * (cb.toNat / 255))| ≤
      6 / 2 ^ 24 := by
  obtain ⟨fA, A0, A1⟩ := frac_unit af
  obtain ⟨fB, B0, B1⟩ := frac_unit ab
  obtain ⟨fC, C0, C1⟩ := frac_unit cf
  obtain ⟨fE, E0, E1⟩ := frac_unit cb
  obtain ⟨bA0, bA1⟩ := byte_frac af
  obtain ⟨bB0, bB1⟩ := byte_frac ab
  have t1 := mul_err (frac_err af) (frac_err cf) C0 C1 bA0 bA1
  have m1 := mul_rounds fA fC
  obtain ⟨f1, p1, q1⟩ := unit_between m1 (mul_nonneg A0 C0) (mul_le_one₀ A1 C0 C1)
  have e1 := m1.err 24 (by decide) (b1 (mul_nonneg A0 C0) (mul_le_one₀ A1 C0 C1))
  have s1 := sub_rounds lit1.1 fA
  rw [lit1.2] at s1
  obtain ⟨f2, p2, q2⟩ := unit_between s1 (by linarith) (by linarith)
  have e2 := s1.err 24 (by decide) (b1 (by linarith) (by linarith))
  have e2' : |val (lit 1 1 - frac af) - (1 - (af.toNat : ℚ) / 255)| ≤ 1 / 2 ^ 24 := by
    have h1 := abs_le.1 (frac_err af)
    have h2 := abs_le.1 e2
    rw [abs_le]
    constructor <;> linarith
  have m2 := mul_rounds f2 fB
  have h20 := mul_nonneg p2 B0
  have h21 := mul_le_one₀ q2 B0 B1
  obtain ⟨f3, p3, q3⟩ := unit_between m2 h20 h21
  have e3 := m2.err 24 (by decide) (b1 h20 h21)
  have t2 := mul_err e2' (frac_err ab) B0 B1 (by linarith : (0 : ℚ) ≤ 1 - af.toNat / 255) (by linarith)
  have t3 : |val ((lit 1 1 - frac af) * frac ab) - (1 - (af.toNat : ℚ) / 255) * (ab.toNat / 255)| ≤ 2 / 2 ^ 24 := by
    rw [abs_le] at e3 t2 ⊢
    constructor <;> linarith
  have c0 : (0 : ℚ) ≤ (1 - (af.toNat : ℚ) / 255) * (ab.toNat / 255) := mul_nonneg (by linarith) bB0
  have c1 : (1 - (af.toNat : ℚ) / 255) * (ab.toNat / 255) ≤ 1 := mul_le_one₀ (by linarith) bB0 bB1
  have t4 := mul_err t3 (frac_err cb) E0 E1 c0 c1
  have m3 := mul_rounds f3 fE
  have h30 := mul_nonneg p3 E0
  have h31 := mul_le_one₀ q3 E0 E1
  obtain ⟨f4, p4, q4⟩ := unit_between m3 h30 h31
  have e4 := m3.err 24 (by decide) (b1 h30 h31)
  have rp2 : Rp 2 := by simpa using rp_nat 2 (by decide)
  have ad := add_rounds f1 f4
  obtain ⟨f5, p5, q5⟩ := ad.between rp_zero rp2 (by linarith) (by linarith)
  have e5 := ad.err 23 (by decide) (by rw [abs_of_nonneg (by linarith)]; norm_num; linarith)
  refine ⟨f5, p5, ?_⟩
  clear ad m3 m2 s1 m1 e2 e2' t2 t3
  rw [abs_le] at t1 e1 t4 e4 e5 ⊢
  generalize (af.toNat : ℚ) / 255 * (cf.toNat / 255) = P1 at *
  generalize (1 - (af.toNat : ℚ) / 255) * (ab.toNat / 255) * (cb.toNat / 255) = P2 at *
  generalize val (frac af * frac cf + (lit 1 1 - frac af) * frac ab * frac cb) = S at *
  generalize val (frac af * frac cf) = S1 at *
  generalize val ((lit 1 1 - frac af) * frac ab * frac cb) = S2 at *
  generalize val (frac af) * val (frac cf) = T1 at *
  generalize val ((lit 1 1 - frac af) * frac ab) * val (frac cb) = T2 at *
  obtain ⟨t1a, t1b⟩ := t1
  obtain ⟨t2a, t2b⟩ := t4
  obtain ⟨e1a, e1b⟩ := e1
  obtain ⟨e4a, e4b⟩ := e4
  obtain ⟨e5a, e5b⟩ := e5
  norm_num at t1a t1b t2a t2b e1a e1b e4a e4b e5a e5b ⊢
  constructor <;> linarith

/-- the exact alpha is less than one unit above the rounded one -/
theorem alpha_close (ab af : Byte) :
    ((pdAlpha ab af).toNat : ℚ) * 255 ≤ af.toNat * 255 + (255 - af.toNat) * ab.toNat ∧
    (af.toNat : ℚ) * 255 + (255 - af.toNat) * ab.toNat < ((pdAlpha ab af).toNat + 1) * 255 := by
  have ha := byte_lt af
  have hb := byte_lt ab
  have hle : (255 - af.toNat) * ab.toNat ≤ (255 - af.toNat) * 255 := Nat.mul_le_mul_left _ (by omega)
  have e : (pdAlpha ab af).toNat = af.toNat + (255 - af.toNat) * ab.toNat / 255 := by
    unfold pdAlpha
    rw [BitVec.toNat_ofNat, Nat.mod_eq_of_lt]
    omega
  have hc : ((255 - af.toNat : Nat) : ℚ) = 255 - af.toNat := by
    rw [Nat.cast_sub (by omega)]; norm_num
  rw [← hc, e]
  constructor
  · have : (af.toNat + (255 - af.toNat) * ab.toNat / 255) * 255 ≤ af.toNat * 255 + (255 - af.toNat) * ab.toNat := by
      omega
    exact_mod_cast this
  · have : af.toNat * 255 + (255 - af.toNat) * ab.toNat < (af.toNat + (255 - af.toNat) * ab.toNat / 255 + 1) * 255 := by
      omega
    exact_mod_cast this

/-- the component is at most the larger one, times how much the alpha was rounded down -/
theorem over_le (cb ab cf af : Byte) (M : Nat) (hb : cb.toNat ≤ M) (hf : cf.toNat ≤ M) :
    over cb ab cf af (pdAlpha ab af) ≤
      M * ((af.toNat * 255 + (255 - af.toNat) * ab.toNat) / (255 * (pdAlpha ab af).toNat)) := by
  have hb' : (cb.toNat : ℚ) ≤ M := by exact_mod_cast hb
  have hf' : (cf.toNat : ℚ) ≤ M := by exact_mod_cast hf
  have ha : (af.toNat : ℚ) ≤ 255 := by have := byte_lt af; exact_mod_cast (by omega : af.toNat ≤ 255)
  have ha0 : (0 : ℚ) ≤ af.toNat := by positivity
  have hb0 : (0 : ℚ) ≤ ab.toNat := by positivity
  unfold over
  rw [← mul_div_assoc]
  refine div_le_div_of_nonneg_right ?_ (by positivity)
  have h1 := mul_le_mul_of_nonneg_left hf' ha0
  have h2 := mul_le_mul_of_nonneg_left hb' (mul_nonneg (by linarith : (0 : ℚ) ≤ 255 - af.toNat) hb0)
  nlinarith

theorem pdAlpha_pos {ab af : Byte} (h : ¬ (ab = 0 ∧ af = 0)) : pdAlpha ab af ≠ 0 := fun e =>
  h (((blend_alpha ab af).2.2.2.2.2).1 e)

/-- the float of Color.cpp:469 before the conversion -/
theorem pdMix_over (cb ab cf af : Byte) (h : ¬ (ab = 0 ∧ af = 0)) :
    Finite (pdMix cb ab cf af * lit 255 1) ∧ 0 ≤ val (pdMix cb ab cf af * lit 255 1) ∧
    |val (pdMix cb ab cf af * lit 255 1) - over cb ab cf af (pdAlpha ab af)| ≤ 1 / 32 := by
  obtain ⟨fN, N0, Ne⟩ := pdNum_err cb ab cf af
  have hac := pdAlpha_pos h
  obtain ⟨fD, D0, D1⟩ := frac_unit (pdAlpha ab af)
  have Dp := frac_pos hac
  have De := frac_err (pdAlpha ab af)
  have hac1 : (1 : ℚ) ≤ (pdAlpha ab af).toNat := by
    have : 1 ≤ (pdAlpha ab af).toNat := by
      rcases Nat.eq_zero_or_pos (pdAlpha ab af).toNat with h0 | h0
      · exact absurd (BitVec.eq_of_toNat_eq h0) hac
      · exact h0
    exact_mod_cast this
  have hov2 : over cb ab cf af (pdAlpha ab af) ≤ 510 := by
    refine (over_le cb ab cf af 255 (by have := byte_lt cb; omega) (by have := byte_lt cf; omega)).trans ?_
    have hc := (alpha_close ab af).2
    have : ((af.toNat : ℚ) * 255 + (255 - af.toNat) * ab.toNat) / (255 * (pdAlpha ab af).toNat) ≤ 2 := by
      rw [div_le_iff₀ (by linarith)]
      linarith
    push_cast
    linarith
  have hov0 : 0 ≤ over cb ab cf af (pdAlpha ab af) := by
    unfold over
    have ha : (af.toNat : ℚ) ≤ 255 := by have := byte_lt af; exact_mod_cast (by omega : af.toNat ≤ 255)
    have : (0 : ℚ) ≤ 255 - af.toNat := by linarith
    positivity
  have hid : (af.toNat : ℚ) / 255 * (cf.toNat / 255) + (1 - af.toNat / 255) * (ab.toNat / 255) * (cb.toNat / 255) =
      over cb ab cf af (pdAlpha ab af) / 255 * ((pdAlpha ab af).toNat / 255) := by
    unfold over
    field_simp
  rw [hid] at Ne
  have hd0 : val (frac (pdAlpha ab af)) ≠ 0 := by intro e; rw [e] at Dp; norm_num at Dp
  have dv := div_rounds fN fD hd0
  unfold pdMix
  simp only
  generalize val (frac af * frac cf + (lit 1 1 - frac af) * frac ab * frac cb) = S at *
  -- the quotient
  have hq : |S / val (frac (pdAlpha ab af)) - over cb ab cf af (pdAlpha ab af) / 255| ≤ 7 / 2 ^ 16 := by
    generalize hm : over cb ab cf af (pdAlpha ab af) = m at *
    generalize hD : val (frac (pdAlpha ab af)) = D at *
    generalize hT : ((pdAlpha ab af).toNat : ℚ) / 255 = T at *
    have Dp' : 0 < D := by linarith
    have e : S / D - m / 255 = (S - m / 255 * T) / D - m / 255 * (D - T) / D := by field_simp; ring
    rw [e]
    have hA : |(S - m / 255 * T) / D| ≤ 6 / 2 ^ 24 * 256 := by
      rw [abs_div, abs_of_pos Dp', div_le_iff₀ Dp']
      nlinarith [abs_nonneg (S - m / 255 * T)]
    have hB : |m / 255 * (D - T) / D| ≤ 1 / 2 ^ 24 * 256 := by
      rw [abs_div, abs_of_pos Dp', div_le_iff₀ Dp', abs_mul, abs_of_nonneg (by positivity)]
      have h1 : m / 255 * |D - T| ≤ 2 * (1 / 2 / 2 ^ 24) :=
        mul_le_mul (by linarith) De (abs_nonneg _) (by norm_num)
      nlinarith
    refine (abs_sub _ _).trans ?_
    norm_num at hA hB ⊢
    linarith
  have hq' := abs_le.1 hq
  have rp4 : Rp 4 := by simpa using rp_nat 4 (by decide)
  have q0 : 0 ≤ S / val (frac (pdAlpha ab af)) := div_nonneg N0 D0
  have q3 : S / val (frac (pdAlpha ab af)) ≤ 4 := by
    have := hq'.2
    norm_num at this
    linarith
  obtain ⟨f6, p6, r6⟩ := dv.between rp_zero rp4 q0 q3
  have e6 := dv.err 22 (by decide) (by rw [abs_of_nonneg q0]; norm_num; exact q3)
  have ml := mul_rounds f6 lit255.1
  rw [lit255.2] at ml
  have rp1020 : Rp 1020 := by simpa using rp_nat 1020 (by decide)
  obtain ⟨f7, p7, r7⟩ := ml.between rp_zero rp1020 (by linarith) (by linarith)
  have e7 := ml.err 14 (by decide) (by rw [abs_of_nonneg (by linarith)]; norm_num; linarith)
  refine ⟨f7, p7, ?_⟩
  have e6' := abs_le.1 e6
  have e7' := abs_le.1 e7
  rw [abs_le]
  generalize S / val (frac (pdAlpha ab af)) = Q at *
  obtain ⟨a1, a2⟩ := hq'
  obtain ⟨a3, a4⟩ := e6'
  obtain ⟨a5, a6⟩ := e7'
  norm_num at a1 a2 a3 a4 a5 a6 ⊢
  constructor <;> linarith

/-- the component `m` rounded down to the byte `r`, up to a rounding error of 1/32 -/
def RoundedDown32 (r : Byte) (m : ℚ) : Prop := (r.toNat : ℚ) ≤ m + 1 / 32 ∧ m < r.toNat + 1 + 1 / 32

theorem pdColour_over (cb ab cf af : Byte) (h : ¬ (ab = 0 ∧ af = 0))
    (hm : over cb ab cf af (pdAlpha ab af) < 256 - 1 / 32) :
    ∃ r, pdColour cb ab cf af = .ok r ∧ RoundedDown32 r (over cb ab cf af (pdAlpha ab af)) := by
  obtain ⟨f, p, e⟩ := pdMix_over cb ab cf af h
  have e' := abs_le.1 e
  obtain ⟨r, hr, hfl⟩ := toByte_ok f p (by linarith)
  exact ⟨r, hr, floor_close e hfl⟩

theorem pdColour_overflow (cb ab cf af : Byte) (h : ¬ (ab = 0 ∧ af = 0))
    (hm : 256 + 1 / 32 ≤ over cb ab cf af (pdAlpha ab af)) : pdColour cb ab cf af = .error .ub := by
  obtain ⟨f, p, e⟩ := pdMix_over cb ab cf af h
  have e' := abs_le.1 e
  exact toByte_ub f (by linarith)

theorem toIntRange_cases (lo hi : Int) (x : F32) : (∃ v, toIntRange lo hi x = .ok v) ∨
    toIntRange lo hi x = .error .ub := by
  cases x with
  | nan => exact Or.inr rfl
  | num s b hb =>
    have e : toIntRange lo hi (.num s b hb) = if b = infBits then .error .ub else
        if lo ≤ Int.tdiv (sgn s (mag b)) one ∧ Int.tdiv (sgn s (mag b)) one ≤ hi
        then .ok (Int.tdiv (sgn s (mag b)) one) else .error .ub := rfl
    rw [e]
    generalize Int.tdiv (sgn s (mag b)) one = v
    by_cases h1 : b = infBits
    · exact Or.inr (if_pos h1)
    · rw [if_neg h1]
      by_cases h2 : lo ≤ v ∧ v ≤ hi
      · exact Or.inl ⟨v, if_pos h2⟩
      · exact Or.inr (if_neg h2)

theorem pdColour_cases (cb ab cf af : Byte) : (∃ r, pdColour cb ab cf af = .ok r) ∨
    pdColour cb ab cf af = .error .ub := by
  unfold pdColour toByte
  generalize pdMix cb ab cf af * lit 255 1 = x
  rcases toIntRange_cases 0 255 x with ⟨v, h⟩ | h
  · exact Or.inl ⟨BitVec.ofInt 8 v, by rw [h]; rfl⟩
  · exact Or.inr (by rw [h]; rfl)

/-- two fully transparent colours: 0/0 -/
theorem pdColour_transparent (cb cf : Byte) : pdColour cb 0 cf 0 = .error .ub := by
  obtain ⟨fN, N0, -⟩ := pdNum_err cb 0 cf 0
  have hz : frac 0 = mk false 0 := by decide +kernel
  have hv : ∀ x : F32, Finite x → val x = 0 → ∃ s h, x = .num s 0 h := by
    intro x hx h0
    cases x with
    | nan => exact absurd hx id
    | num s b hb =>
      have hu : units (.num s b hb) = 0 := by
        unfold val at h0
        have h2 : ((2 : ℚ) ^ 149) ≠ 0 := by positivity
        rcases div_eq_zero_iff.1 h0 with h | h
        · exact_mod_cast h
        · exact absurd h h2
      have hm : mag b = 0 := by
        cases s <;> simp only [units, sgn] at hu <;> simpa using hu
      have hb0 := mag_eq_zero.1 hm
      subst hb0
      exact ⟨s, hb, rfl⟩
  have hS : val (frac 0 * frac cf + (lit 1 1 - frac 0) * frac 0 * frac cb) = 0 := by
    have f0 := (frac_unit (0 : Byte)).1
    have m1 := mul_rounds f0 (frac_unit cf).1
    rw [frac_zero, zero_mul] at m1
    obtain ⟨f1, v1⟩ := m1.exact rp_zero
    have s1 := sub_rounds lit1.1 f0
    rw [lit1.2, frac_zero, sub_zero] at s1
    obtain ⟨f2, v2⟩ := s1.exact rp_one
    have m2 := mul_rounds f2 f0
    rw [v2, frac_zero, mul_zero] at m2
    obtain ⟨f3, v3⟩ := m2.exact rp_zero
    have m3 := mul_rounds f3 (frac_unit cb).1
    rw [v3, zero_mul] at m3
    obtain ⟨f4, v4⟩ := m3.exact rp_zero
    have ad := add_rounds f1 f4
    rw [v1, v4, add_zero] at ad
    exact (ad.exact rp_zero).2
  have hD : pdAlpha 0 0 = 0 := rfl
  have hn : pdMix cb 0 cf 0 = .nan := by
    unfold pdMix
    simp only [hD]
    obtain ⟨s, h, e⟩ := hv _ fN hS
    obtain ⟨s', h', e'⟩ := hv (frac 0) (frac_unit (0 : Byte)).1 frac_zero
    rw [e]
    show F32.num s 0 h / frac 0 = .nan
    rw [e']
    rfl
  unfold pdColour
  rw [hn]
  rfl

/-! ### The colours -/

/-- the three components of `f` over `b` -/
def overRed (b f r : Color) : ℚ := over b.red b.alpha f.red f.alpha r.alpha
def overGreen (b f r : Color) : ℚ := over b.green b.alpha f.green f.alpha r.alpha
def overBlue (b f r : Color) : ℚ := over b.blue b.alpha f.blue f.alpha r.alpha

/-- Blending with any alphas that are not both 255 and not both 0 is "foreground over background"
as long as no component exceeds the range of a byte: the alpha is `f + b - fb/255` rounded down,
the components are the weighted ones divided by that alpha, rounded down. The parameter `alpha`
has no influence. -/
theorem blend_translucent_partial (junk : Byte) (b f : Color) (alpha : Byte)
    (h1 : ¬ (b.alpha = 255 ∧ f.alpha = 255)) (h0 : ¬ (b.alpha = 0 ∧ f.alpha = 0))
    (hr : over b.red b.alpha f.red f.alpha (pdAlpha b.alpha f.alpha) < 256 - 1 / 32)
    (hg : over b.green b.alpha f.green f.alpha (pdAlpha b.alpha f.alpha) < 256 - 1 / 32)
    (hb : over b.blue b.alpha f.blue f.alpha (pdAlpha b.alpha f.alpha) < 256 - 1 / 32) :
    ∃ r, blend junk b f alpha = .ok r ∧ r.mode = .rgb ∧
      r.alpha.toNat = f.alpha.toNat + b.alpha.toNat - (f.alpha.toNat * b.alpha.toNat + 254) / 255 ∧
      RoundedDown32 r.red (overRed b f r) ∧ RoundedDown32 r.green (overGreen b f r) ∧
      RoundedDown32 r.blue (overBlue b f r) := by
  obtain ⟨r0, e0, s0⟩ := pdColour_over _ _ _ _ h0 hr
  obtain ⟨r1, e1, s1⟩ := pdColour_over _ _ _ _ h0 hg
  obtain ⟨r2, e2, s2⟩ := pdColour_over _ _ _ _ h0 hb
  refine ⟨⟨.rgb, r0, r1, r2, junk, pdAlpha b.alpha f.alpha⟩, ?_, rfl, ?_, s0, s1, s2⟩
  · unfold blend
    rw [if_neg h1]
    change pdColour b.b0 b.alpha f.b0 f.alpha = _ at e0
    change pdColour b.b1 b.alpha f.b1 f.alpha = _ at e1
    change pdColour b.b2 b.alpha f.b2 f.alpha = _ at e2
    rw [e0, e1, e2]
    rfl
  · show (pdAlpha b.alpha f.alpha).toNat = _
    rw [(blend_alpha b.alpha f.alpha).1, Nat.mul_comm, Nat.add_comm]

/-- It is always defined, and right, for colours that are not too bright: components up to 127 never
leave the range, whatever the alphas are. -/
theorem blend_dark (junk : Byte) (b f : Color) (alpha : Byte)
    (h1 : ¬ (b.alpha = 255 ∧ f.alpha = 255)) (h0 : ¬ (b.alpha = 0 ∧ f.alpha = 0))
    (hb : b.red.toNat ≤ 127 ∧ b.green.toNat ≤ 127 ∧ b.blue.toNat ≤ 127)
    (hf : f.red.toNat ≤ 127 ∧ f.green.toNat ≤ 127 ∧ f.blue.toNat ≤ 127) :
    ∃ r, blend junk b f alpha = .ok r ∧ RoundedDown32 r.red (overRed b f r) ∧
      RoundedDown32 r.green (overGreen b f r) ∧ RoundedDown32 r.blue (overBlue b f r) := by
  have key : ∀ cb cf : Byte, cb.toNat ≤ 127 → cf.toNat ≤ 127 →
      over cb b.alpha cf f.alpha (pdAlpha b.alpha f.alpha) < 256 - 1 / 32 := by
    intro cb cf c1 c2
    have hac : (1 : ℚ) ≤ (pdAlpha b.alpha f.alpha).toNat := by
      have : 1 ≤ (pdAlpha b.alpha f.alpha).toNat := by
        rcases Nat.eq_zero_or_pos (pdAlpha b.alpha f.alpha).toNat with e | e
        · exact absurd (BitVec.eq_of_toNat_eq e) (pdAlpha_pos h0)
        · exact e
      exact_mod_cast this
    have hc := (alpha_close b.alpha f.alpha).2
    have h2 : ((f.alpha.toNat : ℚ) * 255 + (255 - f.alpha.toNat) * b.alpha.toNat) /
        (255 * (pdAlpha b.alpha f.alpha).toNat) ≤ 2 := by
      rw [div_le_iff₀ (by linarith)]
      linarith
    have := over_le cb b.alpha cf f.alpha 127 c1 c2
    push_cast at this
    linarith
  obtain ⟨r, e, -, -, s⟩ := blend_translucent_partial junk b f alpha h1 h0 (key _ _ hb.1 hf.1)
    (key _ _ hb.2.1 hf.2.1) (key _ _ hb.2.2 hf.2.2)
  exact ⟨r, e, s⟩

/-- It is always defined, and right, if the alpha of the result is a whole number. -/
theorem blend_whole_alpha (junk : Byte) (b f : Color) (alpha : Byte)
    (h1 : ¬ (b.alpha = 255 ∧ f.alpha = 255)) (h0 : ¬ (b.alpha = 0 ∧ f.alpha = 0))
    (hw : 255 ∣ f.alpha.toNat * b.alpha.toNat) :
    ∃ r, blend junk b f alpha = .ok r ∧ RoundedDown32 r.red (overRed b f r) ∧
      RoundedDown32 r.green (overGreen b f r) ∧ RoundedDown32 r.blue (overBlue b f r) := by
  have key : ∀ cb cf : Byte, over cb b.alpha cf f.alpha (pdAlpha b.alpha f.alpha) < 256 - 1 / 32 := by
    intro cb cf
    have hac : (1 : ℚ) ≤ (pdAlpha b.alpha f.alpha).toNat := by
      have : 1 ≤ (pdAlpha b.alpha f.alpha).toNat := by
        rcases Nat.eq_zero_or_pos (pdAlpha b.alpha f.alpha).toNat with e | e
        · exact absurd (BitVec.eq_of_toNat_eq e) (pdAlpha_pos h0)
        · exact e
      exact_mod_cast this
    have ha := byte_lt f.alpha
    have hb := byte_lt b.alpha
    have hle : f.alpha.toNat * b.alpha.toNat ≤ f.alpha.toNat * 255 := Nat.mul_le_mul_left _ (by omega)
    obtain ⟨k, hk⟩ := hw
    have e := (blend_alpha b.alpha f.alpha).1
    rw [Nat.mul_comm b.alpha.toNat, hk] at e
    have e1 : (pdAlpha b.alpha f.alpha).toNat + k = b.alpha.toNat + f.alpha.toNat := by omega
    have e2 : ((pdAlpha b.alpha f.alpha).toNat : ℚ) + k = b.alpha.toNat + f.alpha.toNat := by exact_mod_cast e1
    have e3 : (f.alpha.toNat : ℚ) * b.alpha.toNat = 255 * k := by exact_mod_cast hk
    have h2 : ((f.alpha.toNat : ℚ) * 255 + (255 - f.alpha.toNat) * b.alpha.toNat) /
        (255 * (pdAlpha b.alpha f.alpha).toNat) ≤ 1 := by
      rw [div_le_iff₀ (by linarith)]
      nlinarith
    have := over_le cb b.alpha cf f.alpha 255 (by have := byte_lt cb; omega) (by have := byte_lt cf; omega)
    push_cast at this
    linarith
  obtain ⟨r, e, -, -, s⟩ := blend_translucent_partial junk b f alpha h1 h0 (key _ _) (key _ _) (key _ _)
  exact ⟨r, e, s⟩

/-- Otherwise the alpha is rounded down, and a bright component can leave the range: undefined
behaviour, for every pair of colours with such a component. -/
theorem blend_overflow (junk : Byte) (b f : Color) (alpha : Byte)
    (h1 : ¬ (b.alpha = 255 ∧ f.alpha = 255)) (h0 : ¬ (b.alpha = 0 ∧ f.alpha = 0))
    (h : 256 + 1 / 32 ≤ over b.red b.alpha f.red f.alpha (pdAlpha b.alpha f.alpha) ∨
      256 + 1 / 32 ≤ over b.green b.alpha f.green f.alpha (pdAlpha b.alpha f.alpha) ∨
      256 + 1 / 32 ≤ over b.blue b.alpha f.blue f.alpha (pdAlpha b.alpha f.alpha)) :
    blend junk b f alpha = .error .ub := by
  have c0 := pdColour_cases b.b0 b.alpha f.b0 f.alpha
  have c1 := pdColour_cases b.b1 b.alpha f.b1 f.alpha
  have c2 := pdColour_cases b.b2 b.alpha f.b2 f.alpha
  unfold blend
  rw [if_neg h1]
  rcases h with h | h | h
  · have e : pdColour b.b0 b.alpha f.b0 f.alpha = .error .ub := pdColour_overflow _ _ _ _ h0 h
    rw [e]; rfl
  · have e : pdColour b.b1 b.alpha f.b1 f.alpha = .error .ub := pdColour_overflow _ _ _ _ h0 h
    rcases c0 with ⟨x, hx⟩ | hx
    · rw [hx, e]; rfl
    · rw [hx]; rfl
  · have e : pdColour b.b2 b.alpha f.b2 f.alpha = .error .ub := pdColour_overflow _ _ _ _ h0 h
    rcases c0 with ⟨x, hx⟩ | hx
    · rcases c1 with ⟨y, hy⟩ | hy
      · rw [hx, hy, e]; rfl
      · rw [hx, hy]; rfl
    · rw [hx]; rfl

/-- Two fully transparent colours, whatever they are: 0/0. -/
theorem blend_invisible (junk : Byte) (b f : Color) (alpha : Byte) (hb : b.alpha = 0) (hf : f.alpha = 0) :
    blend junk b f alpha = .error .ub := by
  unfold blend
  rw [if_neg (by rw [hb]; rintro ⟨h, -⟩; exact absurd h (by decide)), hb, hf, pdColour_transparent]
  rfl

/-! ### A foreground that is invisible, or hides everything -/

/-- a byte divided by 255 and multiplied by 255 again, in single precision (all 256 bytes) -/
theorem frac_mul_255 : ∀ c : Byte, toByte (frac c * lit 255 1) = .ok c := by decide +kernel

/-- a float with the value of `frac c` gives `c` -/
theorem toByte_of_frac {x : F32} (c : Byte) (fx : Finite x) (hx : val x = val (frac c)) :
    toByte (x * lit 255 1) = .ok c := by
  obtain ⟨fc, c0, c1⟩ := frac_unit c
  have m1 := mul_rounds fx lit255.1
  have m2 := mul_rounds fc lit255.1
  rw [hx] at m1
  have rp255 : Rp 255 := by simpa using rp_nat 255 (by decide)
  have h0 : 0 ≤ val (frac c) * val (lit 255 1) := by rw [lit255.2]; linarith
  have h1 : val (frac c) * val (lit 255 1) ≤ 255 := by rw [lit255.2]; linarith
  obtain ⟨f1, p1, q1⟩ := m1.between rp_zero rp255 h0 h1
  obtain ⟨f2, p2, q2⟩ := m2.between rp_zero rp255 h0 h1
  have e : val (x * lit 255 1) = val (frac c * lit 255 1) :=
    le_antisymm (m1.mono m2 (le_refl _)) (m2.mono m1 (le_refl _))
  obtain ⟨r, hr, hfl⟩ := toByte_ok f1 p1 (by linarith)
  obtain ⟨r', hr', hfl'⟩ := toByte_ok f2 p2 (by linarith)
  rw [frac_mul_255 c] at hr'
  cases hr'
  rw [hr]
  rw [e, ← hfl'] at hfl
  exact congrArg Except.ok (BitVec.eq_of_toNat_eq (by omega))

theorem pdColour_nothing (cb cf : Byte) : pdColour cb 255 cf 0 = .ok cb := by
  obtain ⟨f0, -, -⟩ := frac_unit (0 : Byte)
  obtain ⟨f255, -, -⟩ := frac_unit (255 : Byte)
  obtain ⟨fc, -, -⟩ := frac_unit cf
  obtain ⟨fb, -, -⟩ := frac_unit cb
  have m1 := mul_rounds f0 fc
  rw [frac_zero, zero_mul] at m1
  obtain ⟨f1, v1⟩ := m1.exact rp_zero
  have s1 := sub_rounds lit1.1 f0
  rw [lit1.2, frac_zero, sub_zero] at s1
  obtain ⟨f2, v2⟩ := s1.exact rp_one
  have m2 := mul_rounds f2 f255
  rw [v2, frac_255, mul_one] at m2
  obtain ⟨f3, v3⟩ := m2.exact rp_one
  have m3 := mul_rounds f3 fb
  rw [v3, one_mul] at m3
  obtain ⟨f4, v4⟩ := m3.exact (Rp.of _ fb)
  have ad := add_rounds f1 f4
  rw [v1, v4, zero_add] at ad
  obtain ⟨f5, v5⟩ := ad.exact (Rp.of _ fb)
  have hal : pdAlpha 255 0 = 255 := by decide
  have dv := div_rounds f5 f255 (by rw [frac_255]; norm_num)
  rw [v5, frac_255, div_one] at dv
  obtain ⟨f6, v6⟩ := dv.exact (Rp.of _ fb)
  unfold pdColour pdMix
  simp only [hal]
  exact toByte_of_frac cb f6 v6

theorem pdColour_cover (cb ab cf : Byte) : pdColour cb ab cf 255 = .ok cf := by
  obtain ⟨f255, -, -⟩ := frac_unit (255 : Byte)
  obtain ⟨fa, -, -⟩ := frac_unit ab
  obtain ⟨fc, -, -⟩ := frac_unit cf
  obtain ⟨fb, -, -⟩ := frac_unit cb
  have m1 := mul_rounds f255 fc
  rw [frac_255, one_mul] at m1
  obtain ⟨f1, v1⟩ := m1.exact (Rp.of _ fc)
  have s1 := sub_rounds lit1.1 f255
  rw [lit1.2, frac_255, sub_self] at s1
  obtain ⟨f2, v2⟩ := s1.exact rp_zero
  have m2 := mul_rounds f2 fa
  rw [v2, zero_mul] at m2
  obtain ⟨f3, v3⟩ := m2.exact rp_zero
  have m3 := mul_rounds f3 fb
  rw [v3, zero_mul] at m3
  obtain ⟨f4, v4⟩ := m3.exact rp_zero
  have ad := add_rounds f1 f4
  rw [v1, v4, add_zero] at ad
  obtain ⟨f5, v5⟩ := ad.exact (Rp.of _ fc)
  have hal : pdAlpha ab 255 = 255 := ((blend_alpha ab 255).2.2.2.2.1).2 (Or.inr rfl)
  have dv := div_rounds f5 f255 (by rw [frac_255]; norm_num)
  rw [v5, frac_255, div_one] at dv
  obtain ⟨f6, v6⟩ := dv.exact (Rp.of _ fc)
  unfold pdColour pdMix
  simp only [hal]
  exact toByte_of_frac cf f6 v6

/-- A fully transparent foreground leaves an opaque background exactly as it is. -/
theorem blend_nothing (junk : Byte) (b f : Color) (alpha : Byte) (hb : b.alpha = 255) (hf : f.alpha = 0) :
    ∃ r, blend junk b f alpha = .ok r ∧ IsRgb r b.red b.green b.blue ∧ r.alpha = 255 := by
  refine ⟨⟨.rgb, b.b0, b.b1, b.b2, junk, 255⟩, ?_, ⟨rfl, rfl, rfl, rfl⟩, rfl⟩
  unfold blend
  rw [if_neg (by rw [hf]; rintro ⟨-, h⟩; exact absurd h (by decide)), hb, hf, pdColour_nothing, pdColour_nothing,
    pdColour_nothing]
  rfl

/-- An opaque foreground hides a background that is not opaque exactly. -/
theorem blend_cover (junk : Byte) (b f : Color) (alpha : Byte) (hb : b.alpha ≠ 255) (hf : f.alpha = 255) :
    ∃ r, blend junk b f alpha = .ok r ∧ IsRgb r f.red f.green f.blue ∧ r.alpha = 255 := by
  have hal : pdAlpha b.alpha 255 = 255 := ((blend_alpha b.alpha 255).2.2.2.2.1).2 (Or.inr rfl)
  refine ⟨⟨.rgb, f.b0, f.b1, f.b2, junk, 255⟩, ?_, ⟨rfl, rfl, rfl, rfl⟩, rfl⟩
  unfold blend
  rw [if_neg (fun h => hb h.1), hf, pdColour_cover, pdColour_cover, pdColour_cover, hal]
  rfl

/-- A fully transparent foreground can darken a translucent background by one. -/
theorem blend_nothing_darkens : ∃ b f, f.alpha = 0 ∧ b.alpha ≠ 0 ∧
    ∃ r, blend 0 b f 0 = .ok r ∧ r.red.toNat + 1 = b.red.toNat :=
  ⟨fromRgb 0 11 0 0 3, fromRgb 0 0 0 0 0, by decide, by decide, fromRgb 0 10 0 0 3, by decide +kernel, by decide⟩

-- the hypotheses can be met: a translucent pair that is blended, one that overflows
example : blend 0 (fromRgb 0 10 200 30 100) (fromRgb 0 200 100 0 50) 7 = .ok (fromRgb 0 83 162 18 130) := by
  decide +kernel
example : over 200 100 100 50 (pdAlpha 100 50) < 256 - 1 / 32 := by
  unfold over
  rw [show pdAlpha 100 50 = 130 by decide, show (50 : Byte).toNat = 50 from rfl, show (100 : Byte).toNat = 100 from rfl,
    show (200 : Byte).toNat = 200 from rfl, show (130 : Byte).toNat = 130 from rfl]
  norm_num
example : (256 : ℚ) + 1 / 32 ≤ over 255 100 255 100 (pdAlpha 100 100) := by
  unfold over
  rw [show pdAlpha 100 100 = 160 by decide, show (100 : Byte).toNat = 100 from rfl,
    show (255 : Byte).toNat = 255 from rfl, show (160 : Byte).toNat = 160 from rfl]
  norm_num
example : 255 ∣ (51 : Byte).toNat * (5 : Byte).toNat := by decide

end Verif.Color
