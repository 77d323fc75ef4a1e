import Verif.Color.Props
/-
C70: blending and interpolation of colours.
-/
namespace Verif.Color
open Verif Verif.Fp32 Color

attribute [local irreducible] lit one zero

/-! ### Opaque colours -/

theorem mixByte_toNat (a f b : Byte) : (mixByte a f b).toNat = (a.toNat * f.toNat + (255 - a.toNat) * b.toNat) / 255 := by
  unfold mixByte
  rw [BitVec.toNat_ofNat]
  have h1 := byte_lt a
  have h2 := byte_lt f
  have h3 := byte_lt b
  have h4 : a.toNat * f.toNat ≤ a.toNat * 255 := Nat.mul_le_mul_left _ (by omega)
  have h5 : (255 - a.toNat) * b.toNat ≤ (255 - a.toNat) * 255 := Nat.mul_le_mul_left _ (by omega)
  omega

/-- one component: between both, and the mean weighted by alpha, rounded down -/
def Mixed (alpha f b r : Byte) : Prop :=
  min f.toNat b.toNat ≤ r.toNat ∧ r.toNat ≤ max f.toNat b.toNat ∧
  255 * r.toNat ≤ alpha.toNat * f.toNat + (255 - alpha.toNat) * b.toNat ∧
  alpha.toNat * f.toNat + (255 - alpha.toNat) * b.toNat < 255 * r.toNat + 255

theorem mixByte_mixed (a f b : Byte) : Mixed a f b (mixByte a f b) := by
  have h1 := byte_lt a
  unfold Mixed
  rw [mixByte_toNat]
  have hlo : 255 * min f.toNat b.toNat ≤ a.toNat * f.toNat + (255 - a.toNat) * b.toNat := by
    have h2 : a.toNat * min f.toNat b.toNat ≤ a.toNat * f.toNat := Nat.mul_le_mul_left _ (by omega)
    have h3 : (255 - a.toNat) * min f.toNat b.toNat ≤ (255 - a.toNat) * b.toNat := Nat.mul_le_mul_left _ (by omega)
    have h4 : 255 * min f.toNat b.toNat = a.toNat * min f.toNat b.toNat + (255 - a.toNat) * min f.toNat b.toNat := by
      rw [← Nat.add_mul]; congr 1; omega
    omega
  have hhi : a.toNat * f.toNat + (255 - a.toNat) * b.toNat ≤ 255 * max f.toNat b.toNat := by
    have h2 : a.toNat * f.toNat ≤ a.toNat * max f.toNat b.toNat := Nat.mul_le_mul_left _ (by omega)
    have h3 : (255 - a.toNat) * b.toNat ≤ (255 - a.toNat) * max f.toNat b.toNat := Nat.mul_le_mul_left _ (by omega)
    have h4 : 255 * max f.toNat b.toNat = a.toNat * max f.toNat b.toNat + (255 - a.toNat) * max f.toNat b.toNat := by
      rw [← Nat.add_mul]; congr 1; omega
    omega
  generalize a.toNat * f.toNat + (255 - a.toNat) * b.toNat = t at *
  generalize min f.toNat b.toNat = lo at *
  generalize max f.toNat b.toNat = hi at *
  omega

/-- Blending two opaque colours gives the opaque RGB colour with the weighted means of the
components; alpha 0 gives the background and alpha 255 the foreground. -/
theorem blend_opaque (junk : Byte) (b f : Color) (alpha : Byte) (hb : b.alpha = 255) (hf : f.alpha = 255) :
    ∃ r, blend junk b f alpha = .ok r ∧ r.mode = .rgb ∧ r.alpha = 255 ∧
      Mixed alpha f.red b.red r.red ∧ Mixed alpha f.green b.green r.green ∧ Mixed alpha f.blue b.blue r.blue ∧
      (alpha = 0 → IsRgb r b.red b.green b.blue) ∧ (alpha = 255 → IsRgb r f.red f.green f.blue) := by
  refine ⟨_, by unfold blend; rw [if_pos ⟨hb, hf⟩], rfl, rfl, mixByte_mixed _ _ _, mixByte_mixed _ _ _,
    mixByte_mixed _ _ _, ?_, ?_⟩
  · rintro rfl
    have h : ∀ x y : Byte, mixByte 0 x y = y := by
      intro x y
      refine BitVec.eq_of_toNat_eq ?_
      rw [mixByte_toNat]
      show (0 * x.toNat + (255 - 0) * y.toNat) / 255 = y.toNat
      omega
    exact ⟨rfl, h _ _, h _ _, h _ _⟩
  · rintro rfl
    have h : ∀ x y : Byte, mixByte 255 x y = x := by
      intro x y
      refine BitVec.eq_of_toNat_eq ?_
      rw [mixByte_toNat]
      show (255 * x.toNat + (255 - 255) * y.toNat) / 255 = x.toNat
      omega
    exact ⟨rfl, h _ _, h _ _, h _ _⟩

example : blend 0 (fromRgb 0 10 20 30 255) (fromRgb 0 200 100 0 255) 128 = .ok (fromRgb 0 105 60 14 255) := by
  decide +kernel

/-! ### Transparent colours -/

/-- the alpha of the result: at least both, at most 255, the same in both orders, and
`a + b - ab/255` rounded down -/
theorem blend_alpha (a b : Byte) :
    (pdAlpha a b).toNat = a.toNat + b.toNat - (a.toNat * b.toNat + 254) / 255 ∧
    a.toNat ≤ (pdAlpha a b).toNat ∧ b.toNat ≤ (pdAlpha a b).toNat ∧ pdAlpha a b = pdAlpha b a ∧
    (pdAlpha a b = 255 ↔ a = 255 ∨ b = 255) ∧ (pdAlpha a b = 0 ↔ a = 0 ∧ b = 0) := by
  have form : ∀ a b : Byte, (pdAlpha a b).toNat = a.toNat + b.toNat - (a.toNat * b.toNat + 254) / 255 ∧
      (a.toNat * b.toNat + 254) / 255 ≤ a.toNat ∧ (a.toNat * b.toNat + 254) / 255 ≤ b.toNat := by
    intro a b
    have h1 := byte_lt a
    have h2 := byte_lt b
    unfold pdAlpha
    rw [BitVec.toNat_ofNat]
    have h3 : (255 - b.toNat) * a.toNat = 255 * a.toNat - a.toNat * b.toNat := by
      rw [Nat.sub_mul, Nat.mul_comm b.toNat]
    have h4 : a.toNat * b.toNat ≤ a.toNat * 255 := Nat.mul_le_mul_left _ (by omega)
    have h5 : a.toNat * b.toNat ≤ 255 * b.toNat := Nat.mul_le_mul_right _ (by omega)
    have h8 : (255 - b.toNat) * a.toNat ≤ (255 - b.toNat) * 255 := Nat.mul_le_mul_left _ (by omega)
    rw [h3] at h8 ⊢
    generalize a.toNat * b.toNat = t at *
    have h6 : (255 * a.toNat - t) / 255 + (t + 254) / 255 = a.toNat := by omega
    have h7 : (t + 254) / 255 ≤ b.toNat := by omega
    refine ⟨?_, by omega, h7⟩
    rw [Nat.mod_eq_of_lt (by omega)]
    omega
  obtain ⟨h1, h2, h3⟩ := form a b
  have hs : pdAlpha a b = pdAlpha b a := by
    refine BitVec.eq_of_toNat_eq ?_
    rw [(form a b).1, (form b a).1, Nat.mul_comm, Nat.add_comm]
  have ha := byte_lt a
  have hb := byte_lt b
  refine ⟨h1, by omega, by omega, hs, ⟨?_, ?_⟩, ⟨?_, ?_⟩⟩
  · intro h
    by_contra hn
    have na : a.toNat ≠ 255 := fun e => hn (Or.inl (BitVec.eq_of_toNat_eq e))
    have nb : b.toNat ≠ 255 := fun e => hn (Or.inr (BitVec.eq_of_toNat_eq e))
    rw [h, show (255 : Byte).toNat = 255 from rfl] at h1
    -- (255 - a) (255 - b) ≥ 255 - max would be needed
    have h5 : (255 - a.toNat) * (255 - b.toNat) ≥ 1 * (255 - b.toNat) := Nat.mul_le_mul_right _ (by omega)
    have h6 : (255 - a.toNat) * (255 - b.toNat) + 255 * a.toNat + 255 * b.toNat = 255 * 255 + a.toNat * b.toNat := by
      obtain ⟨x, hx⟩ : ∃ x, 255 = a.toNat + x := ⟨255 - a.toNat, by omega⟩
      obtain ⟨y, hy⟩ : ∃ y, 255 = b.toNat + y := ⟨255 - b.toNat, by omega⟩
      have e1 : 255 - a.toNat = x := by omega
      have e2 : 255 - b.toNat = y := by omega
      rw [e1, e2]
      have e3 : 255 * 255 = (a.toNat + x) * (b.toNat + y) := by rw [← hx, ← hy]
      have e4 : 255 * a.toNat = (b.toNat + y) * a.toNat := by rw [← hy]
      have e5 : 255 * b.toNat = (a.toNat + x) * b.toNat := by rw [← hx]
      rw [e3, e4, e5]; ring
    generalize (255 - a.toNat) * (255 - b.toNat) = u at *
    generalize a.toNat * b.toNat = t at *
    omega
  · rintro (rfl | rfl)
    · refine BitVec.eq_of_toNat_eq ?_
      rw [h1, show (255 : Byte).toNat = 255 from rfl]; omega
    · refine BitVec.eq_of_toNat_eq ?_
      rw [h1, show (255 : Byte).toNat = 255 from rfl]; omega
  · intro h
    rw [h, show (0 : Byte).toNat = 0 from rfl] at h1
    exact ⟨BitVec.eq_of_toNat_eq (by show a.toNat = 0; omega), BitVec.eq_of_toNat_eq (by show b.toNat = 0; omega)⟩
  · rintro ⟨rfl, rfl⟩; rfl

theorem b1 {e : ℚ} (h0 : 0 ≤ e) (h1 : e ≤ 1) : |e| ≤ 2 ^ 24 / 2 ^ 24 := by
  rw [abs_of_nonneg h0]; norm_num; exact h1

/-- the exact value of the weighted mean, and the floats of Color.cpp:461-469 for an opaque background -/
theorem pdMix_err (cb cf af : Byte) : Finite (pdMix cb 255 cf af) ∧ 0 ≤ val (pdMix cb 255 cf af) ∧
    val (pdMix cb 255 cf af) ≤ 2 ∧
    |val (pdMix cb 255 cf af) - (af.toNat / 255 * (cf.toNat / 255) + (1 - af.toNat / 255) * (cb.toNat / 255))| ≤
      5 / 2 ^ 24 := by
  obtain ⟨fA, A0, A1⟩ := frac_unit af
  obtain ⟨fB, -, -⟩ := frac_unit (255 : Byte)
  obtain ⟨fC, C0, C1⟩ := frac_unit cf
  obtain ⟨fE, E0, E1⟩ := frac_unit cb
  have hB := frac_255
  have hal : pdAlpha 255 af = 255 := ((blend_alpha 255 af).2.2.2.2.1).2 (Or.inl rfl)
  unfold pdMix
  simp only [hal]
  obtain ⟨bA0, bA1⟩ := byte_frac af
  have t1 := mul_err (frac_err af) (frac_err cf) C0 C1 bA0 bA1
  have m1 := mul_rounds fA fC
  obtain ⟨f1, p1, q1⟩ := unit_between m1 (mul_nonneg A0 C0) (mul_le_one₀ A1 C0 C1)
  have e1 := m1.err 24 (by decide) (b1 (mul_nonneg A0 C0) (mul_le_one₀ A1 C0 C1))
  have s1 := sub_rounds lit1.1 fA
  rw [lit1.2] at s1
  obtain ⟨f2, p2, q2⟩ := unit_between s1 (by linarith) (by linarith)
  have e2 := s1.err 24 (by decide) (b1 (by linarith) (by linarith))
  have m2 := mul_rounds f2 fB
  rw [hB, mul_one] at m2
  obtain ⟨f3, v3⟩ := m2.exact (Rp.of _ f2)
  have e2' : |val ((lit 1 1 - frac af) * frac 255) - (1 - (af.toNat : ℚ) / 255)| ≤ 1 / 2 ^ 24 := by
    rw [v3]
    have h1 := abs_le.1 (frac_err af)
    have h2 := abs_le.1 e2
    rw [abs_le]
    constructor <;> linarith
  have t2 := mul_err e2' (frac_err cb) E0 E1 (by linarith : (0 : ℚ) ≤ 1 - af.toNat / 255) (by linarith)
  have m3 := mul_rounds f3 fE
  have h30 : 0 ≤ val ((lit 1 1 - frac af) * frac 255) * val (frac cb) := mul_nonneg (by linarith) E0
  have h31 : val ((lit 1 1 - frac af) * frac 255) * val (frac cb) ≤ 1 := mul_le_one₀ (by linarith) E0 E1
  obtain ⟨f4, p4, q4⟩ := unit_between m3 h30 h31
  have e4 := m3.err 24 (by decide) (b1 h30 h31)
  have rp2 : Rp 2 := by simpa using rp_nat 2 (by decide)
  have ad := add_rounds f1 f4
  obtain ⟨f5, p5, q5⟩ := ad.between rp_zero rp2 (by linarith) (by linarith)
  have e5 := ad.err 23 (by decide) (by rw [abs_of_nonneg (by linarith)]; norm_num; linarith)
  have dv := div_rounds f5 fB (by rw [hB]; norm_num)
  rw [hB, div_one] at dv
  obtain ⟨f6, v6⟩ := dv.exact (Rp.of _ f5)
  refine ⟨f6, by rw [v6]; exact p5, by rw [v6]; exact q5, ?_⟩
  rw [v6]
  clear v6 f6 dv ad m3 m2 s1 m1 e2 e2' v3
  rw [abs_le] at t1 e1 t2 e4 e5 ⊢
  generalize (af.toNat : ℚ) / 255 * (cf.toNat / 255) = P1 at *
  generalize (1 - (af.toNat : ℚ) / 255) * (cb.toNat / 255) = P2 at *
  generalize val (frac af * frac cf + (lit 1 1 - frac af) * frac 255 * frac cb) = S at *
  generalize val (frac af * frac cf) = S1 at *
  generalize val ((lit 1 1 - frac af) * frac 255 * frac cb) = S2 at *
  generalize val (frac af) * val (frac cf) = T1 at *
  generalize val ((lit 1 1 - frac af) * frac 255) * val (frac cb) = T2 at *
  obtain ⟨t1a, t1b⟩ := t1
  obtain ⟨t2a, t2b⟩ := t2
  obtain ⟨e1a, e1b⟩ := e1
  obtain ⟨e4a, e4b⟩ := e4
  obtain ⟨e5a, e5b⟩ := e5
  norm_num at t1a t1b t2a t2b e1a e1b e4a e4b e5a e5b ⊢
  constructor <;> linarith

/-- Over an opaque background the colour is defined: the mean weighted by the alpha of the
foreground, rounded down (up to a rounding error of 1/1000). -/
theorem pdColour_opaque (cb cf af : Byte) : ∃ r, pdColour cb 255 cf af = .ok r ∧
    (r.toNat : ℚ) ≤ ((af.toNat : ℚ) * cf.toNat + (255 - af.toNat) * cb.toNat) / 255 + 1 / 1000 ∧
    ((af.toNat : ℚ) * cf.toNat + (255 - af.toNat) * cb.toNat) / 255 < r.toNat + 1 + 1 / 1000 := by
  obtain ⟨f6, p6, q6, err⟩ := pdMix_err cb cf af
  have ml := mul_rounds f6 lit255.1
  rw [lit255.2] at ml
  have rp510 : Rp 510 := by simpa using rp_nat 510 (by decide)
  obtain ⟨f7, p7, q7⟩ := ml.between rp_zero rp510 (by linarith) (by linarith)
  have e7 := ml.err 15 (by decide) (by rw [abs_of_nonneg (by linarith)]; norm_num; linarith)
  obtain ⟨bA0, bA1⟩ := byte_frac af
  obtain ⟨bC0, bC1⟩ := byte_frac cf
  obtain ⟨bB0, bB1⟩ := byte_frac cb
  have hid : ((af.toNat : ℚ) * cf.toNat + (255 - af.toNat) * cb.toNat) / 255 =
      255 * (af.toNat / 255 * (cf.toNat / 255) + (1 - af.toNat / 255) * (cb.toNat / 255)) := by
    field_simp
  have hup : (af.toNat : ℚ) / 255 * (cf.toNat / 255) + (1 - af.toNat / 255) * (cb.toNat / 255) ≤ 1 := by
    have h1 := mul_le_mul_of_nonneg_left bC1 bA0
    have h2 := mul_le_mul_of_nonneg_left bB1 (by linarith : (0 : ℚ) ≤ 1 - af.toNat / 255)
    linarith
  have key : |val (pdMix cb 255 cf af * lit 255 1) -
      ((af.toNat : ℚ) * cf.toNat + (255 - af.toNat) * cb.toNat) / 255| ≤ 1 / 1000 := by
    rw [hid]
    generalize (af.toNat : ℚ) / 255 * (cf.toNat / 255) + (1 - af.toNat / 255) * (cb.toNat / 255) = P at *
    generalize val (pdMix cb 255 cf af * lit 255 1) = R at *
    generalize val (pdMix cb 255 cf af) = S at *
    rw [abs_le] at err e7 ⊢
    obtain ⟨a1, a2⟩ := err
    obtain ⟨c1, c2⟩ := e7
    norm_num at a1 a2 c1 c2 ⊢
    constructor <;> linarith
  have key' := abs_le.1 key
  obtain ⟨r, hr, hfl⟩ := toByte_ok f7 p7 (by rw [hid] at key'; linarith)
  exact ⟨r, hr, floor_close key hfl⟩

/-- Blending anything onto an opaque background is defined and opaque. -/
theorem blend_onto_opaque (junk : Byte) (b f : Color) (alpha : Byte) (hb : b.alpha = 255) :
    ∃ r, blend junk b f alpha = .ok r ∧ r.mode = .rgb ∧ r.alpha = 255 := by
  by_cases hf : f.alpha = 255
  · obtain ⟨r, h, h1, h2, -⟩ := blend_opaque junk b f alpha hb hf
    exact ⟨r, h, h1, h2⟩
  · obtain ⟨r0, h0, -⟩ := pdColour_opaque b.b0 f.b0 f.alpha
    obtain ⟨r1, h1, -⟩ := pdColour_opaque b.b1 f.b1 f.alpha
    obtain ⟨r2, h2, -⟩ := pdColour_opaque b.b2 f.b2 f.alpha
    refine ⟨⟨.rgb, r0, r1, r2, junk, pdAlpha 255 f.alpha⟩, ?_, rfl, ?_⟩
    · unfold blend
      rw [if_neg (fun h => hf h.2), hb, h0, h1, h2]
      rfl
    · exact ((blend_alpha 255 f.alpha).2.2.2.2.1).2 (Or.inl rfl)

/-- the weighted mean `m` rounded down to the byte `r`, up to a rounding error of 1/1000 -/
def RoundedDown (r : Byte) (m : ℚ) : Prop := (r.toNat : ℚ) ≤ m + 1 / 1000 ∧ m < r.toNat + 1 + 1 / 1000

/-- A transparent foreground on an opaque background: the parameter `alpha` is ignored, the
components are the means weighted by the alpha of the foreground. -/
theorem blend_transparent (junk : Byte) (b f : Color) (alpha : Byte) (hb : b.alpha = 255) (hf : f.alpha ≠ 255) :
    ∃ r, blend junk b f alpha = .ok r ∧
      RoundedDown r.red (((f.alpha.toNat : ℚ) * f.red.toNat + (255 - f.alpha.toNat) * b.red.toNat) / 255) ∧
      RoundedDown r.green (((f.alpha.toNat : ℚ) * f.green.toNat + (255 - f.alpha.toNat) * b.green.toNat) / 255) ∧
      RoundedDown r.blue (((f.alpha.toNat : ℚ) * f.blue.toNat + (255 - f.alpha.toNat) * b.blue.toNat) / 255) := by
  obtain ⟨r0, h0, s0⟩ := pdColour_opaque b.b0 f.b0 f.alpha
  obtain ⟨r1, h1, s1⟩ := pdColour_opaque b.b1 f.b1 f.alpha
  obtain ⟨r2, h2, s2⟩ := pdColour_opaque b.b2 f.b2 f.alpha
  refine ⟨⟨.rgb, r0, r1, r2, junk, pdAlpha 255 f.alpha⟩, ?_, s0, s1, s2⟩
  unfold blend
  rw [if_neg (fun h => hf h.2), hb, h0, h1, h2]
  rfl

/-- Two transparent colours: if both alphas are 1 the alpha of the result is 1 (rounded down from
1.996) and the components of white become 509, undefined as a byte; two fully transparent colours
divide 0 by 0. -/
theorem blend_transparent_ub :
    blend 0 (fromRgb 0 255 255 255 1) (fromRgb 0 255 255 255 1) 0 = .error .ub ∧
    blend 0 (fromRgb 0 255 255 255 100) (fromRgb 0 255 255 255 100) 0 = .error .ub ∧
    blend 0 (fromRgb 0 1 2 3 0) (fromRgb 0 4 5 6 0) 0 = .error .ub := by decide +kernel

/-- Grey colours are not converted before blending: two equal greys give a red. -/
theorem blend_grey : blend 0 (fromGrey 0 200 255) (fromGrey 0 200 255) 77 = .ok (fromRgb 0 200 0 0 255) ∧
    interpolate 0 (fromGrey 0 200 255) (fromGrey 0 200 255) (lit 1 2) = .ok (fromRgb 0 200 0 0 255) := by
  decide +kernel

/-! ### Interpolation -/

/-- one component, for a part between 0 and 1: between both values, and the linear value
rounded down (up to a rounding error of 1/1000) -/
def Between (a b r : Byte) (p : ℚ) : Prop :=
  min a.toNat b.toNat ≤ r.toNat ∧ r.toNat ≤ max a.toNat b.toNat ∧
  RoundedDown r (a.toNat + ((b.toNat : ℚ) - a.toNat) * p) ∧ (p = 0 → r = a) ∧ (p = 1 → r = b)

theorem interByte_spec (a b : Byte) (p : F32) (hp : Finite p) (h0 : 0 ≤ val p) (h1 : val p ≤ 1) :
    ∃ r, interByte a b p = .ok r ∧ Between a b r (val p) := by
  obtain ⟨fa, va⟩ := val_fl a
  obtain ⟨fd, vd⟩ := val_diff b a
  have ha := byte_lt a
  have hb := byte_lt b
  have rpd : Rp ((b.toNat : ℚ) - a.toNat) := vd ▸ Rp.of _ fd
  have ha' : (a.toNat : ℚ) ≤ 255 := by exact_mod_cast (by omega : a.toNat ≤ 255)
  have hb' : (b.toNat : ℚ) ≤ 255 := by exact_mod_cast (by omega : b.toNat ≤ 255)
  have ha0 : (0 : ℚ) ≤ a.toNat := by positivity
  have hb0 : (0 : ℚ) ≤ b.toNat := by positivity
  have hm := mul_rounds fd hp
  rw [vd] at hm
  -- the product is between 0 and the difference
  have hprod : Finite (diff b a * p) ∧ min 0 ((b.toNat : ℚ) - a.toNat) ≤ val (diff b a * p) ∧
      val (diff b a * p) ≤ max 0 ((b.toNat : ℚ) - a.toNat) := by
    rcases le_total 0 ((b.toNat : ℚ) - a.toNat) with h | h
    · rw [min_eq_left h, max_eq_right h]
      exact hm.between rp_zero rpd (mul_nonneg h h0) (by nlinarith)
    · rw [min_eq_right h, max_eq_left h]
      exact hm.between rpd rp_zero (by nlinarith) (by nlinarith)
  obtain ⟨fm, m0, m1⟩ := hprod
  have hs := add_rounds fa fm
  rw [va] at hs
  have rlo : Rp (min (a.toNat : ℚ) b.toNat) := by
    rw [← Nat.cast_min]; exact rp_nat _ (by omega)
  have rhi : Rp (max (a.toNat : ℚ) b.toNat) := by
    rw [← Nat.cast_max]; exact rp_nat _ (by omega)
  have c1 : min (a.toNat : ℚ) b.toNat ≤ a.toNat + val (diff b a * p) := by
    rcases le_total 0 ((b.toNat : ℚ) - a.toNat) with h | h
    · rw [min_eq_left h] at m0; exact (min_le_left _ _).trans (by linarith)
    · rw [min_eq_right h] at m0; exact (min_le_right _ _).trans (by linarith)
  have c2 : a.toNat + val (diff b a * p) ≤ max (a.toNat : ℚ) b.toNat := by
    rcases le_total 0 ((b.toNat : ℚ) - a.toNat) with h | h
    · rw [max_eq_right h] at m1; exact le_trans (by linarith) (le_max_right _ _)
    · rw [max_eq_left h] at m1; exact le_trans (by linarith) (le_max_left _ _)
  obtain ⟨fs, s0, s1⟩ := hs.between rlo rhi c1 c2
  have l0 : 0 ≤ min (a.toNat : ℚ) b.toNat := le_min ha0 hb0
  have l1 : max (a.toNat : ℚ) b.toNat ≤ 255 := max_le ha' hb'
  obtain ⟨r, hr, hfl⟩ := toByte_ok fs (by linarith) (by linarith)
  refine ⟨r, hr, ?_, ?_, ?_, ?_, ?_⟩
  · have : ((min a.toNat b.toNat : Nat) : Int) ≤ ⌊val (fl a + diff b a * p)⌋ :=
      Int.le_floor.2 (by push_cast; exact s0)
    omega
  · have : ⌊val (fl a + diff b a * p)⌋ < ((max a.toNat b.toNat : Nat) : Int) + 1 :=
      Int.floor_lt.2 (by push_cast; linarith)
    omega
  · have e1 := abs_le.1 (hm.err 16 (by decide) (by
      rw [abs_mul, abs_of_nonneg h0]
      have : |(b.toNat : ℚ) - a.toNat| ≤ 256 := by rw [abs_le]; constructor <;> linarith
      have := abs_nonneg ((b.toNat : ℚ) - a.toNat)
      norm_num; nlinarith))
    have e2 := abs_le.1 (hs.err 16 (by decide) (by
      rw [abs_of_nonneg (by linarith)]; norm_num; linarith))
    have f1 := Int.floor_le (val (fl a + diff b a * p))
    have f2 := Int.lt_floor_add_one (val (fl a + diff b a * p))
    rw [← hfl] at f1 f2
    push_cast at f1 f2
    generalize ((b.toNat : ℚ) - a.toNat) * val p = D at *
    norm_num at *
    exact ⟨by linarith, by linarith⟩
  · intro hz
    rw [hz, mul_zero] at hm
    rw [(hm.exact rp_zero).2, add_zero] at hs
    have := (hs.exact (va ▸ Rp.of _ fa)).2
    rw [this, Int.floor_natCast] at hfl
    exact BitVec.eq_of_toNat_eq (by omega)
  · intro hz
    rw [hz, mul_one] at hm
    rw [(hm.exact rpd).2, show (a.toNat : ℚ) + (b.toNat - a.toNat) = b.toNat by ring] at hs
    have := (hs.exact (rp_nat _ (by omega))).2
    rw [this, Int.floor_natCast] at hfl
    exact BitVec.eq_of_toNat_eq (by omega)

/-- Interpolation of two colours, for a part between 0 and 1: defined, every component and the
alpha between the values of both colours, the linear value rounded down; the ends are exact. -/
theorem interpolate_spec (junk : Byte) (c1 c2 : Color) (p : F32) (hp : Finite p) (h0 : 0 ≤ val p) (h1 : val p ≤ 1) :
    ∃ r, interpolate junk c1 c2 p = .ok r ∧ r.mode = .rgb ∧ Between c1.red c2.red r.red (val p) ∧
      Between c1.green c2.green r.green (val p) ∧ Between c1.blue c2.blue r.blue (val p) ∧
      Between c1.alpha c2.alpha r.alpha (val p) := by
  obtain ⟨r0, e0, s0⟩ := interByte_spec c1.b0 c2.b0 p hp h0 h1
  obtain ⟨r1, e1, s1⟩ := interByte_spec c1.b1 c2.b1 p hp h0 h1
  obtain ⟨r2, e2, s2⟩ := interByte_spec c1.b2 c2.b2 p hp h0 h1
  obtain ⟨r3, e3, s3⟩ := interByte_spec c1.alpha c2.alpha p hp h0 h1
  refine ⟨⟨.rgb, r0, r1, r2, junk, r3⟩, ?_, rfl, s0, s1, s2, s3⟩
  unfold interpolate
  rw [e0, e1, e2, e3]
  rfl

example : interpolate 0 (fromRgb 0 0 100 255 255) (fromRgb 0 255 100 0 0) (lit 1 4) = .ok (fromRgb 0 63 100 191 191) := by
  decide +kernel

end Verif.Color
