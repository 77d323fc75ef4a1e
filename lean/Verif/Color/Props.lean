import Verif.Color.Lemmas
/-
C69: colour modes and conversions.
-/
namespace Verif.Color
open Verif Verif.Fp32 Color

/-- the colour is `r`, `g`, `b` in the RGB colour space -/
def IsRgb (c : Color) (r g b : Byte) : Prop := c.mode = .rgb ∧ c.red = r ∧ c.green = g ∧ c.blue = b

/-! ### Constructors, accessors, equality -/

/-- the constructors set what the accessors return -/
theorem constructors (junk a b c d e : Byte) :
    ((fromGrey junk a e).mode = .grey ∧ (fromGrey junk a e).greyOf = a ∧ (fromGrey junk a e).alpha = e) ∧
    (IsRgb (fromRgb junk a b c e) a b c ∧ (fromRgb junk a b c e).alpha = e) ∧
    ((fromCmyk a b c d e).mode = .cmyk ∧ (fromCmyk a b c d e).cyan = a ∧ (fromCmyk a b c d e).magenta = b ∧
      (fromCmyk a b c d e).yellow = c ∧ (fromCmyk a b c d e).key = d ∧ (fromCmyk a b c d e).alpha = e) ∧
    (IsRgb (new junk) 0 0 0 ∧ (new junk).alpha = 255) :=
  ⟨⟨rfl, rfl, rfl⟩, ⟨⟨rfl, rfl, rfl, rfl⟩, rfl⟩, ⟨rfl, rfl, rfl, rfl, rfl, rfl⟩, ⟨rfl, rfl, rfl, rfl⟩, rfl⟩

/-- a setter changes its component and no other component of the colour space -/
theorem setters (x : Color) (v : Byte) (m : Mode) :
    ((x.setRed v).red = v ∧ (x.setRed v).green = x.green ∧ (x.setRed v).blue = x.blue) ∧
    ((x.setGreen v).green = v ∧ (x.setGreen v).red = x.red ∧ (x.setGreen v).blue = x.blue) ∧
    ((x.setBlue v).blue = v ∧ (x.setBlue v).red = x.red ∧ (x.setBlue v).green = x.green) ∧
    ((x.setCyan v).cyan = v ∧ (x.setCyan v).magenta = x.magenta ∧ (x.setCyan v).yellow = x.yellow ∧ (x.setCyan v).key = x.key) ∧
    ((x.setMagenta v).magenta = v ∧ (x.setMagenta v).cyan = x.cyan ∧ (x.setMagenta v).yellow = x.yellow ∧ (x.setMagenta v).key = x.key) ∧
    ((x.setYellow v).yellow = v ∧ (x.setYellow v).cyan = x.cyan ∧ (x.setYellow v).magenta = x.magenta ∧ (x.setYellow v).key = x.key) ∧
    ((x.setKey v).key = v ∧ (x.setKey v).cyan = x.cyan ∧ (x.setKey v).magenta = x.magenta ∧ (x.setKey v).yellow = x.yellow) ∧
    ((x.setGrey v).greyOf = v) ∧
    (∀ y ∈ [x.setRed v, x.setGreen v, x.setBlue v, x.setCyan v, x.setMagenta v, x.setYellow v, x.setKey v, x.setGrey v],
      y.mode = x.mode ∧ y.alpha = x.alpha) ∧
    ((x.setMode m).mode = m ∧ (x.setMode m).alpha = x.alpha ∧ (x.setMode m).setMode x.mode = x) ∧
    ((x.setAlpha v).alpha = v ∧ (x.setAlpha v).setAlpha x.alpha = x) := by
  refine ⟨⟨rfl, rfl, rfl⟩, ⟨rfl, rfl, rfl⟩, ⟨rfl, rfl, rfl⟩, ⟨rfl, rfl, rfl, rfl⟩, ⟨rfl, rfl, rfl, rfl⟩,
    ⟨rfl, rfl, rfl, rfl⟩, ⟨rfl, rfl, rfl, rfl⟩, rfl, ?_, ⟨rfl, rfl, rfl⟩, rfl, rfl⟩
  intro y hy
  simp only [List.mem_cons, List.not_mem_nil, or_false] at hy
  rcases hy with rfl | rfl | rfl | rfl | rfl | rfl | rfl | rfl <;> exact ⟨rfl, rfl⟩

/-- the components that count in a colour space -/
def components (c : Color) : List Byte :=
  match c.mode with
  | .grey => [c.greyOf]
  | .rgb => [c.red, c.green, c.blue]
  | .cmyk => [c.cyan, c.magenta, c.yellow, c.key]

/-- `==` is true exactly for the same mode, components and alpha (whatever the other bytes are);
copies are equal -/
theorem eq_iff (c d : Color) :
    (eqColor c d = true ↔ c.mode = d.mode ∧ components c = components d ∧ c.alpha = d.alpha) ∧
    eqColor c c.copy = true ∧ eqColor (assign d c) c = true := by
  refine ⟨?_, ?_, ?_⟩
  · unfold eqColor components
    by_cases hm : c.mode = d.mode
    · rw [if_neg (by simp [hm]), ← hm]
      cases c.mode <;>
        simp [greyOf, red, green, blue, cyan, magenta, yellow, Color.key, and_assoc]
    · rw [if_pos hm]; simp [hm]
  · unfold eqColor copy; cases c.mode <;> simp
  · unfold eqColor assign; cases c.mode <;> simp

/-- `+` and `-` undo each other, modulo 256 in each component -/
theorem add_sub (c d : Color) (h : c.mode = d.mode) : eqColor ((c.add d).sub d) c = true ∧
    eqColor ((c.sub d).add d) c = true := by
  obtain ⟨m, a, b, e, f, g⟩ := c
  obtain ⟨m', a', b', e', f', g'⟩ := d
  cases m <;> simp [eqColor, Color.sub, Color.add, BitVec.add_sub_cancel, BitVec.sub_add_cancel]

/-! ### Conversion to RGB -/

/-- grey values become equal components, the transparency is kept -/
theorem toRgb_grey (c : Color) (h : c.mode = .grey) :
    IsRgb c.toRgb c.greyOf c.greyOf c.greyOf ∧ c.toRgb.alpha = c.alpha := by
  unfold toRgb; rw [h]; exact ⟨⟨rfl, rfl, rfl, rfl⟩, rfl⟩

theorem invert_toNat (a k : Byte) : (invert a k).toNat = 255 - (a.toNat + k.toNat) := by
  unfold invert; rw [BitVec.toNat_ofNat]; omega

/-- CMYK: each component is what the two inks leave of 255, the transparency is kept -/
theorem toRgb_cmyk (c : Color) (h : c.mode = .cmyk) :
    c.toRgb.mode = .rgb ∧ c.toRgb.alpha = c.alpha ∧
    c.toRgb.red.toNat = 255 - (c.cyan.toNat + c.key.toNat) ∧
    c.toRgb.green.toNat = 255 - (c.magenta.toNat + c.key.toNat) ∧
    c.toRgb.blue.toNat = 255 - (c.yellow.toNat + c.key.toNat) := by
  unfold toRgb; rw [h]
  exact ⟨rfl, rfl, invert_toNat _ _, invert_toNat _ _, invert_toNat _ _⟩

/-- the conversion to RGB leads to RGB and a second one changes nothing -/
theorem toRgb_idem (c : Color) : c.toRgb.mode = .rgb ∧ c.toRgb.toRgb = c.toRgb ∧
    (c.mode = .rgb → c.toRgb = c) := by
  have h : c.toRgb.mode = .rgb := by unfold toRgb; cases hm : c.mode <;> simp [hm]
  refine ⟨h, ?_, ?_⟩
  · generalize c.toRgb = d at h ⊢
    unfold toRgb; rw [h]
  · intro hm; unfold toRgb; rw [hm]

/-- `isWhite` holds exactly for the colours that are white after conversion to RGB -/
theorem isWhite_iff (c : Color) : c.isWhite = true ↔ IsRgb c.toRgb 255 255 255 := by
  have hinv : ∀ a k : Byte, invert a k = 255 ↔ a = 0 ∧ k = 0 := by
    intro a k
    have h1 := invert_toNat a k
    have h2 := byte_lt a
    have h3 := byte_lt k
    constructor
    · intro h
      rw [h, show (255 : Byte).toNat = 255 from rfl] at h1
      exact ⟨BitVec.eq_of_toNat_eq (by show a.toNat = 0; omega), BitVec.eq_of_toNat_eq (by show k.toNat = 0; omega)⟩
    · rintro ⟨rfl, rfl⟩; decide
  unfold isWhite toRgb IsRgb
  cases h : c.mode
  · simp only [red, green, blue, beq_iff_eq, true_and]
    exact ⟨fun h => ⟨h, h, h⟩, fun h => h.1⟩
  · simp only [h, red, green, blue, Bool.and_eq_true, beq_iff_eq, true_and, and_assoc]
  · simp only [red, green, blue, hinv, Bool.and_eq_true, beq_iff_eq, true_and]
    exact ⟨fun h => ⟨⟨h.1.1.1, h.2⟩, ⟨h.1.1.2, h.2⟩, ⟨h.1.2, h.2⟩⟩,
      fun h => ⟨⟨⟨h.1.1, h.2.1.1⟩, h.2.2.1⟩, h.1.2⟩⟩

/-! ### Conversion to CMYK -/

/-- grey becomes black ink only; converting on to RGB gives the same colour as converting grey
to RGB directly (except that the transparency is lost) -/
theorem grey_cmyk_rgb (c : Color) (h : c.mode = .grey) : ∃ d, c.toCmyk = .ok d ∧ d.mode = .cmyk ∧
    d.cyan = 0 ∧ d.magenta = 0 ∧ d.yellow = 0 ∧ d.key.toNat = 255 - c.greyOf.toNat ∧
    IsRgb d.toRgb c.greyOf c.greyOf c.greyOf ∧ d.alpha = 255 := by
  unfold toCmyk; rw [h]
  have hb := byte_lt c.b0
  have hk : (BitVec.ofInt 8 (255 - c.b0.toNat)).toNat = 255 - c.b0.toNat := by
    rw [BitVec.toNat_ofInt]; omega
  have inv : ∀ a : Byte, a = 0 → invert a (BitVec.ofInt 8 (255 - c.b0.toNat)) = c.b0 := by
    rintro a rfl
    refine BitVec.eq_of_toNat_eq ?_
    rw [invert_toNat, hk]
    show 255 - (0 + (255 - c.b0.toNat)) = c.b0.toNat
    omega
  exact ⟨_, rfl, rfl, rfl, rfl, rfl, hk, ⟨rfl, inv _ rfl, inv _ rfl, inv _ rfl⟩, rfl⟩

theorem toCmyk_idem (c : Color) (h : c.mode = .cmyk) : c.toCmyk = .ok c := by unfold toCmyk; rw [h]

/-- the value of `k` (Color.cpp:165) -/
theorem keyOf_rounds (c : Color) : Finite (keyOf (frac c.b0) (frac c.b1) (frac c.b2)) ∧
    Rounds (keyOf (frac c.b0) (frac c.b1) (frac c.b2))
      (1 - max (val (frac c.b0)) (max (val (frac c.b1)) (val (frac c.b2)))) := by
  obtain ⟨f1, e1⟩ := fmax_val (frac_unit c.b1).1 (frac_unit c.b2).1
  obtain ⟨f2, e2⟩ := fmax_val (frac_unit c.b0).1 f1
  have hr := sub_rounds lit1.1 f2
  rw [lit1.2, e2, e1] at hr
  have hm0 : (0 : ℚ) ≤ max (val (frac c.b0)) (max (val (frac c.b1)) (val (frac c.b2))) :=
    le_max_of_le_left (frac_unit c.b0).2.1
  have hm1 : max (val (frac c.b0)) (max (val (frac c.b1)) (val (frac c.b2))) ≤ 1 :=
    max_le (frac_unit c.b0).2.2 (max_le (frac_unit c.b1).2.2 (frac_unit c.b2).2.2)
  exact ⟨(unit_between hr (by linarith) (by linarith)).1, hr⟩

theorem max_frac (c : Color) (d : Byte) (hd : d.toNat = maxOf c) :
    max (val (frac c.b0)) (max (val (frac c.b1)) (val (frac c.b2))) = val (frac d) := by
  unfold maxOf at hd
  have h0 : val (frac c.b0) ≤ val (frac d) := frac_mono (by omega)
  have h1 : val (frac c.b1) ≤ val (frac d) := frac_mono (by omega)
  have h2 : val (frac c.b2) ≤ val (frac d) := frac_mono (by omega)
  refine le_antisymm (max_le h0 (max_le h1 h2)) ?_
  rcases (by omega : d.toNat = c.b0.toNat ∨ d.toNat = c.b1.toNat ∨ d.toNat = c.b2.toNat) with h | h | h
  · exact le_max_of_le_left (frac_mono (by omega))
  · exact le_max_of_le_right (le_max_of_le_left (frac_mono (by omega)))
  · exact le_max_of_le_right (le_max_of_le_right (frac_mono (by omega)))

/-- the amount of ink of one component: `x` is the component and `m` the largest one -/
theorem ink_spec (x m : Byte) (hx : x.toNat ≤ m.toNat) (hm : m ≠ 0) (k : F32) (hk : Finite k)
    (hr : Rounds k (1 - val (frac m))) :
    Finite (ink (frac x) k) ∧ 0 ≤ val (ink (frac x) k) ∧ val (ink (frac x) k) ≤ 1 ∧
    (x = m → val (ink (frac x) k) = 0) ∧
    |val (ink (frac x) k) - ((m.toNat : ℚ) - x.toNat) / m.toNat| ≤ 1101 / 2 ^ 24 := by
  obtain ⟨fx, x0, x1⟩ := frac_unit x
  obtain ⟨fm, m0, m1⟩ := frac_unit m
  have mp := frac_pos hm
  have hr1 := sub_rounds lit1.1 fx
  rw [lit1.2] at hr1
  obtain ⟨fr1, r10, r11⟩ := unit_between hr1 (by linarith) (by linarith)
  obtain ⟨-, k0, -⟩ := unit_between hr (by linarith) (by linarith)
  have rp : Rp (255 / 256) := by
    have := Rp.grid 255 8 (by decide) (by decide)
    norm_num at this ⊢; exact this
  have k1 : val k ≤ 255 / 256 := (hr.between rp_zero rp (by linarith) (by linarith)).2.2
  have hmono := frac_mono hx
  have hkr : val k ≤ val (lit 1 1 - frac x) := hr.mono hr1 (by linarith)
  have hN := sub_rounds fr1 hk
  have hD := sub_rounds lit1.1 hk
  rw [lit1.2] at hD
  obtain ⟨fN, N0, N1⟩ := unit_between hN (by linarith) (by linarith)
  have rp' : Rp (1 / 256) := by
    have := Rp.grid 1 8 (by decide) (by decide)
    norm_num at this ⊢; exact this
  obtain ⟨fD, D0, D1⟩ := hD.between rp' rp_one (by linarith) (by linarith)
  have hND : val (lit 1 1 - frac x - k) ≤ val (lit 1 1 - k) := hN.mono hD (by linarith)
  have hDpos : 0 < val (lit 1 1 - k) := by linarith
  have hq := div_rounds fN fD (by linarith)
  have hq0 : 0 ≤ val (lit 1 1 - frac x - k) / val (lit 1 1 - k) := div_nonneg N0 hDpos.le
  have hq1 : val (lit 1 1 - frac x - k) / val (lit 1 1 - k) ≤ 1 := (div_le_one hDpos).2 hND
  obtain ⟨fq, q0, q1⟩ := unit_between hq hq0 hq1
  refine ⟨fq, q0, q1, ?_, ?_⟩
  · rintro rfl
    have e : val (lit 1 1 - frac x) = val k := le_antisymm (hr1.mono hr (le_refl _)) hkr
    have e0 : val (lit 1 1 - frac x - k) = 0 := by
      rw [e, sub_self] at hN; exact (hN.exact rp_zero).2
    rw [e0, zero_div] at hq
    exact (hq.exact rp_zero).2
  · -- the error
    have b1 : ∀ {e : ℚ}, 0 ≤ e → e ≤ 1 → |e| ≤ 2 ^ 24 / 2 ^ 24 := by
      intro e h0 h1; rw [abs_of_nonneg h0]; norm_num; exact h1
    have ex := abs_le.1 (frac_err x)
    have em := abs_le.1 (frac_err m)
    have er1 := abs_le.1 (hr1.err 24 (by decide) (b1 (by linarith) (by linarith)))
    have ek := abs_le.1 (hr.err 24 (by decide) (b1 (by linarith) (by linarith)))
    have eN := abs_le.1 (hN.err 24 (by decide) (b1 (by linarith) (by linarith)))
    have eD := abs_le.1 (hD.err 24 (by decide) (b1 (by linarith) (by linarith)))
    have eq := abs_le.1 (hq.err 24 (by decide) (b1 hq0 hq1))
    have hm1 : (1 : ℚ) ≤ m.toNat := by
      rcases Nat.eq_zero_or_pos m.toNat with h0 | h0
      · exact absurd (BitVec.eq_of_toNat_eq h0) hm
      · exact_mod_cast h0
    have hxm : (x.toNat : ℚ) ≤ m.toNat := by exact_mod_cast hx
    have hxx : (0 : ℚ) ≤ x.toNat := by positivity
    generalize (m.toNat : ℚ) = M at *
    generalize (x.toNat : ℚ) = X at *
    generalize hNv : val (lit 1 1 - frac x - k) = N at *
    generalize hDv : val (lit 1 1 - k) = D at *
    show |val ((lit 1 1 - frac x - k) / (lit 1 1 - k)) - (M - X) / M| ≤ _
    generalize val ((lit 1 1 - frac x - k) / (lit 1 1 - k)) = Q at *
    -- N = (M-X)/255 + errors, D = M/255 + errors
    have hN' : |N - (M - X) / 255| ≤ 5 / 2 / 2 ^ 24 := by
      rw [abs_le]; constructor <;> linarith
    have hD' : |D - M / 255| ≤ 3 / 2 / 2 ^ 24 := by
      rw [abs_le]; constructor <;> linarith
    have hQ' : |N / D - (M - X) / M| ≤ 1100 / 2 ^ 24 := by
      have hMp : 0 < M := by linarith
      have e1 : N / D - (M - X) / M = ((N - (M - X) / 255) - (M - X) / M * (D - M / 255)) / D := by
        field_simp; ring
      have h2 : 0 ≤ (M - X) / M := div_nonneg (by linarith) hMp.le
      have h3 : (M - X) / M ≤ 1 := (div_le_one hMp).2 (by linarith)
      have h4 : |(M - X) / M * (D - M / 255)| ≤ 3 / 2 / 2 ^ 24 := by
        rw [abs_mul, abs_of_nonneg h2]
        calc (M - X) / M * |D - M / 255| ≤ 1 * |D - M / 255| := mul_le_mul_of_nonneg_right h3 (abs_nonneg _)
          _ ≤ _ := by rw [one_mul]; exact hD'
      rw [e1, abs_div, abs_of_pos hDpos, div_le_iff₀ hDpos]
      have := abs_sub (N - (M - X) / 255) ((M - X) / M * (D - M / 255))
      have h5 : (1100 : ℚ) / 2 ^ 24 * (1 / 256) ≤ 1100 / 2 ^ 24 * D :=
        mul_le_mul_of_nonneg_left D0 (by norm_num)
      norm_num at *
      linarith
    have hQ2 := abs_le.1 hQ'
    clear hQ' hN' hD' ex em er1 ek eN eD hr hr1 hN hD hq
    rw [abs_le]
    generalize (M - X) / M = T at *
    generalize N / D = U at *
    norm_num at *
    constructor <;> linarith

/-- One ink byte: it is defined, and the value of the formula `255 (M - X) / M` rounded down
(up to a rounding error of 1/64). -/
theorem ink_byte (x m : Byte) (hx : x.toNat ≤ m.toNat) (hm : m ≠ 0) (k : F32) (hk : Finite k)
    (hr : Rounds k (1 - val (frac m))) :
    ∃ v : Byte, toByte (lit 255 1 * ink (frac x) k) = .ok v ∧ (x = m → v = 0) ∧
      (v.toNat : ℚ) ≤ 255 * ((m.toNat : ℚ) - x.toNat) / m.toNat + 1 / 50 ∧
      255 * ((m.toNat : ℚ) - x.toNat) / m.toNat < v.toNat + 1 + 1 / 50 := by
  obtain ⟨f, h0, h1, hz, herr⟩ := ink_spec x m hx hm k hk hr
  have hmul := mul_rounds lit255.1 f
  rw [lit255.2] at hmul
  have rp255 : Rp 255 := by simpa using rp_nat 255 (by decide)
  obtain ⟨fm, a, b⟩ := hmul.between rp_zero rp255 (by linarith) (by linarith)
  obtain ⟨v, hv, hfl⟩ := toByte_ok fm a (by linarith)
  refine ⟨v, hv, ?_, ?_⟩
  · intro e
    rw [hz e, mul_zero] at hmul
    have := (hmul.exact rp_zero).2
    rw [this, Int.floor_zero] at hfl
    exact BitVec.eq_of_toNat_eq (by show v.toNat = 0; omega)
  · have hb : |255 * val (ink (frac x) k)| ≤ 2 ^ 24 / 2 ^ 16 := by
      rw [abs_of_nonneg (by linarith)]; norm_num; linarith
    have e1 := abs_le.1 (hmul.err 16 (by decide) hb)
    have e2 := abs_le.1 herr
    have l1 := Int.floor_le (val (lit 255 1 * ink (frac x) k))
    have l2 := Int.lt_floor_add_one (val (lit 255 1 * ink (frac x) k))
    rw [← hfl] at l1 l2
    push_cast at l1 l2
    rw [mul_div_assoc]
    generalize ((m.toNat : ℚ) - x.toNat) / m.toNat = T at *
    norm_num at *
    constructor <;> linarith

/-- RGB to CMYK, for every colour that is not black: the conversion is defined, the largest
component gets no ink, black is `255 - max` and the inks are `255 (max - x) / max`, each rounded
down up to a small rounding error. -/
theorem rgb_to_cmyk_partial (c : Color) (h : c.mode = .rgb) (hb : ¬ IsRgb c 0 0 0) :
    ∃ d, c.toCmyk = .ok d ∧ d.mode = .cmyk ∧ d.alpha = 255 ∧
      (c.red.toNat = maxOf c → d.cyan = 0) ∧ (c.green.toNat = maxOf c → d.magenta = 0) ∧
      (c.blue.toNat = maxOf c → d.yellow = 0) ∧
      (∀ p ∈ [(c.red, d.cyan), (c.green, d.magenta), (c.blue, d.yellow)],
        (p.2.toNat : ℚ) ≤ 255 * ((maxOf c : ℚ) - p.1.toNat) / maxOf c + 1 / 50 ∧
        255 * ((maxOf c : ℚ) - p.1.toNat) / maxOf c < p.2.toNat + 1 + 1 / 50) ∧
      d.key.toNat ≤ 255 - maxOf c ∧ 255 - maxOf c ≤ d.key.toNat + 1 := by
  obtain ⟨m, hm⟩ : ∃ m : Byte, m.toNat = maxOf c := by
    refine ⟨BitVec.ofNat 8 (maxOf c), ?_⟩
    have := byte_lt c.b0
    have := byte_lt c.b1
    have := byte_lt c.b2
    rw [BitVec.toNat_ofNat]
    unfold maxOf; omega
  have hm0 : m ≠ 0 := by
    rintro rfl
    apply hb
    have h0 : maxOf c = 0 := hm.symm
    unfold maxOf at h0
    refine ⟨h, BitVec.eq_of_toNat_eq ?_, BitVec.eq_of_toNat_eq ?_, BitVec.eq_of_toNat_eq ?_⟩
    · show c.b0.toNat = 0; omega
    · show c.b1.toNat = 0; omega
    · show c.b2.toNat = 0; omega
  obtain ⟨fk, hk⟩ := keyOf_rounds c
  rw [max_frac c m hm] at hk
  have hx0 : c.b0.toNat ≤ m.toNat := by rw [hm]; unfold maxOf; omega
  have hx1 : c.b1.toNat ≤ m.toNat := by rw [hm]; unfold maxOf; omega
  have hx2 : c.b2.toNat ≤ m.toNat := by rw [hm]; unfold maxOf; omega
  obtain ⟨v0, o0, z0, s0⟩ := ink_byte c.b0 m hx0 hm0 _ fk hk
  obtain ⟨v1, o1, z1, s1⟩ := ink_byte c.b1 m hx1 hm0 _ fk hk
  obtain ⟨v2, o2, z2, s2⟩ := ink_byte c.b2 m hx2 hm0 _ fk hk
  -- the black ink
  obtain ⟨fmm, mm0, mm1⟩ := frac_unit m
  obtain ⟨-, k0, k1⟩ := unit_between hk (by linarith) (by linarith)
  have hmul := mul_rounds lit255.1 fk
  rw [lit255.2] at hmul
  have rp255 : Rp 255 := by simpa using rp_nat 255 (by decide)
  obtain ⟨fv, a, b⟩ := hmul.between rp_zero rp255 (by linarith) (by linarith)
  obtain ⟨v3, o3, f3⟩ := toByte_ok fv a (by linarith)
  have hkb : v3.toNat ≤ 255 - maxOf c ∧ 255 - maxOf c ≤ v3.toNat + 1 := by
    have ek := abs_le.1 (hk.err 24 (by decide) (by rw [abs_of_nonneg (by linarith)]; norm_num; linarith))
    have em := abs_le.1 (frac_err m)
    have emul := abs_le.1 (hmul.err 16 (by decide) (by rw [abs_of_nonneg (by linarith)]; norm_num; linarith))
    have l1 := Int.floor_le (val (lit 255 1 * keyOf (frac c.b0) (frac c.b1) (frac c.b2)))
    have l2 := Int.lt_floor_add_one (val (lit 255 1 * keyOf (frac c.b0) (frac c.b1) (frac c.b2)))
    rw [← f3] at l1 l2
    have hml := byte_lt m
    rw [hm] at em hml
    have c1 : (v3.toNat : ℚ) < ((256 - maxOf c : Nat) : ℚ) := by
      rw [Nat.cast_sub (by omega)]
      push_cast at l1 ⊢
      norm_num at *; linarith
    have c2 : ((255 - maxOf c : Nat) : ℚ) < ((v3.toNat + 2 : Nat) : ℚ) := by
      rw [Nat.cast_sub (by omega)]
      push_cast at l2 ⊢
      norm_num at *; linarith
    have c1' : v3.toNat < 256 - maxOf c := by exact_mod_cast c1
    have c2' : 255 - maxOf c < v3.toNat + 2 := by exact_mod_cast c2
    omega
  refine ⟨⟨.cmyk, v0, v1, v2, v3, 255⟩, ?_, rfl, rfl, ?_, ?_, ?_, ?_, hkb⟩
  · unfold toCmyk; rw [h]
    simp only [rgbToCmyk]
    rw [o0, o1, o2, o3]
    rfl
  · intro e; exact z0 (BitVec.eq_of_toNat_eq (by rw [hm]; exact e))
  · intro e; exact z1 (BitVec.eq_of_toNat_eq (by rw [hm]; exact e))
  · intro e; exact z2 (BitVec.eq_of_toNat_eq (by rw [hm]; exact e))
  · intro p hp
    rw [hm] at s0 s1 s2
    simp only [List.mem_cons, List.not_mem_nil, or_false] at hp
    rcases hp with rfl | rfl | rfl
    · exact s0
    · exact s1
    · exact s2

-- the hypotheses are met and the conclusion computes
example : (fromRgb 0 255 0 0 255).toCmyk = .ok ⟨.cmyk, 0, 255, 255, 0, 255⟩ := by decide +kernel
example : (fromRgb 0 200 100 50 255).mode = .rgb ∧ ¬ IsRgb (fromRgb 0 200 100 50 255) 0 0 0 :=
  ⟨rfl, by unfold IsRgb; decide⟩

/-- Black cannot be converted: the formula divides 0 by 0 and the NaN is converted to an integer. -/
theorem black_to_cmyk (c : Color) (h : IsRgb c 0 0 0) : c.toCmyk = .error .ub := by
  obtain ⟨hm, h0, h1, h2⟩ := h
  have e : toByte (lit 255 1 * ink (frac 0) (keyOf (frac 0) (frac 0) (frac 0))) = .error .ub := by
    decide +kernel
  unfold toCmyk; rw [hm]
  simp only [rgbToCmyk]
  rw [show c.b0 = 0 from h0, show c.b1 = 0 from h1, show c.b2 = 0 from h2, e]
  rfl

/-- Converting to CMYK and back changes colours: the two conversions use different formulas. -/
theorem rgb_cmyk_rgb_differs : ((fromRgb 0 128 64 0 255).toCmyk.map toRgb).map
    (fun c => (c.red, c.green, c.blue)) = .ok (129, 2, 0) := by decide +kernel

/-! ### Conversion to grey -/

/-- Converting an RGB or CMYK colour to grey gives white or is undefined, whatever the colour is:
the byte limits are computed in `int8`. -/
theorem toGreyScale_white (c : Color) (h : c.mode ≠ .grey) :
    c.toGreyScale = .error .ub ∨ ∃ d, c.toGreyScale = .ok d ∧ d.mode = .grey ∧ d.greyOf = 255 := by
  have key : ∀ x : F32, greyByte x = .error .ub ∨ greyByte x = .ok 255 ∨ lt x zero = true := by
    intro x
    cases x with
    | nan => exact Or.inl rfl
    | num s b hb =>
      unfold greyByte toIntRange
      by_cases hi : b = infBits
      · left; simp [hi]
      · cases s with
        | true =>
          by_cases h0 : b = 0
          · subst h0; right; left
            have e : sgn true (mag 0) = 0 := by rw [mag_zero]; rfl
            simp only [if_neg hi, e, Int.zero_tdiv]
            rfl
          · right; right
            simp [lt, zero, Fp32.mk, Fp32.key, sgn]
            omega
        | false =>
          simp only [if_neg hi]
          have h0 : 0 ≤ Int.tdiv (sgn false (mag b)) one :=
            Int.tdiv_nonneg (by simp [sgn]) (Int.natCast_nonneg _)
          generalize Int.tdiv (sgn false (mag b)) one = v at h0 ⊢
          by_cases hv : v ≤ 127
          · right; left
            simp only [show (-128 ≤ v ∧ v ≤ 127) from ⟨by omega, hv⟩]
            simp only [and_self, if_true, bind, Except.bind, pure, Except.pure]
            rw [if_neg (by omega)]
            rfl
          · left
            have hn : ¬ (-128 ≤ v ∧ v ≤ 127) := fun hh => hv hh.2
            rw [if_neg hn]
            rfl
  have step : ∀ d : Color, rgbToGrey d = .error .ub ∨
      ∃ e, rgbToGrey d = .ok e ∧ e.mode = .grey ∧ e.greyOf = 255 := by
    intro d
    unfold rgbToGrey
    rcases key (luma d) with hk | hk | hk
    · left; rw [hk]; rfl
    · right; rw [hk]; exact ⟨_, rfl, rfl, rfl⟩
    · exfalso
      -- the sum is not negative
      have nn : ∀ (n : Nat) (b : Byte), n ≤ 10000 → Finite (lit n 10000 * fl b) ∧ 0 ≤ val (lit n 10000 * fl b) ∧
          val (lit n 10000 * fl b) ≤ 256 := by
        intro n b hn
        have hl := lit_rounds (n : Int) 10000 (by omega)
        have hn' : (n : ℚ) ≤ 10000 := by exact_mod_cast hn
        obtain ⟨fl1, l0, l1⟩ := unit_between hl (by positivity) (by push_cast; linarith)
        have hm := mul_rounds fl1 (val_fl b).1
        rw [(val_fl b).2] at hm
        have rp256 : Rp 256 := by simpa using rp_nat 256 (by decide)
        have hb : (b.toNat : ℚ) ≤ 256 := by have := byte_lt b; exact_mod_cast (by omega : b.toNat ≤ 256)
        have hb0 : (0 : ℚ) ≤ b.toNat := by positivity
        exact hm.between rp_zero rp256 (by positivity) (by nlinarith)
      obtain ⟨f0, a0, c0⟩ := nn 2126 d.b0 (by omega)
      obtain ⟨f1, a1, c1⟩ := nn 7152 d.b1 (by omega)
      obtain ⟨f2, a2, c2⟩ := nn 733 d.b2 (by omega)
      have rp512 : Rp 512 := by simpa using rp_nat 512 (by decide)
      have rp768 : Rp 768 := by simpa using rp_nat 768 (by decide)
      obtain ⟨f3, a3, c3⟩ := (add_rounds f0 f1).between rp_zero rp512 (by linarith) (by linarith)
      obtain ⟨f4, a4, -⟩ := (add_rounds f3 f2).between rp_zero rp768 (by linarith) (by linarith)
      have := ((compare_val (luma d) zero f4 (by decide)).1).1 hk
      rw [val_zero] at this
      exact absurd a4 (by exact not_le.2 this)
  unfold toGreyScale
  cases hm : c.mode with
  | grey => exact absurd hm h
  | rgb => exact step c
  | cmyk => exact step c.toRgb

/-- both cases occur: black becomes white, white is undefined -/
theorem toGreyScale_cases : (fromRgb 0 0 0 0 255).toGreyScale = .ok (fromGrey 0 255 255) ∧
    (fromRgb 0 255 255 255 255).toGreyScale = .error .ub := by decide +kernel

/-- a grey colour stays what it is -/
theorem toGreyScale_idem (c : Color) (h : c.mode = .grey) : c.toGreyScale = .ok c := by
  unfold toGreyScale; rw [h]

end Verif.Color
