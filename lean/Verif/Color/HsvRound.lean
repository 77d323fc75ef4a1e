import Verif.Color.HsvProps
/-
C71: hue, saturation and value of a colour, and the way back to RGB.
-/
namespace Verif.Color
open Verif Verif.Fp32 Color

attribute [local irreducible] lit one zero

theorem lt_zero_iff {x : F32} (hx : Finite x) : lt x zero = true ↔ val x < 0 := by
  have h := lt_iff hx.ne_nan (y := zero) (by decide +kernel)
  rw [h, ← val_zero]
  have := @units_le_val zero x
  constructor
  · intro h1; by_contra h2; exact absurd (this.2 (not_lt.1 h2)) (not_le.2 h1)
  · intro h1; by_contra h2; exact absurd (this.1 (not_lt.1 h2)) (not_le.2 h1)

/-- The hue of an RGB colour in units of 60 degrees, exactly (the formula quoted in Color.cpp:283-290:
the sector of the largest component and, within it, the difference of the other two). -/
def exactHue (r g b : ℚ) : ℚ :=
  let M := max (max r g) b
  let D := M - min (min r g) b
  if D = 0 then 0
  else if M = r then (if g < b then (g - b) / D + 6 else (g - b) / D)
  else if M = g then 2 + (b - r) / D
  else 4 + (r - g) / D

theorem maxOf_cast (t : Color) : ((maxOf t : Nat) : ℚ) = max (max (t.b0.toNat : ℚ) t.b1.toNat) t.b2.toNat := by
  unfold maxOf; push_cast; rfl
theorem minOf_cast (t : Color) : ((minOf t : Nat) : ℚ) = min (min (t.b0.toNat : ℚ) t.b1.toNat) t.b2.toNat := by
  unfold minOf; push_cast; rfl

theorem maxmin (t : Color) : minOf t ≤ maxOf t ∧ maxOf t ≤ 255 ∧ t.b0.toNat ≤ maxOf t ∧ t.b1.toNat ≤ maxOf t ∧
    t.b2.toNat ≤ maxOf t ∧ minOf t ≤ t.b0.toNat ∧ minOf t ≤ t.b1.toNat ∧ minOf t ≤ t.b2.toNat := by
  have := byte_lt t.b0
  have := byte_lt t.b1
  have := byte_lt t.b2
  unfold maxOf minOf
  omega

/-- `60 * (k + d / mm)`, the hue in the sectors of green and blue -/
theorem hueGB (k : Int) (hk : k = 2 ∨ k = 4) (d mm : F32) (x : ℚ) (hd : Finite d) (hm : Finite mm) (m0 : val mm ≠ 0)
    (hx : x = val d / val mm) (x0 : -1 ≤ x) (x1 : x ≤ 1) :
    Finite (lit 60 1 * (lit k 1 + d / mm)) ∧ 60 ≤ val (lit 60 1 * (lit k 1 + d / mm)) ∧
    val (lit 60 1 * (lit k 1 + d / mm)) ≤ 300 ∧ |val (lit 60 1 * (lit k 1 + d / mm)) - 60 * (k + x)| ≤ 1 / 2 ^ 14 := by
  have rd := div_rounds hd hm m0
  rw [← hx] at rd
  have rm1 : Rp (-1) := rp_one.neg
  obtain ⟨fq, q0, q1⟩ := rd.between rm1 rp_one x0 x1
  have eq := rd.err 24 (by decide) (by rw [abs_le]; norm_num; constructor <;> linarith)
  obtain ⟨fk, vk⟩ := lit_int k (by omega)
  have ra := add_rounds fk fq
  rw [vk] at ra
  have k0 : (2 : ℚ) ≤ k := by exact_mod_cast (by omega : (2 : Int) ≤ k)
  have k1 : (k : ℚ) ≤ 4 := by exact_mod_cast (by omega : k ≤ (4 : Int))
  have rp5 : Rp 5 := by simpa using rp_nat 5 (by decide)
  obtain ⟨fs, s0, s1⟩ := ra.between rp_one rp5 (by linarith) (by linarith)
  have es := ra.err 21 (by decide) (by rw [abs_of_nonneg (by linarith)]; norm_num; linarith)
  have rm := mul_rounds lit60.1 fs
  rw [lit60.2] at rm
  have rp60 : Rp 60 := by simpa using rp_nat 60 (by decide)
  have rp300 : Rp 300 := by simpa using rp_nat 300 (by decide)
  obtain ⟨fm, m0', m1'⟩ := rm.between rp60 rp300 (by linarith) (by linarith)
  have em := rm.err 15 (by decide) (by rw [abs_of_nonneg (by linarith)]; norm_num; linarith)
  refine ⟨fm, m0', m1', ?_⟩
  generalize val (lit 60 1 * (lit k 1 + d / mm)) = A at *
  generalize val (lit k 1 + d / mm) = B at *
  generalize val (d / mm) = C at *
  rw [abs_le] at eq es em ⊢
  obtain ⟨a1, a2⟩ := eq
  obtain ⟨c1, c2⟩ := es
  obtain ⟨d1, d2⟩ := em
  norm_num at a1 a2 c1 c2 d1 d2 ⊢
  constructor <;> linarith

/-- the hue of an RGB colour -/
theorem hue_close (c : Color) : Finite (hue c) ∧ 0 ≤ val (hue c) ∧ val (hue c) < 360 ∧
    |val (hue c) - 60 * exactHue c.toRgb.red.toNat c.toRgb.green.toNat c.toRgb.blue.toNat| ≤ 1 / 2 ^ 14 := by
  unfold hue
  generalize c.toRgb = t
  change Finite (wrapHue (rawHue t)) ∧ 0 ≤ val (wrapHue (rawHue t)) ∧ val (wrapHue (rawHue t)) < 360 ∧
    |val (wrapHue (rawHue t)) - 60 * exactHue t.b0.toNat t.b1.toNat t.b2.toNat| ≤ 1 / 2 ^ 14
  obtain ⟨h1, h2, h3, h4, h5, h6, h7, h8⟩ := maxmin t
  have hM := maxOf_cast t
  have hm := minOf_cast t
  have keep : ∀ h : F32, Finite h → 0 ≤ val h → wrapHue h = h := by
    intro h fh h0
    unfold wrapHue
    rw [if_neg]
    intro hl
    have := (lt_zero_iff fh).1 hl
    linarith
  unfold rawHue exactHue
  rw [← hM, ← hm]
  simp only
  by_cases he : maxOf t = minOf t
  · rw [if_pos he, if_pos (c := (maxOf t : ℚ) - minOf t = 0) (by rw [he]; ring)]
    have fz : Finite zero := by decide +kernel
    rw [keep _ fz (by rw [val_zero]), val_zero]
    refine ⟨fz, le_refl _, by norm_num, by norm_num⟩
  have hD : (0 : ℚ) < (maxOf t : ℚ) - minOf t := by
    have : minOf t < maxOf t := by omega
    have : (minOf t : ℚ) < maxOf t := by exact_mod_cast this
    linarith
  have hD1 : (maxOf t : ℚ) - minOf t ≤ 255 := by
    have : (maxOf t : ℚ) ≤ 255 := by exact_mod_cast h2
    have : (0 : ℚ) ≤ minOf t := by positivity
    linarith
  rw [if_neg he, if_neg hD.ne']
  obtain ⟨fD, vD⟩ := val_ofInt ((maxOf t : Int) - minOf t) (by omega)
  have vD' : val (ofInt ((maxOf t : Int) - minOf t)) = (maxOf t : ℚ) - minOf t := by rw [vD]; push_cast; ring
  have q0 : ∀ x : Nat, x ≤ maxOf t → (x : ℚ) ≤ maxOf t := fun x h => by exact_mod_cast h
  have q1 : ∀ x : Nat, minOf t ≤ x → (minOf t : ℚ) ≤ x := fun x h => by exact_mod_cast h
  have g3 := q0 _ h3
  have g4 := q0 _ h4
  have g5 := q0 _ h5
  have g6 := q1 _ h6
  have g7 := q1 _ h7
  have g8 := q1 _ h8
  have unit : ∀ a b : ℚ, a ≤ maxOf t → b ≤ maxOf t → (minOf t : ℚ) ≤ a → (minOf t : ℚ) ≤ b →
      -1 ≤ (a - b) / ((maxOf t : ℚ) - minOf t) ∧ (a - b) / ((maxOf t : ℚ) - minOf t) ≤ 1 := by
    intro a b a1 b1 a2 b2
    rw [le_div_iff₀ hD, div_le_iff₀ hD]
    constructor <;> linarith
  by_cases hr : maxOf t = t.b0.toNat
  · have hr' : (maxOf t : ℚ) = (t.b0.toNat : ℚ) := by rw [hr]
    rw [if_pos hr, if_pos hr']
    obtain ⟨u1, u2⟩ := unit t.b1.toNat t.b2.toNat g4 g5 g7 g8
    obtain ⟨fd, vd⟩ := val_diff t.b1 t.b2
    -- the product is an integer
    have hb1 := byte_lt t.b1
    have hb2 := byte_lt t.b2
    have rm := mul_rounds lit60.1 fd
    rw [lit60.2, vd] at rm
    have rpp : Rp (60 * ((t.b1.toNat : ℚ) - t.b2.toNat)) := by
      have := Rp.int (60 * ((t.b1.toNat : Int) - t.b2.toNat)) (by omega)
      push_cast at this; exact this
    obtain ⟨fp, vp⟩ := rm.exact rpp
    have rd := div_rounds fp fD (by rw [vD']; exact hD.ne')
    rw [vp, vD', mul_div_assoc] at rd
    have rp60 : Rp 60 := by simpa using rp_nat 60 (by decide)
    by_cases hgb : (t.b1.toNat : ℚ) < t.b2.toNat
    · rw [if_pos hgb]
      have rp8 : Rp (-(1 / 8)) := by
        have := (Rp.grid 1 3 (by decide) (by decide)).neg
        norm_num at this ⊢; exact this
      have hx : ((t.b1.toNat : ℚ) - t.b2.toNat) / ((maxOf t : ℚ) - minOf t) ≤ -(1 / 255) := by
        rw [div_le_iff₀ hD]
        have : t.b1.toNat < t.b2.toNat := by exact_mod_cast hgb
        have : ((t.b1.toNat + 1 : Nat) : ℚ) ≤ t.b2.toNat := by exact_mod_cast this
        push_cast at this
        linarith
      obtain ⟨fr, r0, r1⟩ := rd.between rp60.neg rp8 (by linarith) (by linarith)
      have er := rd.err 18 (by decide) (by rw [abs_le]; norm_num; constructor <;> linarith)
      generalize ((t.b1.toNat : ℚ) - t.b2.toNat) / ((maxOf t : ℚ) - minOf t) = X at *
      generalize lit 60 1 * diff t.b1 t.b2 / ofInt ((maxOf t : Int) - minOf t) = R at *
      have hw : wrapHue R = R + lit 360 1 := by
        unfold wrapHue; rw [if_pos ((lt_zero_iff fr).2 (by linarith))]
      rw [hw]
      have ra := add_rounds fr lit360.1
      rw [lit360.2] at ra
      have rp300 : Rp 300 := by simpa using rp_nat 300 (by decide)
      have rpt : Rp (360 - 1 / 8) := by
        have := Rp.grid 2879 3 (by decide) (by decide)
        norm_num at this ⊢; exact this
      obtain ⟨fa, a0, a1⟩ := ra.between rp300 rpt (by linarith) (by linarith)
      have ea := ra.err 15 (by decide) (by rw [abs_of_nonneg (by linarith)]; norm_num; linarith)
      refine ⟨fa, by linarith, by linarith, ?_⟩
      rw [abs_le] at er ea ⊢
      obtain ⟨e1, e2⟩ := er
      obtain ⟨e3, e4⟩ := ea
      norm_num at e1 e2 e3 e4 ⊢
      constructor <;> linarith
    · rw [if_neg hgb]
      have hx : 0 ≤ ((t.b1.toNat : ℚ) - t.b2.toNat) / ((maxOf t : ℚ) - minOf t) :=
        div_nonneg (by linarith) hD.le
      obtain ⟨fr, r0, r1⟩ := rd.between rp_zero rp60 (by linarith) (by linarith)
      have er := rd.err 18 (by decide) (by rw [abs_le]; norm_num; constructor <;> linarith)
      rw [keep _ fr r0]
      refine ⟨fr, r0, by linarith, er.trans (by norm_num)⟩
  · have hr' : ¬ ((maxOf t : ℚ) = (t.b0.toNat : ℚ)) := fun h => hr (by exact_mod_cast h)
    rw [if_neg hr, if_neg hr']
    by_cases hg : maxOf t = t.b1.toNat
    · have hg' : (maxOf t : ℚ) = (t.b1.toNat : ℚ) := by rw [hg]
      rw [if_pos hg, if_pos hg']
      obtain ⟨u1, u2⟩ := unit t.b2.toNat t.b0.toNat g5 g3 g8 g6
      obtain ⟨fd, vd⟩ := val_diff t.b2 t.b0
      obtain ⟨fh, a0, a1, a2⟩ := hueGB 2 (Or.inl rfl) (diff t.b2 t.b0) _ _ fd fD (by rw [vD']; exact hD.ne')
        (by rw [vd, vD']) u1 u2
      rw [keep _ fh (by linarith)]
      exact ⟨fh, by linarith, by linarith, by simpa using a2⟩
    · have hg' : ¬ ((maxOf t : ℚ) = (t.b1.toNat : ℚ)) := fun h => hg (by exact_mod_cast h)
      rw [if_neg hg, if_neg hg']
      obtain ⟨u1, u2⟩ := unit t.b0.toNat t.b1.toNat g3 g4 g6 g7
      obtain ⟨fd, vd⟩ := val_diff t.b0 t.b1
      obtain ⟨fh, a0, a1, a2⟩ := hueGB 4 (Or.inr rfl) (diff t.b0 t.b1) _ _ fd fD (by rw [vD']; exact hD.ne')
        (by rw [vd, vD']) u1 u2
      rw [keep _ fh (by linarith)]
      exact ⟨fh, by linarith, by linarith, by simpa using a2⟩

/-- value and saturation: the largest component divided by 255, the difference of the largest and the
smallest divided by the largest -/
theorem value_close (c : Color) : Finite (value c) ∧ 0 ≤ val (value c) ∧ val (value c) ≤ 1 ∧
    |val (value c) - max (max (c.toRgb.red.toNat : ℚ) c.toRgb.green.toNat) c.toRgb.blue.toNat / 255| ≤ 1 / 2 / 2 ^ 24 := by
  unfold value
  generalize c.toRgb = t
  change _ ∧ _ ∧ _ ∧ |_ - max (max (t.b0.toNat : ℚ) t.b1.toNat) t.b2.toNat / 255| ≤ _
  rw [← maxOf_cast]
  obtain ⟨h1, h2, -⟩ := maxmin t
  have h2' : (maxOf t : ℚ) ≤ 255 := by exact_mod_cast h2
  obtain ⟨fm, vm⟩ := val_ofInt (maxOf t : Int) (by omega)
  have rd := div_rounds fm lit255.1 (by rw [lit255.2]; norm_num)
  rw [vm, lit255.2] at rd
  push_cast at rd
  have q0 : (0 : ℚ) ≤ (maxOf t : ℚ) / 255 := by positivity
  have q1 : (maxOf t : ℚ) / 255 ≤ 1 := by rw [div_le_one (by norm_num)]; exact h2'
  obtain ⟨f, a, b⟩ := unit_between rd q0 q1
  exact ⟨f, a, b, rd.err 24 (by decide) (b1 q0 q1)⟩

/-- the exact saturation -/
def exactSat (r g b : ℚ) : ℚ := (max (max r g) b - min (min r g) b) / max (max r g) b

theorem saturation_close (c : Color) : Finite (saturation c) ∧ 0 ≤ val (saturation c) ∧ val (saturation c) ≤ 1 ∧
    |val (saturation c) - exactSat c.toRgb.red.toNat c.toRgb.green.toNat c.toRgb.blue.toNat| ≤ 1 / 2 / 2 ^ 24 := by
  unfold saturation
  generalize c.toRgb = t
  change _ ∧ _ ∧ _ ∧ |_ - exactSat t.b0.toNat t.b1.toNat t.b2.toNat| ≤ _
  unfold exactSat
  rw [← maxOf_cast, ← minOf_cast]
  obtain ⟨h1, h2, -⟩ := maxmin t
  simp only
  by_cases he : maxOf t = minOf t
  · rw [if_pos he, he, sub_self, zero_div, val_zero]
    exact ⟨by decide +kernel, le_refl _, by norm_num, by norm_num⟩
  rw [if_neg he]
  have hM : (0 : ℚ) < maxOf t := by exact_mod_cast (by omega : 0 < maxOf t)
  have hm : (0 : ℚ) ≤ minOf t := by positivity
  have hle : (minOf t : ℚ) ≤ maxOf t := by exact_mod_cast h1
  obtain ⟨fm, vm⟩ := val_ofInt (maxOf t : Int) (by omega)
  obtain ⟨fd, vd⟩ := val_ofInt ((maxOf t : Int) - minOf t) (by omega)
  push_cast at vm vd
  have rd := div_rounds fd fm (by rw [vm]; exact hM.ne')
  rw [vm, vd] at rd
  have q0 : (0 : ℚ) ≤ ((maxOf t : ℚ) - minOf t) / maxOf t := div_nonneg (by linarith) hM.le
  have q1 : ((maxOf t : ℚ) - minOf t) / maxOf t ≤ 1 := by rw [div_le_one hM]; linarith
  obtain ⟨f, a, b⟩ := unit_between rd q0 q1
  exact ⟨f, a, b, rd.err 24 (by decide) (b1 q0 q1)⟩

/-- The exact hue is inverted by the three curves of the HSV model. -/
theorem exactHue_inv (r g b : ℚ) :
    (max (max r g) b - min (min r g) b) * lossR (exactHue r g b) = max (max r g) b - r ∧
    (max (max r g) b - min (min r g) b) * lossG (exactHue r g b) = max (max r g) b - g ∧
    (max (max r g) b - min (min r g) b) * lossB (exactHue r g b) = max (max r g) b - b := by
  obtain ⟨M, hM⟩ : ∃ M, M = max (max r g) b := ⟨_, rfl⟩
  obtain ⟨m, hm⟩ : ∃ m, m = min (min r g) b := ⟨_, rfl⟩
  unfold exactHue
  simp only
  rw [← hM, ← hm]
  have c1 : r ≤ M := by rw [hM]; exact (le_max_left _ _).trans (le_max_left _ _)
  have c2 : g ≤ M := by rw [hM]; exact (le_max_right _ _).trans (le_max_left _ _)
  have c3 : b ≤ M := by rw [hM]; exact le_max_right _ _
  have d1 : m ≤ r := by rw [hm]; exact (min_le_left _ _).trans (min_le_left _ _)
  have d2 : m ≤ g := by rw [hm]; exact (min_le_left _ _).trans (min_le_right _ _)
  have d3 : m ≤ b := by rw [hm]; exact min_le_right _ _
  have cM : M = r ∨ M = g ∨ M = b := by
    rw [hM]; rcases max_choice (max r g) b with h | h
    · rcases max_choice r g with h' | h' <;> rw [h, h'] <;> simp
    · rw [h]; simp
  have cm : m = r ∨ m = g ∨ m = b := by
    rw [hm]; rcases min_choice (min r g) b with h | h
    · rcases min_choice r g with h' | h' <;> rw [h, h'] <;> simp
    · rw [h]; simp
  clear hM hm
  have l0 : ∀ x : ℚ, x ≤ 0 → clamp x = 0 := fun x hx => by
    rcases clamp_cases x with ⟨h, e⟩ | ⟨h, h', e⟩ | ⟨h, e⟩ <;> linarith
  have l1 : ∀ x : ℚ, 1 ≤ x → clamp x = 1 := fun x hx => by
    rcases clamp_cases x with ⟨h, e⟩ | ⟨h, h', e⟩ | ⟨h, e⟩ <;> linarith
  have lm : ∀ x : ℚ, 0 ≤ x → x ≤ 1 → clamp x = x := fun x hx hx' => by
    rcases clamp_cases x with ⟨h, e⟩ | ⟨h, h', e⟩ | ⟨h, e⟩ <;> linarith
  by_cases h0 : M - m = 0
  · rw [if_pos h0, h0]
    simp only [zero_mul]
    refine ⟨?_, ?_, ?_⟩ <;> linarith
  rw [if_neg h0]
  have hD : 0 < M - m := lt_of_le_of_ne (by linarith) (Ne.symm h0)
  -- quotients
  have quo : ∀ x : ℚ, ∃ q, x / (M - m) = q ∧ x = q * (M - m) := fun x => ⟨_, rfl, by field_simp⟩
  have qs : ∀ q : ℚ, 0 ≤ q * (M - m) → 0 ≤ q := fun q h => by
    by_contra hq
    nlinarith
  have qn : ∀ q : ℚ, q * (M - m) ≤ 0 → q ≤ 0 := fun q h => by
    by_contra hq
    nlinarith
  have ql : ∀ q : ℚ, q * (M - m) ≤ M - m → q ≤ 1 := fun q h => by
    by_contra hq
    nlinarith
  have qg : ∀ q : ℚ, -(M - m) ≤ q * (M - m) → -1 ≤ q := fun q h => by
    by_contra hq
    nlinarith
  by_cases hr : M = r
  · rw [if_pos hr]
    by_cases hgb : g < b
    · rw [if_pos hgb]
      obtain ⟨q, e, e'⟩ := quo (g - b)
      rw [e]
      have q1 := qn q (by linarith)
      have q2 := qg q (by linarith)
      have hmg : m = g := by
        rcases cm with h | h | h
        · exact absurd h (by linarith)
        · exact h
        · exact absurd h (by linarith)
      unfold lossR lossG lossB
      rw [abs_of_nonneg (by linarith), abs_of_nonneg (by linarith), abs_of_nonneg (by linarith),
        l0 _ (by linarith), l1 _ (by linarith), lm _ (by linarith) (by linarith)]
      refine ⟨by linarith, by linarith, ?_⟩
      linarith
    · rw [if_neg hgb]
      obtain ⟨q, e, e'⟩ := quo (g - b)
      rw [e]
      have q1 := qs q (by linarith)
      have q2 := ql q (by linarith)
      have hmb : m = b := by
        rcases cm with h | h | h
        · exact absurd h (by intro h; linarith)
        · linarith
        · exact h
      unfold lossR lossG lossB
      rw [abs_of_nonpos (by linarith), abs_of_nonpos (by linarith), abs_of_nonpos (by linarith),
        l0 _ (by linarith), lm _ (by linarith) (by linarith), l1 _ (by linarith)]
      refine ⟨by linarith, ?_, by linarith⟩
      linarith
  rw [if_neg hr]
  by_cases hg : M = g
  · rw [if_pos hg]
    obtain ⟨q, e, e'⟩ := quo (b - r)
    rw [e]
    have q2 := ql q (by linarith)
    have q3 := qg q (by linarith)
    unfold lossR lossG lossB
    have hG : |2 + q - 2| ≤ 1 := by rw [abs_le]; constructor <;> linarith
    rw [abs_of_nonpos (a := 2 + q - 3) (by linarith), abs_of_nonpos (a := 2 + q - 4) (by linarith),
      l0 (|2 + q - 2| - 1) (by linarith)]
    rcases le_total b r with hbr | hbr
    · have q1 := qn q (by linarith)
      have hmb : m = b := by
        rcases cm with h | h | h <;> linarith
      rw [lm _ (by linarith) (by linarith), l1 _ (by linarith)]
      refine ⟨?_, by linarith, by linarith⟩
      linarith
    · have q1 := qs q (by linarith)
      have hmr : m = r := by
        rcases cm with h | h | h <;> linarith
      rw [l1 _ (by linarith), lm _ (by linarith) (by linarith)]
      refine ⟨by linarith, by linarith, ?_⟩
      linarith
  · rw [if_neg hg]
    have hb : M = b := by rcases cM with h | h | h <;> first | exact absurd h hr | exact absurd h hg | exact h
    obtain ⟨q, e, e'⟩ := quo (r - g)
    rw [e]
    have q2 := ql q (by linarith)
    have q3 := qg q (by linarith)
    unfold lossR lossG lossB
    have hG : |4 + q - 4| ≤ 1 := by rw [abs_le]; constructor <;> linarith
    rw [abs_of_nonneg (a := 4 + q - 3) (by linarith), abs_of_nonneg (a := 4 + q - 2) (by linarith),
      l0 (|4 + q - 4| - 1) (by linarith)]
    rcases le_total r g with hrg | hrg
    · have q1 := qn q (by linarith)
      have hmr : m = r := by
        rcases cm with h | h | h <;> linarith
      rw [l1 _ (by linarith), lm _ (by linarith) (by linarith)]
      refine ⟨by linarith, ?_, by linarith⟩
      linarith
    · have q1 := qs q (by linarith)
      have hmg : m = g := by
        rcases cm with h | h | h <;> linarith
      rw [lm _ (by linarith) (by linarith), l1 _ (by linarith)]
      refine ⟨?_, by linarith, by linarith⟩
      linarith

theorem fromHsv_alpha {junk : Byte} {h s v a : F32} {r : Color} (e : fromHsv junk h s v a = .ok r) :
    toByte (a * lit 255 1) = .ok r.alpha := by
  unfold fromHsv at e
  cases e1 : toIntRange (-(2 ^ 31)) (2 ^ 31 - 1) (floor (h / lit 60 1)) with
  | error f => rw [e1] at e; simp [bind, Except.bind] at e
  | ok hi =>
    rw [e1] at e
    simp only [bind, Except.bind] at e
    cases e2 : sector junk hi v (pOf v s) (qOf v s (h / lit 60 1 - ofInt hi)) (tOf v s (h / lit 60 1 - ofInt hi)) with
    | error f => rw [e2] at e; simp at e
    | ok c =>
      rw [e2] at e
      simp only at e
      cases e3 : toByte (a * lit 255 1) with
      | error f => rw [e3] at e; simp at e
      | ok b =>
        rw [e3] at e
        simp only [pure, Except.pure, Except.ok.injEq] at e
        rw [← e]; rfl

/-- `a` or one less -/
def OrOneLess (x a : Byte) : Prop := x = a ∨ x.toNat + 1 = a.toNat

theorem orOneLess {x a : Byte} {m : ℚ} (h : Scaled x (m / 255)) (hm : |m - a.toNat| ≤ 1 / 1000) : OrOneLess x a := by
  obtain ⟨h1, h2⟩ := h
  rw [show 255 * (m / 255) = m by ring] at h1 h2
  rw [abs_le] at hm
  have g1 : (x.toNat : ℚ) < a.toNat + 1 := by linarith
  have g2 : (a.toNat : ℚ) < x.toNat + 2 := by linarith
  have g1' : x.toNat < a.toNat + 1 := by exact_mod_cast g1
  have g2' : a.toNat < x.toNat + 2 := by exact_mod_cast g2
  rcases Nat.lt_or_ge x.toNat a.toNat with h | h
  · right; omega
  · left; exact BitVec.eq_of_toNat_eq (by omega)

/-- HSV and back: for every colour, the colour made of its hue, saturation and value is defined, and
each component is that of the colour (converted to RGB) or one less. -/
theorem hsv_round_trip (junk : Byte) (c : Color) :
    ∃ r, fromHsv junk (hue c) (saturation c) (value c) (lit 1 1) = .ok r ∧ r.mode = .rgb ∧
      OrOneLess r.red c.toRgb.red ∧ OrOneLess r.green c.toRgb.green ∧ OrOneLess r.blue c.toRgb.blue ∧ r.alpha = 255 := by
  obtain ⟨fh, h0, h1, eh⟩ := hue_close c
  obtain ⟨fs, s0, s1, es⟩ := saturation_close c
  obtain ⟨fv, v0, v1, ev⟩ := value_close c
  have hinv := exactHue_inv c.toRgb.red.toNat c.toRgb.green.toNat c.toRgb.blue.toNat
  generalize c.toRgb = t at *
  generalize hx : exactHue t.red.toNat t.green.toNat t.blue.toNat = X at *
  have hMc : max (max (t.red.toNat : ℚ) t.green.toNat) t.blue.toNat = maxOf t := (maxOf_cast t).symm
  have hmc : min (min (t.red.toNat : ℚ) t.green.toNat) t.blue.toNat = minOf t := (minOf_cast t).symm
  obtain ⟨k1, k2, k3, k4, k5, k6, k7, k8⟩ := maxmin t
  unfold exactSat at es
  rw [hMc] at ev es hinv
  rw [hmc] at es hinv
  have hM1 : (maxOf t : ℚ) ≤ 255 := by exact_mod_cast k2
  have hm0 : (0 : ℚ) ≤ minOf t := by positivity
  have hle : (minOf t : ℚ) ≤ maxOf t := by exact_mod_cast k1
  have v00 : (0 : ℚ) ≤ (maxOf t : ℚ) / 255 := by positivity
  have v01 : (maxOf t : ℚ) / 255 ≤ 1 := by rw [div_le_one (by norm_num)]; exact hM1
  have s00 : (0 : ℚ) ≤ ((maxOf t : ℚ) - minOf t) / maxOf t := div_nonneg (by linarith) (by linarith)
  have s01 : ((maxOf t : ℚ) - minOf t) / maxOf t ≤ 1 := div_le_one_of_le₀ (by linarith) (by linarith)
  obtain ⟨fy, ey, hcore⟩ := fromHsv_core junk (hue c) (saturation c) (value c) _ _ fh h0 h1.le fs s0 s1 fv v0 v1 ev v00 v01
    es s00 s01
  obtain ⟨r, er, hmode, cr, cg, cb, ca⟩ := hcore (lit 1 1) lit1.1 (by rw [lit1.2]; norm_num) (by rw [lit1.2])
  refine ⟨r, er, hmode, ?_⟩
  have yX : |val (hue c / lit 60 1) - X| ≤ 1 / 2 ^ 19 := by
    rw [abs_le] at eh ey ⊢
    obtain ⟨a1, a2⟩ := eh
    obtain ⟨b1, b2⟩ := ey
    norm_num at a1 a2 b1 b2 ⊢
    constructor <;> linarith
  generalize val (hue c / lit 60 1) = y at *
  have vs : (maxOf t : ℚ) * (((maxOf t : ℚ) - minOf t) / maxOf t) = (maxOf t : ℚ) - minOf t := by
    rcases eq_or_ne (maxOf t : ℚ) 0 with h | h
    · rw [h]; linarith
    · field_simp
  have comp : ∀ (x a : Byte) (L : ℚ → ℚ), (∀ x y, |L x - L y| ≤ |x - y|) →
      ((maxOf t : ℚ) - minOf t) * L X = maxOf t - a.toNat →
      Scaled x ((maxOf t : ℚ) / 255 * (1 - ((maxOf t : ℚ) - minOf t) / maxOf t * L y)) → OrOneLess x a := by
    intro x a L hL hXa hsc
    have e1 : (maxOf t : ℚ) / 255 * (1 - ((maxOf t : ℚ) - minOf t) / maxOf t * L y) =
        ((maxOf t : ℚ) - ((maxOf t : ℚ) - minOf t) * L y) / 255 := by
      have : (maxOf t : ℚ) / 255 * (1 - ((maxOf t : ℚ) - minOf t) / maxOf t * L y) =
          ((maxOf t : ℚ) - (maxOf t : ℚ) * (((maxOf t : ℚ) - minOf t) / maxOf t) * L y) / 255 := by ring
      rw [this, vs]
    rw [e1] at hsc
    refine orOneLess hsc ?_
    have e2 : (maxOf t : ℚ) - ((maxOf t : ℚ) - minOf t) * L y - a.toNat =
        -(((maxOf t : ℚ) - minOf t) * (L y - L X)) := by
      rw [mul_sub, hXa]; ring
    rw [e2, abs_neg, abs_mul, abs_of_nonneg (by linarith : (0 : ℚ) ≤ (maxOf t : ℚ) - minOf t)]
    calc ((maxOf t : ℚ) - minOf t) * |L y - L X| ≤ 255 * (1 / 2 ^ 19) :=
          mul_le_mul (by linarith) ((hL y X).trans yX) (abs_nonneg _) (by norm_num)
      _ ≤ 1 / 1000 := by norm_num
  refine ⟨comp _ _ lossR lossR_lip hinv.1 cr, comp _ _ lossG lossG_lip hinv.2.1 cg, comp _ _ lossB lossB_lip hinv.2.2 cb, ?_⟩
  have := fromHsv_alpha er
  have e255 : toByte (lit 1 1 * lit 255 1) = .ok 255 := by decide +kernel
  rw [e255] at this
  exact (Except.ok.inj this).symm

/-- One less does occur: the functions are not inverse to each other. -/
theorem hsv_round_trip_differs : let c := fromRgb 0 3 198 73 255
    fromHsv 0 (hue c) (saturation c) (value c) (lit 1 1) = .ok (fromRgb 0 2 198 73 255) := by decide +kernel

/-- Hue, saturation and value of every colour: within the documented ranges, and equal to the
mathematical values up to rounding. -/
theorem hsvModel_spec (c : Color) :
    (Finite (hue c) ∧ 0 ≤ val (hue c) ∧ val (hue c) < 360 ∧
      |val (hue c) - 60 * exactHue c.toRgb.red.toNat c.toRgb.green.toNat c.toRgb.blue.toNat| ≤ 1 / 2 ^ 14) ∧
    (Finite (saturation c) ∧ 0 ≤ val (saturation c) ∧ val (saturation c) ≤ 1 ∧
      |val (saturation c) - exactSat c.toRgb.red.toNat c.toRgb.green.toNat c.toRgb.blue.toNat| ≤ 1 / 2 / 2 ^ 24) ∧
    (Finite (value c) ∧ 0 ≤ val (value c) ∧ val (value c) ≤ 1 ∧
      |val (value c) - max (max (c.toRgb.red.toNat : ℚ) c.toRgb.green.toNat) c.toRgb.blue.toNat / 255| ≤ 1 / 2 / 2 ^ 24) :=
  ⟨hue_close c, saturation_close c, value_close c⟩

example : hue (fromRgb 0 0 255 0 255) = lit 120 1 ∧ saturation (fromRgb 0 0 255 0 255) = lit 1 1 ∧
    value (fromRgb 0 0 255 0 255) = lit 1 1 := by decide +kernel

/-- `FromHsv` on its documented domain (hue 0 to 360, the others 0 to 1): defined, and each component
is that of the HSV model, rounded down. -/
theorem fromHsv_spec (junk : Byte) (h s v a : F32) (fh : Finite h) (h0 : 0 ≤ val h) (h1 : val h ≤ 360)
    (fs : Finite s) (s0 : 0 ≤ val s) (s1 : val s ≤ 1) (fv : Finite v) (v0 : 0 ≤ val v) (v1 : val v ≤ 1)
    (fa : Finite a) (a0 : 0 ≤ val a) (a1 : val a ≤ 1) :
    ∃ r y, fromHsv junk h s v a = .ok r ∧ r.mode = .rgb ∧ |y - val h / 60| ≤ 1 / 2 ^ 22 ∧
      Scaled r.red (val v * (1 - val s * lossR y)) ∧ Scaled r.green (val v * (1 - val s * lossG y)) ∧
      Scaled r.blue (val v * (1 - val s * lossB y)) ∧ Scaled r.alpha (val a) := by
  obtain ⟨-, ey, hc⟩ := fromHsv_core junk h s v (val v) (val s) fh h0 h1 fs s0 s1 fv v0 v1
    (by rw [sub_self, abs_zero]; norm_num) v0 v1 (by rw [sub_self, abs_zero]; norm_num) s0 s1
  obtain ⟨r, h1, h2, h3⟩ := hc a fa a0 a1
  exact ⟨r, _, h1, h2, ey, h3⟩

example : fromHsv 0 (lit 30 1) (lit 1 2) (lit 1 1) (lit 1 2) = .ok (fromRgb 0 255 191 127 127) := by decide +kernel

/-- Outside of it: another hue makes black of any saturation and value, and NaN is undefined behaviour. -/
theorem fromHsv_outside : fromHsv 0 (lit 420 1) (lit 1 1) (lit 1 1) (lit 1 1) = .ok (fromRgb 0 0 0 0 255) ∧
    fromHsv 0 (lit (-30) 1) (lit 1 1) (lit 1 1) (lit 1 1) = .ok (fromRgb 0 0 0 0 255) ∧
    fromHsv 0 .nan (lit 1 1) (lit 1 1) (lit 1 1) = .error .ub ∧
    fromHsv 0 (lit 30 1) (lit 1 1) (lit 2 1) (lit 1 1) = .error .ub := by decide +kernel

end Verif.Color
