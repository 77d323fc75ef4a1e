import Verif.Color.BlendProps
/-
C71: the HSV model.
-/
namespace Verif.Color
open Verif Verif.Fp32 Color

attribute [local irreducible] lit one zero

/-! ### From HSV to RGB -/

/-- one component `v * (1 - u)`, converted to a byte -/
theorem chan (v u : F32) (v0 u0 : ℚ) (hv : Finite v) (vl : 0 ≤ val v) (vh : val v ≤ 1) (hu : Finite u)
    (ul : 0 ≤ val u) (uh : val u ≤ 1) (ev : |val v - v0| ≤ 1 / 2 / 2 ^ 24) (v00 : 0 ≤ v0) (v01 : v0 ≤ 1)
    (eu : |val u - u0| ≤ 1 / 2 ^ 22) :
    ∃ r, toByte (v * (lit 1 1 - u) * lit 255 1) = .ok r ∧
      (r.toNat : ℚ) ≤ 255 * (v0 * (1 - u0)) + 1 / 1000 ∧ 255 * (v0 * (1 - u0)) < r.toNat + 1 + 1 / 1000 := by
  have s1 := sub_rounds lit1.1 hu
  rw [lit1.2] at s1
  obtain ⟨f1, p1, q1⟩ := unit_between s1 (by linarith) (by linarith)
  have e1 := s1.err 24 (by decide) (b1 (by linarith) (by linarith))
  have m2 := mul_rounds hv f1
  have h20 := mul_nonneg vl p1
  have h21 := mul_le_one₀ vh p1 q1
  obtain ⟨f2, p2, q2⟩ := unit_between m2 h20 h21
  have e2 := m2.err 24 (by decide) (b1 h20 h21)
  have m3 := mul_rounds f2 lit255.1
  rw [lit255.2] at m3
  have rp255 : Rp 255 := by simpa using rp_nat 255 (by decide)
  obtain ⟨f3, p3, q3⟩ := m3.between rp_zero rp255 (by linarith) (by linarith)
  have e3 := m3.err 16 (by decide) (by rw [abs_of_nonneg (by linarith)]; norm_num; linarith)
  obtain ⟨r, hr, hfl⟩ := toByte_ok f3 p3 (by linarith)
  refine ⟨r, hr, floor_close ?_ hfl⟩
  have e1' : |val (lit 1 1 - u) - (1 - u0)| ≤ 1 / 2 ^ 22 + 1 / 2 / 2 ^ 24 := by
    rw [abs_le] at e1 eu ⊢
    constructor <;> linarith
  have e12 := mul_err ev e1' p1 q1 v00 v01
  generalize v0 * (1 - u0) = T at *
  generalize val v * val (lit 1 1 - u) = S at *
  generalize val (v * (lit 1 1 - u)) = S' at *
  generalize val (v * (lit 1 1 - u) * lit 255 1) = S'' at *
  clear e1 e1' eu ev
  rw [abs_le] at e12 e2 e3 ⊢
  obtain ⟨a1, a2⟩ := e12
  obtain ⟨c1, c2⟩ := e2
  obtain ⟨d1, d2⟩ := e3
  norm_num at a1 a2 c1 c2 d1 d2 ⊢
  constructor <;> linarith

/-- the component that is the value itself -/
theorem chanV (v : F32) (v0 : ℚ) (hv : Finite v) (vl : 0 ≤ val v) (vh : val v ≤ 1)
    (ev : |val v - v0| ≤ 1 / 2 / 2 ^ 24) :
    ∃ r, toByte (v * lit 255 1) = .ok r ∧ (r.toNat : ℚ) ≤ 255 * v0 + 1 / 1000 ∧ 255 * v0 < r.toNat + 1 + 1 / 1000 := by
  have m3 := mul_rounds hv lit255.1
  rw [lit255.2] at m3
  have rp255 : Rp 255 := by simpa using rp_nat 255 (by decide)
  obtain ⟨f3, p3, q3⟩ := m3.between rp_zero rp255 (by linarith) (by linarith)
  have e3 := m3.err 16 (by decide) (by rw [abs_of_nonneg (by linarith)]; norm_num; linarith)
  obtain ⟨r, hr, hfl⟩ := toByte_ok f3 p3 (by linarith)
  refine ⟨r, hr, floor_close ?_ hfl⟩
  generalize val (v * lit 255 1) = S at *
  rw [abs_le] at ev e3 ⊢
  obtain ⟨a1, a2⟩ := ev
  obtain ⟨d1, d2⟩ := e3
  norm_num at a1 a2 d1 d2 ⊢
  constructor <;> linarith

/-- limits a number to the range from 0 to 1 -/
def clamp (x : ℚ) : ℚ := max 0 (min 1 x)

/-- The HSV model: the components of the colour with hue `60 y`, `0 ≤ y ≤ 6`, as the distance from
the value: saturated colours lose the whole value where the curve is 1 (see
https://de.wikipedia.org/wiki/HSV-Farbraum, the source quoted in Color.cpp:397). -/
def lossR (y : ℚ) : ℚ := clamp (2 - |y - 3|)
def lossG (y : ℚ) : ℚ := clamp (|y - 2| - 1)
def lossB (y : ℚ) : ℚ := clamp (|y - 4| - 1)

theorem clamp_cases (x : ℚ) : (x ≤ 0 ∧ clamp x = 0) ∨ (0 ≤ x ∧ x ≤ 1 ∧ clamp x = x) ∨ (1 ≤ x ∧ clamp x = 1) := by
  unfold clamp
  rcases le_total x 0 with h | h
  · left; exact ⟨h, by rw [min_eq_right (by linarith), max_eq_left h]⟩
  · rcases le_total x 1 with h1 | h1
    · right; left; exact ⟨h, h1, by rw [min_eq_right h1, max_eq_right h]⟩
    · right; right; exact ⟨h1, by rw [min_eq_left h1, max_eq_right (by norm_num)]⟩

theorem clamp_lip (x y : ℚ) : |clamp x - clamp y| ≤ |x - y| := by
  have h1 := neg_abs_le (x - y)
  have h2 := le_abs_self (x - y)
  rw [abs_le]
  rcases clamp_cases x with ⟨h, e⟩ | ⟨h, h', e⟩ | ⟨h, e⟩ <;> rcases clamp_cases y with ⟨g, d⟩ | ⟨g, g', d⟩ | ⟨g, d⟩ <;>
    rw [e, d] <;> constructor <;> linarith [abs_nonneg (x - y)]

theorem abs_lip (x y a : ℚ) : |(|x - a| - |y - a|)| ≤ |x - y| := by
  have := abs_abs_sub_abs_le (x - a) (y - a)
  simpa using this

theorem lossR_lip (x y : ℚ) : |lossR x - lossR y| ≤ |x - y| := by
  refine (clamp_lip _ _).trans ?_
  rw [show (2 - |x - 3| - (2 - |y - 3|)) = |y - 3| - |x - 3| by ring, abs_sub_comm x y]
  exact abs_lip y x 3
theorem lossG_lip (x y : ℚ) : |lossG x - lossG y| ≤ |x - y| := by
  refine (clamp_lip _ _).trans ?_
  rw [show (|x - 2| - 1 - (|y - 2| - 1)) = |x - 2| - |y - 2| by ring]
  exact abs_lip x y 2
theorem lossB_lip (x y : ℚ) : |lossB x - lossB y| ≤ |x - y| := by
  refine (clamp_lip _ _).trans ?_
  rw [show (|x - 4| - 1 - (|y - 4| - 1)) = |x - 4| - |y - 4| by ring]
  exact abs_lip x y 4

/-- byte `r` is 255 times `m`, rounded down (up to a rounding error of 1/1000) -/
def Scaled (r : Byte) (m : ℚ) : Prop := (r.toNat : ℚ) ≤ 255 * m + 1 / 1000 ∧ 255 * m < r.toNat + 1 + 1 / 1000

/-- The heart of `FromHsv`: for a hue `60 y` the components are those of the HSV model.
`v0` and `s0` are the exact value and saturation, `v` and `s` the floats. -/
theorem fromHsv_core (junk : Byte) (hue s v : F32) (v0 s0 : ℚ) (hh : Finite hue) (h0 : 0 ≤ val hue)
    (h1 : val hue ≤ 360) (hs : Finite s) (sl : 0 ≤ val s) (sh : val s ≤ 1) (hv : Finite v) (vl : 0 ≤ val v)
    (vh : val v ≤ 1) (ev : |val v - v0| ≤ 1 / 2 / 2 ^ 24) (v00 : 0 ≤ v0) (v01 : v0 ≤ 1)
    (es : |val s - s0| ≤ 1 / 2 / 2 ^ 24) (s00 : 0 ≤ s0) (s01 : s0 ≤ 1) :
    Finite (hue / lit 60 1) ∧ |val (hue / lit 60 1) - val hue / 60| ≤ 1 / 2 ^ 22 ∧
    ∀ (a : F32), Finite a → 0 ≤ val a → val a ≤ 1 →
    ∃ r, fromHsv junk hue s v a = .ok r ∧ r.mode = .rgb ∧
      Scaled r.red (v0 * (1 - s0 * lossR (val (hue / lit 60 1)))) ∧
      Scaled r.green (v0 * (1 - s0 * lossG (val (hue / lit 60 1)))) ∧
      Scaled r.blue (v0 * (1 - s0 * lossB (val (hue / lit 60 1)))) ∧ Scaled r.alpha (val a) := by
  have hd := div_rounds hh lit60.1 (by rw [lit60.2]; norm_num)
  rw [lit60.2] at hd
  have rp6 : Rp 6 := by simpa using rp_nat 6 (by decide)
  obtain ⟨fy, y0, y1⟩ := hd.between rp_zero rp6 (by linarith) (by linarith)
  have ey := hd.err 21 (by decide) (by rw [abs_of_nonneg (by linarith)]; norm_num; linarith)
  refine ⟨fy, ?_, ?_⟩
  · refine ey.trans ?_; norm_num
  intro a ha a0 a1
  unfold fromHsv
  generalize hue / lit 60 1 = y at *
  clear ey hd
  -- the sector
  have hi0 : 0 ≤ ⌊val y⌋ := Int.floor_nonneg.2 y0
  have hi1 : ⌊val y⌋ ≤ 6 := by
    have : ⌊val y⌋ < 7 := Int.floor_lt.2 (by push_cast; linarith)
    omega
  obtain ⟨ff, vf⟩ := floor_val fy (by omega)
  have ehi : toIntRange (-(2 ^ 31)) (2 ^ 31 - 1) (floor y) = .ok ⌊val y⌋ := by
    rw [toIntRange_nonneg ff _ _ (by decide) (by rw [vf]; exact_mod_cast hi0), vf, Int.floor_intCast,
      if_pos (by omega)]
  -- the fraction
  obtain ⟨fo, vo⟩ := val_ofInt ⌊val y⌋ (by omega)
  have sf := sub_rounds fy fo
  rw [vo] at sf
  have fl0 := Int.floor_le (val y)
  have fl1 := Int.lt_floor_add_one (val y)
  obtain ⟨fF, F0, F1⟩ := unit_between sf (by linarith) (by linarith)
  have eF := sf.err 24 (by decide) (b1 (by linarith) (by linarith))
  -- 1 - f
  have s1 := sub_rounds lit1.1 fF
  rw [lit1.2] at s1
  obtain ⟨fG, G0, G1⟩ := unit_between s1 (by linarith) (by linarith)
  have eG := s1.err 24 (by decide) (b1 (by linarith) (by linarith))
  -- s * f and s * (1 - f)
  have m1 := mul_rounds hs fF
  obtain ⟨fu, u0, u1⟩ := unit_between m1 (mul_nonneg sl F0) (mul_le_one₀ sh F0 F1)
  have eu := m1.err 24 (by decide) (b1 (mul_nonneg sl F0) (mul_le_one₀ sh F0 F1))
  have m2 := mul_rounds hs fG
  obtain ⟨fw, w0, w1⟩ := unit_between m2 (mul_nonneg sl G0) (mul_le_one₀ sh G0 G1)
  have ew := m2.err 24 (by decide) (b1 (mul_nonneg sl G0) (mul_le_one₀ sh G0 G1))
  have eu' : |val (s * (y - ofInt ⌊val y⌋)) - s0 * (val y - ⌊val y⌋)| ≤ 1 / 2 ^ 22 := by
    have := mul_err es eF F0 F1 s00 s01
    rw [abs_le] at this eu ⊢
    norm_num at this eu ⊢
    constructor <;> linarith
  have eG' : |val (lit 1 1 - (y - ofInt ⌊val y⌋)) - (1 - (val y - ⌊val y⌋))| ≤ 1 / 2 ^ 24 := by
    rw [abs_le] at eF eG ⊢
    norm_num at eF eG ⊢
    constructor <;> linarith
  have ew' : |val (s * (lit 1 1 - (y - ofInt ⌊val y⌋))) - s0 * (1 - (val y - ⌊val y⌋))| ≤ 1 / 2 ^ 22 := by
    have := mul_err es eG' G0 G1 s00 s01
    rw [abs_le] at this ew ⊢
    norm_num at this ew ⊢
    constructor <;> linarith
  -- the four bytes
  obtain ⟨rv, ov, cv⟩ := chanV v v0 hv vl vh ev
  obtain ⟨rp, op, cp⟩ := chan v s v0 s0 hv vl vh hs sl sh ev v00 v01 (es.trans (by norm_num))
  obtain ⟨rq, oq, cq⟩ := chan v _ v0 _ hv vl vh fu u0 u1 ev v00 v01 eu'
  obtain ⟨rt, ot, ct⟩ := chan v _ v0 _ hv vl vh fw w0 w1 ev v00 v01 ew'
  obtain ⟨ra, oa, ca⟩ := chanV a (val a) ha a0 a1 (by rw [sub_self, abs_zero]; norm_num)
  have cv' : Scaled rv (v0 * (1 - s0 * 0)) := by rw [mul_zero, sub_zero, mul_one]; exact cv
  have cp' : Scaled rp (v0 * (1 - s0 * 1)) := by rw [mul_one]; exact cp
  have cq' : Scaled rq (v0 * (1 - s0 * (val y - ⌊val y⌋))) := cq
  have ct' : Scaled rt (v0 * (1 - s0 * (1 - (val y - ⌊val y⌋)))) := ct
  clear cv cp cq ct ew' eu' eG' ew eu eG eF m1 m2 s1 sf
  -- assemble
  have asm : ∀ (F G H : F32) (x z w : Byte), toByte (F * lit 255 1) = .ok x → toByte (G * lit 255 1) = .ok z →
      toByte (H * lit 255 1) = .ok w → rgbOf junk F G H = .ok (fromRgb junk x z w 255) := by
    intro F G H x z w e1 e2 e3
    unfold rgbOf; rw [e1, e2, e3]; rfl
  have fin : ∀ c, sector junk ⌊val y⌋ v (pOf v s) (qOf v s (y - ofInt ⌊val y⌋)) (tOf v s (y - ofInt ⌊val y⌋)) = .ok c →
      (do
        let hi ← toIntRange (-(2 ^ 31)) (2 ^ 31 - 1) (floor y)
        let f := y - ofInt hi
        let c ← sector junk hi v (pOf v s) (qOf v s f) (tOf v s f)
        let b ← toByte (a * lit 255 1)
        return c.setAlpha b : Res Color) = .ok (c.setAlpha ra) := by
    intro c hc
    rw [ehi]
    simp only [bind, Except.bind]
    rw [hc]
    simp only [oa]
    rfl
  have tri : ∀ (x z w : Byte), sector junk ⌊val y⌋ v (pOf v s) (qOf v s (y - ofInt ⌊val y⌋)) (tOf v s (y - ofInt ⌊val y⌋)) =
        .ok (fromRgb junk x z w 255) →
      Scaled x (v0 * (1 - s0 * lossR (val y))) → Scaled z (v0 * (1 - s0 * lossG (val y))) →
      Scaled w (v0 * (1 - s0 * lossB (val y))) →
      ∃ r, (do
        let hi ← toIntRange (-(2 ^ 31)) (2 ^ 31 - 1) (floor y)
        let f := y - ofInt hi
        let c ← sector junk hi v (pOf v s) (qOf v s f) (tOf v s f)
        let b ← toByte (a * lit 255 1)
        return c.setAlpha b : Res Color) = .ok r ∧ r.mode = .rgb ∧
      Scaled r.red (v0 * (1 - s0 * lossR (val y))) ∧ Scaled r.green (v0 * (1 - s0 * lossG (val y))) ∧
      Scaled r.blue (v0 * (1 - s0 * lossB (val y))) ∧ Scaled r.alpha (val a) := by
    intro x z w e c1 c2 c3
    exact ⟨_, fin _ e, rfl, c1, c2, c3, ca⟩
  have e60 := (asm v (tOf v s (y - ofInt ⌊val y⌋)) (pOf v s) rv rt rp ov ot op)
  generalize hf : val y - (⌊val y⌋ : ℚ) = f at *
  have f0 : 0 ≤ f := by linarith
  have f1 : f < 1 := by linarith
  have hy : val y = ⌊val y⌋ + f := by linarith
  -- the loss curves in each sector
  have l0 : ∀ x : ℚ, x ≤ 0 → clamp x = 0 := fun x hx => by
    rcases clamp_cases x with ⟨h, e⟩ | ⟨h, h', e⟩ | ⟨h, e⟩ <;> linarith
  have l1 : ∀ x : ℚ, 1 ≤ x → clamp x = 1 := fun x hx => by
    rcases clamp_cases x with ⟨h, e⟩ | ⟨h, h', e⟩ | ⟨h, e⟩ <;> linarith
  have lm : ∀ x : ℚ, 0 ≤ x → x ≤ 1 → clamp x = x := fun x hx hx' => by
    rcases clamp_cases x with ⟨h, e⟩ | ⟨h, h', e⟩ | ⟨h, e⟩ <;> linarith
  obtain hc | hc | hc | hc | hc | hc | hc : ⌊val y⌋ = 0 ∨ ⌊val y⌋ = 1 ∨ ⌊val y⌋ = 2 ∨ ⌊val y⌋ = 3 ∨ ⌊val y⌋ = 4 ∨
      ⌊val y⌋ = 5 ∨ ⌊val y⌋ = 6 := by omega
  · -- sector 0
    rw [hc] at hy; push_cast at hy
    have e1 : lossR (val y) = 0 := by unfold lossR; rw [abs_of_nonpos (by linarith)]; exact l0 _ (by linarith)
    have e2 : lossG (val y) = 1 - f := by
      unfold lossG; rw [abs_of_nonpos (by linarith), lm _ (by linarith) (by linarith), hy]; ring
    have e3 : lossB (val y) = 1 := by unfold lossB; rw [abs_of_nonpos (by linarith)]; exact l1 _ (by linarith)
    refine tri rv rt rp ?_ (by rw [e1]; exact cv') (by rw [e2]; exact ct') (by rw [e3]; exact cp')
    unfold sector; rw [if_pos (Or.inl hc)]; exact e60
  · rw [hc] at hy; push_cast at hy
    have e1 : lossR (val y) = f := by
      unfold lossR; rw [abs_of_nonpos (by linarith), lm _ (by linarith) (by linarith), hy]; ring
    have e2 : lossG (val y) = 0 := by
      unfold lossG; refine l0 _ ?_
      have : |val y - 2| ≤ 1 := by rw [abs_le]; constructor <;> linarith
      linarith
    have e3 : lossB (val y) = 1 := by unfold lossB; rw [abs_of_nonpos (by linarith)]; exact l1 _ (by linarith)
    refine tri rq rv rp ?_ (by rw [e1]; exact cq') (by rw [e2]; exact cv') (by rw [e3]; exact cp')
    unfold sector; rw [if_neg (by omega), if_pos hc]; exact asm _ _ _ _ _ _ oq ov op
  · rw [hc] at hy; push_cast at hy
    have e1 : lossR (val y) = 1 := by
      unfold lossR; rw [abs_of_nonpos (by linarith)]; exact l1 _ (by linarith)
    have e2 : lossG (val y) = 0 := by
      unfold lossG; refine l0 _ ?_
      have : |val y - 2| ≤ 1 := by rw [abs_le]; constructor <;> linarith
      linarith
    have e3 : lossB (val y) = 1 - f := by
      unfold lossB; rw [abs_of_nonpos (by linarith), lm _ (by linarith) (by linarith), hy]; ring
    refine tri rp rv rt ?_ (by rw [e1]; exact cp') (by rw [e2]; exact cv') (by rw [e3]; exact ct')
    unfold sector; rw [if_neg (by omega), if_neg (by omega), if_pos hc]; exact asm _ _ _ _ _ _ op ov ot
  · rw [hc] at hy; push_cast at hy
    have e1 : lossR (val y) = 1 := by
      unfold lossR; rw [abs_of_nonneg (by linarith)]; exact l1 _ (by linarith)
    have e2 : lossG (val y) = f := by
      unfold lossG; rw [abs_of_nonneg (by linarith), lm _ (by linarith) (by linarith), hy]; ring
    have e3 : lossB (val y) = 0 := by
      unfold lossB; refine l0 _ ?_
      have : |val y - 4| ≤ 1 := by rw [abs_le]; constructor <;> linarith
      linarith
    refine tri rp rq rv ?_ (by rw [e1]; exact cp') (by rw [e2]; exact cq') (by rw [e3]; exact cv')
    unfold sector; rw [if_neg (by omega), if_neg (by omega), if_neg (by omega), if_pos hc]; exact asm _ _ _ _ _ _ op oq ov
  · rw [hc] at hy; push_cast at hy
    have e1 : lossR (val y) = 1 - f := by
      unfold lossR; rw [abs_of_nonneg (by linarith), lm _ (by linarith) (by linarith), hy]; ring
    have e2 : lossG (val y) = 1 := by
      unfold lossG; rw [abs_of_nonneg (by linarith)]; exact l1 _ (by linarith)
    have e3 : lossB (val y) = 0 := by
      unfold lossB; refine l0 _ ?_
      have : |val y - 4| ≤ 1 := by rw [abs_le]; constructor <;> linarith
      linarith
    refine tri rt rp rv ?_ (by rw [e1]; exact ct') (by rw [e2]; exact cp') (by rw [e3]; exact cv')
    unfold sector
    rw [if_neg (by omega), if_neg (by omega), if_neg (by omega), if_neg (by omega), if_pos hc]
    exact asm _ _ _ _ _ _ ot op ov
  · rw [hc] at hy; push_cast at hy
    have e1 : lossR (val y) = 0 := by
      unfold lossR; rw [abs_of_nonneg (by linarith)]; exact l0 _ (by linarith)
    have e2 : lossG (val y) = 1 := by
      unfold lossG; rw [abs_of_nonneg (by linarith)]; exact l1 _ (by linarith)
    have e3 : lossB (val y) = f := by
      unfold lossB; rw [abs_of_nonneg (by linarith), lm _ (by linarith) (by linarith), hy]; ring
    refine tri rv rp rq ?_ (by rw [e1]; exact cv') (by rw [e2]; exact cp') (by rw [e3]; exact cq')
    unfold sector
    rw [if_neg (by omega), if_neg (by omega), if_neg (by omega), if_neg (by omega), if_neg (by omega), if_pos hc]
    exact asm _ _ _ _ _ _ ov op oq
  · rw [hc] at hy; push_cast at hy
    have f0' : f = 0 := by linarith
    rw [f0'] at ct' hy
    have e1 : lossR (val y) = 0 := by unfold lossR; rw [abs_of_nonneg (by linarith)]; exact l0 _ (by linarith)
    have e2 : lossG (val y) = 1 - 0 := by
      unfold lossG; rw [abs_of_nonneg (by linarith), l1 _ (by linarith)]; ring
    have e3 : lossB (val y) = 1 := by unfold lossB; rw [abs_of_nonneg (by linarith)]; exact l1 _ (by linarith)
    refine tri rv rt rp ?_ (by rw [e1]; exact cv') (by rw [e2]; exact ct') (by rw [e3]; exact cp')
    unfold sector; rw [if_pos (Or.inr hc)]; exact e60

end Verif.Color
