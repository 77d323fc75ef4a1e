import Verif.Geom.CircleProps
import Mathlib.Analysis.Real.Pi.Bounds
/-
C83: arcs.
-/
namespace Verif.Geom
open Verif Verif.Exact Verif.Mx Verif.Mx.Mat Verif.Vtx

/-- Specification: `p` is seen from `c` under an angle between `a` and `b`, the limits excluded. -/
def Sector (c : R2) (a b : ℝ) (p : R2) : Prop :=
  ∃ φ : ℝ, a < φ ∧ φ < b ∧ p - c = R2.dist p c * (⟨Real.cos φ, Real.sin φ⟩ : R2)
/-- Specification: the end of an arc, moved by full turns to the first turn after the start -/
def EndOf (start finish e : ℝ) : Prop := (∃ k : ℤ, e = finish + k * (2 * Real.pi)) ∧ start + tol ≤ e ∧ e < start + tol + 2 * Real.pi
/-- Specification: `p` is seen from `c` between the angles `start` and `finish`, counter-clockwise, up to 10^-6 -/
def Within (c : R2) (start finish : ℝ) (p : R2) : Prop := ∃ e : ℝ, EndOf start finish e ∧ Sector c (start - tol) (e + tol) p
/-- The start angles for which the code is right: below -π + 10^-6 and for more than one turn after a negative
start it is not. -/
def Angles (start finish : ℝ) : Prop := -Real.pi + tol ≤ start ∧ (0 ≤ start ∨ finish < start + tol + 2 * Real.pi)

/-! ### Loops -/

theorem while_run {S : Type} (c : S → Bool) (f : S → S) (s : Nat → S) (hs : ∀ i, f (s i) = s (i + 1)) :
    ∀ (j i : Nat), (∀ k, i ≤ k → k < i + j → c (s k) = true) → c (s (i + j)) = false → ∀ n, j ≤ n → whileN c f n (s i) = some (s (i + j)) := by
  intro j
  induction j with
  | zero =>
    intro i _ h n _
    cases n <;> simp only [whileN, Nat.add_zero] at * <;> rw [h] <;> rfl
  | succ j ih =>
    intro i h1 h2 n hn
    obtain ⟨n, rfl⟩ : ∃ m, n = m + 1 := ⟨n - 1, by omega⟩
    rw [whileN, h1 i (Nat.le_refl _) (by omega), if_pos rfl, hs]
    rw [show i + (j + 1) = i + 1 + j by omega] at h2 ⊢
    exact ih (i + 1) (fun k a b => h1 k (by omega) (by omega)) h2 n (by omega)

theorem twoPi_r : (twoPi : X) = .r (2 * Real.pi) := by
  unfold twoPi; rw [two_r, X.pi_r, X.mul_r]

theorem two_pi_pos : 0 < 2 * Real.pi := by linarith [Real.pi_pos]
theorem tol_lt : tol < 1 := by unfold tol; norm_num

/-- the loops that go down -/
theorem loop_down (s : ℝ) : ∃ j : ℕ, (∀ n, j ≤ n → whileN (fun x => isGreaterEqual x twoPi) (· - twoPi) n (X.r s) = some (.r (s - j * (2 * Real.pi)))) ∧
    s - j * (2 * Real.pi) ≤ 2 * Real.pi - tol ∧ (j = 0 ∨ -tol < s - j * (2 * Real.pi)) := by
  classical
  have hex : ∃ i : ℕ, s - i * (2 * Real.pi) ≤ 2 * Real.pi - tol := by
    obtain ⟨i, hi⟩ := exists_nat_gt (s / (2 * Real.pi))
    refine ⟨i, ?_⟩
    rw [div_lt_iff₀ two_pi_pos] at hi
    have := Real.pi_gt_three
    have := tol_lt
    linarith
  refine ⟨Nat.find hex, ?_, Nat.find_spec hex, ?_⟩
  · have hrun := while_run (fun x => isGreaterEqual x twoPi) (· - twoPi) (fun i : ℕ => X.r (s - i * (2 * Real.pi))) (by
      intro i
      rw [twoPi_r, X.sub_r]; congr 1; push_cast; ring) (Nat.find hex) 0
      (by
        intro k _ hk
        have := Nat.find_min hex (by omega : k < Nat.find hex)
        rw [twoPi_r, X.isGreaterEqual_r]
        rw [not_le] at this
        exact this)
      (by
        have := Nat.find_spec hex
        rw [Nat.zero_add, twoPi_r, ← Bool.not_eq_true, X.isGreaterEqual_r, not_lt]
        exact this)
    simpa using hrun
  · rcases Nat.eq_zero_or_pos (Nat.find hex) with h | h
    · exact .inl h
    · right
      have := Nat.find_min hex (by omega : Nat.find hex - 1 < Nat.find hex)
      rw [not_le, Nat.cast_sub h] at this
      push_cast at this
      linarith

/-- the loops that go up -/
theorem loop_up (s b : ℝ) (c : X → Bool) (P : ℝ → Prop) (hc : ∀ x : ℝ, c (.r x) = true ↔ P x) (hP : ∀ x, P x → x ≤ b) : ∃ j : ℕ,
    (∀ n, j ≤ n → whileN c (· + twoPi) n (X.r s) = some (.r (s + j * (2 * Real.pi)))) ∧
    ¬ P (s + j * (2 * Real.pi)) ∧ (j = 0 ∨ P (s + j * (2 * Real.pi) - 2 * Real.pi)) := by
  classical
  have hex : ∃ i : ℕ, ¬ P (s + i * (2 * Real.pi)) := by
    obtain ⟨i, hi⟩ := exists_nat_gt ((b - s) / (2 * Real.pi))
    refine ⟨i, fun h => ?_⟩
    have := hP _ h
    rw [div_lt_iff₀ two_pi_pos] at hi
    linarith
  refine ⟨Nat.find hex, ?_, Nat.find_spec hex, ?_⟩
  · have hrun := while_run c (· + twoPi) (fun i : ℕ => X.r (s + i * (2 * Real.pi))) (by
      intro i
      rw [twoPi_r, X.add_r]; congr 1; push_cast; ring) (Nat.find hex) 0
      (by
        intro k _ hk
        have := Nat.find_min hex (by omega : k < Nat.find hex)
        rw [hc]
        exact not_not.1 this)
      (by
        have := Nat.find_spec hex
        rw [Nat.zero_add, ← Bool.not_eq_true, hc]
        exact this)
    simpa using hrun
  · rcases Nat.eq_zero_or_pos (Nat.find hex) with h | h
    · exact .inl h
    · right
      have := Nat.find_min hex (by omega : Nat.find hex - 1 < Nat.find hex)
      rw [not_not, Nat.cast_sub h] at this
      push_cast at this
      rwa [show s + (Nat.find hex - 1 : ℝ) * (2 * Real.pi) = s + Nat.find hex * (2 * Real.pi) - 2 * Real.pi by ring] at this

/-! ### The angle of a point -/

theorem arg_polar (v : R2) : v = R2.norm v * (⟨Real.cos (Complex.arg ⟨v.x, v.y⟩), Real.sin (Complex.arg ⟨v.x, v.y⟩)⟩ : R2) := by
  have hn : ‖(⟨v.x, v.y⟩ : ℂ)‖ = R2.norm v := by
    rw [Complex.norm_def, Complex.normSq_mk]; rfl
  have h := Complex.norm_mul_cos_add_sin_mul_I (⟨v.x, v.y⟩ : ℂ)
  have h1 := Complex.norm_mul_cos_arg (⟨v.x, v.y⟩ : ℂ)
  have h2 := Complex.norm_mul_sin_arg (⟨v.x, v.y⟩ : ℂ)
  rw [hn] at h1 h2
  ext
  · simpa using h1.symm
  · simpa using h2.symm

theorem sector_iff {c p : R2} {a b : ℝ} (hne : p ≠ c) :
    Sector c a b p ↔ ∃ k : ℤ, a < Complex.arg ⟨(p - c).x, (p - c).y⟩ + k * (2 * Real.pi) ∧
      Complex.arg ⟨(p - c).x, (p - c).y⟩ + k * (2 * Real.pi) < b := by
  have hpol := arg_polar (p - c)
  set α := Complex.arg ⟨(p - c).x, (p - c).y⟩ with hα
  have hn : R2.norm (p - c) ≠ 0 := by
    intro h0
    apply hne
    have := R2.norm_eq_zero.1 h0
    have ex := congrArg V2.x this
    have ey := congrArg V2.y this
    simp at ex ey
    exact R2.ext (by linarith) (by linarith)
  constructor
  · rintro ⟨φ, h1, h2, h3⟩
    have h3' : p - c = R2.norm (p - c) * (⟨Real.cos φ, Real.sin φ⟩ : R2) := h3
    have e := hpol.symm.trans h3'
    have ex := congrArg V2.x e
    have ey := congrArg V2.y e
    simp only [R2.smul_x, R2.smul_y] at ex ey
    have cx := mul_left_cancel₀ hn ex
    have cy := mul_left_cancel₀ hn ey
    have hang : (φ : Real.Angle) = (α : Real.Angle) := Real.Angle.cos_sin_inj cx.symm cy.symm
    obtain ⟨k, hk⟩ := Real.Angle.angle_eq_iff_two_pi_dvd_sub.1 hang
    refine ⟨k, ?_, ?_⟩ <;> linarith
  · rintro ⟨k, h1, h2⟩
    refine ⟨α + k * (2 * Real.pi), h1, h2, ?_⟩
    rw [Real.cos_add_int_mul_two_pi, Real.sin_add_int_mul_two_pi]
    exact hpol

/-- Is a point seen from the centre between the two angles?  For start angles of at least -π + 10^-6: the answer is right,
up to 10^-6 at both ends, and the loops terminate.  An arc ends in the first turn after its start: an end that is not
10^-6 after the start is moved by full turns, so that equal angles are a full circle.  Missing: smaller start
angles, see `checkAngle_wrong`; doubles, see `checkAngle_endless`. -/
theorem checkAngle_partial (p c : R2) (start finish : ℝ) (hne : p ≠ c) (ha : Angles start finish) :
    ∃ (N : ℕ) (b : Bool), (∀ n, N ≤ n → checkAngle n p.toX c.toX (.r start) (.r finish) = some b) ∧
      (b = true ↔ Within c start finish p) := by
  obtain ⟨j1, r1, u1, v1⟩ := loop_down start
  obtain ⟨j2, r2, u2, v2⟩ := loop_down finish
  set s := start - j1 * (2 * Real.pi) with hs
  set f := finish - j2 * (2 * Real.pi) with hf
  obtain ⟨j3, r3, u3, v3⟩ := loop_up f (s + tol) (fun x => isLessEqual x (X.r s)) (fun x => x < s + tol) (by intro x; rw [X.isLessEqual_r]; rfl)
    (fun x h => h.le)
  set α := Complex.arg ⟨(p - c).x, (p - c).y⟩ with hα
  obtain ⟨j4, r4, u4, v4⟩ := loop_up α (s - tol) (fun x => isLess x (X.r s)) (fun x => x + tol ≤ s) (by intro x; rw [X.isLess_r]; rfl)
    (fun x h => by linarith)
  rw [not_lt] at u3
  rw [not_le] at u4
  set e := f + j3 * (2 * Real.pi) with he
  set β := α + j4 * (2 * Real.pi) with hβ
  have hpi := Real.pi_gt_three
  have htol := tol_lt
  have htp := tol_pos
  have hα1 : -Real.pi < α := Complex.neg_pi_lt_arg _
  have hα2 : α ≤ Real.pi := Complex.arg_le_pi _
  -- the reduced start is not below -π + tol
  have hs1 : -Real.pi + tol ≤ s := by
    rcases v1 with h | h
    · rw [hs, h]; simpa using ha.1
    · linarith
  -- the end is in the first turn
  have he2 : e < s + tol + 2 * Real.pi := by
    rcases v3 with h | h
    · have hef : e = f := by rw [he, h]; simp
      rw [hef]
      rcases v1 with h1 | h1
      · have hss : s = start := by rw [hs, h1]; simp
        rcases ha.2 with h0 | h0
        · rw [hss]; linarith
        · rw [hss]
          have : f ≤ finish := by
            rw [hf]
            have : (0:ℝ) ≤ j2 * (2 * Real.pi) := by positivity
            linarith
          linarith
      · linarith
    · linarith
  have hβ2 : β ≤ s - tol + 2 * Real.pi := by
    rcases v4 with h | h
    · have : β = α := by rw [hβ, h]; simp
      rw [this]; linarith
    · linarith
  have hangle : Libm.atan2 (p.toX.minus c.toX).y (p.toX.minus c.toX).x = X.r α := rfl
  refine ⟨j1 + j2 + j3 + j4, isLessEqual (X.r β) (X.r e), ?_, ?_⟩
  · intro n hn
    simp only [checkAngle]
    rw [hangle]
    rw [r1 n (by omega), Option.bind_eq_bind, Option.bind_some, r2 n (by omega), Option.bind_some, r3 n (by omega), Option.bind_some,
      r4 n (by omega)]
    rfl
  · rw [X.isLessEqual_r]
    show β < e + tol ↔ _
    have hshift : start = s + j1 * (2 * Real.pi) := by rw [hs]; ring
    constructor
    · intro h
      refine ⟨e + j1 * (2 * Real.pi), ⟨⟨(j1 : ℤ) + j3 - j2, ?_⟩, ?_, ?_⟩, ?_⟩
      · rw [he, hf]; push_cast; ring
      · linarith
      · linarith
      · rw [sector_iff hne]
        refine ⟨(j4 : ℤ) + j1, ?_, ?_⟩
        · rw [← hα]; push_cast
          rw [hβ] at u4; linarith
        · rw [← hα]; push_cast
          rw [hβ] at h; linarith
    · rintro ⟨e', ⟨⟨k, hk⟩, h1, h2⟩, hsec⟩
      rw [sector_iff hne, ← hα] at hsec
      obtain ⟨m, h3, h4⟩ := hsec
      -- the two ends are the same
      have hee : e' = e + j1 * (2 * Real.pi) := by
        have d : e' - (e + j1 * (2 * Real.pi)) = ((k - j1 - j3 + j2 : ℤ) : ℝ) * (2 * Real.pi) := by
          rw [hk, he, hf]; push_cast; ring
        have hz : (k - j1 - j3 + j2 : ℤ) = 0 := by
          have l1 : ((k - j1 - j3 + j2 : ℤ) : ℝ) * (2 * Real.pi) < 1 * (2 * Real.pi) := by rw [← d]; linarith
          have l2 : (-1 : ℝ) * (2 * Real.pi) < ((k - j1 - j3 + j2 : ℤ) : ℝ) * (2 * Real.pi) := by rw [← d]; linarith
          have l1' := lt_of_mul_lt_mul_right l1 two_pi_pos.le
          have l2' := lt_of_mul_lt_mul_right l2 two_pi_pos.le
          have a1 : (k - j1 - j3 + j2 : ℤ) < 1 := by exact_mod_cast l1'
          have a2 : (-1 : ℤ) < (k - j1 - j3 + j2 : ℤ) := by exact_mod_cast l2'
          omega
        rw [hz] at d
        simp at d; linarith
      -- β is the smallest angle after the start
      have hmin : β ≤ α + m * (2 * Real.pi) - j1 * (2 * Real.pi) := by
        by_contra hc
        rw [not_le] at hc
        have d : β - (α + m * (2 * Real.pi) - j1 * (2 * Real.pi)) = ((j4 - m + j1 : ℤ) : ℝ) * (2 * Real.pi) := by
          rw [hβ]; push_cast; ring
        have l1 : (0 : ℝ) * (2 * Real.pi) < ((j4 - m + j1 : ℤ) : ℝ) * (2 * Real.pi) := by rw [← d]; linarith
        have l2 : ((j4 - m + j1 : ℤ) : ℝ) * (2 * Real.pi) < 1 * (2 * Real.pi) := by rw [← d]; linarith
        have l1' := lt_of_mul_lt_mul_right l1 two_pi_pos.le
        have l2' := lt_of_mul_lt_mul_right l2 two_pi_pos.le
        have a1 : (0 : ℤ) < (j4 - m + j1 : ℤ) := by exact_mod_cast l1'
        have a2 : (j4 - m + j1 : ℤ) < 1 := by exact_mod_cast l2'
        omega
      rw [hee] at h4
      linarith

example : (⟨0, 1⟩ : R2) ≠ ⟨0, 0⟩ ∧ Angles 0 Real.pi ∧ Within ⟨0, 0⟩ 0 Real.pi ⟨0, 1⟩ := by
  have hpi := Real.pi_gt_three
  have htol := tol_lt
  have htp := tol_pos
  refine ⟨fun e => ?_, ⟨by linarith, .inl le_rfl⟩, Real.pi, ⟨⟨0, by simp⟩, by linarith, by linarith⟩, Real.pi / 2, by linarith, by linarith, ?_⟩
  · have := congrArg V2.y e; norm_num at this
  · have : R2.dist ⟨0, 1⟩ ⟨0, 0⟩ = 1 := R2.norm_unit.2 (by norm_num [R2.dot])
    rw [this, Real.cos_pi_div_two, Real.sin_pi_div_two]
    ext <;> norm_num

/-- The point (-1, 0) is on the arc from -3π/2 to -π/2 around the origin, but the answer is no. -/
theorem checkAngle_wrong : checkAngle 0 (R2.toX ⟨-1, 0⟩) (R2.toX ⟨0, 0⟩) (.r (-(3 * Real.pi / 2))) (.r (-(Real.pi / 2))) = some false ∧
    Within ⟨0, 0⟩ (-(3 * Real.pi / 2)) (-(Real.pi / 2)) ⟨-1, 0⟩ := by
  have hpi := Real.pi_gt_three
  have htol := tol_lt
  have htp := tol_pos
  constructor
  · have hangle : Libm.atan2 ((R2.toX ⟨-1, 0⟩).minus (R2.toX ⟨0, 0⟩)).y ((R2.toX ⟨-1, 0⟩).minus (R2.toX ⟨0, 0⟩)).x = X.r Real.pi := by
      show X.r (Complex.arg ⟨-1 - 0, 0 - 0⟩) = _
      congr 1
      have : (⟨-1 - 0, 0 - 0⟩ : ℂ) = -1 := by apply Complex.ext <;> simp
      rw [this, Complex.arg_neg_one]
    have w : ∀ (c : X → Bool) (f : X → X) (s : X), c s = false → whileN c f 0 s = some s := by
      intro c f s h; unfold whileN; rw [h]; rfl
    simp only [checkAngle]
    rw [hangle]
    rw [w _ _ _ (by rw [twoPi_r, ← Bool.not_eq_true, X.isGreaterEqual_r]; unfold tol at *; linarith), Option.bind_eq_bind, Option.bind_some]
    rw [w _ _ _ (by rw [twoPi_r, ← Bool.not_eq_true, X.isGreaterEqual_r]; unfold tol at *; linarith), Option.bind_some]
    rw [w _ _ _ (by rw [← Bool.not_eq_true, X.isLessEqual_r]; unfold tol at *; linarith), Option.bind_some]
    rw [w _ _ _ (by rw [← Bool.not_eq_true, X.isLess_r]; unfold tol at *; linarith), Option.bind_some]
    show some _ = _
    congr 1
    rw [← Bool.not_eq_true, X.isLessEqual_r]; unfold tol at *; linarith
  · refine ⟨-(Real.pi / 2), ⟨⟨0, by simp⟩, by linarith, by linarith⟩, -Real.pi, by linarith, by linarith, ?_⟩
    have : R2.dist ⟨-1, 0⟩ ⟨0, 0⟩ = 1 := R2.norm_unit.2 (by norm_num [R2.dot])
    rw [this, Real.cos_neg, Real.sin_neg, Real.cos_pi, Real.sin_pi]
    ext <;> norm_num

end Verif.Geom
