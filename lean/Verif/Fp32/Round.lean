import Verif.Fp32.Model
import Mathlib.Tactic.Ring
import Mathlib.Tactic.Linarith
/-
Correctness of the rounding of the model of IEEE 754 (`Verif/Fp/Model.lean`): lemmas on bit
patterns.
-/
namespace Verif.Fp32
open Verif

theorem mag_split (k q : Nat) (hq : q ≤ 2 ^ 24) (hk : k = 0 ∨ 2 ^ 23 ≤ q) :
    mag (k * 2 ^ 23 + q) = q * 2 ^ k := by
  by_cases h1 : q < 2 ^ 23
  · have hk0 : k = 0 := by omega
    subst hk0
    have he : (0 * 2 ^ 23 + q) / 2 ^ 23 - 1 = 0 := by omega
    have hm : 0 * 2 ^ 23 + q < 2 ^ 23 := by omega
    simp only [mag, mant, expo]
    rw [he, if_pos hm]; omega
  · by_cases h2 : q = 2 ^ 24
    · subst h2
      have he : (k * 2 ^ 23 + 2 ^ 24) / 2 ^ 23 - 1 = k + 1 := by omega
      have hm : ¬ (k * 2 ^ 23 + 2 ^ 24 < 2 ^ 23) := by omega
      have hr : (k * 2 ^ 23 + 2 ^ 24) % 2 ^ 23 = 0 := by omega
      simp only [mag, mant, expo]
      rw [he, if_neg hm, hr, pow_succ]; ring
    · have he : (k * 2 ^ 23 + q) / 2 ^ 23 - 1 = k := by omega
      have hm : ¬ (k * 2 ^ 23 + q < 2 ^ 23) := by omega
      have hr : 2 ^ 23 + (k * 2 ^ 23 + q) % 2 ^ 23 = q := by omega
      simp only [mag, mant, expo]
      rw [he, if_neg hm, hr]

theorem bits_split (b : Nat) : b = expo b * 2 ^ 23 + mant b ∧ mant b < 2 ^ 24 ∧
    (expo b = 0 ∨ 2 ^ 23 ≤ mant b) := by
  unfold expo mant
  split <;> omega

theorem mag_succ (b : Nat) : mag (b + 1) = mag b + 2 ^ expo b := by
  obtain ⟨h1, h2, h3⟩ := bits_split b
  have e : b + 1 = expo b * 2 ^ 23 + (mant b + 1) := by omega
  rw [e, mag_split _ _ (by omega) (by omega)]
  simp only [mag]; ring

theorem mag_lt_succ (b : Nat) : mag b < mag (b + 1) := by
  rw [mag_succ]; have := Nat.two_pow_pos (expo b); omega

theorem mag_lt {a b : Nat} (h : a < b) : mag a < mag b := by
  induction h with
  | refl => exact mag_lt_succ a
  | step _ ih => exact Nat.lt_trans ih (mag_lt_succ _)

theorem mag_le {a b : Nat} (h : a ≤ b) : mag a ≤ mag b := by
  rcases Nat.lt_or_eq_of_le h with h | h
  · exact Nat.le_of_lt (mag_lt h)
  · rw [h]

theorem mag_lt_iff {a b : Nat} : mag a < mag b ↔ a < b := by
  constructor
  · intro h; by_contra hc; have := mag_le (Nat.le_of_not_lt hc); omega
  · exact mag_lt

theorem mag_inj {a b : Nat} (h : mag a = mag b) : a = b := by
  rcases Nat.lt_trichotomy a b with h1 | h1 | h1
  · have := mag_lt h1; omega
  · exact h1
  · have := mag_lt h1; omega

theorem mag_zero : mag 0 = 0 := by simp [mag, mant, expo]

theorem mag_eq_zero {b : Nat} : mag b = 0 ↔ b = 0 :=
  ⟨fun h => mag_inj (by rw [h, mag_zero]), fun h => by rw [h, mag_zero]⟩

/-- what the exponent and mantissa chosen by `roundBits` satisfy -/
theorem round_aux (n d : Nat) (hd : 0 < d) :
    let k := Nat.log2 (n / d) - 23
    let q := n / (d * 2 ^ k)
    q < 2 ^ 24 ∧ (k = 0 ∨ 2 ^ 23 ≤ q) := by
  intro k q
  have hq : q = n / d / 2 ^ k := by show n / (d * 2 ^ k) = _; rw [Nat.div_div_eq_div_mul]
  by_cases h0 : n / d = 0
  · have hk : k = 0 := by show Nat.log2 (n / d) - 23 = 0; rw [h0]; decide
    refine ⟨?_, Or.inl hk⟩
    rw [hq, h0]; simp
  · have hlo : 2 ^ (n / d).log2 ≤ n / d := Nat.log2_self_le h0
    have hhi : n / d < 2 ^ ((n / d).log2 + 1) := Nat.lt_log2_self
    by_cases hL : (n / d).log2 ≤ 23
    · have hk : k = 0 := by show Nat.log2 (n / d) - 23 = 0; omega
      refine ⟨?_, Or.inl hk⟩
      rw [hq, hk]
      have : (2 : Nat) ^ ((n / d).log2 + 1) ≤ 2 ^ 24 := Nat.pow_le_pow_right (by omega) (by omega)
      simp only [Nat.pow_zero, Nat.div_one]; omega
    · have hkL : (n / d).log2 = 23 + k := by show _ = 23 + (Nat.log2 (n / d) - 23); omega
      rw [hkL] at hlo hhi
      refine ⟨?_, Or.inr ?_⟩
      · rw [hq, Nat.div_lt_iff_lt_mul (Nat.two_pow_pos k), ← Nat.pow_add]
        have e : 24 + k = 23 + k + 1 := by omega
        rw [e]; exact hhi
      · rw [hq, Nat.le_div_iff_mul_le (Nat.two_pow_pos k), ← Nat.pow_add]; exact hlo

/-- The rounded bit pattern is the nearest one: `n/d` lies between the midpoints to its
neighbours, and on a midpoint only if the pattern is even. -/
theorem round_bracket (n d : Nat) (hd : 0 < d) :
    let B := roundBits n d
    (2 * n ≤ d * (mag B + mag (B + 1)) ∧ (2 * n = d * (mag B + mag (B + 1)) → B % 2 = 0)) ∧
    (0 < B → d * (mag (B - 1) + mag B) ≤ 2 * n ∧
      (2 * n = d * (mag (B - 1) + mag B) → B % 2 = 0)) := by
  obtain ⟨h1, h2⟩ := round_aux n d hd
  obtain ⟨k, hk⟩ : ∃ k, k = Nat.log2 (n / d) - 23 := ⟨_, rfl⟩
  simp only [roundBits]
  rw [← hk] at h1 h2 ⊢
  obtain ⟨q, hq⟩ : ∃ q, q = n / (d * 2 ^ k) := ⟨_, rfl⟩
  obtain ⟨r, hr⟩ : ∃ r, r = n % (d * 2 ^ k) := ⟨_, rfl⟩
  rw [← hq] at h1 h2
  rw [← hq, ← hr]
  have hn : n = d * 2 ^ k * q + r := by rw [hq, hr]; exact (Nat.div_add_mod _ _).symm
  have hP : 0 < d * 2 ^ k := Nat.mul_pos hd (Nat.two_pow_pos k)
  have hrlt : r < d * 2 ^ k := by rw [hr]; exact Nat.mod_lt _ hP
  obtain ⟨b, hb⟩ : ∃ b, b = k * 2 ^ 23 + q := ⟨_, rfl⟩
  have m0 : d * mag b = d * 2 ^ k * q := by rw [hb, mag_split _ _ (by omega) h2]; ring
  have m1 : d * mag (b + 1) = d * 2 ^ k * q + d * 2 ^ k := by
    rw [hb, Nat.add_assoc, mag_split _ _ (by omega) (by omega)]; ring
  have m2 : d * mag (b + 1) < d * mag (b + 1 + 1) := Nat.mul_lt_mul_of_pos_left (mag_lt_succ _) hd
  have m3 : 0 < b → d * mag (b - 1) < d * mag b := fun h =>
    Nat.mul_lt_mul_of_pos_left (mag_lt (by omega)) hd
  rw [← hb]
  clear hb hq hr h1 h2 hk
  generalize d * 2 ^ k * q = A at *
  generalize d * 2 ^ k = P at *
  have up : (b + 1 - 1) = b := by omega
  split_ifs with c1 c2 c3
  · refine ⟨⟨?_, ?_⟩, fun h0 => ⟨?_, ?_⟩⟩ <;> (try intro e) <;> (try have := m3 h0) <;> rw [Nat.mul_add] at * <;> omega
  · refine ⟨⟨?_, ?_⟩, fun h0 => ⟨?_, ?_⟩⟩ <;> (try intro e) <;> rw [Nat.mul_add] at * <;> (try rw [up] at *) <;> omega
  · refine ⟨⟨?_, ?_⟩, fun h0 => ⟨?_, ?_⟩⟩ <;> (try intro e) <;> (try have := m3 h0) <;> rw [Nat.mul_add] at * <;> omega
  · refine ⟨⟨?_, ?_⟩, fun h0 => ⟨?_, ?_⟩⟩ <;> (try intro e) <;> rw [Nat.mul_add] at * <;> (try rw [up] at *) <;> omega

theorem round_mono (n d n' d' : Nat) (hd : 0 < d) (hd' : 0 < d') (h : n * d' ≤ n' * d) :
    roundBits n d ≤ roundBits n' d' := by
  obtain ⟨-, hl⟩ := round_bracket n d hd
  obtain ⟨⟨hu, hue⟩, -⟩ := round_bracket n' d' hd'
  by_contra hc
  generalize roundBits n d = B at *
  generalize roundBits n' d' = B' at *
  have hB : 0 < B := by omega
  obtain ⟨hl, hle⟩ := hl hB
  have e1 : mag B' ≤ mag (B - 1) := mag_le (by omega)
  have e2 : mag (B' + 1) ≤ mag B := mag_le (by omega)
  -- cross-multiplied
  have a1 : d' * (d * (mag (B - 1) + mag B)) ≤ d' * (2 * n) := Nat.mul_le_mul_left _ hl
  have a2 : d * (d' * (mag B' + mag (B' + 1))) ≥ d * (2 * n') := Nat.mul_le_mul_left _ hu
  have a3 : d * d' * (mag B' + mag (B' + 1)) ≤ d * d' * (mag (B - 1) + mag B) :=
    Nat.mul_le_mul_left _ (by omega)
  have b1 : d' * (d * (mag (B - 1) + mag B)) = d * d' * (mag (B - 1) + mag B) := by ring
  have b2 : d * (d' * (mag B' + mag (B' + 1))) = d * d' * (mag B' + mag (B' + 1)) := by ring
  have b3 : d' * (2 * n) = 2 * (n * d') := by ring
  have b4 : d * (2 * n') = 2 * (n' * d) := by ring
  rw [b1, b3] at a1
  rw [b2, b4] at a2
  have E : d * d' * (mag B' + mag (B' + 1)) = d * d' * (mag (B - 1) + mag B) := by omega
  have hdd : 0 < d * d' := Nat.mul_pos hd hd'
  have E2 : mag B' + mag (B' + 1) = mag (B - 1) + mag B := Nat.eq_of_mul_eq_mul_left hdd E
  have E3 : B' = B - 1 := mag_inj (by omega)
  have t1 : 2 * n = d * (mag (B - 1) + mag B) := by
    apply Nat.eq_of_mul_eq_mul_left hd'; rw [b3, b1]; omega
  have t2 : 2 * n' = d' * (mag B' + mag (B' + 1)) := by
    apply Nat.eq_of_mul_eq_mul_left hd; rw [b4, b2]; omega
  have p1 := hle t1
  have p2 := hue t2
  omega

/-- bit patterns are rounded to themselves -/
theorem round_exact (c d : Nat) (hd : 0 < d) : roundBits (d * mag c) d = c := by
  obtain ⟨⟨hu, -⟩, hl⟩ := round_bracket (d * mag c) d hd
  generalize roundBits (d * mag c) d = B at *
  rcases Nat.lt_trichotomy B c with h | h | h
  · have e1 := mag_lt h
    have e2 : mag (B + 1) ≤ mag c := mag_le (by omega)
    have : d * (mag B + mag (B + 1)) < d * (2 * mag c) := Nat.mul_lt_mul_of_pos_left (by omega) hd
    have : d * (2 * mag c) = 2 * (d * mag c) := by ring
    omega
  · exact h
  · have e1 := mag_lt h
    have e2 : mag c ≤ mag (B - 1) := mag_le (by omega)
    have := (hl (by omega)).1
    have : d * (2 * mag c) < d * (mag (B - 1) + mag B) := Nat.mul_lt_mul_of_pos_left (by omega) hd
    have : d * (2 * mag c) = 2 * (d * mag c) := by ring
    omega

/-- multiples of a power of two with at most 24 significant bits are bit patterns -/
theorem grid_rep (k : Nat) : ∀ m : Nat, m ≤ 2 ^ 24 → k ≤ 253 →
    ∃ b, b ≤ infBits ∧ mag b = m * 2 ^ k ∧ (m < 2 ^ 24 ∨ k < 253 → b < infBits) := by
  induction k with
  | zero =>
    intro m hm _
    refine ⟨0 * 2 ^ 23 + m, ?_, mag_split 0 m hm (Or.inl rfl), fun _ => ?_⟩ <;>
      (simp only [infBits]; omega)
  | succ k ih =>
    intro m hm hk
    by_cases h : 2 ^ 23 ≤ m
    · refine ⟨(k + 1) * 2 ^ 23 + m, ?_, mag_split _ m hm (Or.inr h), fun _ => ?_⟩ <;>
        (simp only [infBits]; omega)
    · obtain ⟨b, h1, h2, h3⟩ := ih (2 * m) (by omega) (by omega)
      exact ⟨b, h1, by rw [h2, pow_succ]; ring, fun _ => h3 (by omega)⟩

end Verif.Fp32
