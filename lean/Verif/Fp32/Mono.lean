import Verif.Fp32.Props
/-
Monotonicity of the rounded operations, absorption of small summands, ties.
-/
namespace Verif.Fp32
open Verif

theorem units_ofUnits_le {s : Bool} {n : Int} {d : Nat} (hd : 0 < d) {m : Int} (hm : Rep m)
    (h : n ≤ m * d) : units (ofUnits s n d) ≤ m := by
  have e := units_ofUnits_exact1 s m hm
  have := units_ofUnits_mono s s n m d 1 hd (by omega) (by simpa using h)
  omega

theorem le_units_ofUnits {s : Bool} {n : Int} {d : Nat} (hd : 0 < d) {m : Int} (hm : Rep m)
    (h : m * d ≤ n) : m ≤ units (ofUnits s n d) := by
  have e := units_ofUnits_exact1 s m hm
  have := units_ofUnits_mono s s m n 1 d (by omega) hd (by simpa using h)
  omega

theorem add_ne_nan {x y : F32} (hx : Finite x) (hy : Finite y) : x + y ≠ .nan := by
  obtain ⟨s, e⟩ := add_finite hx hy
  rw [e]; exact ofUnits_ne_nan _ _ _

theorem sub_ne_nan {x y : F32} (hx : Finite x) (hy : Finite y) : x - y ≠ .nan := by
  obtain ⟨s, e⟩ := sub_finite hx hy
  rw [e]; exact ofUnits_ne_nan _ _ _

theorem mul_ne_nan {x y : F32} (hx : Finite x) (hy : Finite y) : x * y ≠ .nan := by
  obtain ⟨s, e⟩ := mul_finite hx hy
  rw [e]; exact ofUnits_ne_nan _ _ _

theorem add_le_of {x y : F32} (hx : Finite x) (hy : Finite y) {m : Int} (hm : Rep m)
    (h : units x + units y ≤ m) : units (x + y) ≤ m := by
  obtain ⟨s, e⟩ := add_finite hx hy
  rw [e]; exact units_ofUnits_le (by omega) hm (by simpa using h)

theorem le_add_of {x y : F32} (hx : Finite x) (hy : Finite y) {m : Int} (hm : Rep m)
    (h : m ≤ units x + units y) : m ≤ units (x + y) := by
  obtain ⟨s, e⟩ := add_finite hx hy
  rw [e]; exact le_units_ofUnits (by omega) hm (by simpa using h)

theorem sub_le_of {x y : F32} (hx : Finite x) (hy : Finite y) {m : Int} (hm : Rep m)
    (h : units x - units y ≤ m) : units (x - y) ≤ m := by
  obtain ⟨s, e⟩ := sub_finite hx hy
  rw [e]; exact units_ofUnits_le (by omega) hm (by simpa using h)

theorem le_sub_of {x y : F32} (hx : Finite x) (hy : Finite y) {m : Int} (hm : Rep m)
    (h : m ≤ units x - units y) : m ≤ units (x - y) := by
  obtain ⟨s, e⟩ := sub_finite hx hy
  rw [e]; exact le_units_ofUnits (by omega) hm (by simpa using h)

theorem mul_le_of {x y : F32} (hx : Finite x) (hy : Finite y) {m : Int} (hm : Rep m)
    (h : units x * units y ≤ m * one) : units (x * y) ≤ m := by
  obtain ⟨s, e⟩ := mul_finite hx hy
  rw [e]; exact units_ofUnits_le (Nat.two_pow_pos _) hm h

theorem le_mul_of {x y : F32} (hx : Finite x) (hy : Finite y) {m : Int} (hm : Rep m)
    (h : m * one ≤ units x * units y) : m ≤ units (x * y) := by
  obtain ⟨s, e⟩ := mul_finite hx hy
  rw [e]; exact le_units_ofUnits (Nat.two_pow_pos _) hm h

theorem add_mono {x y x' y' : F32} (hx : Finite x) (hy : Finite y) (hx' : Finite x') (hy' : Finite y')
    (h : units x + units y ≤ units x' + units y') : units (x + y) ≤ units (x' + y') := by
  obtain ⟨s, e⟩ := add_finite hx hy
  obtain ⟨t, e'⟩ := add_finite hx' hy'
  rw [e, e']; exact units_ofUnits_mono s t _ _ 1 1 (by omega) (by omega) (by omega)

theorem mul_mono {x y x' y' : F32} (hx : Finite x) (hy : Finite y) (hx' : Finite x') (hy' : Finite y')
    (h : units x * units y ≤ units x' * units y') : units (x * y) ≤ units (x' * y') := by
  obtain ⟨s, e⟩ := mul_finite hx hy
  obtain ⟨t, e'⟩ := mul_finite hx' hy'
  rw [e, e']
  refine units_ofUnits_mono s t _ _ one one (Nat.two_pow_pos _) (Nat.two_pow_pos _) ?_
  exact Int.mul_le_mul_of_nonneg_right h (by omega)

theorem rep_zero : Rep 0 := ⟨0, by decide, mag_zero⟩

/-- between two representable values is only their order -/
theorem units_eq_of_rep {x : F32} {m : Int} (h1 : m ≤ units x) (h2 : units x ≤ m) : units x = m := by
  omega

/-- a summand below half a unit in the last place is lost -/
theorem round_absorb (b n : Nat) (h1 : mag b ≤ n) (h2 : 2 * n < 2 * mag b + 2 ^ expo b) :
    roundBits n 1 = b := by
  have hlo : b ≤ roundBits n 1 := by
    have := round_mono (mag b) 1 n 1 (by omega) (by omega) (by omega)
    have e := round_exact b 1 (by omega)
    rw [Nat.one_mul] at e
    rw [e] at this; exact this
  obtain ⟨-, hl⟩ := round_bracket n 1 (by omega)
  by_contra hc
  generalize roundBits n 1 = B at *
  have := (hl (by omega)).1
  have a1 : mag b ≤ mag (B - 1) := mag_le (by omega)
  have a2 : mag (b + 1) ≤ mag B := mag_le (by omega)
  rw [mag_succ] at a2
  omega

/-- exactly in the middle, the even pattern wins -/
theorem round_tie (b n : Nat) (h : 2 * n = 2 * mag b + 2 ^ expo b) :
    roundBits n 1 = if b % 2 = 0 then b else b + 1 := by
  have hs := mag_succ b
  obtain ⟨P, hP⟩ : ∃ P, P = 2 ^ expo b := ⟨_, rfl⟩
  rw [← hP] at hs h
  have hlo : b ≤ roundBits n 1 := by
    have := round_mono (mag b) 1 n 1 (by omega) (by omega) (by omega)
    have e := round_exact b 1 (by omega)
    rw [Nat.one_mul] at e
    rw [e] at this; exact this
  have hhi : roundBits n 1 ≤ b + 1 := by
    have := round_mono n 1 (mag (b + 1)) 1 (by omega) (by omega) (by omega)
    have e := round_exact (b + 1) 1 (by omega)
    rw [Nat.one_mul] at e
    rw [e] at this; exact this
  obtain ⟨⟨-, hu⟩, hl⟩ := round_bracket n 1 (by omega)
  generalize roundBits n 1 = B at *
  rcases Nat.lt_or_eq_of_le hlo with h' | h'
  · have hB : B = b + 1 := by omega
    subst hB
    have := (hl (by omega)).2 (by rw [Nat.add_sub_cancel]; omega)
    rw [if_neg (by omega)]
  · subst h'
    have := hu (by omega)
    rw [if_pos this]

/-- representable values are multiples of their unit in the last place -/
theorem rep_bits {n : Int} (h : Rep n) : ∃ e q : Nat, n.natAbs = q * 2 ^ e ∧ q < 2 ^ 24 ∧
    (e = 0 ∨ 2 ^ 23 ≤ q) ∧ e ≤ 253 := by
  obtain ⟨b, hb, h⟩ := h
  obtain ⟨-, h2, h3⟩ := bits_split b
  refine ⟨expo b, mant b, h.symm, h2, h3, ?_⟩
  unfold expo; unfold infBits at hb; omega

/-- the successor of a finite float is at most `2^(k-23)` units higher, if it is below `2^k` -/
theorem rep_succ_le {n : Int} (h : Rep n) (k : Nat) (hk : n.natAbs < 2 ^ (k + 24)) (hk2 : k < 253) :
    ∃ m : Int, Rep m ∧ n < m ∧ m ≤ n + 2 ^ k := by
  obtain ⟨e, q, h1, h2, h3, -⟩ := rep_bits h
  have hek : e ≤ k := by
    rcases h3 with h3 | h3
    · omega
    · by_contra hc
      have : 2 ^ 23 * 2 ^ (k + 1) ≤ q * 2 ^ e :=
        Nat.mul_le_mul h3 (Nat.pow_le_pow_right (by omega) (by omega))
      have e2 : (2 : Nat) ^ 23 * 2 ^ (k + 1) = 2 ^ (k + 24) := by rw [← Nat.pow_add]; congr 1; omega
      omega
  -- n = ±q·2^e; the next multiple of 2^e
  have hp : (2 : Int) ^ e ≤ 2 ^ k := by
    have : (2 : Nat) ^ e ≤ 2 ^ k := Nat.pow_le_pow_right (by omega) hek
    exact_mod_cast this
  have hpos : (0 : Int) < 2 ^ e := by positivity
  have hn' : (n.natAbs : Int) = q * 2 ^ e := by rw [h1]; push_cast; rfl
  by_cases hs : 0 ≤ n
  · refine ⟨((q : Int) + 1) * 2 ^ e, rep_grid _ e (by omega) (by omega), ?_, ?_⟩
    · rw [Int.add_mul]; omega
    · rw [Int.add_mul]; omega
  · refine ⟨(-(q : Int) + 1) * 2 ^ e, rep_grid _ e (by omega) (by omega), ?_, ?_⟩
    · rw [Int.add_mul, Int.neg_mul]; omega
    · rw [Int.add_mul, Int.neg_mul]; omega

/-- large numbers have a large unit in the last place -/
theorem expo_gt {b : Nat} (k : Nat) (h : 2 ^ (k + 24) ≤ mag b) : k < expo b := by
  obtain ⟨-, h2, -⟩ := bits_split b
  by_contra hc
  have h1 : mant b * 2 ^ expo b ≤ mant b * 2 ^ k :=
    Nat.mul_le_mul_left _ (Nat.pow_le_pow_right (by omega) (by omega))
  have h3 : mant b * 2 ^ k < 2 ^ 24 * 2 ^ k := Nat.mul_lt_mul_of_pos_right h2 (Nat.two_pow_pos _)
  rw [← Nat.pow_add, Nat.add_comm] at h3
  unfold mag at h
  omega

/-- small numbers have a small unit in the last place -/
theorem expo_le {b : Nat} (k : Nat) (h : mag b < 2 ^ (k + 24)) : expo b ≤ k := by
  obtain ⟨-, h2, h3⟩ := bits_split b
  rcases h3 with h3 | h3
  · omega
  · by_contra hc
    have h1 : mant b * 2 ^ (k + 1) ≤ mant b * 2 ^ expo b :=
      Nat.mul_le_mul_left _ (Nat.pow_le_pow_right (by omega) (by omega))
    have h4 : 2 ^ 23 * 2 ^ (k + 1) ≤ mant b * 2 ^ (k + 1) := Nat.mul_le_mul_right _ h3
    rw [← Nat.pow_add] at h4
    have e : 23 + (k + 1) = k + 24 := by omega
    rw [e] at h4
    unfold mag at h
    omega

/-- division of units -/
theorem one_pos : (0 : Int) < one := by unfold one; positivity

/-- an integer up to 2^24 is a float -/
theorem rep_int (m : Int) (h : m.natAbs ≤ 2 ^ 24) : Rep (m * one) := by
  have := rep_grid m 149 h (by omega)
  unfold one; exact_mod_cast this

end Verif.Fp32
