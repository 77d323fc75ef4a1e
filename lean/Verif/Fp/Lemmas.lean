import Verif.Fp.Round
/-
Lemmas on the operations of the model of doubles: order, exactness, monotonicity.
-/
namespace Verif.Fp
open Verif

theorem sgn_natAbs (n : Int) : sgn (decide (n < 0)) n.natAbs = n := by
  unfold sgn; split <;> rename_i h <;> simp only [decide_eq_true_eq] at h <;> omega

theorem sgn_le {s t : Bool} {a b : Nat} : sgn s a ≤ sgn t b ↔
    (match s, t with
      | true, true => b ≤ a
      | true, false => True
      | false, true => a = 0 ∧ b = 0
      | false, false => a ≤ b) := by
  cases s <;> cases t <;> simp [sgn] <;> omega

theorem key_le_iff {s t : Bool} {a b : Nat} : key s a ≤ key t b ↔ sgn s (mag a) ≤ sgn t (mag b) := by
  unfold key
  rw [sgn_le, sgn_le]
  have h1 : mag a ≤ mag b ↔ a ≤ b := by
    rw [← Nat.not_lt, mag_lt_iff, Nat.not_lt]
  have h2 : mag b ≤ mag a ↔ b ≤ a := by
    rw [← Nat.not_lt, mag_lt_iff, Nat.not_lt]
  cases s <;> cases t <;> simp only [mag_eq_zero, h1, h2]

theorem le_iff {x y : F64} (hx : x ≠ .nan) (hy : y ≠ .nan) :
    le x y = true ↔ units x ≤ units y := by
  cases x with
  | nan => exact absurd rfl hx
  | num s a ha => cases y with
    | nan => exact absurd rfl hy
    | num t b hb => simp only [le, units, decide_eq_true_eq]; exact key_le_iff

theorem lt_iff {x y : F64} (hx : x ≠ .nan) (hy : y ≠ .nan) :
    lt x y = true ↔ units x < units y := by
  cases x with
  | nan => exact absurd rfl hx
  | num s a ha => cases y with
    | nan => exact absurd rfl hy
    | num t b hb =>
      simp only [lt, units, decide_eq_true_eq]
      have := @key_le_iff t s b a
      omega

theorem eq_iff {x y : F64} (hx : x ≠ .nan) (hy : y ≠ .nan) :
    eq x y = true ↔ units x = units y := by
  cases x with
  | nan => exact absurd rfl hx
  | num s a ha => cases y with
    | nan => exact absurd rfl hy
    | num t b hb =>
      simp only [eq, units, decide_eq_true_eq]
      have := @key_le_iff t s b a
      have := @key_le_iff s t a b
      omega

theorem lt_nan_left (y : F64) : lt .nan y = false := rfl
theorem lt_nan_right (x : F64) : lt x .nan = false := by cases x <;> rfl

theorem lt_irrefl (x : F64) : lt x x = false := by cases x <;> simp [lt]

theorem Finite.ne_nan {x : F64} (h : Finite x) : x ≠ .nan := by
  intro e; subst e; exact h

/-- the largest value of the order: infinity -/
def infUnits : Int := mag infBits

theorem units_lt_inf {x : F64} (h : Finite x) : -infUnits < units x ∧ units x < infUnits := by
  cases x with
  | nan => exact absurd h id
  | num s b hb =>
    have h' : b < infBits := h
    have := mag_lt h'
    simp only [units, infUnits]
    cases s <;> simp only [sgn, if_true, Bool.false_eq_true, if_false] <;> omega

theorem finite_iff {x : F64} (hx : x ≠ .nan) : Finite x ↔ -infUnits < units x ∧ units x < infUnits := by
  refine ⟨units_lt_inf, fun h => ?_⟩
  cases x with
  | nan => exact absurd rfl hx
  | num s b hb =>
    show b < infBits
    rw [← mag_lt_iff]
    simp only [units, infUnits] at h
    cases s <;> simp only [sgn, if_true, Bool.false_eq_true, if_false] at h <;> omega

/-- an integer number of units that is the value of a finite double -/
def Rep (n : Int) : Prop := ∃ b, b < infBits ∧ mag b = n.natAbs

theorem Finite.rep {x : F64} (h : Finite x) : Rep (units x) := by
  cases x with
  | nan => exact absurd h id
  | num s b hb => exact ⟨b, h, by cases s <;> simp [units, sgn]⟩

theorem Rep.neg {n : Int} (h : Rep n) : Rep (-n) := by
  obtain ⟨b, h1, h2⟩ := h; exact ⟨b, h1, by omega⟩

/-- integers with at most 53 bits times a power of two -/
theorem rep_grid (m : Int) (k : Nat) (hm : m.natAbs ≤ 2 ^ 53) (hk : k < 2045) :
    Rep (m * (2 : Int) ^ k) := by
  obtain ⟨b, -, h2, h3⟩ := grid_rep k m.natAbs hm (by omega)
  refine ⟨b, h3 (Or.inr hk), ?_⟩
  rw [h2, Int.natAbs_mul, Int.natAbs_pow]; rfl

theorem ofUnits_ne_nan (s : Bool) (n : Int) (d : Nat) : ofUnits s n d ≠ .nan := by
  unfold ofUnits mk; split <;> exact F64.noConfusion

theorem units_mk (s : Bool) (b : Nat) : units (mk s b) = sgn s (mag (min b infBits)) := rfl

theorem round_zero (d : Nat) : roundBits 0 d = 0 := by
  have h0 : Nat.log2 (0 / d) - 52 = 0 := by rw [Nat.zero_div]; decide
  simp only [roundBits]
  rw [h0]
  simp only [Nat.zero_div, Nat.zero_mod, Nat.zero_mul, Nat.mul_zero, Nat.add_zero, Nat.pow_zero,
    Nat.mul_one, if_true]
  by_cases h : 0 < d
  · rw [if_pos h]
  · rw [if_neg h, if_neg (by omega)]

/-- the value of a rounded number -/
theorem units_ofUnits (s : Bool) (n : Int) (d : Nat) :
    units (ofUnits s n d) = sgn (decide (n < 0)) (mag (min (roundBits n.natAbs d) infBits)) := by
  unfold ofUnits
  split
  · rename_i h
    subst h
    have e : roundBits (Int.natAbs 0) d = 0 := round_zero d
    rw [e, units_mk]
    have z : mag (min 0 infBits) = 0 := by rw [Nat.zero_min, mag_zero]
    rw [z]; cases s <;> rfl
  · exact units_mk _ _

/-- the sign of a zero does not change the value -/
theorem units_ofUnits_sign (s t : Bool) (n : Int) (d : Nat) :
    units (ofUnits s n d) = units (ofUnits t n d) := by
  rw [units_ofUnits, units_ofUnits]

theorem units_ofUnits_neg (s t : Bool) (n : Int) (d : Nat) :
    units (ofUnits s (-n) d) = -units (ofUnits t n d) := by
  rw [units_ofUnits, units_ofUnits, Int.natAbs_neg]
  by_cases h0 : n = 0
  · subst h0
    have e : roundBits (Int.natAbs 0) d = 0 := round_zero d
    rw [e]
    have z : mag (min 0 infBits) = 0 := by rw [Nat.zero_min, mag_zero]
    rw [z]; rfl
  · by_cases h : n < 0
    · have h' : ¬ (-n < 0) := by omega
      simp only [h, h', sgn]; simp
    · have h' : (-n < 0) := by omega
      simp only [h, h', sgn]; simp

/-- rounding is monotone -/
theorem units_ofUnits_mono (s t : Bool) (n m : Int) (d e : Nat) (hd : 0 < d) (he : 0 < e)
    (h : n * e ≤ m * d) : units (ofUnits s n d) ≤ units (ofUnits t m e) := by
  rw [units_ofUnits, units_ofUnits]
  have hd' : (0 : Int) < d := by omega
  have he' : (0 : Int) < e := by omega
  by_cases hn : n < 0
  · by_cases hm : m < 0
    · have hle : m.natAbs * d ≤ n.natAbs * e := by
        have e1 : ((m.natAbs * d : Nat) : Int) = -(m * d) := by
          rw [Int.natCast_mul, Int.ofNat_natAbs_of_nonpos (by omega)]; ring
        have e2 : ((n.natAbs * e : Nat) : Int) = -(n * e) := by
          rw [Int.natCast_mul, Int.ofNat_natAbs_of_nonpos (by omega)]; ring
        omega
      have := round_mono _ _ _ _ he hd hle
      have := @mag_le (min (roundBits m.natAbs e) infBits) (min (roundBits n.natAbs d) infBits) (by omega)
      simp only [hn, hm, sgn, decide_true, if_true]; omega
    · simp only [hn, hm, sgn, decide_true, decide_false, if_true]
      simp only [Bool.false_eq_true, if_false]; omega
  · have hm : ¬ m < 0 := by
      intro hm
      have h1 : 0 ≤ n * (e : Int) := Int.mul_nonneg (by omega) (by omega)
      have h2 : m * (d : Int) < 0 := Int.mul_neg_of_neg_of_pos hm hd'
      omega
    have hle : n.natAbs * e ≤ m.natAbs * d := by
      have e1 : ((m.natAbs * d : Nat) : Int) = m * d := by
        rw [Int.natCast_mul, Int.natAbs_of_nonneg (by omega)]
      have e2 : ((n.natAbs * e : Nat) : Int) = n * e := by
        rw [Int.natCast_mul, Int.natAbs_of_nonneg (by omega)]
      omega
    have := round_mono _ _ _ _ hd he hle
    have := @mag_le (min (roundBits n.natAbs d) infBits) (min (roundBits m.natAbs e) infBits) (by omega)
    simp only [hn, hm, sgn, decide_false, Bool.false_eq_true, if_false]; omega

/-- representable values are not changed by rounding -/
theorem units_ofUnits_exact (s : Bool) (n : Int) (d : Nat) (hd : 0 < d) (h : Rep n) :
    units (ofUnits s (n * d) d) = n := by
  obtain ⟨b, hb, hn⟩ := h
  rw [units_ofUnits]
  have e : (n * (d : Int)).natAbs = d * mag b := by
    rw [Int.natAbs_mul, hn, Int.natAbs_natCast, Nat.mul_comm]
  rw [e, round_exact b d hd, Nat.min_eq_left (Nat.le_of_lt hb), hn]
  have hs : decide (n * (d : Int) < 0) = decide (n < 0) := by
    have hd' : (0 : Int) < d := by omega
    by_cases h : n < 0
    · have := Int.mul_neg_of_neg_of_pos h hd'
      simp [h, this]
    · have : ¬ n * (d : Int) < 0 := by
        have := Int.mul_nonneg (show 0 ≤ n by omega) (show 0 ≤ (d : Int) by omega)
        omega
      simp [h, this]
  rw [hs]; exact sgn_natAbs n

theorem units_ofUnits_exact1 (s : Bool) (n : Int) (h : Rep n) : units (ofUnits s n 1) = n := by
  have := units_ofUnits_exact s n 1 (by omega) h
  simpa using this

theorem finite_ofUnits {s : Bool} {n : Int} {d : Nat} (h : Rep (units (ofUnits s n d))) :
    Finite (ofUnits s n d) := by
  rw [finite_iff (ofUnits_ne_nan _ _ _)]
  obtain ⟨b, hb, hn⟩ := h
  have := mag_lt hb
  unfold infUnits
  omega

/-! ### sums -/

theorem add_finite {x y : F64} (hx : Finite x) (hy : Finite y) :
    ∃ s, x + y = ofUnits s (units x + units y) 1 := by
  cases x with
  | nan => exact absurd hx id
  | num s a ha => cases y with
    | nan => exact absurd hy id
    | num t b hb =>
      have h1 : a < infBits := hx
      have h2 : b < infBits := hy
      refine ⟨s && t, ?_⟩
      show add _ _ = _
      simp only [add, units]
      rw [if_neg (by omega), if_neg (by omega)]

theorem units_neg (x : F64) : units (-x) = -units x := by
  show units (neg x) = _
  cases x with
  | nan => rfl
  | num s b h => cases s <;> simp [neg, units, sgn]

theorem finite_neg {x : F64} : Finite (-x) ↔ Finite x := by
  show Finite (neg x) ↔ _
  cases x <;> simp [neg, Finite]

theorem sub_finite {x y : F64} (hx : Finite x) (hy : Finite y) :
    ∃ s, x - y = ofUnits s (units x - units y) 1 := by
  obtain ⟨s, h⟩ := add_finite hx (finite_neg.2 hy)
  refine ⟨s, ?_⟩
  show add x (neg y) = _
  have h' : add x (neg y) = _ := h
  rw [h', units_neg]; rfl

theorem add_exact {x y : F64} (hx : Finite x) (hy : Finite y) (h : Rep (units x + units y)) :
    Finite (x + y) ∧ units (x + y) = units x + units y := by
  obtain ⟨s, e⟩ := add_finite hx hy
  have hu := units_ofUnits_exact1 s _ h
  rw [e]
  exact ⟨finite_ofUnits (by rw [hu]; exact h), hu⟩

theorem sub_exact {x y : F64} (hx : Finite x) (hy : Finite y) (h : Rep (units x - units y)) :
    Finite (x - y) ∧ units (x - y) = units x - units y := by
  obtain ⟨s, e⟩ := sub_finite hx hy
  have hu := units_ofUnits_exact1 s _ h
  rw [e]
  exact ⟨finite_ofUnits (by rw [hu]; exact h), hu⟩

/-- `x + y` and `y + x` are the same double -/
theorem add_comm' (x y : F64) : x + y = y + x := by
  show add x y = add y x
  cases x with
  | nan => cases y <;> rfl
  | num s a ha => cases y with
    | nan => rfl
    | num t b hb =>
      simp only [add]
      rw [Int.add_comm, Bool.and_comm]
      by_cases h1 : a = infBits <;> by_cases h2 : b = infBits
      · subst h1; subst h2
        cases s <;> cases t <;> simp
      · simp [h1, h2]
      · simp [h1, h2]
      · simp [h1, h2]

theorem mul_comm' (x y : F64) : x * y = y * x := by
  show mul x y = mul y x
  cases x with
  | nan => cases y <;> rfl
  | num s a ha => cases y with
    | nan => rfl
    | num t b hb =>
      simp only [mul]
      rw [Nat.mul_comm (mag a), bne_comm (a := s)]
      by_cases h1 : a = infBits <;> by_cases h2 : b = infBits <;>
        by_cases h3 : a = 0 <;> by_cases h4 : b = 0 <;> simp [h1, h2, h3, h4]

/-! ### `std::min` and `std::max` -/

theorem fmin_ne_nan {x y : F64} (hx : x ≠ .nan) (hy : y ≠ .nan) : fmin x y ≠ .nan := by
  unfold fmin; split <;> assumption

theorem fmax_ne_nan {x y : F64} (hx : x ≠ .nan) (hy : y ≠ .nan) : fmax x y ≠ .nan := by
  unfold fmax; split <;> assumption

theorem units_fmin {x y : F64} (hx : x ≠ .nan) (hy : y ≠ .nan) :
    units (fmin x y) = min (units x) (units y) := by
  unfold fmin
  have := @lt_iff y x hy hx
  split <;> rename_i h
  · rw [this] at h; omega
  · rw [this] at h; omega

theorem units_fmax {x y : F64} (hx : x ≠ .nan) (hy : y ≠ .nan) :
    units (fmax x y) = max (units x) (units y) := by
  unfold fmax
  have := @lt_iff x y hx hy
  split <;> rename_i h
  · rw [this] at h; omega
  · rw [this] at h; omega

end Verif.Fp
