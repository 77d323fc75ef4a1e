import Verif.FpVec.IntProps
/-
C114: laws that hold for the rounded results, and the tests on which side a vector lies.
-/
namespace Verif.FpVec
open Verif Verif.Fp Verif.Exact
open Verif.Mx (V2 V3 Vec Mat)

theorem zero_eq : lit 0 1 = .num false 0 (Nat.zero_le _) := by decide +kernel

attribute [local irreducible] Fp.one Fp.lit

/-! ### The sign of a sum -/

theorem key_nonneg {s : Bool} {b : Nat} (h : s = false ∨ b = 0) : ¬ key s b < 0 := by
  unfold key sgn
  rcases h with rfl | rfl
  · simp only [Bool.false_eq_true, if_false]; omega
  · cases s <;> simp
theorem key_nonpos {s : Bool} {b : Nat} (h : s = true ∨ b = 0) : ¬ 0 < key s b := by
  unfold key sgn
  rcases h with rfl | rfl
  · simp only [if_true]; omega
  · cases s <;> simp

theorem lt_zero {s : Bool} {b : Nat} {h : b ≤ infBits} (h0 : s = false ∨ b = 0) : Fp.lt (.num s b h) (lit 0 1) = false := by
  rw [zero_eq]
  simp only [Fp.lt, decide_eq_false_iff_not]
  have := key_nonneg h0
  simpa [key, sgn] using this
theorem zero_lt {s : Bool} {b : Nat} {h : b ≤ infBits} (h0 : s = true ∨ b = 0) : Fp.lt (lit 0 1) (.num s b h) = false := by
  rw [zero_eq]
  simp only [Fp.lt, decide_eq_false_iff_not]
  have := key_nonpos h0
  simpa [key, sgn] using this

theorem add_num (s t : Bool) (a b : Nat) (ha : a ≤ infBits) (hb : b ≤ infBits) :
    (F64.num s a ha) + (F64.num t b hb) = if a = infBits then (if b = infBits ∧ s ≠ t then .nan else mk s infBits)
      else if b = infBits then mk t infBits else ofUnits (s && t) (sgn s (mag a) + sgn t (mag b)) 1 := rfl

theorem fin_of {s : Bool} {a : Nat} {h : a ≤ infBits} (hn : a ≠ infBits) : Finite (F64.num s a h) := by
  show a < infBits; omega

/-- a sum of two numbers that is not negative is not computed as negative -/
theorem add_not_neg {P Q : F64} (hP : P ≠ .nan) (hQ : Q ≠ .nan) (h : 0 ≤ units P + units Q) : Fp.lt (P + Q) (lit 0 1) = false := by
  cases P with
  | nan => exact absurd rfl hP
  | num s a ha =>
  cases Q with
  | nan => exact absurd rfl hQ
  | num t b hb =>
  rw [add_num]
  have inf_units : ∀ s : Bool, units (.num s infBits (Nat.le_refl _)) = sgn s (mag infBits) := fun _ => rfl
  by_cases h1 : a = infBits
  · rw [if_pos h1]
    by_cases h2 : b = infBits ∧ s ≠ t
    · rw [if_pos h2]; rfl
    · rw [if_neg h2]
      apply lt_zero
      left
      cases s with
      | false => rfl
      | true =>
        exfalso
        subst h1
        by_cases h3 : b = infBits
        · have : t = true := by
            cases t with
            | true => rfl
            | false => exact absurd ⟨h3, by decide⟩ h2
          subst this
          subst h3
          have hpos : (0 : Int) < mag infBits := by decide +kernel
          unfold units sgn at h
          simp only [if_true] at h
          omega
        · have := (units_lt_inf (fin_of (s := t) (h := hb) h3)).2
          have e : units (.num true infBits ha) = -infUnits := rfl
          omega
  · rw [if_neg h1]
    by_cases h3 : b = infBits
    · rw [if_pos h3]
      apply lt_zero
      left
      cases t with
      | false => rfl
      | true =>
        exfalso
        subst h3
        have := (units_lt_inf (fin_of (s := s) (h := ha) h1)).2
        have e : units (.num true infBits hb) = -infUnits := rfl
        omega
    · rw [if_neg h3]
      have h' : 0 ≤ sgn s (mag a) + sgn t (mag b) := h
      generalize sgn s (mag a) + sgn t (mag b) = n at h'
      unfold ofUnits
      by_cases h4 : n = 0
      · rw [if_pos h4]
        apply lt_zero
        right
        exact Nat.min_eq_left (Nat.zero_le _)
      · rw [if_neg h4]
        apply lt_zero
        left
        simp only [decide_eq_false_iff_not]; omega

/-! ### Negation -/

theorem neg_neg' (x : F64) : - -x = x := by
  cases x with
  | nan => rfl
  | num s b h => show F64.num (!(!s)) b h = _; simp

theorem neg_num (s : Bool) (a : Nat) (h : a ≤ infBits) : -(F64.num s a h) = .num (!s) a h := rfl

theorem sgn_not (s : Bool) (m : Nat) : sgn (!s) m = -sgn s m := by cases s <;> simp [sgn]

theorem neg_mk (s : Bool) (b : Nat) : -(mk s b) = mk (!s) b := rfl

theorem ofUnits_neg' (s : Bool) (n : Int) (d : Nat) : ofUnits (!s) (-n) d = -(ofUnits s n d) := by
  unfold ofUnits
  by_cases h : n = 0
  · rw [if_pos (by omega), if_pos h, neg_mk]
  · rw [if_neg (by omega), if_neg h, neg_mk, Int.natAbs_neg]
    congr 1
    by_cases h2 : n < 0
    · simp [h2]; omega
    · simp [h2]; omega

/-- the sign of a product -/
theorem mul_neg' (x y : F64) : x * -y = -(x * y) := by
  cases x with
  | nan => rfl
  | num s a ha =>
    cases y with
    | nan => rfl
    | num t b hb =>
      have hx : (s != !t) = !(s != t) := by cases s <;> cases t <;> rfl
      show mul (.num s a ha) (.num (!t) b hb) = -(mul (.num s a ha) (.num t b hb))
      simp only [mul]
      rw [hx]
      by_cases h1 : a = infBits ∨ b = infBits
      · rw [if_pos h1, if_pos h1]
        by_cases h2 : a = 0 ∨ b = 0
        · rw [if_pos h2, if_pos h2]; rfl
        · rw [if_neg h2, if_neg h2, neg_mk]
      · rw [if_neg h1, if_neg h1, sgn_not, ofUnits_neg']

/-- the sign of a sum, read from both sides -/
theorem add_flip (p q : F64) : Fp.lt (-p + q) (lit 0 1) = Fp.lt (lit 0 1) (-q + p) := by
  rw [zero_eq]
  cases p with
  | nan => cases q <;> rfl
  | num s a ha =>
  cases q with
  | nan => rfl
  | num t b hb =>
  rw [← zero_eq, neg_num, neg_num, add_num, add_num]
  have flip : ∀ (x : Bool) (c : Nat), Fp.lt (mk x c) (lit 0 1) = Fp.lt (lit 0 1) (mk (!x) c) := by
    intro x c
    rw [zero_eq]
    simp only [Fp.lt, mk]
    congr 1
    cases x <;> simp [key, sgn]
  by_cases h1 : a = infBits
  · by_cases h2 : b = infBits
    · rw [if_pos h1, if_pos h2]
      cases s <;> cases t <;> simp [h1, h2, zero_eq, Fp.lt, mk, key, sgn]
    · rw [if_pos h1, if_neg h2, if_pos h1, if_neg (by tauto)]
      rw [flip, Bool.not_not]
  · by_cases h2 : b = infBits
    · rw [if_neg h1, if_pos h2, if_pos h2, if_neg (by tauto), flip]
    · rw [if_neg h1, if_neg h2, if_neg h2, if_neg h1]
      have e : sgn (!t) (mag b) + sgn s (mag a) = -(sgn (!s) (mag a) + sgn t (mag b)) := by
        rw [sgn_not, sgn_not]; omega
      rw [e]
      generalize sgn (!s) (mag a) + sgn t (mag b) = n
      unfold ofUnits
      by_cases h4 : n = 0
      · rw [if_pos h4, if_pos (by omega), zero_eq]
        cases s <;> cases t <;> simp [Fp.lt, mk, key, sgn]
      · rw [if_neg h4, if_neg (by omega), flip, Int.natAbs_neg]
        congr 2
        by_cases h5 : n < 0
        · simp [h5]; omega
        · simp [h5]; omega

/-! ### The tests -/

/-- The tests are two views of one relation: `a` is left of `b` exactly if `b` is right of `a`. For all doubles. -/
theorem left_right (a b : V2 F64) : a.isLeftTo b = b.isRightTo a := by
  show Fp.lt (b.x * -a.y + b.y * a.x) (lit 0 1) = Fp.lt (lit 0 1) (a.x * -b.y + a.y * b.x)
  rw [mul_neg', mul_neg', mul_comm' b.y a.x, mul_comm' a.y b.x]
  exact add_flip _ _

theorem Rounds.ge {P Q : F64} {e f : ℚ} (hP : Rounds P e) (hQ : Rounds Q f) (h : 0 ≤ e + f) : 0 ≤ units P + units Q := by
  obtain ⟨s, n, d, rfl, hd, hn⟩ := hP
  have hR : Rounds (ofUnits s (-n) d) (-e) := ⟨s, -n, d, rfl, hd, by push_cast; rw [← hn]; ring⟩
  have := hR.mono hQ (by linarith)
  rw [← units_le_val, units_ofUnits_neg s s n d] at this
  omega

/-- Neither test says something wrong, whatever the rounding errors are (overflow included). -/
theorem side_sound (a b : V2 F64) (ha : Finite a.x ∧ Finite a.y) (hb : Finite b.x ∧ Finite b.y) :
    (a.isLeftTo b = true → val a.x * val b.y - val a.y * val b.x < 0) ∧
    (a.isRightTo b = true → 0 < val a.x * val b.y - val a.y * val b.x) := by
  have key : ∀ a b : V2 F64, Finite a.x ∧ Finite a.y → Finite b.x ∧ Finite b.y → a.isLeftTo b = true →
      val a.x * val b.y - val a.y * val b.x < 0 := by
    intro a b ha hb h
    have hP := mul_rounds hb.1 (finite_neg.2 ha.2)
    have hQ := mul_rounds hb.2 ha.1
    rw [val_neg] at hP
    by_contra hc
    have := add_not_neg hP.ne_nan hQ.ne_nan (Rounds.ge hP hQ (by linarith))
    have h' : Fp.lt (b.x * -a.y + b.y * a.x) (lit 0 1) = true := h
    rw [this] at h'
    cases h'
  refine ⟨key a b ha hb, fun h => ?_⟩
  rw [← left_right] at h
  have := key b a hb ha h
  linarith

/-- They miss vectors that are almost parallel: here `b` is off by one unit in 2^60, and neither test notices. -/
theorem side_misses : ∃ a b : V2 F64, Int2 (2 ^ 31) a (2 ^ 30 + 1) (2 ^ 30) ∧ Int2 (2 ^ 31) b (2 ^ 30) (2 ^ 30 - 1) ∧
    val a.x * val b.y - val a.y * val b.x = -1 ∧ a.isLeftTo b = false ∧ a.isRightTo b = false := by
  have g : ∀ n : Int, n.natAbs ≤ 2 ^ 31 → GB (2 ^ 31) (lit n 1) n := by
    intro n hn
    obtain ⟨f, v⟩ := lit_int n (by omega)
    exact ⟨⟨f, by rw [v]; simp⟩, hn⟩
  refine ⟨⟨lit (2 ^ 30 + 1) 1, lit (2 ^ 30) 1⟩, ⟨lit (2 ^ 30) 1, lit (2 ^ 30 - 1) 1⟩, ⟨g _ (by decide), g _ (by decide)⟩,
    ⟨g _ (by decide), g _ (by decide)⟩, ?_, by decide +kernel, by decide +kernel⟩
  simp only
  rw [(g _ (by decide)).val.2, (g _ (by decide)).val.2, (g _ (by decide)).val.2]
  norm_num

theorem lit_zero_val : val (lit 0 1) = 0 := zero_fin.2

/-- With integer coordinates up to 2^26 both tests are exact. -/
theorem side_int {a b : V2 F64} {x y x' y' : Int} (ha : Int2 (2 ^ 26) a x y) (hb : Int2 (2 ^ 26) b x' y') :
    (a.isLeftTo b = true ↔ x * y' - y * x' < 0) ∧ (a.isRightTo b = true ↔ 0 < x * y' - y * x') := by
  have key : ∀ {a b : V2 F64} {x y x' y' : Int}, Int2 (2 ^ 26) a x y → Int2 (2 ^ 26) b x' y' →
      (a.isLeftTo b = true ↔ x * y' - y * x' < 0) := by
    intro a b x y x' y' ha hb
    have h := ((hb.1.mul ha.2.neg (by norm_num)).add (hb.2.mul ha.1 (by norm_num)) (by norm_num)).val
    show Fp.lt (b.x * -a.y + b.y * a.x) (lit 0 1) = true ↔ _
    rw [lt_iff h.1.ne_nan zero_fin.1.ne_nan]
    have e : units (b.x * -a.y + b.y * a.x) < units (lit 0 1) ↔ val (b.x * -a.y + b.y * a.x) < val (lit 0 1) := by
      rw [← not_le, ← not_le, units_le_val]
    rw [e, h.2, lit_zero_val]
    have e2 : ((x' * -y + y' * x : Int) : ℚ) < 0 ↔ x' * -y + y' * x < 0 := by exact_mod_cast Iff.rfl
    rw [e2]
    have e3 : x' * -y + y' * x = x * y' - y * x' := by ring
    rw [e3]
  refine ⟨key ha hb, ?_⟩
  rw [← left_right, key hb ha]
  have : x' * y - y' * x = -(x * y' - y * x') := by ring
  rw [this]
  omega

theorem Usual.neg {x : F64} (h : Usual x) : Usual (-x) := ⟨finite_neg.2 h.1, by rw [val_neg, abs_neg]; exact h.2⟩

/-- Both tests are right if the vectors are far enough from being parallel. -/
theorem side_decided (a b : V2 F64) (ha : Usual2 a) (hb : Usual2 b)
    (h : ((1 + u) ^ 2 - 1) * (|val a.x * val b.y| + |val a.y * val b.x|) + lost 2 < |val a.x * val b.y - val a.y * val b.x|) :
    (a.isLeftTo b = true ↔ val a.x * val b.y - val a.y * val b.x < 0) ∧
    (a.isRightTo b = true ↔ 0 < val a.x * val b.y - val a.y * val b.x) := by
  have key : ∀ a b : V2 F64, Usual2 a → Usual2 b →
      ((1 + u) ^ 2 - 1) * (|val a.x * val b.y| + |val a.y * val b.x|) + lost 2 < |val a.x * val b.y - val a.y * val b.x| →
      val a.x * val b.y - val a.y * val b.x < 0 → a.isLeftTo b = true := by
    intro a b ha hb h hn
    have hs := ((sum2 hb.1 ha.2.neg hb.2 ha.1).1.mono le_rfl lost_two)
    have he := hs.err
    rw [val_neg] at he
    have e1 : |val b.x * -val a.y| + |val b.y * val a.x| = |val a.x * val b.y| + |val a.y * val b.x| := by
      rw [mul_neg, abs_neg, mul_comm (val b.x), mul_comm (val b.y)]; ring
    rw [e1] at he
    rw [abs_of_neg hn] at h
    have h1 := (abs_le.1 he).2
    show Fp.lt (b.x * -a.y + b.y * a.x) (lit 0 1) = true
    rw [lt_iff hs.fin.ne_nan zero_fin.1.ne_nan]
    have e : units (b.x * -a.y + b.y * a.x) < units (lit 0 1) ↔ val (b.x * -a.y + b.y * a.x) < val (lit 0 1) := by
      rw [← not_le, ← not_le, units_le_val]
    rw [e, lit_zero_val]
    linarith
  obtain ⟨s1, s2⟩ := side_sound a b ⟨ha.1.1, ha.2.1⟩ ⟨hb.1.1, hb.2.1⟩
  refine ⟨⟨s1, key a b ha hb h⟩, s2, fun hp => ?_⟩
  rw [← left_right]
  refine key b a hb ha ?_ (by linarith)
  have e1 : |val b.x * val a.y| + |val b.y * val a.x| = |val a.x * val b.y| + |val a.y * val b.x| := by
    rw [mul_comm (val b.x), mul_comm (val b.y)]; ring
  have e2 : |val b.x * val a.y - val b.y * val a.x| = |val a.x * val b.y - val a.y * val b.x| := by
    rw [← abs_neg]; congr 1; ring
  rw [e1, e2]
  exact h

/-! ### Laws -/

/-- The dot product does not depend on the order of its arguments: for all doubles. -/
theorem dot_comm (a b : V3 F64) : a.dotProduct b = b.dotProduct a := by
  show a.x * b.x + a.y * b.y + a.z * b.z = b.x * a.x + b.y * a.y + b.z * a.z
  rw [mul_comm' a.x, mul_comm' a.y, mul_comm' a.z]
theorem dot2_comm (a b : V2 F64) : a.dotProduct b = b.dotProduct a := by
  show a.x * b.x + a.y * b.y = b.x * a.x + b.y * a.y
  rw [mul_comm' a.x, mul_comm' a.y]

theorem sub_swap {p q : F64} (hp : Finite p) (hq : Finite q) : val (p - q) = -val (q - p) := by
  obtain ⟨s, n, d, e, hd, hn⟩ := sub_rounds hp hq
  have hR : Rounds (ofUnits s (-n) d) (val q - val p) := ⟨s, -n, d, rfl, hd, by push_cast; rw [← hn]; ring⟩
  have h1 := hR.unique (sub_rounds hq hp)
  rw [← h1, e]
  unfold val
  rw [units_ofUnits_neg s s n d]
  push_cast
  ring

/-- The cross product changes its sign with the order of the arguments, and a vector has no cross product with itself. -/
theorem cross_swap (a b : V3 F64) (ha : Usual3 a) (hb : Usual3 b) :
    val (b.crossProduct a).x = -val (a.crossProduct b).x ∧ val (b.crossProduct a).y = -val (a.crossProduct b).y ∧
    val (b.crossProduct a).z = -val (a.crossProduct b).z := by
  have fin : ∀ {x y : F64}, Usual x → Usual y → Finite (x * y) := fun hx hy => (hx.ap hy).fin
  refine ⟨?_, ?_, ?_⟩
  · show val (b.y * a.z - b.z * a.y) = -val (a.y * b.z - a.z * b.y)
    rw [mul_comm' b.y, mul_comm' b.z]
    exact sub_swap (fin ha.2.2 hb.2.1) (fin ha.2.1 hb.2.2)
  · show val (b.z * a.x - b.x * a.z) = -val (a.z * b.x - a.x * b.z)
    rw [mul_comm' b.z, mul_comm' b.x]
    exact sub_swap (fin ha.1 hb.2.2) (fin ha.2.2 hb.1)
  · show val (b.x * a.y - b.y * a.x) = -val (a.x * b.y - a.y * b.x)
    rw [mul_comm' b.x, mul_comm' b.y]
    exact sub_swap (fin ha.2.1 hb.1) (fin ha.1 hb.2.1)

theorem cross_self (a : V3 F64) (ha : Usual3 a) :
    val (a.crossProduct a).x = 0 ∧ val (a.crossProduct a).y = 0 ∧ val (a.crossProduct a).z = 0 := by
  obtain ⟨h1, h2, h3⟩ := cross_swap a a ha ha
  exact ⟨by linarith, by linarith, by linarith⟩

/-- The dot product of a vector with itself is not negative: for all finite doubles, overflow included. -/
theorem dot_self (a : V2 F64) (ha : Finite a.x ∧ Finite a.y) : Fp.lt (a.dotProduct a) (lit 0 1) = false :=
  add_not_neg (mul_rounds ha.1 ha.1).ne_nan (mul_rounds ha.2 ha.2).ne_nan
    (Rounds.ge (mul_rounds ha.1 ha.1) (mul_rounds ha.2 ha.2) (by nlinarith [sq_nonneg (val a.x), sq_nonneg (val a.y)]))

/-! ### Systems of equations -/

/-- The solver eliminates without looking for the larger coefficient: for the regular system x + y = 2, 2^60 x + y = 1 the
result x = 0, y = 2 satisfies the second equation as if its right side were 2. -/
theorem solve_residual :
    let r := Mx.solveLinearSystem (⟨lit 1 1, lit (2 ^ 60) 1⟩ : V2 F64) ⟨lit 1 1, lit 1 1⟩ ⟨lit 2 1, lit 1 1⟩
    Fp.eq r.x (lit 0 1) = true ∧ r.y = lit 2 1 := by decide +kernel

/-! ### The theorems apply -/

private def av : V2 F64 := ⟨lit 1 10, lit 2 10⟩
private def bv : V2 F64 := ⟨lit 3 10, lit (-7) 10⟩

private theorem tenth (n : Int) (h : n.natAbs ≤ 10) : Usual (lit n 10) := by
  have hr := lit_rounds n 10 (by decide)
  have hq : |(n : ℚ) / 10| ≤ 1 := by
    rw [abs_div, abs_of_pos (by norm_num : (0 : ℚ) < 10), div_le_one (by norm_num)]
    have : ((n.natAbs : Nat) : ℚ) ≤ 10 := by exact_mod_cast h
    rwa [Nat.cast_natAbs, Int.cast_abs] at this
  push_cast at hr
  have h1 := Rp.int 1 (by decide)
  have h2 := h1.neg
  push_cast at h1 h2
  obtain ⟨f, lo, hi⟩ := hr.between h2 h1 (abs_le.1 hq).1 (abs_le.1 hq).2
  exact ⟨f, (abs_le.2 ⟨lo, hi⟩).trans (one_le_pow₀ (by norm_num))⟩

private theorem av_u : Usual2 av := ⟨tenth 1 (by decide), tenth 2 (by decide)⟩
private theorem bv_u : Usual2 bv := ⟨tenth 3 (by decide), tenth (-7) (by decide)⟩
example := dot_error av bv av_u bv_u
example := cross_error av bv av_u bv_u

-- the products really are rounded
example : av.dotProduct bv ≠ lit (-11) 100 := by decide +kernel

-- an integer matrix, its determinant and its inverse
private def im : Mat F64 := ⟨2, 2, [lit 3 1, lit 1 1, lit 2 1, lit 5 1]⟩
private theorem im_int : IntMat (2 ^ 26) im !![3, 2; 1, 5] := by
  have g : ∀ n : Int, n.natAbs ≤ 2 ^ 26 → GB (2 ^ 26) (lit n 1) n := by
    intro n hn
    obtain ⟨f, v⟩ := lit_int n (by omega)
    exact ⟨⟨f, by rw [v]; simp⟩, hn⟩
  refine ⟨rfl, rfl, rfl, fun i j => ?_⟩
  fin_cases i <;> fin_cases j
  · exact ⟨lit 3 1, rfl, g 3 (by decide)⟩
  · exact ⟨lit 2 1, rfl, g 2 (by decide)⟩
  · exact ⟨lit 1 1, rfl, g 1 (by decide)⟩
  · exact ⟨lit 5 1, rfl, g 5 (by decide)⟩
example : ∃ B, im.inverse = .ok (.ok, B) ∧ TwoMat B (toQ !![3, 2; 1, 5])⁻¹ :=
  (inverse_int im).1 _ im_int (by rw [Matrix.det_fin_two]; decide)
-- and two roundings there are: the exact inverse is not representable
example : im.inverse.toOption.map (fun p => p.2.data.map fun x => decide (x = lit 5 13)) = some [true, false, false, false] := by decide +kernel

-- vectors and matrices of tenths
private theorem usual_within {x : F64} (h : Usual x) (h1 : |val x| ≤ 1) : Fp.Finite x ∧ |val x| ≤ 1 := ⟨h.1, h1⟩
private def v3 : V3 F64 := ⟨lit 1 10, lit 2 10, lit (-3) 10⟩
private theorem v3_u : Usual3 v3 := ⟨tenth 1 (by decide), tenth 2 (by decide), tenth (-3) (by decide)⟩
example := dot3_error v3 v3 v3_u v3_u
example := cross3_error v3 v3 v3_u v3_u
private theorem nth_u {v : V3 F64} (h : Usual3 v) (i : Nat) : Usual (Mx.Mat.V3.nth v i) := by
  unfold Mx.Mat.V3.nth
  split
  · exact h.1
  · split
    · exact h.2.1
    · exact h.2.2
private theorem m3_u (i j : Nat) : Usual (Mx.Mat.V3.nth (if j = 0 then v3 else if j = 1 then v3 else v3) i) := by
  simp only [ite_self]
  exact nth_u v3_u i
example := mulV3_error (Mx.Mat.ofVertices_spec v3 v3 v3).2 v3 (fun i j _ _ => m3_u i j) v3_u
private theorem tenth_le (n : Int) (h : n.natAbs ≤ 10) : |val (lit n 10)| ≤ 1 := by
  have hr := lit_rounds n 10 (by decide)
  have hq : |(n : ℚ) / 10| ≤ 1 := by
    rw [abs_div, abs_of_pos (by norm_num : (0 : ℚ) < 10), div_le_one (by norm_num)]
    have : ((n.natAbs : Nat) : ℚ) ≤ 10 := by exact_mod_cast h
    rwa [Nat.cast_natAbs, Int.cast_abs] at this
  push_cast at hr
  have h1 := Rp.int 1 (by decide)
  have h2 := h1.neg
  push_cast at h1 h2
  obtain ⟨f, lo, hi⟩ := hr.between h2 h1 (abs_le.1 hq).1 (abs_le.1 hq).2
  exact abs_le.2 ⟨lo, hi⟩
private theorem m3_w (i j : Nat) :
    Fp.Finite (Mx.Mat.V3.nth (if j = 0 then v3 else if j = 1 then v3 else v3) i) ∧
    |val (Mx.Mat.V3.nth (if j = 0 then v3 else if j = 1 then v3 else v3) i)| ≤ 1 := by
  simp only [ite_self]
  refine ⟨(nth_u v3_u i).1, ?_⟩
  unfold Mx.Mat.V3.nth
  split
  · exact tenth_le 1 (by decide)
  · split
    · exact tenth_le 2 (by decide)
    · exact tenth_le (-3) (by decide)
example := det3_error (Mx.Mat.ofVertices_spec v3 v3 v3).2 1 le_rfl (one_le_pow₀ (by norm_num)) (fun i j _ _ => m3_w i j) (lit 0 1)
private theorem new_small (i j n : Nat) (_ : i < n) (_ : j < n) : Fp.Finite (lit 0 1) ∧ |val (lit 0 1)| ≤ 1 :=
  ⟨zero_fin.1, by rw [zero_fin.2]; norm_num⟩
example (n : Nat) (hn : n ≤ 2 ^ 51) := mul_error (Mx.Mat.new_spec n n) (Mx.Mat.new_spec (K := F64) n n) hn
  (fun i k hi hk => (new_small i k n hi hk).1) (fun i k hi hk => (new_small i k n hi hk).1) (by
    intro i j _ _
    have e : val (Mx.zero : F64) = 0 := zero_fin.2
    simp only [e, mul_zero, abs_zero, Finset.sum_const_zero]
    exact pow_nonneg (by norm_num) _)

end Verif.FpVec
