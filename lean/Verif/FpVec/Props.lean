import Verif.FpVec.Sum
/-
C114: products of vectors and matrices, computed with doubles.
-/
namespace Verif.FpVec
open Verif Verif.Fp Verif.Exact
open Verif.Mx (V2 V3 Vec Mat)
open Verif.Mx.Mat (sumOf Is)
open scoped BigOperators

attribute [local irreducible] Fp.one Fp.lit

theorem Ap.near {r : F64} {e a : ℚ} {n : Nat} (h : Ap r e a n (lost n)) : Near r e a n := ⟨h.fin, h.err⟩

/-- the element `i` of a block of doubles -/
def at' (d : List F64) (i : Nat) : F64 := d.getD i (lit 0 1)

theorem elems_at (d : List F64) (i : Nat) : Mat.elems d i = at' d i := rfl

theorem at_get (d : List F64) (i : Nat) (h : i < d.length) : Verif.rd d i = .ok (at' d i) := by
  rw [rd_ok h, at', List.getD_eq_getElem?_getD, List.getElem?_eq_getElem h]; rfl

theorem dot_eq (a b : Vec F64) (ha : a.m ≤ a.data.length) (hb : a.m ≤ b.data.length) :
    a.dotProduct b = .ok (sumOf a.m fun i => at' a.data i * at' b.data i) := by
  unfold Vec.dotProduct sumOf
  refine Mx.foldlM_ok (g := fun s i => s + at' a.data i * at' b.data i) _ _ ?_
  intro s i hi
  rw [List.mem_range] at hi
  rw [at_get _ _ (by omega), at_get _ _ (by omega)]
  rfl

/-- The dot product of two vectors of any length. -/
theorem dotProduct_error (a b : Vec F64) (ha : a.m ≤ a.data.length) (hb : a.m ≤ b.data.length) (hn : a.m ≤ 2 ^ 51)
    (hf : ∀ i, i < a.m → Finite (at' a.data i) ∧ Finite (at' b.data i))
    (hs : ∑ i ∈ Finset.range a.m, |val (at' a.data i) * val (at' b.data i)| ≤ 2 ^ 1022) :
    ∃ r, a.dotProduct b = .ok r ∧ Near r (∑ i ∈ Finset.range a.m, val (at' a.data i) * val (at' b.data i))
      (∑ i ∈ Finset.range a.m, |val (at' a.data i) * val (at' b.data i)|) a.m :=
  ⟨_, dot_eq a b ha hb, (sum_ap a.m _ _ hn hf (by unfold huge; rw [pow_succ]; linarith)).near⟩

/-- The product of two matrices: every cell. -/
theorem mul_error {A B : Mat F64} {m n p : Nat} {f g : Nat → Nat → F64} (h : Is A m n f) (h' : Is B n p g) (hn : n ≤ 2 ^ 51)
    (hf : ∀ i k, i < m → k < n → Finite (f i k)) (hg : ∀ k j, k < n → j < p → Finite (g k j))
    (hs : ∀ i j, i < m → j < p → ∑ k ∈ Finset.range n, |val (f i k) * val (g k j)| ≤ 2 ^ 1022) :
    ∃ C, Mat.mul A B = .ok C ∧ C.m = m ∧ C.n = p ∧ ∀ (i j : Nat), i < m → j < p → ∃ r, C.get i j = .ok r ∧
      Near r (∑ k ∈ Finset.range n, val (f i k) * val (g k j)) (∑ k ∈ Finset.range n, |val (f i k) * val (g k j)|) n := by
  obtain ⟨C, e, hC⟩ := Mx.Mat.mul_spec h h'
  refine ⟨C, e, hC.rows, hC.cols, fun i j hi hj => ⟨_, hC.get i j hi hj, ?_⟩⟩
  exact (sum_ap n (fun k => f i k) (fun k => g k j) hn (fun k hk => ⟨hf i k hi hk, hg k j hk hj⟩)
    (by unfold huge; rw [pow_succ]; have := hs i j hi hj; linarith)).near

/-- The product of a matrix and a vector: every component. -/
theorem mulVec_error {A : Mat F64} {m n : Nat} {f : Nat → Nat → F64} (h : Is A m n f) (b : Vec F64) (hb : b.m = n)
    (hl : b.data.length = n) (hn : n ≤ 2 ^ 51)
    (hf : ∀ i k, i < m → k < n → Finite (f i k)) (hg : ∀ k, k < n → Finite (at' b.data k))
    (hs : ∀ i, i < m → ∑ k ∈ Finset.range n, |val (f i k) * val (at' b.data k)| ≤ 2 ^ 1022) :
    ∃ c, Mat.mulVec A b = .ok c ∧ c.m = m ∧ ∀ (i : Nat), i < m → ∃ r, c.data[i]? = some r ∧
      Near r (∑ k ∈ Finset.range n, val (f i k) * val (at' b.data k)) (∑ k ∈ Finset.range n, |val (f i k) * val (at' b.data k)|) n := by
  obtain ⟨c, e, h1, -, h3⟩ := Mx.Mat.mulVec_spec h b hb hl
  refine ⟨c, e, h1, fun i hi => ⟨_, h3 i hi, ?_⟩⟩
  have e1 : ∀ k, val (f i k) * val (at' b.data k) = val (at' b.data k) * val (f i k) := fun k => mul_comm _ _
  simp only [e1]
  exact (sum_ap n (fun k => at' b.data k) (fun k => f i k) hn (fun k hk => ⟨hg k hk, hf i k hi hk⟩)
    (by unfold huge; rw [pow_succ]; have := hs i hi; simp only [e1] at this; linarith)).near

/-! ### Two and three components -/

/-- finite and of an absolute value up to 2^500 -/
def Usual (x : F64) : Prop := Finite x ∧ |val x| ≤ 2 ^ 500
/-- all components -/
def Usual2 (v : V2 F64) : Prop := Usual v.x ∧ Usual v.y
def Usual3 (v : V3 F64) : Prop := Usual v.x ∧ Usual v.y ∧ Usual v.z

/-- the products of two such numbers -/
def big : ℚ := 2 ^ 1000
theorem big_pos : 0 < big := by unfold big; positivity

theorem Usual.prod {x y : F64} (hx : Usual x) (hy : Usual y) : |val x * val y| ≤ big := by
  unfold big
  rw [abs_mul]
  refine (mul_le_mul hx.2 hy.2 (abs_nonneg _) (by positivity)).trans ?_
  rw [← pow_add]

theorem huge_big : 64 * big + 64 ≤ huge := by
  unfold big
  have h1 : huge = 2 ^ 1000 * 2 ^ 23 := by unfold huge; rw [← pow_add]
  have h2 : (1 : ℚ) ≤ 2 ^ 1000 := one_le_pow₀ (by norm_num)
  rw [h1]
  generalize (2 : ℚ) ^ 1000 = q at h2 ⊢
  norm_num
  linarith

theorem Usual.ap {x y : F64} (hx : Usual x) (hy : Usual y) : Ap (x * y) (val x * val y) |val x * val y| 1 eta :=
  Ap.prod hx.1 hy.1 (by have := hx.prod hy; have := huge_big; have := big_pos
                        linarith)

theorem eta_small : eta ≤ 1 := eta_le_one.trans (by norm_num)

theorem lost_two : (1 + u) * (eta + eta) ≤ lost 2 := by
  unfold lost
  have := u_pos
  have := eta_pos
  push_cast
  nlinarith [mul_pos u_pos eta_pos, mul_pos u_pos (mul_pos u_pos eta_pos)]

theorem pow1 : (1 + u) ^ 1 ≤ 2 := by rw [pow_one]; linarith [u_le]
theorem pow2 : (1 + u) ^ 2 ≤ 2 := by have := pow_le_two 2 (by norm_num); linarith

/-- `x y + z w` -/
theorem sum2 {x y z w : F64} (hx : Usual x) (hy : Usual y) (hz : Usual z) (hw : Usual w) :
    Ap (x * y + z * w) (val x * val y + val z * val w) (|val x * val y| + |val z * val w|) 2 ((1 + u) * (eta + eta)) ∧
    Ap (x * y - z * w) (val x * val y - val z * val w) (|val x * val y| + |val z * val w|) 2 ((1 + u) * (eta + eta)) := by
  have hb : (1 + u) ^ 1 * (|val x * val y| + |val z * val w|) + (eta + eta) ≤ huge := by
    have h1 := hx.prod hy
    have h2 := hz.prod hw
    have h3 := huge_big
    have h4 := eta_small
    have h5 : (1 + u) ^ 1 * (|val x * val y| + |val z * val w|) ≤ 2 * (big + big) :=
      mul_le_mul pow1 (by linarith) (add_nonneg (abs_nonneg _) (abs_nonneg _)) (by norm_num)
    have := big_pos
    linarith
  exact ⟨(hx.ap hy).add (hz.ap hw) hb, (hx.ap hy).sub (hz.ap hw) hb⟩

/-- The dot products of `Vertex2` and `Vertex3`. -/
theorem dot_error (a b : V2 F64) (ha : Usual2 a) (hb : Usual2 b) :
    Near (a.dotProduct b) (val a.x * val b.x + val a.y * val b.y) (|val a.x * val b.x| + |val a.y * val b.y|) 2 :=
  ((sum2 ha.1 hb.1 ha.2 hb.2).1.mono le_rfl lost_two).near

theorem sum3 {x y z w s t : F64} (hx : Usual x) (hy : Usual y) (hz : Usual z) (hw : Usual w) (hs : Usual s) (ht : Usual t) :
    Near (x * y + z * w + s * t) (val x * val y + val z * val w + val s * val t)
      (|val x * val y| + |val z * val w| + |val s * val t|) 3 := by
  have h1 := (sum2 hx hy hz hw).1
  have hb : (1 + u) ^ 2 * (|val x * val y| + |val z * val w| + |val s * val t|) + ((1 + u) * (eta + eta) + eta) ≤ huge := by
    have h1 := hx.prod hy
    have h2 := hz.prod hw
    have h2' := hs.prod ht
    have h3 := huge_big
    have h4 := eta_small
    have h5 : (1 + u) ^ 2 * (|val x * val y| + |val z * val w| + |val s * val t|) ≤ 2 * (big + big + big) :=
      mul_le_mul pow2 (by linarith) (add_nonneg (add_nonneg (abs_nonneg _) (abs_nonneg _)) (abs_nonneg _)) (by norm_num)
    have h6 : (1 + u) * (eta + eta) ≤ 2 * 2 := mul_le_mul (by linarith [u_le]) (by linarith) (by linarith [eta_pos]) (by norm_num)
    have := big_pos
    linarith
  refine ((h1.add ((hs.ap ht).mono (by omega) le_rfl) hb).mono le_rfl ?_).near
  unfold lost
  have := u_pos
  have := eta_pos
  push_cast
  nlinarith [mul_pos u_pos eta_pos, mul_pos u_pos (mul_pos u_pos eta_pos), mul_pos u_pos (mul_pos u_pos (mul_pos u_pos eta_pos))]

theorem dot3_error (a b : V3 F64) (ha : Usual3 a) (hb : Usual3 b) :
    Near (a.dotProduct b) (val a.x * val b.x + val a.y * val b.y + val a.z * val b.z)
      (|val a.x * val b.x| + |val a.y * val b.y| + |val a.z * val b.z|) 3 :=
  sum3 ha.1 hb.1 ha.2.1 hb.2.1 ha.2.2 hb.2.2

/-- The cross products of `Vertex2` and `Vertex3`. -/
theorem cross_error (a b : V2 F64) (ha : Usual2 a) (hb : Usual2 b) :
    Near (a.crossProduct b) (val a.x * val b.y - val a.y * val b.x) (|val a.x * val b.y| + |val a.y * val b.x|) 2 :=
  ((sum2 ha.1 hb.2 ha.2 hb.1).2.mono le_rfl lost_two).near

theorem cross3_error (a b : V3 F64) (ha : Usual3 a) (hb : Usual3 b) :
    Near (a.crossProduct b).x (val a.y * val b.z - val a.z * val b.y) (|val a.y * val b.z| + |val a.z * val b.y|) 2 ∧
    Near (a.crossProduct b).y (val a.z * val b.x - val a.x * val b.z) (|val a.z * val b.x| + |val a.x * val b.z|) 2 ∧
    Near (a.crossProduct b).z (val a.x * val b.y - val a.y * val b.x) (|val a.x * val b.y| + |val a.y * val b.x|) 2 :=
  ⟨((sum2 ha.2.1 hb.2.2 ha.2.2 hb.2.1).2.mono le_rfl lost_two).near,
   ((sum2 ha.2.2 hb.1 ha.1 hb.2.2).2.mono le_rfl lost_two).near,
   ((sum2 ha.1 hb.2.1 ha.2.1 hb.1).2.mono le_rfl lost_two).near⟩

/-- A 3 × 3 matrix times a `Vertex3`. -/
theorem mulV3_error {A : Mat F64} {f : Nat → Nat → F64} (h : Is A 3 3 f) (b : V3 F64) (hf : ∀ i j, i < 3 → j < 3 → Usual (f i j))
    (hb : Usual3 b) :
    ∃ r, A.mulV3 b = .ok r ∧
      (∀ i, i < 3 → Near (Mx.Mat.V3.nth r i) (val (f i 0) * val b.x + val (f i 1) * val b.y + val (f i 2) * val b.z)
        (|val (f i 0) * val b.x| + |val (f i 1) * val b.y| + |val (f i 2) * val b.z|) 3) := by
  have el : ∀ i j, i < 3 → j < 3 → Mat.elems A.data (i + j * 3) = f i j := by
    intro i j hi hj
    have := h.elem hi hj
    unfold Mat.elems
    rw [List.getD_eq_getElem?_getD, this]; rfl
  refine ⟨⟨f 0 0 * b.x + f 0 1 * b.y + f 0 2 * b.z, f 1 0 * b.x + f 1 1 * b.y + f 1 2 * b.z,
    f 2 0 * b.x + f 2 1 * b.y + f 2 2 * b.z⟩, ?_, ?_⟩
  · unfold Mat.mulV3
    rw [if_neg (by rw [h.rows, h.cols]; omega), Mat.readAll, if_neg (by rw [h.size]; omega)]
    have e0 := el 0 0 (by omega) (by omega)
    have e1 := el 1 0 (by omega) (by omega)
    have e2 := el 2 0 (by omega) (by omega)
    have e3 := el 0 1 (by omega) (by omega)
    have e4 := el 1 1 (by omega) (by omega)
    have e5 := el 2 1 (by omega) (by omega)
    have e6 := el 0 2 (by omega) (by omega)
    have e7 := el 1 2 (by omega) (by omega)
    have e8 := el 2 2 (by omega) (by omega)
    simp only [Nat.reduceMul, Nat.reduceAdd, Nat.zero_mul, Nat.add_zero, Nat.zero_add] at e0 e1 e2 e3 e4 e5 e6 e7 e8
    simp only [Except.map, e0, e1, e2, e3, e4, e5, e6, e7, e8]
  · intro i hi
    obtain rfl | rfl | rfl := Mx.Mat.cases3 hi <;>
      exact sum3 (hf _ 0 (by omega) (by omega)) hb.1 (hf _ 1 (by omega) (by omega)) hb.2.1 (hf _ 2 (by omega) (by omega)) hb.2.2

theorem one_usual : Usual (lit 1 1) ∧ val (lit 1 1) = 1 := by
  obtain ⟨f, v⟩ := lit_int 1 (by decide)
  have v' : val (lit 1 1) = 1 := by rw [v]; norm_num
  refine ⟨⟨f, ?_⟩, v'⟩
  rw [v', abs_one]
  exact one_le_pow₀ (by norm_num)

/-- A point moved by a 4 × 4 transformation. -/
theorem trans_error {A : Mat F64} {f : Nat → Nat → F64} (h : Is A 4 4 f) (b : V3 F64) (hf : ∀ i j, i < 4 → j < 4 → Usual (f i j))
    (hb : Usual3 b) :
    ∃ r, A.trans b = .ok r ∧
      (∀ i, i < 3 → Near (Mx.Mat.V3.nth r i) (val (f i 0) * val b.x + val (f i 1) * val b.y + val (f i 2) * val b.z + val (f i 3))
        (|val (f i 0) * val b.x| + |val (f i 1) * val b.y| + |val (f i 2) * val b.z| + |val (f i 3)|) 4) := by
  have hcopy : Mat.copy A = .ok A := Mx.Mat.copy_eq A (by rw [h.rows, h.cols]; exact h.size)
  obtain ⟨o1, o2⟩ := one_usual
  have hbu : ∀ k, k < 4 → Usual (at' [b.x, b.y, b.z, lit 1 1] k) := by
    intro k hk
    obtain rfl | rfl | rfl | rfl := Mx.Mat.cases4 hk
    · exact hb.1
    · exact hb.2.1
    · exact hb.2.2
    · exact o1
  have sm : ∀ g : Nat → ℚ, ∑ k ∈ Finset.range 4, g k = g 0 + g 1 + g 2 + g 3 := by
    intro g; simp only [Finset.sum_range_succ, Finset.sum_range_zero, zero_add]
  obtain ⟨c, e, hm, hc⟩ := mulVec_error h ⟨4, [b.x, b.y, b.z, lit 1 1]⟩ rfl rfl (by norm_num)
    (fun i k hi hk => (hf i k hi hk).1) (fun k hk => (hbu k hk).1) (by
      intro i hi
      rw [sm]
      have h0 := (hf i 0 hi (by omega)).prod (hbu 0 (by omega))
      have h1 := (hf i 1 hi (by omega)).prod (hbu 1 (by omega))
      have h2 := (hf i 2 hi (by omega)).prod (hbu 2 (by omega))
      have h3 := (hf i 3 hi (by omega)).prod (hbu 3 (by omega))
      have h4 := huge_big
      have h5 : (2 : ℚ) ^ 1022 = huge / 2 := by unfold huge; rw [pow_succ (2 : ℚ) 1022, mul_div_assoc, div_self (by norm_num), mul_one]
      rw [h5]
      clear h5
      have := big_pos
      dsimp only
      linarith)
  have row : ∀ i, i < 4 → ∃ r, Verif.rd c.data i = .ok r ∧
      Near r (val (f i 0) * val b.x + val (f i 1) * val b.y + val (f i 2) * val b.z + val (f i 3))
        (|val (f i 0) * val b.x| + |val (f i 1) * val b.y| + |val (f i 2) * val b.z| + |val (f i 3)|) 4 := by
    intro i hi
    obtain ⟨r, h1, h2⟩ := hc i hi
    refine ⟨r, by rw [Mx.rd_some]; exact h1, ?_⟩
    rw [sm, sm] at h2
    have e0 : at' [b.x, b.y, b.z, lit 1 1] 0 = b.x := rfl
    have e1 : at' [b.x, b.y, b.z, lit 1 1] 1 = b.y := rfl
    have e2 : at' [b.x, b.y, b.z, lit 1 1] 2 = b.z := rfl
    have e3 : at' [b.x, b.y, b.z, lit 1 1] 3 = lit 1 1 := rfl
    simp only [e0, e1, e2, e3, o2, mul_one] at h2
    exact h2
  obtain ⟨r0, a0, b0⟩ := row 0 (by omega)
  obtain ⟨r1, a1, b1⟩ := row 1 (by omega)
  obtain ⟨r2, a2, b2⟩ := row 2 (by omega)
  refine ⟨⟨r0, r1, r2⟩, ?_, ?_⟩
  · unfold Mat.trans
    rw [hcopy]
    simp only [bind, Except.bind]
    have : (Mx.one : F64) = lit 1 1 := rfl
    rw [this, e]
    simp only [a0, a1, a2]
    rfl
  · intro i hi
    obtain rfl | rfl | rfl := Mx.Mat.cases3 hi
    · exact b0
    · exact b1
    · exact b2

end Verif.FpVec
