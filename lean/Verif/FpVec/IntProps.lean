import Verif.FpVec.DetProps
/-
C115: vectors and matrices with integer elements (or integers in units of 2^-k) are computed without any rounding error as long as
the numbers fit into 53 bits; the inverse of such a matrix is off by two roundings.
-/
namespace Verif.FpVec
open Verif Verif.Fp Verif.Exact
open Verif.Mx (V2 V3 Vec Mat)
open Verif.Mx.Mat (sumOf Is)
open scoped BigOperators

attribute [local irreducible] Fp.one Fp.lit

/-- The dot product of vectors of any length. -/
theorem dotProduct_int (a b : Vec F64) (ha : a.m ≤ a.data.length) (hb : a.m ≤ b.data.length) (x y : Nat → Int) (j l : Nat)
    (hjl : j + l ≤ 1074) (hf : ∀ i, i < a.m → Gr j (at' a.data i) (x i) ∧ Gr l (at' b.data i) (y i))
    (hs : ∑ i ∈ Finset.range a.m, (x i * y i).natAbs ≤ 2 ^ 53) :
    ∃ r, a.dotProduct b = .ok r ∧ Gr (j + l) r (∑ i ∈ Finset.range a.m, x i * y i) :=
  ⟨_, dot_eq a b ha hb, sum_gr a.m _ _ x y j l hjl hf hs⟩

/-- The product of two matrices of any size. -/
theorem mul_int {A B : Mat F64} {m n p : Nat} {f g : Nat → Nat → F64} (h : Is A m n f) (h' : Is B n p g) (x y : Nat → Nat → Int)
    (j l : Nat) (hjl : j + l ≤ 1074) (hf : ∀ i k, i < m → k < n → Gr j (f i k) (x i k)) (hg : ∀ k c, k < n → c < p → Gr l (g k c) (y k c))
    (hs : ∀ i c, i < m → c < p → ∑ k ∈ Finset.range n, (x i k * y k c).natAbs ≤ 2 ^ 53) :
    ∃ C, Mat.mul A B = .ok C ∧ C.m = m ∧ C.n = p ∧ ∀ (i c : Nat), i < m → c < p → ∃ r, C.get i c = .ok r ∧
      Gr (j + l) r (∑ k ∈ Finset.range n, x i k * y k c) := by
  obtain ⟨C, e, hC⟩ := Mx.Mat.mul_spec h h'
  refine ⟨C, e, hC.rows, hC.cols, fun i c hi hc => ⟨_, hC.get i c hi hc, ?_⟩⟩
  exact sum_gr n (fun k => f i k) (fun k => g k c) (x i) (fun k => y k c) j l hjl
    (fun k hk => ⟨hf i k hi hk, hg k c hk hc⟩) (hs i c hi hc)

/-! ### Integers with a bound -/

/-- the double `x` is the integer `m`, and `m` is at most `b` -/
def GB (b : Nat) (x : F64) (m : Int) : Prop := Gr 0 x m ∧ m.natAbs ≤ b

theorem GB.add {b c : Nat} {x y : F64} {m n : Int} (hx : GB b x m) (hy : GB c y n) (h : b + c ≤ 2 ^ 53) : GB (b + c) (x + y) (m + n) := by
  have : (m + n).natAbs ≤ b + c := (Int.natAbs_add_le _ _).trans (Nat.add_le_add hx.2 hy.2)
  exact ⟨hx.1.add hy.1 (by omega) (by omega), this⟩
theorem GB.sub {b c : Nat} {x y : F64} {m n : Int} (hx : GB b x m) (hy : GB c y n) (h : b + c ≤ 2 ^ 53) : GB (b + c) (x - y) (m - n) := by
  have : (m - n).natAbs ≤ b + c := (Int.natAbs_sub_le _ _).trans (Nat.add_le_add hx.2 hy.2)
  exact ⟨hx.1.sub hy.1 (by omega) (by omega), this⟩
theorem GB.mul {b c : Nat} {x y : F64} {m n : Int} (hx : GB b x m) (hy : GB c y n) (h : b * c ≤ 2 ^ 53) : GB (b * c) (x * y) (m * n) := by
  have : (m * n).natAbs ≤ b * c := by rw [Int.natAbs_mul]; exact Nat.mul_le_mul hx.2 hy.2
  exact ⟨hx.1.mul hy.1 (by omega) (by omega), this⟩
theorem GB.neg {b : Nat} {x : F64} {m : Int} (hx : GB b x m) : GB b (-x) (-m) := ⟨hx.1.neg, by rw [Int.natAbs_neg]; exact hx.2⟩
theorem GB.val {b : Nat} {x : F64} {m : Int} (h : GB b x m) : Finite x ∧ Fp.val x = m := ⟨h.1.fin, by rw [h.1.eqv]; simp⟩

/-- the components are integers up to `b` -/
def Int2 (b : Nat) (v : V2 F64) (x y : Int) : Prop := GB b v.x x ∧ GB b v.y y
def Int3 (b : Nat) (v : V3 F64) (x y z : Int) : Prop := GB b v.x x ∧ GB b v.y y ∧ GB b v.z z

/-- Dot and cross product of `Vertex2` and `Vertex3` with integer components up to 2^25 are exact. -/
theorem vertex_int {a b : V3 F64} {x y z x' y' z' : Int} (ha : Int3 (2 ^ 25) a x y z) (hb : Int3 (2 ^ 25) b x' y' z') :
    (Finite (a.dotProduct b) ∧ val (a.dotProduct b) = x * x' + y * y' + z * z') ∧
    (Finite (a.crossProduct b).x ∧ val (a.crossProduct b).x = y * z' - z * y') ∧
    (Finite (a.crossProduct b).y ∧ val (a.crossProduct b).y = z * x' - x * z') ∧
    (Finite (a.crossProduct b).z ∧ val (a.crossProduct b).z = x * y' - y * x') := by
  obtain ⟨a1, a2, a3⟩ := ha
  obtain ⟨b1, b2, b3⟩ := hb
  refine ⟨?_, ?_, ?_, ?_⟩
  · have := (((a1.mul b1 (by norm_num)).add (a2.mul b2 (by norm_num)) (by norm_num)).add (a3.mul b3 (by norm_num)) (by norm_num)).val
    push_cast at this
    exact this
  · have := ((a2.mul b3 (by norm_num)).sub (a3.mul b2 (by norm_num)) (by norm_num)).val
    push_cast at this
    exact this
  · have := ((a3.mul b1 (by norm_num)).sub (a1.mul b3 (by norm_num)) (by norm_num)).val
    push_cast at this
    exact this
  · have := ((a1.mul b2 (by norm_num)).sub (a2.mul b1 (by norm_num)) (by norm_num)).val
    push_cast at this
    exact this

theorem vertex2_int {a b : V2 F64} {x y x' y' : Int} (ha : Int2 (2 ^ 26) a x y) (hb : Int2 (2 ^ 26) b x' y') :
    (Finite (a.dotProduct b) ∧ val (a.dotProduct b) = x * x' + y * y') ∧
    (Finite (a.crossProduct b) ∧ val (a.crossProduct b) = x * y' - y * x') := by
  obtain ⟨a1, a2⟩ := ha
  obtain ⟨b1, b2⟩ := hb
  refine ⟨?_, ?_⟩
  · have := ((a1.mul b1 (by norm_num)).add (a2.mul b2 (by norm_num)) (by norm_num)).val
    push_cast at this
    exact this
  · have := ((a1.mul b2 (by norm_num)).sub (a2.mul b1 (by norm_num)) (by norm_num)).val
    push_cast at this
    exact this

/-! ### Determinants -/

/-- the object holds the integer matrix `M`, with elements up to `b` -/
structure IntMat {n : Nat} (b : Nat) (A : Mat F64) (M : Matrix (Fin n) (Fin n) ℤ) : Prop where
  rows : A.m = n
  cols : A.n = n
  size : A.data.length = n * n
  get : ∀ i j : Fin n, ∃ x, A.get (i.val : Int) (j.val : Int) = .ok x ∧ GB b x (M i j)

theorem IntMat.elems {n b : Nat} {A : Mat F64} {M : Matrix (Fin n) (Fin n) ℤ} (h : IntMat b A M) (i j : Fin n) :
    GB b (Mat.elems A.data (i.val + j.val * n)) (M i j) := by
  obtain ⟨x, h1, h2⟩ := h.get i j
  rw [Mx.Mat.get_nat, h.rows] at h1
  have hl : i.val + j.val * n < A.data.length := by rw [h.size]; exact Mx.idx_lt i.2 j.2
  rw [rd_ok hl] at h1
  have : Mat.elems A.data (i.val + j.val * n) = x := by
    unfold Mat.elems
    rw [List.getD_eq_getElem?_getD, List.getElem?_eq_getElem hl]
    injection h1
  rw [this]
  exact h2

theorem IntMat.readAll {n b : Nat} {A : Mat F64} {M : Matrix (Fin n) (Fin n) ℤ} (h : IntMat b A M) (c : Nat) (hc : c = n * n) :
    Mat.readAll A.data c = .ok (Mat.elems A.data) := by
  unfold Mat.readAll
  rw [if_neg (by rw [h.size, hc]; omega)]

theorem icells2 {b : Nat} {A : Mat F64} {M : Matrix (Fin 2) (Fin 2) ℤ} (h : IntMat b A M) :
    GB b (Mat.elems A.data 0) (M 0 0) ∧ GB b (Mat.elems A.data 1) (M 1 0) ∧ GB b (Mat.elems A.data 2) (M 0 1) ∧ GB b (Mat.elems A.data 3) (M 1 1) :=
  ⟨h.elems 0 0, h.elems 1 0, h.elems 0 1, h.elems 1 1⟩

theorem icells3 {b : Nat} {A : Mat F64} {M : Matrix (Fin 3) (Fin 3) ℤ} (h : IntMat b A M) :
    GB b (Mat.elems A.data 0) (M 0 0) ∧ GB b (Mat.elems A.data 1) (M 1 0) ∧ GB b (Mat.elems A.data 2) (M 2 0) ∧ GB b (Mat.elems A.data 3) (M 0 1) ∧ GB b (Mat.elems A.data 4) (M 1 1) ∧ GB b (Mat.elems A.data 5) (M 2 1) ∧ GB b (Mat.elems A.data 6) (M 0 2) ∧ GB b (Mat.elems A.data 7) (M 1 2) ∧ GB b (Mat.elems A.data 8) (M 2 2) :=
  ⟨h.elems 0 0, h.elems 1 0, h.elems 2 0, h.elems 0 1, h.elems 1 1, h.elems 2 1, h.elems 0 2, h.elems 1 2, h.elems 2 2⟩

theorem icells4 {b : Nat} {A : Mat F64} {M : Matrix (Fin 4) (Fin 4) ℤ} (h : IntMat b A M) :
    GB b (Mat.elems A.data 0) (M 0 0) ∧ GB b (Mat.elems A.data 1) (M 1 0) ∧ GB b (Mat.elems A.data 2) (M 2 0) ∧ GB b (Mat.elems A.data 3) (M 3 0) ∧ GB b (Mat.elems A.data 4) (M 0 1) ∧ GB b (Mat.elems A.data 5) (M 1 1) ∧ GB b (Mat.elems A.data 6) (M 2 1) ∧ GB b (Mat.elems A.data 7) (M 3 1) ∧ GB b (Mat.elems A.data 8) (M 0 2) ∧ GB b (Mat.elems A.data 9) (M 1 2) ∧ GB b (Mat.elems A.data 10) (M 2 2) ∧ GB b (Mat.elems A.data 11) (M 3 2) ∧ GB b (Mat.elems A.data 12) (M 0 3) ∧ GB b (Mat.elems A.data 13) (M 1 3) ∧ GB b (Mat.elems A.data 14) (M 2 3) ∧ GB b (Mat.elems A.data 15) (M 3 3) :=
  ⟨h.elems 0 0, h.elems 1 0, h.elems 2 0, h.elems 3 0, h.elems 0 1, h.elems 1 1, h.elems 2 1, h.elems 3 1, h.elems 0 2, h.elems 1 2, h.elems 2 2, h.elems 3 2, h.elems 0 3, h.elems 1 3, h.elems 2 3, h.elems 3 3⟩

theorem idet2 {A : Mat F64} {M : Matrix (Fin 2) (Fin 2) ℤ} (h : IntMat (2 ^ 26) A M) : GB (2 ^ 53) (Mat.det2 (Mat.elems A.data)) M.det := by
  obtain ⟨w0, w1, w2, w3⟩ := icells2 h
  have r := (w0.mul w3 (by norm_num)).sub (w1.mul w2 (by norm_num)) (by norm_num)
  have e : M.det = M 0 0 * M 1 1 - M 1 0 * M 0 1 := by rw [Matrix.det_fin_two]; ring
  rw [e]
  exact ⟨r.1, r.2.trans (by norm_num)⟩

theorem tri48 {x y z : F64} {m n k : Int} (hx : GB (2 ^ 16) x m) (hy : GB (2 ^ 16) y n) (hz : GB (2 ^ 16) z k) :
    GB (2 ^ 48) (x * y * z) (m * n * k) := by
  have r := (hx.mul hy (by norm_num)).mul hz (by norm_num)
  exact ⟨r.1, r.2.trans (by norm_num)⟩

theorem idet3 {A : Mat F64} {M : Matrix (Fin 3) (Fin 3) ℤ} (h : IntMat (2 ^ 16) A M) : GB (2 ^ 53) (Mat.det3 (Mat.elems A.data)) M.det := by
  obtain ⟨w0, w1, w2, w3, w4, w5, w6, w7, w8⟩ := icells3 h
  have r := (((((tri48 w0 w4 w8).add (tri48 w3 w7 w2) (by norm_num)).add (tri48 w6 w1 w5) (by norm_num)).sub (tri48 w6 w4 w2)
    (by norm_num)).sub (tri48 w7 w5 w0) (by norm_num)).sub (tri48 w8 w3 w1) (by norm_num)
  have e : M.det = M 0 0 * M 1 1 * M 2 2 + M 0 1 * M 1 2 * M 2 0 + M 0 2 * M 1 0 * M 2 1 - M 0 2 * M 1 1 * M 2 0 -
      M 1 2 * M 2 1 * M 0 0 - M 2 2 * M 0 1 * M 1 0 := by rw [Matrix.det_fin_three]; ring
  rw [e]
  exact ⟨r.1, r.2.trans (by norm_num)⟩

theorem tri36 {x y z : F64} {m n k : Int} (hx : GB (2 ^ 12) x m) (hy : GB (2 ^ 12) y n) (hz : GB (2 ^ 12) z k) :
    GB (2 ^ 36) (x * y * z) (m * n * k) := by
  have r := (hx.mul hy (by norm_num)).mul hz (by norm_num)
  exact ⟨r.1, r.2.trans (by norm_num)⟩
theorem three48 {x1 x2 x3 x4 y1 y2 y3 y4 z1 z2 z3 z4 : F64} {m1 m2 m3 m4 n1 n2 n3 n4 k1 k2 k3 k4 : Int}
    (a1 : GB (2 ^ 12) x1 m1) (a2 : GB (2 ^ 12) x2 m2) (a3 : GB (2 ^ 12) x3 m3) (a4 : GB (2 ^ 12) x4 m4)
    (b1 : GB (2 ^ 12) y1 n1) (b2 : GB (2 ^ 12) y2 n2) (b3 : GB (2 ^ 12) y3 n3) (b4 : GB (2 ^ 12) y4 n4)
    (d1 : GB (2 ^ 12) z1 k1) (d2 : GB (2 ^ 12) z2 k2) (d3 : GB (2 ^ 12) z3 k3) (d4 : GB (2 ^ 12) z4 k4) :
    GB (3 * 2 ^ 48) (x1 * x2 * x3 * x4 + y1 * y2 * y3 * y4 + z1 * z2 * z3 * z4) (m1 * m2 * m3 * m4 + n1 * n2 * n3 * n4 + k1 * k2 * k3 * k4) := by
  have r := (((tri36 a1 a2 a3).mul a4 (by norm_num)).add ((tri36 b1 b2 b3).mul b4 (by norm_num)) (by norm_num)).add
    ((tri36 d1 d2 d3).mul d4 (by norm_num)) (by norm_num)
  exact ⟨r.1, r.2.trans (by norm_num)⟩
theorem six36 {x1 x2 x3 y1 y2 y3 z1 z2 z3 p1 p2 p3 q1 q2 q3 s1 s2 s3 : F64} {m1 m2 m3 n1 n2 n3 k1 k2 k3 i1 i2 i3 j1 j2 j3 l1 l2 l3 : Int}
    (a1 : GB (2 ^ 12) x1 m1) (a2 : GB (2 ^ 12) x2 m2) (a3 : GB (2 ^ 12) x3 m3)
    (b1 : GB (2 ^ 12) y1 n1) (b2 : GB (2 ^ 12) y2 n2) (b3 : GB (2 ^ 12) y3 n3)
    (d1 : GB (2 ^ 12) z1 k1) (d2 : GB (2 ^ 12) z2 k2) (d3 : GB (2 ^ 12) z3 k3)
    (e1 : GB (2 ^ 12) p1 i1) (e2 : GB (2 ^ 12) p2 i2) (e3 : GB (2 ^ 12) p3 i3)
    (f1 : GB (2 ^ 12) q1 j1) (f2 : GB (2 ^ 12) q2 j2) (f3 : GB (2 ^ 12) q3 j3)
    (g1 : GB (2 ^ 12) s1 l1) (g2 : GB (2 ^ 12) s2 l2) (g3 : GB (2 ^ 12) s3 l3) :
    GB (2 ^ 53) (x1 * x2 * x3 + y1 * y2 * y3 + z1 * z2 * z3 - p1 * p2 * p3 - q1 * q2 * q3 - s1 * s2 * s3)
      (m1 * m2 * m3 + n1 * n2 * n3 + k1 * k2 * k3 - i1 * i2 * i3 - j1 * j2 * j3 - l1 * l2 * l3) := by
  have r := (((((tri36 a1 a2 a3).add (tri36 b1 b2 b3) (by norm_num)).add (tri36 d1 d2 d3) (by norm_num)).sub (tri36 e1 e2 e3)
    (by norm_num)).sub (tri36 f1 f2 f3) (by norm_num)).sub (tri36 g1 g2 g3) (by norm_num)
  exact ⟨r.1, r.2.trans (by norm_num)⟩

theorem det_four' {R : Type} [CommRing R] (M : Matrix (Fin 4) (Fin 4) R) : M.det =
    M 0 0 * (M 1 1 * M 2 2 * M 3 3 - M 1 1 * M 2 3 * M 3 2 - M 1 2 * M 2 1 * M 3 3 + M 1 2 * M 2 3 * M 3 1 + M 1 3 * M 2 1 * M 3 2 - M 1 3 * M 2 2 * M 3 1)
    - M 0 1 * (M 1 0 * M 2 2 * M 3 3 - M 1 0 * M 2 3 * M 3 2 - M 1 2 * M 2 0 * M 3 3 + M 1 2 * M 2 3 * M 3 0 + M 1 3 * M 2 0 * M 3 2 - M 1 3 * M 2 2 * M 3 0)
    + M 0 2 * (M 1 0 * M 2 1 * M 3 3 - M 1 0 * M 2 3 * M 3 1 - M 1 1 * M 2 0 * M 3 3 + M 1 1 * M 2 3 * M 3 0 + M 1 3 * M 2 0 * M 3 1 - M 1 3 * M 2 1 * M 3 0)
    - M 0 3 * (M 1 0 * M 2 1 * M 3 2 - M 1 0 * M 2 2 * M 3 1 - M 1 1 * M 2 0 * M 3 2 + M 1 1 * M 2 2 * M 3 0 + M 1 2 * M 2 0 * M 3 1 - M 1 2 * M 2 1 * M 3 0) := by
  rw [Matrix.det_succ_row_zero, Fin.sum_univ_four]
  simp only [Matrix.det_fin_three, Matrix.submatrix_apply]
  have a1 : (Fin.succ 0 : Fin 4) = 1 := rfl
  have a2 : (Fin.succ 1 : Fin 4) = 2 := rfl
  have a3 : (Fin.succ 2 : Fin 4) = 3 := rfl
  have b00 : (Fin.succAbove (0 : Fin 4) 0) = 1 := rfl
  have b01 : (Fin.succAbove (0 : Fin 4) 1) = 2 := rfl
  have b02 : (Fin.succAbove (0 : Fin 4) 2) = 3 := rfl
  have b10 : (Fin.succAbove (1 : Fin 4) 0) = 0 := rfl
  have b11 : (Fin.succAbove (1 : Fin 4) 1) = 2 := rfl
  have b12 : (Fin.succAbove (1 : Fin 4) 2) = 3 := rfl
  have b20 : (Fin.succAbove (2 : Fin 4) 0) = 0 := rfl
  have b21 : (Fin.succAbove (2 : Fin 4) 1) = 1 := rfl
  have b22 : (Fin.succAbove (2 : Fin 4) 2) = 3 := rfl
  have b30 : (Fin.succAbove (3 : Fin 4) 0) = 0 := rfl
  have b31 : (Fin.succAbove (3 : Fin 4) 1) = 1 := rfl
  have b32 : (Fin.succAbove (3 : Fin 4) 2) = 2 := rfl
  have c0 : ((0 : Fin 4) : ℕ) = 0 := rfl
  have c1 : ((1 : Fin 4) : ℕ) = 1 := rfl
  have c2 : ((2 : Fin 4) : ℕ) = 2 := rfl
  have c3 : ((3 : Fin 4) : ℕ) = 3 := rfl
  simp only [a1, a2, a3, b00, b01, b02, b10, b11, b12, b20, b21, b22, b30, b31, b32, c0, c1, c2, c3]
  ring


theorem idet4 {A : Mat F64} {M : Matrix (Fin 4) (Fin 4) ℤ} (h : IntMat (2 ^ 12) A M) : GB (2 ^ 53) (Mat.det4 (Mat.elems A.data)) M.det := by
  obtain ⟨w0, w1, w2, w3, w4, w5, w6, w7, w8, w9, w10, w11, w12, w13, w14, w15⟩ := icells4 h
  have r0 := (three48 w0 w5 w10 w15 w0 w9 w14 w7 w0 w13 w6 w11)
  have r1 := r0.add (three48 w4 w1 w14 w11 w4 w9 w2 w15 w4 w13 w10 w3) (by norm_num)
  have r2 := r1.add (three48 w8 w1 w6 w15 w8 w5 w14 w3 w8 w13 w2 w7) (by norm_num)
  have r3 := r2.add (three48 w12 w1 w10 w7 w12 w5 w2 w11 w12 w9 w6 w3) (by norm_num)
  have r4 := r3.sub (three48 w0 w5 w14 w11 w0 w9 w6 w15 w0 w13 w10 w7) (by norm_num)
  have r5 := r4.sub (three48 w4 w1 w10 w15 w4 w9 w14 w3 w4 w13 w2 w11) (by norm_num)
  have r6 := r5.sub (three48 w8 w1 w14 w7 w8 w5 w2 w15 w8 w13 w6 w3) (by norm_num)
  have r7 := r6.sub (three48 w12 w1 w6 w11 w12 w5 w10 w3 w12 w9 w2 w7) (by norm_num)
  have e : M.det = (M 0 0 * M 1 1 * M 2 2 * M 3 3 + M 0 0 * M 1 2 * M 2 3 * M 3 1 + M 0 0 * M 1 3 * M 2 1 * M 3 2) + 
      (M 0 1 * M 1 0 * M 2 3 * M 3 2 + M 0 1 * M 1 2 * M 2 0 * M 3 3 + M 0 1 * M 1 3 * M 2 2 * M 3 0) + 
      (M 0 2 * M 1 0 * M 2 1 * M 3 3 + M 0 2 * M 1 1 * M 2 3 * M 3 0 + M 0 2 * M 1 3 * M 2 0 * M 3 1) + 
      (M 0 3 * M 1 0 * M 2 2 * M 3 1 + M 0 3 * M 1 1 * M 2 0 * M 3 2 + M 0 3 * M 1 2 * M 2 1 * M 3 0) - 
      (M 0 0 * M 1 1 * M 2 3 * M 3 2 + M 0 0 * M 1 2 * M 2 1 * M 3 3 + M 0 0 * M 1 3 * M 2 2 * M 3 1) - 
      (M 0 1 * M 1 0 * M 2 2 * M 3 3 + M 0 1 * M 1 2 * M 2 3 * M 3 0 + M 0 1 * M 1 3 * M 2 0 * M 3 2) - 
      (M 0 2 * M 1 0 * M 2 3 * M 3 1 + M 0 2 * M 1 1 * M 2 0 * M 3 3 + M 0 2 * M 1 3 * M 2 1 * M 3 0) - 
      (M 0 3 * M 1 0 * M 2 1 * M 3 2 + M 0 3 * M 1 1 * M 2 2 * M 3 0 + M 0 3 * M 1 2 * M 2 0 * M 3 1) := by rw [det_four']; ring
  rw [e]
  exact ⟨r7.1, r7.2.trans (by norm_num)⟩

/-- The determinant of an integer matrix is exact. -/
theorem det_int (A : Mat F64) (arg : F64) :
    (∀ M : Matrix (Fin 2) (Fin 2) ℤ, IntMat (2 ^ 26) A M → ∃ r, A.det arg = .ok (.ok, r) ∧ Finite r ∧ val r = M.det) ∧
    (∀ M : Matrix (Fin 3) (Fin 3) ℤ, IntMat (2 ^ 16) A M → ∃ r, A.det arg = .ok (.ok, r) ∧ Finite r ∧ val r = M.det) ∧
    (∀ M : Matrix (Fin 4) (Fin 4) ℤ, IntMat (2 ^ 12) A M → ∃ r, A.det arg = .ok (.ok, r) ∧ Finite r ∧ val r = M.det) := by
  unfold Mat.det
  refine ⟨fun M h => ⟨_, ?_, (idet2 h).val⟩, fun M h => ⟨_, ?_, (idet3 h).val⟩, fun M h => ⟨_, ?_, (idet4 h).val⟩⟩
  · rw [h.rows, h.cols, if_pos rfl, if_neg (by omega), if_pos rfl, h.readAll 4 rfl]; rfl
  · rw [h.rows, h.cols, if_pos rfl, if_neg (by omega), if_neg (by omega), if_pos rfl, h.readAll 9 rfl]; rfl
  · rw [h.rows, h.cols, if_pos rfl, if_neg (by omega), if_neg (by omega), if_neg (by omega), if_pos rfl, h.readAll 16 rfl]; rfl

/-! ### Inverse -/

/-- `r` is off from `e` by at most two roundings -/
def Two (r : F64) (e : ℚ) : Prop := Finite r ∧ |val r - e| ≤ ((1 + u) ^ 2 - 1) * |e|

theorem z53 : (2 : ℚ) ^ (-1022 : ℤ) ≤ 1 / 2 ^ 54 := by
  rw [show (1 : ℚ) / 2 ^ 54 = 2 ^ (-54 : ℤ) by norm_num]
  exact zpow_le_zpow_right₀ (by norm_num) (by norm_num)
theorem huge54 : (2 : ℚ) ^ 54 ≤ huge := by unfold huge; exact pow_le_pow_right₀ (by norm_num) (by norm_num)

theorem one_val' : Finite (lit 1 1) ∧ val (lit 1 1) = 1 := ⟨one_usual.1.1, one_usual.2⟩

/-- `c * (1.0 / d)` for integers -/
theorem entry {c d : F64} {m n : Int} (hc : GB (2 ^ 53) c m) (hd : GB (2 ^ 53) d n) (hn : n ≠ 0) :
    Two (c * (lit 1 1 / d)) (m * (1 / n)) := by
  obtain ⟨fc, vc⟩ := hc.val
  obtain ⟨fd, vd⟩ := hd.val
  have hnq : (n : ℚ) ≠ 0 := by exact_mod_cast hn
  have hn1 : (1 : ℚ) ≤ |(n : ℚ)| := by
    have : (1 : ℤ) ≤ |n| := Int.one_le_abs hn
    exact_mod_cast this
  have bound : ∀ k : Int, k.natAbs ≤ 2 ^ 53 → |(k : ℚ)| ≤ 2 ^ 53 := by
    intro k hk
    have : ((k.natAbs : Nat) : ℚ) ≤ ((2 ^ 53 : Nat) : ℚ) := by exact_mod_cast hk
    rw [Nat.cast_natAbs] at this
    push_cast at this
    exact this
  have hn2 := bound n hd.2
  have hm2 := bound m hc.2
  have ht := div_rounds one_val'.1 fd (by rw [vd]; exact hnq)
  rw [one_val'.2, vd] at ht
  have ht1 : (1 : ℚ) / 2 ^ 53 ≤ |1 / (n : ℚ)| := by
    rw [abs_div, abs_one]
    exact one_div_le_one_div_of_le (by linarith) hn2
  have ht2 : |1 / (n : ℚ)| ≤ 1 := by
    rw [abs_div, abs_one, div_le_one (by linarith)]; exact hn1
  have zz := z53
  have hh := huge54
  obtain ⟨ft, et⟩ := rnd_normal ht (by linarith) (by linarith)
  generalize lit 1 1 / d = t at ht ft et ⊢
  generalize 1 / (n : ℚ) = q at ht1 ht2 et ⊢
  have hr := mul_rounds fc ft
  rw [vc] at hr
  have hu := u_pos
  by_cases hm : m = 0
  · rw [hm] at hr ⊢
    rw [Int.cast_zero, zero_mul] at hr ⊢
    obtain ⟨f, v⟩ := hr.exact (by simpa using Rp.int 0 (by decide))
    exact ⟨f, by rw [v]; simp⟩
  have hm1 : (1 : ℚ) ≤ |(m : ℚ)| := by
    have : (1 : ℤ) ≤ |m| := Int.one_le_abs hm
    exact_mod_cast this
  have ul := u_le
  have q1 : |q| ≤ |val t - q| + |val t| := by
    have := abs_add_le (q - val t) (val t)
    rw [sub_add_cancel, abs_sub_comm] at this
    exact this
  have q2 : |val t| ≤ |val t - q| + |q| := by
    have := abs_add_le (val t - q) q
    rwa [sub_add_cancel] at this
  have uq : u * |q| ≤ 1 / 1024 * |q| := mul_le_mul_of_nonneg_right ul (abs_nonneg q)
  have t1 : 1 / 2 ^ 54 ≤ |val t| := by
    have : (1 : ℚ) / 2 ^ 54 = (1 / 2 ^ 53) * (1 / 2) := by norm_num
    rw [this]
    linarith
  have t2 : |val t| ≤ 2 := by linarith
  have lo : 1 / 2 ^ 54 ≤ |(m : ℚ) * val t| := by
    rw [abs_mul]
    have := mul_le_mul hm1 t1 (by norm_num) (abs_nonneg _)
    linarith
  have hi : |(m : ℚ) * val t| ≤ 2 ^ 54 := by
    rw [abs_mul]
    have := mul_le_mul hm2 t2 (abs_nonneg _) (by norm_num)
    have e : (2 : ℚ) ^ 54 = 2 ^ 53 * 2 := by norm_num
    rw [e]; exact this
  obtain ⟨f, er⟩ := rnd_normal hr (by linarith) (by linarith)
  refine ⟨f, ?_⟩
  generalize c * t = r at er ⊢
  have d1 : |(m : ℚ) * val t - m * q| ≤ u * |(m : ℚ) * q| := by
    rw [← mul_sub, abs_mul, abs_mul]
    have := mul_le_mul_of_nonneg_left et (abs_nonneg (m : ℚ))
    linarith
  have := sum_step (k := 1) (a := |(m : ℚ) * q|) (E := 0) er (by rw [pow_one]; linarith) le_rfl
  rw [mul_zero, add_zero] at this
  exact this

/-- the rational matrix with these integers -/
def toQ {n : Nat} (M : Matrix (Fin n) (Fin n) ℤ) : Matrix (Fin n) (Fin n) ℚ := M.map (Int.cast : ℤ → ℚ)

theorem toQ_det {n : Nat} (M : Matrix (Fin n) (Fin n) ℤ) : (toQ M).det = (M.det : ℚ) := by
  unfold toQ
  exact (Int.cast_det M).symm

/-- every element of the object is off from the element of `N` by at most two roundings -/
def TwoMat {n : Nat} (B : Mat F64) (N : Matrix (Fin n) (Fin n) ℚ) : Prop :=
  B.m = n ∧ B.n = n ∧ ∀ i j : Fin n, ∃ r, B.get (i.val : Int) (j.val : Int) = .ok r ∧ Two r (N i j)

theorem iinv2 {A : Mat F64} {M : Matrix (Fin 2) (Fin 2) ℤ} (h : IntMat (2 ^ 26) A M) (hd : M.det ≠ 0) :
    TwoMat ⟨2, 2, Mat.inv2 (Mat.elems A.data) (lit 1 1 / Mat.det2 (Mat.elems A.data))⟩ (toQ M)⁻¹ := by
  have hD := idet2 h
  obtain ⟨w0, w1, w2, w3⟩ := icells2 h
  have up : ∀ {x m}, GB (2 ^ 26) x m → GB (2 ^ 53) x m := fun h => ⟨h.1, h.2.trans (by norm_num)⟩
  have hq : (toQ M).det * (1 / (M.det : ℚ)) = 1 := by
    rw [toQ_det]; have : (M.det : ℚ) ≠ 0 := by exact_mod_cast hd
    field_simp
  have en : ∀ i j, toQ M i j = (M i j : ℚ) := fun _ _ => rfl
  have e : (toQ M)⁻¹ = Matrix.of ![![(M 1 1 : ℚ) * (1 / (M.det : ℚ)), (-(M 0 1 : ℚ)) * (1 / (M.det : ℚ))],
      ![(-(M 1 0 : ℚ)) * (1 / (M.det : ℚ)), (M 0 0 : ℚ) * (1 / (M.det : ℚ))]] := by
    apply Matrix.inv_eq_right_inv
    rw [Matrix.det_fin_two] at hq
    simp only [en] at hq
    generalize 1 / (M.det : ℚ) = t at hq ⊢
    ext i j
    fin_cases i <;> fin_cases j <;> simp [Matrix.mul_apply, Fin.sum_univ_two, en]
    · linear_combination hq
    · ring
    · ring
    · linear_combination hq
  rw [e]
  have g0 := entry (up w3) hD hd
  have g1 := entry (up w1.neg) hD hd
  have g2 := entry (up w2.neg) hD hd
  have g3 := entry (up w0) hD hd
  simp only [Int.cast_neg] at g1 g2
  refine ⟨rfl, rfl, fun i j => ?_⟩
  fin_cases i <;> fin_cases j
  · exact ⟨_, rfl, g0⟩
  · exact ⟨_, rfl, g2⟩
  · exact ⟨_, rfl, g1⟩
  · exact ⟨_, rfl, g3⟩

theorem two32 {x y z w : F64} {m n k l : Int} (hx : GB (2 ^ 16) x m) (hy : GB (2 ^ 16) y n) (hz : GB (2 ^ 16) z k) (hw : GB (2 ^ 16) w l) :
    GB (2 ^ 53) (x * y - z * w) (m * n - k * l) := by
  have r := (hx.mul hy (by norm_num)).sub (hz.mul hw (by norm_num)) (by norm_num)
  exact ⟨r.1, r.2.trans (by norm_num)⟩

theorem iinv3 {A : Mat F64} {M : Matrix (Fin 3) (Fin 3) ℤ} (h : IntMat (2 ^ 16) A M) (hd : M.det ≠ 0) :
    TwoMat ⟨3, 3, Mat.inv3 (Mat.elems A.data) (lit 1 1 / Mat.det3 (Mat.elems A.data))⟩ (toQ M)⁻¹ := by
  have hD := idet3 h
  obtain ⟨w0, w1, w2, w3, w4, w5, w6, w7, w8⟩ := icells3 h
  have hq : (toQ M).det * (1 / (M.det : ℚ)) = 1 := by
    rw [toQ_det]; have : (M.det : ℚ) ≠ 0 := by exact_mod_cast hd
    field_simp
  have en : ∀ i j, toQ M i j = (M i j : ℚ) := fun _ _ => rfl
  have e : (toQ M)⁻¹ = Matrix.of ![![((M 1 1 : ℚ) * (M 2 2 : ℚ) - (M 1 2 : ℚ) * (M 2 1 : ℚ)) * (1 / (M.det : ℚ)), ((M 0 2 : ℚ) * (M 2 1 : ℚ) - (M 0 1 : ℚ) * (M 2 2 : ℚ)) * (1 / (M.det : ℚ)), ((M 0 1 : ℚ) * (M 1 2 : ℚ) - (M 0 2 : ℚ) * (M 1 1 : ℚ)) * (1 / (M.det : ℚ))],
      ![((M 1 2 : ℚ) * (M 2 0 : ℚ) - (M 1 0 : ℚ) * (M 2 2 : ℚ)) * (1 / (M.det : ℚ)), ((M 0 0 : ℚ) * (M 2 2 : ℚ) - (M 0 2 : ℚ) * (M 2 0 : ℚ)) * (1 / (M.det : ℚ)), ((M 0 2 : ℚ) * (M 1 0 : ℚ) - (M 0 0 : ℚ) * (M 1 2 : ℚ)) * (1 / (M.det : ℚ))],
      ![((M 1 0 : ℚ) * (M 2 1 : ℚ) - (M 1 1 : ℚ) * (M 2 0 : ℚ)) * (1 / (M.det : ℚ)), ((M 0 1 : ℚ) * (M 2 0 : ℚ) - (M 0 0 : ℚ) * (M 2 1 : ℚ)) * (1 / (M.det : ℚ)), ((M 0 0 : ℚ) * (M 1 1 : ℚ) - (M 0 1 : ℚ) * (M 1 0 : ℚ)) * (1 / (M.det : ℚ))]] := by
    apply Matrix.inv_eq_right_inv
    rw [Matrix.det_fin_three] at hq
    simp only [en] at hq
    generalize 1 / (M.det : ℚ) = t at hq ⊢
    ext i j
    fin_cases i <;> fin_cases j <;> simp [Matrix.mul_apply, Fin.sum_univ_three, en]
    · linear_combination hq
    · ring
    · ring
    · ring
    · linear_combination hq
    · ring
    · ring
    · ring
    · linear_combination hq
  rw [e]
  have g0 := entry (two32 w4 w8 w7 w5) hD hd
  have g1 := entry (two32 w7 w2 w1 w8) hD hd
  have g2 := entry (two32 w1 w5 w4 w2) hD hd
  have g3 := entry (two32 w6 w5 w3 w8) hD hd
  have g4 := entry (two32 w0 w8 w6 w2) hD hd
  have g5 := entry (two32 w3 w2 w0 w5) hD hd
  have g6 := entry (two32 w3 w7 w6 w4) hD hd
  have g7 := entry (two32 w6 w1 w0 w7) hD hd
  have g8 := entry (two32 w0 w4 w3 w1) hD hd
  simp only [Int.cast_add, Int.cast_sub, Int.cast_mul] at g0 g1 g2 g3 g4 g5 g6 g7 g8
  refine ⟨rfl, rfl, fun i j => ?_⟩
  fin_cases i <;> fin_cases j
  · exact ⟨_, rfl, g0⟩
  · exact ⟨_, rfl, g3⟩
  · exact ⟨_, rfl, g6⟩
  · exact ⟨_, rfl, g1⟩
  · exact ⟨_, rfl, g4⟩
  · exact ⟨_, rfl, g7⟩
  · exact ⟨_, rfl, g2⟩
  · exact ⟨_, rfl, g5⟩
  · exact ⟨_, rfl, g8⟩

theorem iinv4 {A : Mat F64} {M : Matrix (Fin 4) (Fin 4) ℤ} (h : IntMat (2 ^ 12) A M) (hd : M.det ≠ 0) :
    TwoMat ⟨4, 4, Mat.inv4 (Mat.elems A.data) (lit 1 1 / Mat.det4 (Mat.elems A.data))⟩ (toQ M)⁻¹ := by
  have hD := idet4 h
  obtain ⟨w0, w1, w2, w3, w4, w5, w6, w7, w8, w9, w10, w11, w12, w13, w14, w15⟩ := icells4 h
  have hq : (toQ M).det * (1 / (M.det : ℚ)) = 1 := by
    rw [toQ_det]; have : (M.det : ℚ) ≠ 0 := by exact_mod_cast hd
    field_simp
  have en : ∀ i j, toQ M i j = (M i j : ℚ) := fun _ _ => rfl
  have e : (toQ M)⁻¹ = Matrix.of ![![((M 1 1 : ℚ) * (M 2 2 : ℚ) * (M 3 3 : ℚ) + (M 1 2 : ℚ) * (M 2 3 : ℚ) * (M 3 1 : ℚ) + (M 1 3 : ℚ) * (M 2 1 : ℚ) * (M 3 2 : ℚ) - (M 1 1 : ℚ) * (M 2 3 : ℚ) * (M 3 2 : ℚ) - (M 1 2 : ℚ) * (M 2 1 : ℚ) * (M 3 3 : ℚ) - (M 1 3 : ℚ) * (M 2 2 : ℚ) * (M 3 1 : ℚ)) * (1 / (M.det : ℚ)), ((M 0 1 : ℚ) * (M 2 3 : ℚ) * (M 3 2 : ℚ) + (M 0 2 : ℚ) * (M 2 1 : ℚ) * (M 3 3 : ℚ) + (M 0 3 : ℚ) * (M 2 2 : ℚ) * (M 3 1 : ℚ) - (M 0 1 : ℚ) * (M 2 2 : ℚ) * (M 3 3 : ℚ) - (M 0 2 : ℚ) * (M 2 3 : ℚ) * (M 3 1 : ℚ) - (M 0 3 : ℚ) * (M 2 1 : ℚ) * (M 3 2 : ℚ)) * (1 / (M.det : ℚ)), ((M 0 1 : ℚ) * (M 1 2 : ℚ) * (M 3 3 : ℚ) + (M 0 2 : ℚ) * (M 1 3 : ℚ) * (M 3 1 : ℚ) + (M 0 3 : ℚ) * (M 1 1 : ℚ) * (M 3 2 : ℚ) - (M 0 1 : ℚ) * (M 1 3 : ℚ) * (M 3 2 : ℚ) - (M 0 2 : ℚ) * (M 1 1 : ℚ) * (M 3 3 : ℚ) - (M 0 3 : ℚ) * (M 1 2 : ℚ) * (M 3 1 : ℚ)) * (1 / (M.det : ℚ)), ((M 0 1 : ℚ) * (M 1 3 : ℚ) * (M 2 2 : ℚ) + (M 0 2 : ℚ) * (M 1 1 : ℚ) * (M 2 3 : ℚ) + (M 0 3 : ℚ) * (M 1 2 : ℚ) * (M 2 1 : ℚ) - (M 0 1 : ℚ) * (M 1 2 : ℚ) * (M 2 3 : ℚ) - (M 0 2 : ℚ) * (M 1 3 : ℚ) * (M 2 1 : ℚ) - (M 0 3 : ℚ) * (M 1 1 : ℚ) * (M 2 2 : ℚ)) * (1 / (M.det : ℚ))],
      ![((M 1 0 : ℚ) * (M 2 3 : ℚ) * (M 3 2 : ℚ) + (M 1 2 : ℚ) * (M 2 0 : ℚ) * (M 3 3 : ℚ) + (M 1 3 : ℚ) * (M 2 2 : ℚ) * (M 3 0 : ℚ) - (M 1 0 : ℚ) * (M 2 2 : ℚ) * (M 3 3 : ℚ) - (M 1 2 : ℚ) * (M 2 3 : ℚ) * (M 3 0 : ℚ) - (M 1 3 : ℚ) * (M 2 0 : ℚ) * (M 3 2 : ℚ)) * (1 / (M.det : ℚ)), ((M 0 0 : ℚ) * (M 2 2 : ℚ) * (M 3 3 : ℚ) + (M 0 2 : ℚ) * (M 2 3 : ℚ) * (M 3 0 : ℚ) + (M 0 3 : ℚ) * (M 2 0 : ℚ) * (M 3 2 : ℚ) - (M 0 0 : ℚ) * (M 2 3 : ℚ) * (M 3 2 : ℚ) - (M 0 2 : ℚ) * (M 2 0 : ℚ) * (M 3 3 : ℚ) - (M 0 3 : ℚ) * (M 2 2 : ℚ) * (M 3 0 : ℚ)) * (1 / (M.det : ℚ)), ((M 0 0 : ℚ) * (M 1 3 : ℚ) * (M 3 2 : ℚ) + (M 0 2 : ℚ) * (M 1 0 : ℚ) * (M 3 3 : ℚ) + (M 0 3 : ℚ) * (M 1 2 : ℚ) * (M 3 0 : ℚ) - (M 0 0 : ℚ) * (M 1 2 : ℚ) * (M 3 3 : ℚ) - (M 0 2 : ℚ) * (M 1 3 : ℚ) * (M 3 0 : ℚ) - (M 0 3 : ℚ) * (M 1 0 : ℚ) * (M 3 2 : ℚ)) * (1 / (M.det : ℚ)), ((M 0 0 : ℚ) * (M 1 2 : ℚ) * (M 2 3 : ℚ) + (M 0 2 : ℚ) * (M 1 3 : ℚ) * (M 2 0 : ℚ) + (M 0 3 : ℚ) * (M 1 0 : ℚ) * (M 2 2 : ℚ) - (M 0 0 : ℚ) * (M 1 3 : ℚ) * (M 2 2 : ℚ) - (M 0 2 : ℚ) * (M 1 0 : ℚ) * (M 2 3 : ℚ) - (M 0 3 : ℚ) * (M 1 2 : ℚ) * (M 2 0 : ℚ)) * (1 / (M.det : ℚ))],
      ![((M 1 0 : ℚ) * (M 2 1 : ℚ) * (M 3 3 : ℚ) + (M 1 1 : ℚ) * (M 2 3 : ℚ) * (M 3 0 : ℚ) + (M 1 3 : ℚ) * (M 2 0 : ℚ) * (M 3 1 : ℚ) - (M 1 0 : ℚ) * (M 2 3 : ℚ) * (M 3 1 : ℚ) - (M 1 1 : ℚ) * (M 2 0 : ℚ) * (M 3 3 : ℚ) - (M 1 3 : ℚ) * (M 2 1 : ℚ) * (M 3 0 : ℚ)) * (1 / (M.det : ℚ)), ((M 0 0 : ℚ) * (M 2 3 : ℚ) * (M 3 1 : ℚ) + (M 0 1 : ℚ) * (M 2 0 : ℚ) * (M 3 3 : ℚ) + (M 0 3 : ℚ) * (M 2 1 : ℚ) * (M 3 0 : ℚ) - (M 0 0 : ℚ) * (M 2 1 : ℚ) * (M 3 3 : ℚ) - (M 0 1 : ℚ) * (M 2 3 : ℚ) * (M 3 0 : ℚ) - (M 0 3 : ℚ) * (M 2 0 : ℚ) * (M 3 1 : ℚ)) * (1 / (M.det : ℚ)), ((M 0 0 : ℚ) * (M 1 1 : ℚ) * (M 3 3 : ℚ) + (M 0 1 : ℚ) * (M 1 3 : ℚ) * (M 3 0 : ℚ) + (M 0 3 : ℚ) * (M 1 0 : ℚ) * (M 3 1 : ℚ) - (M 0 0 : ℚ) * (M 1 3 : ℚ) * (M 3 1 : ℚ) - (M 0 1 : ℚ) * (M 1 0 : ℚ) * (M 3 3 : ℚ) - (M 0 3 : ℚ) * (M 1 1 : ℚ) * (M 3 0 : ℚ)) * (1 / (M.det : ℚ)), ((M 0 0 : ℚ) * (M 1 3 : ℚ) * (M 2 1 : ℚ) + (M 0 1 : ℚ) * (M 1 0 : ℚ) * (M 2 3 : ℚ) + (M 0 3 : ℚ) * (M 1 1 : ℚ) * (M 2 0 : ℚ) - (M 0 0 : ℚ) * (M 1 1 : ℚ) * (M 2 3 : ℚ) - (M 0 1 : ℚ) * (M 1 3 : ℚ) * (M 2 0 : ℚ) - (M 0 3 : ℚ) * (M 1 0 : ℚ) * (M 2 1 : ℚ)) * (1 / (M.det : ℚ))],
      ![((M 1 0 : ℚ) * (M 2 2 : ℚ) * (M 3 1 : ℚ) + (M 1 1 : ℚ) * (M 2 0 : ℚ) * (M 3 2 : ℚ) + (M 1 2 : ℚ) * (M 2 1 : ℚ) * (M 3 0 : ℚ) - (M 1 0 : ℚ) * (M 2 1 : ℚ) * (M 3 2 : ℚ) - (M 1 1 : ℚ) * (M 2 2 : ℚ) * (M 3 0 : ℚ) - (M 1 2 : ℚ) * (M 2 0 : ℚ) * (M 3 1 : ℚ)) * (1 / (M.det : ℚ)), ((M 0 0 : ℚ) * (M 2 1 : ℚ) * (M 3 2 : ℚ) + (M 0 1 : ℚ) * (M 2 2 : ℚ) * (M 3 0 : ℚ) + (M 0 2 : ℚ) * (M 2 0 : ℚ) * (M 3 1 : ℚ) - (M 0 0 : ℚ) * (M 2 2 : ℚ) * (M 3 1 : ℚ) - (M 0 1 : ℚ) * (M 2 0 : ℚ) * (M 3 2 : ℚ) - (M 0 2 : ℚ) * (M 2 1 : ℚ) * (M 3 0 : ℚ)) * (1 / (M.det : ℚ)), ((M 0 0 : ℚ) * (M 1 2 : ℚ) * (M 3 1 : ℚ) + (M 0 1 : ℚ) * (M 1 0 : ℚ) * (M 3 2 : ℚ) + (M 0 2 : ℚ) * (M 1 1 : ℚ) * (M 3 0 : ℚ) - (M 0 0 : ℚ) * (M 1 1 : ℚ) * (M 3 2 : ℚ) - (M 0 1 : ℚ) * (M 1 2 : ℚ) * (M 3 0 : ℚ) - (M 0 2 : ℚ) * (M 1 0 : ℚ) * (M 3 1 : ℚ)) * (1 / (M.det : ℚ)), ((M 0 0 : ℚ) * (M 1 1 : ℚ) * (M 2 2 : ℚ) + (M 0 1 : ℚ) * (M 1 2 : ℚ) * (M 2 0 : ℚ) + (M 0 2 : ℚ) * (M 1 0 : ℚ) * (M 2 1 : ℚ) - (M 0 0 : ℚ) * (M 1 2 : ℚ) * (M 2 1 : ℚ) - (M 0 1 : ℚ) * (M 1 0 : ℚ) * (M 2 2 : ℚ) - (M 0 2 : ℚ) * (M 1 1 : ℚ) * (M 2 0 : ℚ)) * (1 / (M.det : ℚ))]] := by
    apply Matrix.inv_eq_right_inv
    rw [det_four'] at hq
    simp only [en] at hq
    generalize 1 / (M.det : ℚ) = t at hq ⊢
    ext i j
    fin_cases i <;> fin_cases j <;> simp [Matrix.mul_apply, Fin.sum_univ_four, en]
    · linear_combination hq
    · ring
    · ring
    · ring
    · ring
    · linear_combination hq
    · ring
    · ring
    · ring
    · ring
    · linear_combination hq
    · ring
    · ring
    · ring
    · ring
    · linear_combination hq
  rw [e]
  have g0 := entry (six36 w5 w10 w15 w9 w14 w7 w13 w6 w11 w5 w14 w11 w9 w6 w15 w13 w10 w7) hD hd
  have g1 := entry (six36 w1 w14 w11 w9 w2 w15 w13 w10 w3 w1 w10 w15 w9 w14 w3 w13 w2 w11) hD hd
  have g2 := entry (six36 w1 w6 w15 w5 w14 w3 w13 w2 w7 w1 w14 w7 w5 w2 w15 w13 w6 w3) hD hd
  have g3 := entry (six36 w1 w10 w7 w5 w2 w11 w9 w6 w3 w1 w6 w11 w5 w10 w3 w9 w2 w7) hD hd
  have g4 := entry (six36 w4 w14 w11 w8 w6 w15 w12 w10 w7 w4 w10 w15 w8 w14 w7 w12 w6 w11) hD hd
  have g5 := entry (six36 w0 w10 w15 w8 w14 w3 w12 w2 w11 w0 w14 w11 w8 w2 w15 w12 w10 w3) hD hd
  have g6 := entry (six36 w0 w14 w7 w4 w2 w15 w12 w6 w3 w0 w6 w15 w4 w14 w3 w12 w2 w7) hD hd
  have g7 := entry (six36 w0 w6 w11 w4 w10 w3 w8 w2 w7 w0 w10 w7 w4 w2 w11 w8 w6 w3) hD hd
  have g8 := entry (six36 w4 w9 w15 w8 w13 w7 w12 w5 w11 w4 w13 w11 w8 w5 w15 w12 w9 w7) hD hd
  have g9 := entry (six36 w0 w13 w11 w8 w1 w15 w12 w9 w3 w0 w9 w15 w8 w13 w3 w12 w1 w11) hD hd
  have g10 := entry (six36 w0 w5 w15 w4 w13 w3 w12 w1 w7 w0 w13 w7 w4 w1 w15 w12 w5 w3) hD hd
  have g11 := entry (six36 w0 w9 w7 w4 w1 w11 w8 w5 w3 w0 w5 w11 w4 w9 w3 w8 w1 w7) hD hd
  have g12 := entry (six36 w4 w13 w10 w8 w5 w14 w12 w9 w6 w4 w9 w14 w8 w13 w6 w12 w5 w10) hD hd
  have g13 := entry (six36 w0 w9 w14 w8 w13 w2 w12 w1 w10 w0 w13 w10 w8 w1 w14 w12 w9 w2) hD hd
  have g14 := entry (six36 w0 w13 w6 w4 w1 w14 w12 w5 w2 w0 w5 w14 w4 w13 w2 w12 w1 w6) hD hd
  have g15 := entry (six36 w0 w5 w10 w4 w9 w2 w8 w1 w6 w0 w9 w6 w4 w1 w10 w8 w5 w2) hD hd
  simp only [Int.cast_add, Int.cast_sub, Int.cast_mul] at g0 g1 g2 g3 g4 g5 g6 g7 g8 g9 g10 g11 g12 g13 g14 g15
  refine ⟨rfl, rfl, fun i j => ?_⟩
  fin_cases i <;> fin_cases j
  · exact ⟨_, rfl, g0⟩
  · exact ⟨_, rfl, g4⟩
  · exact ⟨_, rfl, g8⟩
  · exact ⟨_, rfl, g12⟩
  · exact ⟨_, rfl, g1⟩
  · exact ⟨_, rfl, g5⟩
  · exact ⟨_, rfl, g9⟩
  · exact ⟨_, rfl, g13⟩
  · exact ⟨_, rfl, g2⟩
  · exact ⟨_, rfl, g6⟩
  · exact ⟨_, rfl, g10⟩
  · exact ⟨_, rfl, g14⟩
  · exact ⟨_, rfl, g3⟩
  · exact ⟨_, rfl, g7⟩
  · exact ⟨_, rfl, g11⟩
  · exact ⟨_, rfl, g15⟩

/-- The inverse of a regular integer matrix: every element is off by at most two roundings. -/
theorem inverse_int (A : Mat F64) :
    (∀ M : Matrix (Fin 2) (Fin 2) ℤ, IntMat (2 ^ 26) A M → M.det ≠ 0 → ∃ B, A.inverse = .ok (.ok, B) ∧ TwoMat B (toQ M)⁻¹) ∧
    (∀ M : Matrix (Fin 3) (Fin 3) ℤ, IntMat (2 ^ 16) A M → M.det ≠ 0 → ∃ B, A.inverse = .ok (.ok, B) ∧ TwoMat B (toQ M)⁻¹) ∧
    (∀ M : Matrix (Fin 4) (Fin 4) ℤ, IntMat (2 ^ 12) A M → M.det ≠ 0 → ∃ B, A.inverse = .ok (.ok, B) ∧ TwoMat B (toQ M)⁻¹) := by
  unfold Mat.inverse
  refine ⟨fun M h hd => ⟨_, ?_, iinv2 h hd⟩, fun M h hd => ⟨_, ?_, iinv3 h hd⟩, fun M h hd => ⟨_, ?_, iinv4 h hd⟩⟩
  · rw [h.rows, h.cols, if_pos rfl, if_neg (by omega), if_pos rfl, h.readAll 4 rfl]
    simp only [Except.map]; rfl
  · rw [h.rows, h.cols, if_pos rfl, if_neg (by omega), if_neg (by omega), if_pos rfl, h.readAll 9 rfl]
    simp only [Except.map]; rfl
  · rw [h.rows, h.cols, if_pos rfl, if_neg (by omega), if_neg (by omega), if_neg (by omega), if_pos rfl, h.readAll 16 rfl]
    simp only [Except.map]; rfl

end Verif.FpVec
