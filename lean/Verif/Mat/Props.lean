import Verif.Mat.Lemmas
/-
C72: cells of a matrix.  Valid for any number type, in particular for IEEE doubles: these operations only
move elements.  `Is A m n f` says that `A` has `m` rows, `n` columns and that `get(i, j)` yields `f i j`.
-/
namespace Verif.Mx.Mat
open Verif Verif.Exact
set_option linter.unusedSectionVars false
variable {K : Type} [Arith K]

/-- A new matrix is 0 everywhere; the special constructors place the vectors in rows or columns. -/
theorem new_spec (m n : Nat) : Is (new m n : Mat K) m n (fun _ _ => zero) := by
  refine .intro rfl rfl (by simp [new]) ?_
  intro i j hi hj
  simp only [new]
  rw [List.getElem?_replicate, if_pos (idx_lt hi hj)]

/-- a vertex as a function of the index -/
def V3.nth (v : V3 K) (i : Nat) : K := if i = 0 then v.x else if i = 1 then v.y else v.z

theorem cases3 {i : Nat} (h : i < 3) : i = 0 ∨ i = 1 ∨ i = 2 := by omega
theorem cases4 {i : Nat} (h : i < 4) : i = 0 ∨ i = 1 ∨ i = 2 ∨ i = 3 := by omega

theorem ofVertices_spec (a b c : V3 K) :
    Is (ofVertices a b c true) 3 3 (fun i j => V3.nth (if i = 0 then a else if i = 1 then b else c) j) ∧
    Is (ofVertices a b c false) 3 3 (fun i j => V3.nth (if j = 0 then a else if j = 1 then b else c) i) := by
  constructor <;> refine .intro rfl rfl rfl ?_ <;> intro i j hi hj <;>
    obtain rfl | rfl | rfl := cases3 hi <;> obtain rfl | rfl | rfl := cases3 hj <;> rfl

theorem ofValue_spec (v : K) : Is (ofValue v) 1 1 (fun _ _ => v) := by
  refine .intro rfl rfl rfl ?_
  intro i j hi hj
  obtain rfl : i = 0 := by omega
  obtain rfl : j = 0 := by omega
  rfl

theorem copy_eq (A : Mat K) (h : A.data.length = A.m * A.n) : copy A = .ok A := by
  have e : copyLoop A.data (A.m * A.n) = .ok A.data := by
    unfold copyLoop
    rw [mapM_ok (g := fun i => elems A.data i)]
    · congr 1
      apply List.ext_getElem?
      intro k
      rw [List.getElem?_map]
      by_cases hk : k < A.data.length
      · rw [List.getElem?_range (by omega)]
        simp [elems, hk]
      · rw [List.getElem?_eq_none (by simp; omega), List.getElem?_eq_none (by omega)]
        rfl
    · intro k hk
      rw [List.mem_range, ← h] at hk
      rw [rd_ok hk]
      simp [elems, hk]
  unfold copy
  rw [e]; rfl

/-- A copy, by constructor or assignment, has the same cells; self assignment changes nothing. -/
theorem copy_spec {A B : Mat K} {m n : Nat} {f : Nat → Nat → K} (h : Is A m n f) :
    (∃ C, copy A = .ok C ∧ Is C m n f) ∧ (∃ C, assign B A false = .ok C ∧ Is C m n f) ∧
    (assign A A true = .ok A) := by
  have e := copy_eq A (by rw [h.rows, h.cols]; exact h.size)
  exact ⟨⟨A, e, h⟩, ⟨A, by simp [assign, e], h⟩, by simp [assign]⟩

theorem idx_cast (i j m : Nat) : ((i : Int) + (j : Int) * (m : Int)) = ((i + j * m : Nat) : Int) := by push_cast; ring

/-- `set` changes that cell and no other; `add` adds to that cell and changes no other. -/
theorem set_spec {A : Mat K} {m n : Nat} {f : Nat → Nat → K} (h : Is A m n f) (i j : Nat) (hi : i < m) (hj : j < n)
    (v : K) :
    (∃ B, A.set i j v = .ok B ∧ Is B m n (fun a b => if a = i ∧ b = j then v else f a b)) ∧
    (∃ B, A.addTo i j v = .ok B ∧ Is B m n (fun a b => if a = i ∧ b = j then f i j + v else f a b)) := by
  have hl : i + j * m < A.data.length := by rw [h.size]; exact idx_lt hi hj
  have key : ∀ x, Is { A with data := A.data.set (i + j * m) x } m n (fun a b => if a = i ∧ b = j then x else f a b) := by
    intro x
    refine .intro h.rows h.cols (by simp [h.size]) ?_
    intro a b ha hb
    show (A.data.set (i + j * m) x)[a + b * m]? = _
    by_cases e : a = i ∧ b = j
    · rw [if_pos e, e.1, e.2, List.getElem?_set_self hl]
    · rw [if_neg e, List.getElem?_set_ne, h.elem ha hb]
      intro e'
      obtain ⟨e1, e2⟩ := idx_inj hi ha e'
      exact e ⟨e1.symm, e2.symm⟩
  constructor
  · refine ⟨_, ?_, key v⟩
    unfold Mat.set
    rw [h.rows, idx_cast, wrI_nat, wr_ok hl]; rfl
  · refine ⟨_, ?_, key (f i j + v)⟩
    unfold Mat.addTo
    rw [h.rows, idx_cast, rdI_nat, h.rd hi hj]
    simp only [bind, Except.bind]
    rw [wrI_nat, wr_ok hl]; rfl

/-- The row is not checked: a row beyond the last one names a cell of the next column, and beyond
the block the access is undefined behaviour. -/
theorem get_alias {A : Mat K} {m n : Nat} {f : Nat → Nat → K} (h : Is A m n f) (i j : Nat) :
    A.get ((m + i : Nat) : Int) j = A.get i ((j + 1 : Nat) : Int) := by
  rw [get_nat, get_nat, h.rows]
  congr 1; ring
theorem get_outside {A : Mat K} {m n : Nat} {f : Nat → Nat → K} (h : Is A m n f) (i j : Nat) (hj : n ≤ j) :
    A.get i j = .error .ub := by
  rw [get_nat, rd_ub]
  rw [h.size, h.rows, Nat.mul_comm]
  have := Nat.mul_le_mul_right m hj
  omega

/-- `zeros` sets every cell to 0. -/
theorem zeros_spec {A : Mat K} {m n : Nat} {f : Nat → Nat → K} (h : Is A m n f) :
    ∃ B, A.zeros = .ok B ∧ Is B m n (fun _ _ => zero) := by
  have e : (List.range (A.m * A.n)).foldlM (fun d i => wr d i zero) A.data =
      .ok ((List.range (A.m * A.n)).foldl (upd (fun i => i) (fun _ _ => (zero : K)) zero) A.data) := by
    refine foldlM_upd (n := A.data.length) _ _ rfl ?_
    intro d p hp hd
    rw [List.mem_range, h.rows, h.cols, ← h.size, ← hd] at hp
    rw [wr_ok hp]; rfl
  refine ⟨{ A with data := (List.range (A.m * A.n)).foldl (upd (fun i => i) (fun _ _ => (zero : K)) zero) A.data },
    by unfold zeros; rw [e]; rfl, .intro h.rows h.cols (by rw [upd_length]; exact h.size) ?_⟩
  intro i j hi hj
  refine upd_hit (pos := fun i => i) (w := fun _ _ => (zero : K)) _ _ (i + j * m) ?_ List.nodup_range (fun _ _ e => e) ?_
  · rw [List.mem_range, h.rows, h.cols]; exact idx_lt hi hj
  · rw [h.size]; exact idx_lt hi hj

/-- `diag` sets the cells on the diagonal and no other. -/
theorem diag_spec {A : Mat K} {m n : Nat} {f : Nat → Nat → K} (h : Is A m n f) (v : K) :
    ∃ B, A.diag v = .ok B ∧ Is B m n (fun i j => if i = j then v else f i j) := by
  have hpos : ∀ i, i * (A.m + 1) = i + i * m := by intro i; rw [h.rows]; ring
  have e : (List.range (min A.m A.n)).foldlM (fun d i => wr d (i * (A.m + 1)) v) A.data =
      .ok ((List.range (min A.m A.n)).foldl (upd (fun i => i * (A.m + 1)) (fun _ _ => v) zero) A.data) := by
    refine foldlM_upd (n := A.data.length) _ _ rfl ?_
    intro d p hp hd
    rw [List.mem_range, h.rows, h.cols] at hp
    have : p * (A.m + 1) < d.length := by rw [hpos, hd, h.size]; exact idx_lt (by omega) (by omega)
    rw [wr_ok this]; rfl
  refine ⟨{ A with data := (List.range (min A.m A.n)).foldl (upd (fun i => i * (A.m + 1)) (fun _ _ => v) zero) A.data },
    by unfold diag; rw [e]; rfl, .intro h.rows h.cols (by rw [upd_length]; exact h.size) ?_⟩
  intro i j hi hj
  show (List.foldl _ _ _)[i + j * m]? = _
  by_cases hij : i = j
  · subst hij
    rw [if_pos rfl, ← hpos]
    refine upd_hit (pos := fun i => i * (A.m + 1)) (w := fun _ _ => v) _ _ i ?_ List.nodup_range ?_ ?_
    · rw [List.mem_range, h.rows, h.cols]; omega
    · intro q hq e
      simp only [hpos] at e
      rw [List.mem_range, h.rows] at hq
      exact (idx_inj (by omega) hi e).1
    · rw [hpos, h.size]; exact idx_lt hi hj
  · rw [if_neg hij, upd_miss, h.elem hi hj]
    intro p hp e
    rw [List.mem_range, h.rows] at hp
    rw [hpos] at e
    obtain ⟨e1, e2⟩ := idx_inj (by omega) hi e
    exact hij (e1.symm.trans e2)

/-- `transpose` exchanges rows and columns. -/
theorem transpose_spec {A : Mat K} {m n : Nat} {f : Nat → Nat → K} (h : Is A m n f) :
    ∃ B, A.transpose = .ok B ∧ Is B n m (fun i j => f j i) := by
  obtain ⟨d', e, hl, hh, -⟩ := fill_spec m n (fun a b => (b : Int) + a * (n : Nat)) (fun a b => b + a * n)
    (fun a b => A.get a b) f A.data (fun r c _ _ => idx_cast c r n) (fun r c hr hc => h.get r c hr hc)
    (fun r c hr hc => by rw [h.size, Nat.mul_comm m n]; exact idx_lt hc hr)
    (fun r c r' c' hr hc hr' hc' e => by
      obtain ⟨a, b⟩ := idx_inj hc hc' e
      exact ⟨b, a⟩)
  refine ⟨⟨n, m, d'⟩, ?_, .intro rfl rfl (by rw [hl, h.size, Nat.mul_comm]) ?_⟩
  · unfold transpose
    rw [copy_eq A (by rw [h.rows, h.cols]; exact h.size)]
    simp only [bind, Except.bind]
    rw [h.rows, h.cols, e]; rfl
  · intro i j hi hj
    exact hh j i hj hi

/-- Transposing twice gives the matrix back. -/
theorem transpose_transpose (A : Mat K) (h : A.data.length = A.m * A.n) :
    (do let B ← A.transpose; B.transpose) = .ok A := by
  have hA := is_self A h
  obtain ⟨B, e, hB⟩ := transpose_spec hA
  obtain ⟨C, e', hC⟩ := transpose_spec hB
  rw [e]
  simp only [bind, Except.bind]
  rw [e', hC.ext hA]

/-- `insert` copies the part of the other matrix that fits; the rest is unchanged. -/
theorem insert_spec {M A : Mat K} {m n p q : Nat} {f g : Nat → Nat → K} (h : Is M m n f) (h' : Is A p q g) :
    ∃ B, M.insert A = .ok B ∧ Is B m n (fun i j => if i < p ∧ j < q then g i j else f i j) := by
  obtain ⟨d', e, hl, hh, hm⟩ := fill_spec (min m p) (min n q) (fun r c => (r : Int) + c * (m : Nat)) (fun r c => r + c * m)
    (fun r c => rdI A.data ((r : Int) + c * (p : Nat))) g M.data (fun r c _ _ => idx_cast r c m)
    (fun r c hr hc => by rw [idx_cast, rdI_nat, h'.rd (by omega) (by omega)])
    (fun r c hr hc => by rw [h.size]; exact idx_lt (by omega) (by omega))
    (fun r c r' c' hr hc hr' hc' e => idx_inj (by omega) (by omega) e)
  refine ⟨{ M with data := d' }, ?_, .intro h.rows h.cols (by rw [hl, h.size]) ?_⟩
  · unfold insert
    rw [h.rows, h.cols, h'.rows, h'.cols, e]; rfl
  · intro i j hi hj
    show d'[i + j * m]? = _
    by_cases hc : i < p ∧ j < q
    · rw [if_pos hc, hh i j (by omega) (by omega)]
    · rw [if_neg hc, hm, h.elem hi hj]
      intro r c hr hc' e
      obtain ⟨rfl, rfl⟩ := idx_inj (by omega) hi e
      exact hc ⟨by omega, by omega⟩

/-- `insert` at a position, for positions that are not negative. -/
theorem insertAt_spec {M A : Mat K} {m n p q : Nat} {f g : Nat → Nat → K} (h : Is M m n f) (h' : Is A p q g) (r' c' : Nat) :
    ∃ B, M.insertAt A r' c' = .ok B ∧
      Is B m n (fun i j => if r' ≤ i ∧ i - r' < p ∧ c' ≤ j ∧ j - c' < q then g (i - r') (j - c') else f i j) := by
  have er : (min ((m : Int) - r') (p : Int)).toNat = min (m - r') p := by omega
  have ec : (min ((n : Int) - c') (q : Int)).toNat = min (n - c') q := by omega
  obtain ⟨d', e, hl, hh, hm⟩ := fill_spec (min (m - r') p) (min (n - c') q)
    (fun r c => ((r : Int) + r') + ((c : Int) + c') * (m : Nat)) (fun r c => (r + r') + (c + c') * m)
    (fun r c => rdI A.data ((r : Int) + c * (p : Nat))) g M.data (fun r c _ _ => by push_cast; ring)
    (fun r c hr hc => by rw [idx_cast, rdI_nat, h'.rd (by omega) (by omega)])
    (fun r c hr hc => by rw [h.size]; exact idx_lt (by omega) (by omega))
    (fun r c a b hr hc hr' hc' e => by
      have := idx_inj (by omega) (by omega) e
      omega)
  refine ⟨{ M with data := d' }, ?_, .intro h.rows h.cols (by rw [hl, h.size]) ?_⟩
  · unfold insertAt
    simp only [h.rows, h.cols, h'.rows, h'.cols, er, ec, e]; rfl
  · intro i j hi hj
    show d'[i + j * m]? = _
    by_cases hc : r' ≤ i ∧ i - r' < p ∧ c' ≤ j ∧ j - c' < q
    · rw [if_pos hc]
      have := hh (i - r') (j - c') (by omega) (by omega)
      rw [show i - r' + r' = i by omega, show j - c' + c' = j by omega] at this
      exact this
    · rw [if_neg hc, hm, h.elem hi hj]
      intro r c hr hc' e
      obtain ⟨e1, e2⟩ := idx_inj (by omega) hi e
      exact hc ⟨by omega, by omega, by omega, by omega⟩

/-- With a negative position cells of other columns are overwritten, or memory before the block. -/
theorem insertAt_negative :
    (∃ B : Mat Fp.F64, insertAt (new 2 2) ⟨2, 1, [one, two]⟩ (-1) 1 = .ok B ∧ B.get 1 0 = .ok one ∧ B.get 0 1 = .ok two) ∧
    insertAt (new 2 2 : Mat Fp.F64) ⟨2, 1, [one, two]⟩ (-1) 0 = .error .ub := by
  refine ⟨⟨⟨2, 2, [zero, one, two, zero]⟩, ?_, ?_, ?_⟩, ?_⟩ <;> decide +kernel

/-! ### Operations on all cells -/

theorem mapLoop_spec {A : Mat K} {m n : Nat} {f : Nat → Nat → K} (h : Is A m n f) (g : K → K) :
    ∃ B, mapLoop g A = .ok B ∧ Is B m n (fun i j => g (f i j)) := by
  have hlen : (new A.m A.n : Mat K).data.length = m * n := by simp [new, h.rows, h.cols]
  have e : (List.range (A.m * A.n)).foldlM (fun r i => do
      let a ← rd A.data i
      wr r i (g a)) (new A.m A.n : Mat K).data =
      .ok ((List.range (A.m * A.n)).foldl (upd (fun i => i) (fun i _ => g (elems A.data i)) zero) (new A.m A.n : Mat K).data) := by
    refine foldlM_upd (n := m * n) _ _ hlen ?_
    intro d p hp hd
    rw [List.mem_range, h.rows, h.cols] at hp
    have hp' : p < A.data.length := by rw [h.size]; exact hp
    rw [rd_ok hp']
    simp only [bind, Except.bind]
    rw [wr_ok (by omega)]
    simp [upd, elems, hp']
  refine ⟨⟨A.m, A.n, (List.range (A.m * A.n)).foldl (upd (fun i => i) (fun i _ => g (elems A.data i)) zero) (new A.m A.n : Mat K).data⟩,
    by unfold mapLoop; rw [e]; rfl, .intro h.rows h.cols (by rw [upd_length]; exact hlen) ?_⟩
  intro i j hi hj
  have hu := upd_hit (pos := fun i => i) (w := fun i _ => g (elems A.data i)) (z := zero) (List.range (A.m * A.n))
    (new A.m A.n : Mat K).data (i + j * m) (by rw [List.mem_range, h.rows, h.cols]; exact idx_lt hi hj)
    List.nodup_range (fun _ _ e => e) (by rw [hlen]; exact idx_lt hi hj)
  refine hu.trans ?_
  have := h.elem hi hj
  simp [elems, List.getD_eq_getElem?_getD, this]

/-- Multiplication with and division by a number, cell by cell. -/
theorem smul_spec {A : Mat K} {m n : Nat} {f : Nat → Nat → K} (h : Is A m n f) (d : K) :
    (∃ B, smul d A = .ok B ∧ Is B m n (fun i j => d * f i j)) ∧
    (∃ B, sdiv A d = .ok B ∧ Is B m n (fun i j => f i j / d)) :=
  ⟨mapLoop_spec h _, mapLoop_spec h _⟩

theorem zip_square (op : K → K → K) {A B : Mat K} {n : Nat} {f g : Nat → Nat → K} (h : Is A n n f) (h' : Is B n n g) :
    ∃ C, zip op A B = .ok C ∧ Is C n n (fun i j => op (f i j) (g i j)) := by
  have hlen : (new n n : Mat K).data.length = n * n := by simp [new]
  obtain ⟨d', e, hl, hh, -⟩ := fill_spec n n (fun i j => (i : Int) + j * (n : Nat)) (fun i j => i + j * n)
    (fun i j => do
      let a ← rd A.data (i + j * n)
      let b ← rd B.data (i + j * n)
      return op a b) (fun i j => op (f i j) (g i j)) (new n n : Mat K).data (fun r c _ _ => idx_cast r c n)
    (fun r c hr hc => by rw [h.rd hr hc, h'.rd hr hc]; rfl)
    (fun r c hr hc => by rw [hlen]; exact idx_lt hr hc)
    (fun r c r' c' hr hc hr' hc' e => idx_inj hr hr' e)
  refine ⟨⟨n, n, d'⟩, ?_, .intro rfl rfl (by rw [hl, hlen]) (fun i j hi hj => hh i j hi hj)⟩
  unfold zip
  rw [h.rows, h.cols, h'.rows, h'.cols, if_neg (by simp), e]; rfl

/-- Addition and subtraction, cell by cell, of square matrices of the same size. Missing: all other
matrices of equal size, see `add_rectangular`. -/
theorem add_square_partial {A B : Mat K} {n : Nat} {f g : Nat → Nat → K} (h : Is A n n f) (h' : Is B n n g) :
    (∃ C, add A B = .ok C ∧ Is C n n (fun i j => f i j + g i j)) ∧
    (∃ C, sub A B = .ok C ∧ Is C n n (fun i j => f i j - g i j)) := ⟨zip_square _ h h', zip_square _ h h'⟩

/-- The sizes are tested as for a product: two matrices of the same size that are not square can
never be added or subtracted. -/
theorem add_rectangular {A B : Mat K} {m n : Nat} {f g : Nat → Nat → K} (h : Is A m n f) (h' : Is B m n g) (hmn : m ≠ n) :
    add A B = .error .thrown ∧ sub A B = .error .thrown := by
  have : zip (· + ·) A B = .error .thrown ∧ zip (· - ·) A B = .error .thrown := by
    unfold zip
    rw [h.cols, h'.rows, if_pos (Ne.symm hmn), if_pos (Ne.symm hmn)]
    exact ⟨rfl, rfl⟩
  exact this

/-- Matrices of different sizes are added although their cells do not correspond, or memory behind a
block is read: 2 × 1 plus 1 × 2 gives a 2 × 2 matrix. -/
theorem add_mismatched :
    add (⟨2, 1, [one, one]⟩ : Mat Fp.F64) ⟨1, 2, [one, one]⟩ = .error .ub ∧
    add (⟨2, 3, [one, two, one, two, one, two]⟩ : Mat Fp.F64) ⟨3, 2, [one, one, two, two, two, two]⟩ =
      .ok ⟨2, 2, [Arith.lit 2 1, Arith.lit 3 1, Arith.lit 3 1, Arith.lit 4 1]⟩ := by decide +kernel

/-! ### The product -/

/-- the sum the inner loop computes: from left to right, beginning with 0 -/
def sumOf (n : Nat) (t : Nat → K) : K := (List.range n).foldl (fun s k => s + t k) zero

theorem dotLoop_spec {A B : Mat K} {m n p : Nat} {f g : Nat → Nat → K} (h : Is A m n f) (h' : Is B n p g) (i j : Nat)
    (hi : i < m) (hj : j < p) (d : List K) (hd : d.length = m * p) :
    dotLoop A B i j d = .ok (d.set (i + j * m) ((List.range n).foldl (fun s k => s + f i k * g k j)
      (d.getD (i + j * m) zero))) := by
  unfold dotLoop
  rw [h.cols, h.rows, h'.rows]
  have hl : i + j * m < m * p := idx_lt hi hj
  have key : ∀ (l : List Nat) (d : List K), d.length = m * p → (∀ k ∈ l, k < n) →
      l.foldlM (fun r k => do
        let a ← rd A.data (i + k * m)
        let b ← rd B.data (k + j * n)
        let x ← rd r (i + j * m)
        wr r (i + j * m) (x + a * b)) d = .ok (d.set (i + j * m) (l.foldl (fun s k => s + f i k * g k j)
          (d.getD (i + j * m) zero))) := by
    intro l
    induction l with
    | nil =>
      intro d hd _
      show (Except.ok d : Res (List K)) = _
      congr 1
      rw [List.foldl_nil, List.getD_eq_getElem?_getD, List.getElem?_eq_getElem (by omega)]
      simp
    | cons k t ih =>
      intro d hd hk
      have hstep : (do
          let a ← rd A.data (i + k * m)
          let b ← rd B.data (k + j * n)
          let x ← rd d (i + j * m)
          wr d (i + j * m) (x + a * b)) = .ok (d.set (i + j * m) (d[i + j * m]'(by omega) + f i k * g k j)) := by
        rw [h.rd hi (hk k List.mem_cons_self), h'.rd (hk k List.mem_cons_self) hj, rd_ok (by omega)]
        simp only [bind, Except.bind]
        rw [wr_ok (by omega)]
      rw [List.foldlM_cons, hstep]
      show List.foldlM _ _ _ = _
      rw [ih _ (by simp [hd]) (fun q hq => hk q (List.mem_cons_of_mem _ hq))]
      rw [List.set_set, List.foldl_cons, List.getD_eq_getElem?_getD, List.getElem?_set_self (by omega)]
      rw [List.getD_eq_getElem?_getD, List.getElem?_eq_getElem (by omega)]
      rfl
  exact key _ d hd (fun k hk => List.mem_range.1 hk)

/-- The product: cell `i, j` is the sum of `A(i, k) * B(k, j)`, added from left to right to 0. Matrices
that do not fit together are rejected with an exception. -/
theorem mul_spec {A B : Mat K} {m n p : Nat} {f g : Nat → Nat → K} (h : Is A m n f) (h' : Is B n p g) :
    ∃ C, mul A B = .ok C ∧ Is C m p (fun i j => sumOf n fun k => f i k * g k j) := by
  have hlen : (new m p : Mat K).data.length = m * p := by simp [new]
  have e := foldlM_nested (f := fun d i j => dotLoop A B i j d) (List.range m) (List.range p) (new m p : Mat K).data
  have e2 := foldlM_upd (pos := fun q : Nat × Nat => q.1 + q.2 * m)
    (w := fun q x => (List.range n).foldl (fun s k => s + f q.1 k * g k q.2) x) (z := zero)
    (f := fun d q => dotLoop A B q.1 q.2 d) (n := m * p)
    ((List.range m).flatMap fun r => (List.range p).map fun c => (r, c)) (new m p : Mat K).data hlen (by
      intro d q hq hd
      rw [mem_pairs] at hq
      rw [dotLoop_spec h h' q.1 q.2 hq.1 hq.2 d hd]
      rfl)
  refine ⟨⟨m, p, ((List.range m).flatMap fun r => (List.range p).map fun c => (r, c)).foldl
    (upd (fun q : Nat × Nat => q.1 + q.2 * m) (fun q x => (List.range n).foldl (fun s k => s + f q.1 k * g k q.2) x) zero)
    (new m p : Mat K).data⟩, ?_, .intro rfl rfl ?_ ?_⟩
  · unfold mul
    rw [h.rows, h.cols, h'.rows, h'.cols, if_neg (by simp), e, e2]; rfl
  · rw [upd_length]; exact hlen
  · intro i j hi hj
    have := upd_hit (pos := fun q : Nat × Nat => q.1 + q.2 * m)
      (w := fun q x => (List.range n).foldl (fun s k => s + f q.1 k * g k q.2) x) (z := zero) _ (new m p : Mat K).data (i, j)
      (mem_pairs.2 ⟨hi, hj⟩) (nodup_pairs m p) (by
        intro q hq e
        rw [mem_pairs] at hq
        obtain ⟨a, b⟩ := idx_inj hq.1 hi e
        exact Prod.ext a b) (by rw [hlen]; exact idx_lt hi hj)
    refine this.trans ?_
    have h0 : (new m p : Mat K).data.getD (i + j * m) zero = zero := by
      rw [List.getD_eq_getElem?_getD, (new_spec m p).elem hi hj]; rfl
    simp only [h0]
    rfl

theorem mul_rejects {A B : Mat K} {m n p q : Nat} {f g : Nat → Nat → K} (h : Is A m n f) (h' : Is B p q g) (hne : n ≠ p) :
    mul A B = .error .thrown := by
  unfold mul; rw [h.cols, h'.rows, if_pos hne]

/-- The product with a vector. -/
theorem mulVec_spec {A : Mat K} {m n : Nat} {f : Nat → Nat → K} (h : Is A m n f) (b : Vec K) (hb : b.m = n)
    (hl : b.data.length = n) :
    ∃ c, mulVec A b = .ok c ∧ c.m = m ∧ c.data.length = m ∧
      ∀ i, i < m → c.data[i]? = some (sumOf n fun k => elems b.data k * f i k) := by
  refine ⟨⟨m, (List.range m).map fun i => sumOf n fun k => elems b.data k * f i k⟩, ?_, rfl, by simp, ?_⟩
  · unfold mulVec
    rw [h.cols, hb, if_neg (by simp), h.rows]
    rw [mapM_ok (g := fun i => sumOf n fun k => elems b.data k * f i k)]
    · rfl
    · intro i hi
      rw [List.mem_range] at hi
      unfold sumOf
      refine foldlM_ok (g := fun s k => s + elems b.data k * f i k) _ _ ?_
      intro s k hk
      rw [List.mem_range] at hk
      rw [rd_ok (by omega), h.get i k hi hk]
      simp only [bind, Except.bind, pure, Except.pure]
      rw [elems, List.getD_eq_getElem?_getD, List.getElem?_eq_getElem (by omega)]
      rfl
  · intro i hi
    rw [List.getElem?_map, List.getElem?_range hi]; rfl

-- a case that meets the hypotheses
example : Is (⟨2, 3, [one, two, one, two, one, two]⟩ : Mat Fp.F64) 2 3 (fun i _ => if i = 0 then one else two) := by
  refine .intro rfl rfl rfl ?_
  intro i j hi hj
  obtain rfl | rfl : i = 0 ∨ i = 1 := by omega
  all_goals obtain rfl | rfl | rfl := cases3 hj <;> rfl
example : mul (⟨1, 2, [one, two]⟩ : Mat Fp.F64) ⟨2, 1, [two, two]⟩ = .ok ⟨1, 1, [Arith.lit 6 1]⟩ := by decide +kernel

end Verif.Mx.Mat
