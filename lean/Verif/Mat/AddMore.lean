import Verif.Mat.Props
/-
C72: the sum and the difference of matrices of any sizes.
-/
namespace Verif.Mx.Mat
open Verif Verif.Exact
set_option linter.unusedSectionVars false
variable {K : Type} [Arith K]

/-- A loop one of whose steps always fails with undefined behaviour, while the others fail in no other way. -/
theorem foldlM_ub {S A : Type} (f : S → A → Res S) (P : S → Prop) (l : List A)
    (hstep : ∀ x ∈ l, ∀ s, P s → (∃ s', f s x = .ok s' ∧ P s') ∨ f s x = .error .ub)
    (hbad : ∃ x ∈ l, ∀ s, f s x = .error .ub) : ∀ s, P s → l.foldlM f s = .error .ub := by
  induction l with
  | nil => obtain ⟨x, hx, -⟩ := hbad; simp at hx
  | cons a t ih =>
    intro s hs
    rw [List.foldlM_cons]
    rcases hstep a (by simp) s hs with ⟨s', e, hs'⟩ | e
    · rw [e]
      obtain ⟨x, hx, hf⟩ := hbad
      rcases List.mem_cons.1 hx with rfl | hx
      · rw [hf s] at e; cases e
      · exact ih (fun y hy => hstep y (by simp [hy])) ⟨x, hx, hf⟩ s' hs'
    · rw [e]; rfl

theorem zip_fits (op : K → K → K) {A B : Mat K} {m n p : Nat} {f g : Nat → Nat → K} (h : Is A m n f) (h' : Is B n p g)
    (hm : m ≤ n) (hp : p ≤ n) :
    ∃ C, zip op A B = .ok C ∧ Is C m p (fun i j => op (f i j) (g ((i + j * m) % n) ((i + j * m) / n))) := by
  have hlen : (new m p : Mat K).data.length = m * p := by simp [new]
  obtain ⟨d', e, hl, hh, -⟩ := fill_spec m p (fun i j => (i : Int) + j * (m : Nat)) (fun i j => i + j * m)
    (fun i j => do
      let a ← rd A.data (i + j * m)
      let b ← rd B.data (i + j * m)
      return op a b) (fun i j => op (f i j) (g ((i + j * m) % n) ((i + j * m) / n))) (new m p : Mat K).data (fun r c _ _ => idx_cast r c m)
    (fun r c hr hc => by
      have hlt := idx_lt hr hc
      have hn : 0 < n := by omega
      have h1 : (r + c * m) / n < p := by
        apply (Nat.div_lt_iff_lt_mul hn).2
        calc r + c * m < m * p := hlt
          _ ≤ n * p := Nat.mul_le_mul_right _ hm
          _ = p * n := Nat.mul_comm _ _
      have h2 := h'.rd (Nat.mod_lt (r + c * m) hn) h1
      rw [show (r + c * m) % n + (r + c * m) / n * n = r + c * m by
        exact Nat.mod_add_div' _ _] at h2
      rw [h.rd hr (by omega), h2]; rfl)
    (fun r c hr hc => by rw [hlen]; exact idx_lt hr hc)
    (fun r c r' c' hr hc hr' hc' e => idx_inj hr hr' e)
  refine ⟨⟨m, p, d'⟩, ?_, .intro rfl rfl (by rw [hl, hlen]) (fun i j hi hj => hh i j hi hj)⟩
  unfold zip
  rw [h.rows, h.cols, h'.rows, h'.cols, if_neg (by simp), e]; rfl

theorem zip_ub (op : K → K → K) {A B : Mat K} {m n p : Nat} {f g : Nat → Nat → K} (h : Is A m n f) (h' : Is B n p g)
    (hm : 0 < m) (hp : 0 < p) (hbig : n < m ∨ n < p) : zip op A B = .error .ub := by
  unfold zip
  rw [h.rows, h.cols, h'.rows, h'.cols, if_neg (by simp)]
  have key : fill m p (fun i j => (i : Int) + j * (m : Nat)) (fun i j => do
      let a ← rd A.data (i + j * m)
      let b ← rd B.data (i + j * m)
      return op a b) (new m p : Mat K).data = .error .ub := by
    unfold fill
    rw [foldlM_nested (f := fun d r c => do
      let x ← (do
        let a ← rd A.data (r + c * m)
        let b ← rd B.data (r + c * m)
        return op a b : Res K)
      wrI d ((r : Int) + c * (m : Nat)) x)]
    refine foldlM_ub _ (fun s => s.length = m * p) _ ?_ ?_ _ (by simp [new])
    · rintro ⟨r, c⟩ hx s hs
      simp only [List.mem_flatMap, List.mem_map, List.mem_range, Prod.mk.injEq] at hx
      obtain ⟨r', hr, c', hc, rfl, rfl⟩ := hx
      by_cases ha : r' + c' * m < A.data.length
      · by_cases hb : r' + c' * m < B.data.length
        · left
          rw [rd_ok ha, rd_ok hb]
          simp only [bind, Except.bind, pure, Except.pure]
          rw [idx_cast, wrI_nat, wr_ok (by rw [hs]; exact idx_lt hr hc)]
          exact ⟨_, rfl, by simp [hs]⟩
        · right
          rw [rd_ok ha, rd_ub (not_lt.1 hb)]; rfl
      · right
        rw [rd_ub (not_lt.1 ha)]; rfl
    · refine ⟨(m - 1, p - 1), ?_, ?_⟩
      · simp only [List.mem_flatMap, List.mem_map, List.mem_range, Prod.mk.injEq]
        exact ⟨m - 1, by omega, p - 1, by omega, rfl, rfl⟩
      · intro s
        have hlast : m - 1 + (p - 1) * m + 1 = m * p := by
          obtain ⟨q, rfl⟩ : ∃ q, p = q + 1 := ⟨p - 1, by omega⟩
          rw [Nat.add_sub_cancel, Nat.mul_add, Nat.mul_comm q m]; omega
        simp only
        rcases hbig with hb | hb
        · have : ¬ (m - 1 + (p - 1) * m < B.data.length) := by
            rw [h'.size]
            have : n * p + p ≤ m * p := by
              have := Nat.mul_le_mul_right p hb
              rw [Nat.succ_mul] at this; exact this
            omega
          by_cases ha : m - 1 + (p - 1) * m < A.data.length
          · rw [rd_ok ha, rd_ub (not_lt.1 this)]; rfl
          · rw [rd_ub (not_lt.1 ha)]; rfl
        · have : ¬ (m - 1 + (p - 1) * m < A.data.length) := by
            rw [h.size]
            have : m * n + m ≤ m * p := Nat.mul_le_mul_left m hb
            omega
          rw [rd_ub (not_lt.1 this)]; rfl
  rw [key]; rfl

/-- The sum and the difference of all matrices that have cells.  Sizes that are refused: the number of columns of the first one is not the
number of rows of the second one, although the sum is defined for equal sizes.  Otherwise memory behind a block is read unless the
first one has no more rows than columns and the second one no more columns than rows; then the cell in row i and column j is the
sum of the cell of the first one and of the cell that stands at the same place of the block of the second one. -/
theorem add_all {A B : Mat K} {m n q p : Nat} {f g : Nat → Nat → K} (h : Is A m n f) (h' : Is B q p g) (hm : 0 < m) (hp : 0 < p) :
    (n ≠ q → add A B = .error .thrown ∧ sub A B = .error .thrown) ∧
    (n = q → (n < m ∨ n < p) → add A B = .error .ub ∧ sub A B = .error .ub) ∧
    (n = q → m ≤ n → p ≤ n →
      (∃ C, add A B = .ok C ∧ Is C m p (fun i j => f i j + g ((i + j * m) % n) ((i + j * m) / n))) ∧
      (∃ C, sub A B = .ok C ∧ Is C m p (fun i j => f i j - g ((i + j * m) % n) ((i + j * m) / n)))) := by
  refine ⟨fun hne => ?_, ?_, ?_⟩
  · have e : ∀ op : K → K → K, zip op A B = .error .thrown := by
      intro op
      unfold zip
      rw [h.cols, h'.rows, if_pos hne]
    exact ⟨e _, e _⟩
  · rintro rfl hb
    exact ⟨zip_ub _ h h' hm hp hb, zip_ub _ h h' hm hp hb⟩
  · rintro rfl h1 h2
    exact ⟨zip_fits _ h h' h1 h2, zip_fits _ h h' h1 h2⟩

-- 1 × 2 plus 2 × 1 is a 1 × 1 matrix, 2 × 1 plus 1 × 2 reads behind a block
example : add (⟨1, 2, [one, two]⟩ : Mat Fp.F64) ⟨2, 1, [one, two]⟩ = .ok ⟨1, 1, [two]⟩ ∧
    add (⟨2, 1, [one, two]⟩ : Mat Fp.F64) ⟨1, 2, [one, two]⟩ = .error .ub := by decide +kernel

end Verif.Mx.Mat
