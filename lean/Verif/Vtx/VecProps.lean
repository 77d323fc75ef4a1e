import Verif.Vtx.Props
import Mathlib.LinearAlgebra.Matrix.DotProduct
/-
C133: vectors of any length.  For every type of numbers the elements are calculated one by one; without rounding the
operations are those of the real vector space.
-/
namespace Verif.Vtx.VecProps
open Verif Verif.Exact Verif.Mx

/-! ### Specification -/

/-- the object holds the `n` real numbers `a` -/
structure Holds {n : Nat} (v : Vec X) (a : Fin n → ℝ) : Prop where
  size : v.m = n
  data : v.data = List.ofFn fun i => X.r (a i)

/-- the object that holds `a` -/
def ofReals {n : Nat} (a : Fin n → ℝ) : Vec X := ⟨n, List.ofFn fun i => X.r (a i)⟩
theorem ofReals_holds {n : Nat} (a : Fin n → ℝ) : Holds (ofReals a) a := ⟨rfl, rfl⟩
theorem holds_iff {n : Nat} (v : Vec X) (a : Fin n → ℝ) : Holds v a ↔ v = ofReals a := by
  constructor
  · rintro ⟨h1, h2⟩; cases v; simp only at h1 h2; rw [h1, h2]; rfl
  · rintro rfl; exact ofReals_holds a

/-! ### Every type of numbers -/

section
variable {K : Type} [Arith K]

theorem read_all (d : List K) (n : Nat) (h : d.length = n) (z : K) (f : K → K) :
    ((List.range n).mapM fun i => do let x ← rd d i; return f x) = (.ok (d.map f) : Res (List K)) := by
  have e : ∀ p ∈ List.range n, (do let x ← rd d p; return f x : Res K) = .ok (f (d[p]?.getD z)) := by
    intro p hp
    have : p < d.length := by rw [h]; exact List.mem_range.1 hp
    rw [rd_ok this]
    simp only [bind, Except.bind, pure, Except.pure]
    rw [List.getElem?_eq_getElem this]; rfl
  rw [mapM_ok _ e]
  congr 1
  apply List.ext_getElem (by simp [h])
  intro i h1 h2
  simp only [List.getElem_map, List.getElem_range]
  rw [List.getElem?_eq_getElem (by simpa using h2)]; rfl

/-- Sums and differences are made element by element, and vectors of different lengths are rejected. -/
theorem zip_spec (f : K → K → K) (a b : Vec K) (ha : a.data.length = a.m) (hb : b.data.length = b.m) :
    Vec.zip f a b = if a.m = b.m then .ok ⟨a.m, List.zipWith f a.data b.data⟩ else .error .thrown := by
  unfold Vec.zip
  by_cases h : a.m = b.m
  · rw [if_neg (not_not.2 h), if_pos h]
    have e : ∀ p ∈ List.range a.m, (do let x ← rd a.data p; let y ← rd b.data p; return f x y : Res K) =
        .ok (f (a.data[p]?.getD zero) (b.data[p]?.getD zero)) := by
      intro p hp
      have h1 : p < a.data.length := by rw [ha]; exact List.mem_range.1 hp
      have h2 : p < b.data.length := by rw [hb, ← h]; exact List.mem_range.1 hp
      rw [rd_ok h1, rd_ok h2]
      simp only [bind, Except.bind, pure, Except.pure]
      rw [List.getElem?_eq_getElem h1, List.getElem?_eq_getElem h2]; rfl
    rw [mapM_ok _ e]
    simp only [bind, Except.bind, pure, Except.pure]
    congr 2
    apply List.ext_getElem (by simp [ha, hb, h])
    intro i h1 h2
    simp only [List.length_zipWith, lt_min_iff] at h2
    simp only [List.getElem_map, List.getElem_range, List.getElem_zipWith]
    rw [List.getElem?_eq_getElem h2.1, List.getElem?_eq_getElem h2.2]; rfl
  · rw [if_pos h, if_neg h]

theorem add_elements (a b : Vec K) (ha : a.data.length = a.m) (hb : b.data.length = b.m) :
    Vec.add a b = if a.m = b.m then .ok ⟨a.m, List.zipWith (fun x y => x + y) a.data b.data⟩ else .error .thrown :=
  zip_spec _ a b ha hb
theorem sub_elements (a b : Vec K) (ha : a.data.length = a.m) (hb : b.data.length = b.m) :
    Vec.sub a b = if a.m = b.m then .ok ⟨a.m, List.zipWith (fun x y => x - y) a.data b.data⟩ else .error .thrown :=
  zip_spec _ a b ha hb
theorem smul_elements (d : K) (a : Vec K) (ha : a.data.length = a.m) :
    Vec.smul d a = .ok ⟨a.m, a.data.map fun x => d * x⟩ := by
  unfold Vec.smul
  rw [read_all a.data a.m ha zero]; rfl

/-- `dotProduct` does not test the lengths: a shorter second vector is read behind its end. -/
theorem dotProduct_shorter (a b : Vec K) (ha : a.data.length = a.m) (hb : b.data.length = b.m) (h : b.m < a.m) :
    a.dotProduct b = .error .ub := by
  have key : ∀ (k : Nat) (s : K), k ≤ b.m →
      ((List.range' (b.m - k) (k + (a.m - b.m))).foldlM (fun s i => do
        let x ← rd a.data i
        let y ← rd b.data i
        return s + x * y) s : Res K) = .error .ub := by
    intro k
    induction k with
    | zero =>
      intro s _
      obtain ⟨n, hn⟩ : ∃ n, a.m - b.m = n + 1 := ⟨a.m - b.m - 1, by omega⟩
      rw [Nat.zero_add, Nat.sub_zero, hn, List.range'_succ, List.foldlM_cons, rd_ok (by omega), rd_ub (by omega)]
      rfl
    | succ k ih =>
      intro s hk
      rw [show k + 1 + (a.m - b.m) = k + (a.m - b.m) + 1 from by omega, List.range'_succ, List.foldlM_cons, rd_ok (by omega),
        rd_ok (by omega), show b.m - (k + 1) + 1 = b.m - k from by omega]
      exact ih _ (by omega)
  unfold Vec.dotProduct
  rw [List.range_eq_range']
  have := key b.m zero le_rfl
  rwa [Nat.sub_self, show b.m + (a.m - b.m) = a.m from by omega] at this

end

/-! ### Without rounding -/

theorem size_ok {n : Nat} {v : Vec X} {a : Fin n → ℝ} (h : Holds v a) : v.data.length = v.m := by
  rw [h.data, h.size, List.length_ofFn]

theorem zip_ofFn {n : Nat} (f : X → X → X) (g : ℝ → ℝ → ℝ) (h : ∀ x y, f (.r x) (.r y) = .r (g x y)) (a b : Fin n → ℝ) :
    List.zipWith f (List.ofFn fun i => X.r (a i)) (List.ofFn fun i => X.r (b i)) = List.ofFn fun i => X.r (g (a i) (b i)) := by
  apply List.ext_getElem (by simp)
  intro i h1 h2
  simp [h]

/-- The sum of vectors of the same length. -/
theorem add_spec {n : Nat} {v w : Vec X} {a b : Fin n → ℝ} (h : Holds v a) (h' : Holds w b) :
    Vec.add v w = .ok (ofReals (a + b)) := by
  rw [add_elements v w (size_ok h) (size_ok h'), if_pos (h.size.trans h'.size.symm), h.data, h'.data, h.size,
    zip_ofFn _ (· + ·) (fun _ _ => rfl)]
  rfl

/-- The difference of vectors of the same length. -/
theorem sub_spec {n : Nat} {v w : Vec X} {a b : Fin n → ℝ} (h : Holds v a) (h' : Holds w b) :
    Vec.sub v w = .ok (ofReals (a - b)) := by
  rw [sub_elements v w (size_ok h) (size_ok h'), if_pos (h.size.trans h'.size.symm), h.data, h'.data, h.size,
    zip_ofFn _ (· - ·) (fun _ _ => rfl)]
  rfl

/-- Vectors of different lengths have no sum and no difference: an exception. -/
theorem add_rejects {n k : Nat} {v w : Vec X} {a : Fin n → ℝ} {b : Fin k → ℝ} (h : Holds v a) (h' : Holds w b) (hn : n ≠ k) :
    Vec.add v w = .error .thrown ∧ Vec.sub v w = .error .thrown := by
  have : v.m ≠ w.m := by rw [h.size, h'.size]; exact hn
  exact ⟨by rw [add_elements v w (size_ok h) (size_ok h'), if_neg this],
    by rw [sub_elements v w (size_ok h) (size_ok h'), if_neg this]⟩

/-- The multiple of a vector. -/
theorem smul_spec {n : Nat} {v : Vec X} {a : Fin n → ℝ} (h : Holds v a) (t : ℝ) :
    Vec.smul (.r t) v = .ok (ofReals (t • a)) := by
  rw [smul_elements _ v (size_ok h), h.data, h.size]
  congr 1
  show (⟨n, _⟩ : Vec X) = ⟨n, _⟩
  congr 1
  apply List.ext_getElem (by simp)
  intro i h1 h2
  simp

/-- The scalar product; of a longer second vector only the beginning is used. -/
theorem dotProduct_spec {n k : Nat} {v w : Vec X} {a : Fin n → ℝ} {b : Fin k → ℝ} (h : Holds v a) (h' : Holds w b) (hk : n ≤ k) :
    v.dotProduct w = .ok (.r (∑ i : Fin n, a i * b (Fin.castLE hk i))) := by
  unfold Vec.dotProduct
  set t : Nat → ℝ := fun i => if hi : i < n then a ⟨i, hi⟩ * b ⟨i, lt_of_lt_of_le hi hk⟩ else 0 with ht
  have e : ∀ (s : X), ∀ p ∈ List.range v.m, (do let x ← rd v.data p; let y ← rd w.data p; return s + x * y : Res X) =
      .ok ((fun s p => s + X.r (t p)) s p) := by
    intro s p hp
    have hp' : p < n := by rw [← h.size]; exact List.mem_range.1 hp
    rw [rd_ok (by rw [h.data, List.length_ofFn]; exact hp'), rd_ok (by rw [h'.data, List.length_ofFn]; omega)]
    simp only [bind, Except.bind, pure, Except.pure, h.data, h'.data, List.getElem_ofFn, X.mul_r, ht, dif_pos hp']
  rw [foldlM_ok _ _ e, h.size]
  have := Mat.sumOf_r n t
  unfold Mat.sumOf at this
  rw [this]
  congr 2
  refine Finset.sum_congr rfl fun i _ => ?_
  rw [ht]
  simp only [dif_pos i.2]
  rfl

/-- The scalar product of vectors of the same length. -/
theorem dotProduct_same {n : Nat} {v w : Vec X} {a b : Fin n → ℝ} (h : Holds v a) (h' : Holds w b) :
    v.dotProduct w = .ok (.r (a ⬝ᵥ b)) := dotProduct_spec h h' le_rfl

/-- The length. -/
theorem abs_spec {n : Nat} {v : Vec X} {a : Fin n → ℝ} (h : Holds v a) : v.abs = .ok (.r (Real.sqrt (a ⬝ᵥ a))) := by
  unfold Vec.abs
  rw [dotProduct_same h h]
  simp only [bind, Except.bind, pure, Except.pure]
  have h0 : 0 ≤ a ⬝ᵥ a := Finset.sum_nonneg fun i _ => mul_self_nonneg _
  rw [X.sqrt_r h0]

/-- Every vector other than 0 becomes the vector of length 1 with the same direction. -/
theorem normalize_spec {n : Nat} {v : Vec X} {a : Fin n → ℝ} (h : Holds v a) (h0 : a ≠ 0) :
    ∃ b : Fin n → ℝ, v.normalize = .ok (ofReals b) ∧ b ⬝ᵥ b = 1 ∧ ∃ t : ℝ, 0 < t ∧ b = t • a := by
  have hn : 0 ≤ a ⬝ᵥ a := Finset.sum_nonneg fun i _ => mul_self_nonneg _
  have hp : a ⬝ᵥ a ≠ 0 := fun e => h0 (dotProduct_self_eq_zero.1 e)
  have hs : 0 < Real.sqrt (a ⬝ᵥ a) := Real.sqrt_pos.2 (lt_of_le_of_ne hn (Ne.symm hp))
  refine ⟨(1 / Real.sqrt (a ⬝ᵥ a)) • a, ?_, ?_, _, one_div_pos.2 hs, rfl⟩
  · unfold Vec.normalize
    rw [abs_spec h]
    simp only [bind, Except.bind]
    have := read_all v.data v.m (size_ok h) zero (fun x => x / X.r (Real.sqrt (a ⬝ᵥ a)))
    simp only [bind, Except.bind] at this
    rw [this, h.data, h.size]
    show Except.ok (⟨n, _⟩ : Vec X) = .ok ⟨n, _⟩
    congr 2
    apply List.ext_getElem (by simp)
    intro i h1 h2
    simp only [List.getElem_map, List.getElem_ofFn]
    rw [X.div_r _ (ne_of_gt hs), Pi.smul_apply, smul_eq_mul]
    congr 1; ring
  · rw [smul_dotProduct, dotProduct_smul, smul_eq_mul, smul_eq_mul]
    have := Real.mul_self_sqrt hn
    field_simp
    nlinarith [this]

/-- The null vector becomes a vector of NaNs. -/
theorem normalize_null (n : Nat) : (ofReals (0 : Fin n → ℝ)).normalize = .ok ⟨n, List.replicate n X.nan⟩ := by
  have h := ofReals_holds (0 : Fin n → ℝ)
  unfold Vec.normalize
  rw [abs_spec h]
  simp only [bind, Except.bind]
  have := read_all (ofReals (0 : Fin n → ℝ)).data n (size_ok h) zero (fun x => x / X.r (Real.sqrt ((0 : Fin n → ℝ) ⬝ᵥ 0)))
  simp only [bind, Except.bind] at this
  rw [show (ofReals (0 : Fin n → ℝ)).m = n from rfl, this]
  show Except.ok (⟨n, _⟩ : Vec X) = .ok ⟨n, _⟩
  congr 2
  apply List.ext_getElem (by simp [ofReals])
  intro i h1 h2
  simp only [ofReals, List.getElem_map, List.getElem_ofFn, List.getElem_replicate]
  have hz : X.r (Real.sqrt ((0 : Fin n → ℝ) ⬝ᵥ 0)) = X.r 0 := by rw [zero_dotProduct, Real.sqrt_zero]
  exact (congrArg (fun y => X.r _ / y) hz).trans (X.div_zero _)

/-- A new vector is the null vector. -/
theorem new_spec (n : Nat) : (Vec.new n : Vec X) = ofReals (0 : Fin n → ℝ) := by
  unfold Vec.new ofReals
  congr 1
  apply List.ext_getElem (by simp)
  intro i h1 h2
  simp [Mat.zero_r]

/-- concrete vectors, sum and length -/
example : Vec.add (ofReals ![1, 2]) (ofReals ![3, 4]) = .ok (ofReals ![4, 6]) := by
  rw [add_spec (ofReals_holds _) (ofReals_holds _)]
  congr 2
  ext i; fin_cases i <;> norm_num
example : (ofReals ![3, 4]).abs = .ok (.r 5) := by
  rw [abs_spec (ofReals_holds _)]
  congr 2
  rw [show (![3, 4] : Fin 2 → ℝ) ⬝ᵥ ![3, 4] = 5 ^ 2 by norm_num [dotProduct, Fin.sum_univ_two]]
  exact Real.sqrt_sq (by norm_num)
example : (![3, 4] : Fin 2 → ℝ) ≠ 0 := fun e => by have := congrFun e 0; norm_num at this
example : (ofReals ![3, 4]).dotProduct (ofReals ![1]) = .error .ub :=
  dotProduct_shorter _ _ (size_ok (ofReals_holds _)) (size_ok (ofReals_holds _)) (by decide)

end Verif.Vtx.VecProps
