import Verif.Geo.Rect
/-
C51 for `Rect`. Statements for all doubles where they hold; where rounding breaks them, for
coordinates that are multiples of a common power of two (`OnGrid`, e.g. integers up to 2^49, or
multiples of 1/64 up to 2^43) and counterexamples for others.
-/
namespace Verif.Geo
open Verif Verif.Fp

/-! ### Specification -/

/-- `x` is the multiple `m` of 2^k units, exactly -/
structure Grid (k : Nat) (B : Nat) (x : F64) (m : Int) : Prop where
  fin : Finite x
  val : units x = m * (2 : Int) ^ k
  bnd : m.natAbs ≤ B

/-- a rectangle whose position and size are multiples of 2^(k-1074), at most 2^49 times -/
def OnGrid (k : Nat) (r : Rect) : Prop :=
  k < 2045 ∧ ∃ x y w h, Grid k (2 ^ 49) r.x x ∧ Grid k (2 ^ 49) r.y y ∧ Grid k (2 ^ 49) r.w w ∧ Grid k (2 ^ 49) r.h h

/-! ### Exact arithmetic on the grid -/

theorem Grid.mono {k B C x m} (h : Grid k B x m) (hB : B ≤ C) : Grid k C x m :=
  ⟨h.fin, h.val, Nat.le_trans h.bnd hB⟩

theorem Grid.add {k B C : Nat} {x y : F64} {m n : Int} (hk : k < 2045) (hx : Grid k B x m) (hy : Grid k C y n)
    (hB : B + C ≤ 2 ^ 53) : Grid k (B + C) (x + y) (m + n) := by
  have hb1 := hx.bnd
  have hb2 := hy.bnd
  have e : units x + units y = (m + n) * (2 : Int) ^ k := by rw [hx.val, hy.val, Int.add_mul]
  have hr : Rep (units x + units y) := by rw [e]; exact rep_grid _ k (by omega) hk
  obtain ⟨h1, h2⟩ := add_exact hx.fin hy.fin hr
  exact ⟨h1, by rw [h2, e], by omega⟩

theorem Grid.sub {k B C : Nat} {x y : F64} {m n : Int} (hk : k < 2045) (hx : Grid k B x m) (hy : Grid k C y n)
    (hB : B + C ≤ 2 ^ 53) : Grid k (B + C) (x - y) (m - n) := by
  have hb1 := hx.bnd
  have hb2 := hy.bnd
  have e : units x - units y = (m - n) * (2 : Int) ^ k := by rw [hx.val, hy.val, Int.sub_mul]
  have hr : Rep (units x - units y) := by rw [e]; exact rep_grid _ k (by omega) hk
  obtain ⟨h1, h2⟩ := sub_exact hx.fin hy.fin hr
  exact ⟨h1, by rw [h2, e], by omega⟩

theorem Grid.neg {k B : Nat} {x : F64} {m : Int} (hx : Grid k B x m) : Grid k B (-x) (-m) :=
  ⟨finite_neg.2 hx.fin, by rw [units_neg, hx.val, Int.neg_mul], by have := hx.bnd; omega⟩

theorem Grid.nn {k B : Nat} {x : F64} {m : Int} (hx : Grid k B x m) : x ≠ .nan := hx.fin.ne_nan

theorem Grid.lt_iff {k B C : Nat} {x y : F64} {m n : Int} (hx : Grid k B x m) (hy : Grid k C y n) :
    lt x y = true ↔ m < n := by
  rw [Fp.lt_iff hx.nn hy.nn, hx.val, hy.val]
  have hp : (0 : Int) < 2 ^ k := by positivity
  exact Int.mul_lt_mul_right hp

theorem Grid.fmax {k B : Nat} {x y : F64} {m n : Int} (hx : Grid k B x m) (hy : Grid k B y n) :
    Grid k B (fmax x y) (max m n) := by
  unfold Fp.fmax
  have := hx.lt_iff hy
  split <;> rename_i h
  · rw [this] at h
    rw [show max m n = n by omega]; exact hy
  · rw [this] at h
    rw [show max m n = m by omega]; exact hx

theorem Grid.fmin {k B : Nat} {x y : F64} {m n : Int} (hx : Grid k B x m) (hy : Grid k B y n) :
    Grid k B (fmin x y) (min m n) := by
  unfold Fp.fmin
  have := hy.lt_iff hx
  split <;> rename_i h
  · rw [this] at h
    rw [show min m n = n by omega]; exact hy
  · rw [this] at h
    rw [show min m n = m by omega]; exact hx

/-- one axis: position and size -/
structure Axis (k P W : Nat) (x w : F64) (a c : Int) : Prop where
  pos : Grid k P x a
  ext : Grid k W w (c - a)

/-- the other edge -/
theorem Axis.edge {k P W : Nat} {x w : F64} {a c : Int} (hk : k < 2045) (h : Axis k P W x w a c)
    (hB : P + W ≤ 2 ^ 53) : Grid k (P + W) (x + w) c := by
  have := h.pos.add hk h.ext hB
  rw [show a + (c - a) = c by omega] at this
  exact this

/-- moving the first edge keeps the second -/
theorem Axis.setFirst {k P W Q : Nat} {x w l : F64} {a c n : Int} (hk : k < 2045) (h : Axis k P W x w a c)
    (hl : Grid k Q l n) (hB : W + (Q + P) ≤ 2 ^ 53) (hB2 : P + (Q + P) ≤ 2 ^ 53) :
    Axis k Q (W + (Q + P)) (x + (l - x)) (w - (l - x)) n c := by
  have hd := hl.sub hk h.pos (by omega)
  have h1 := h.pos.add hk hd hB2
  have h2 := h.ext.sub hk hd hB
  rw [show a + (n - a) = n by omega] at h1
  rw [show c - a - (n - a) = c - n by omega] at h2
  exact ⟨⟨h1.fin, h1.val, hl.bnd⟩, h2⟩

/-- moving the second edge keeps the first -/
theorem Axis.setSecond {k P W Q : Nat} {x w l : F64} {a c n : Int} (hk : k < 2045) (h : Axis k P W x w a c)
    (hl : Grid k Q l n) (hB : W + (Q + (P + W)) ≤ 2 ^ 53) :
    Axis k P (W + (Q + (P + W))) x (w + (l - (x + w))) a n := by
  have he := h.edge hk (by omega)
  have hd := hl.sub hk he (by omega)
  have h2 := h.ext.add hk hd hB
  rw [show c - a + (n - c) = n - a by omega] at h2
  exact ⟨h.pos, h2⟩

/-- a rectangle with exact edges -/
structure Edges (k P W : Nat) (r : Rect) (l t a b : Int) : Prop where
  h : Axis k P W r.x r.w l a
  v : Axis k P W r.y r.h t b

theorem OnGrid.edges {k : Nat} {r : Rect} (h : OnGrid k r) :
    ∃ l t a b, Edges k (2 ^ 49) (2 ^ 49) r l t a b := by
  obtain ⟨hk, x, y, w, h, h1, h2, h3, h4⟩ := h
  refine ⟨x, y, x + w, y + h, ⟨h1, ?_⟩, ⟨h2, ?_⟩⟩
  · rw [show x + w - x = w by omega]; exact h3
  · rw [show y + h - y = h by omega]; exact h4

/-- membership along one axis -/
theorem axis_mem {k P W : Nat} {x w p : F64} {a c : Int} (hk : k < 2045) (h : Axis k P W x w a c)
    (hB : P + W ≤ 2 ^ 53) :
    (le x p = true ∧ le p (x + w) = true) ↔
      p ≠ .nan ∧ a * (2 : Int) ^ k ≤ units p ∧ units p ≤ c * (2 : Int) ^ k := by
  have he := h.edge hk hB
  by_cases hp : p = .nan
  · subst hp
    have : le x .nan = false := by cases x <;> rfl
    simp [this]
  · rw [le_iff h.pos.nn hp, le_iff hp he.nn, h.pos.val, he.val]
    simp [hp]

theorem contains_iff {k P W : Nat} {r : Rect} {l t a b : Int} (hk : k < 2045) (h : Edges k P W r l t a b)
    (hB : P + W ≤ 2 ^ 53) (px py : F64) :
    r.contains px py = true ↔
      (px ≠ .nan ∧ l * (2 : Int) ^ k ≤ units px ∧ units px ≤ a * (2 : Int) ^ k) ∧
      (py ≠ .nan ∧ t * (2 : Int) ^ k ≤ units py ∧ units py ≤ b * (2 : Int) ^ k) := by
  rw [← axis_mem hk h.h hB, ← axis_mem hk h.v hB]
  unfold Rect.contains
  simp only [Bool.and_eq_true, and_assoc]

/-! ### union -/

theorem unionL_ok {k P W : Nat} {r o : Rect} {l t a b l' t' a' b' : Int} (hk : k < 2045)
    (h : Edges k P W r l t a b) (ho : Edges k P W o l' t' a' b') (hB : W + (P + P) ≤ 2 ^ 53) (hB2 : P + (P + P) ≤ 2 ^ 53) :
    Edges k P (W + (P + P)) (r.unionL o) (min l l') t a b := by
  unfold Rect.unionL
  have := ho.h.pos.lt_iff h.h.pos
  split <;> rename_i hc
  · have hc' : l' < l := this.1 hc
    rw [show min l l' = l' by omega]
    exact ⟨h.h.setFirst hk ho.h.pos hB hB2, ⟨h.v.pos, h.v.ext.mono (by omega)⟩⟩
  · have hc' : ¬ l' < l := fun h' => hc (this.2 h')
    rw [show min l l' = l by omega]
    exact ⟨⟨h.h.pos, h.h.ext.mono (by omega)⟩, ⟨h.v.pos, h.v.ext.mono (by omega)⟩⟩

theorem unionT_ok {k P W V : Nat} {r o : Rect} {l t a b l' t' a' b' : Int} (hk : k < 2045)
    (hh : Axis k P W r.x r.w l a) (hv : Axis k P V r.y r.h t b) (ho : Edges k P V o l' t' a' b')
    (hB : V + (P + P) ≤ 2 ^ 53) (hB2 : P + (P + P) ≤ 2 ^ 53) :
    Axis k P W (r.unionT o).x (r.unionT o).w l a ∧
    Axis k P (V + (P + P)) (r.unionT o).y (r.unionT o).h (min t t') b := by
  unfold Rect.unionT
  have := ho.v.pos.lt_iff hv.pos
  split <;> rename_i hc
  · have hc' : t' < t := this.1 hc
    rw [show min t t' = t' by omega]
    exact ⟨hh, hv.setFirst hk ho.v.pos hB hB2⟩
  · have hc' : ¬ t' < t := fun h' => hc (this.2 h')
    rw [show min t t' = t by omega]
    exact ⟨hh, ⟨hv.pos, hv.ext.mono (by omega)⟩⟩

theorem unionR_ok {k P W V Z : Nat} {r o : Rect} {l t a b l' t' a' b' : Int} (hk : k < 2045)
    (hh : Axis k P W r.x r.w l a) (hv : Axis k P V r.y r.h t b) (ho : Edges k P Z o l' t' a' b')
    (hB : W + ((P + Z) + (P + W)) ≤ 2 ^ 53) (hZ : P + Z ≤ 2 ^ 53) :
    Axis k P (W + ((P + Z) + (P + W))) (r.unionR o).x (r.unionR o).w l (max a a') ∧
    Axis k P V (r.unionR o).y (r.unionR o).h t b := by
  unfold Rect.unionR
  have he := ho.h.edge hk hZ
  have := (hh.edge hk (by omega)).lt_iff he
  split <;> rename_i hc
  · have hc' : a < a' := this.1 hc
    rw [show max a a' = a' by omega]
    exact ⟨hh.setSecond hk he hB, hv⟩
  · have hc' : ¬ a < a' := fun h' => hc (this.2 h')
    rw [show max a a' = a by omega]
    exact ⟨⟨hh.pos, hh.ext.mono (by omega)⟩, hv⟩

theorem unionB_ok {k P W V Z : Nat} {r o : Rect} {l t a b l' t' a' b' : Int} (hk : k < 2045)
    (hh : Axis k P W r.x r.w l a) (hv : Axis k P V r.y r.h t b) (ho : Edges k P Z o l' t' a' b')
    (hB : V + ((P + Z) + (P + V)) ≤ 2 ^ 53) (hZ : P + Z ≤ 2 ^ 53) :
    Axis k P W (r.unionB o).x (r.unionB o).w l a ∧
    Axis k P (V + ((P + Z) + (P + V))) (r.unionB o).y (r.unionB o).h t (max b b') := by
  unfold Rect.unionB
  have he := ho.v.edge hk hZ
  have := (hv.edge hk (by omega)).lt_iff he
  split <;> rename_i hc
  · have hc' : b < b' := this.1 hc
    rw [show max b b' = b' by omega]
    exact ⟨hh, hv.setSecond hk he hB⟩
  · have hc' : ¬ b < b' := fun h' => hc (this.2 h')
    rw [show max b b' = b by omega]
    exact ⟨hh, ⟨hv.pos, hv.ext.mono (by omega)⟩⟩

theorem union_edges {k : Nat} {r o : Rect} {l t a b l' t' a' b' : Int} (hk : k < 2045)
    (h : Edges k (2 ^ 49) (2 ^ 49) r l t a b) (ho : Edges k (2 ^ 49) (2 ^ 49) o l' t' a' b') :
    Edges k (2 ^ 49) (9 * 2 ^ 49) (r.unionWith o) (min l l') (min t t') (max a a') (max b b') := by
  have h1 := unionL_ok hk h ho (by omega) (by omega)
  have h2 := unionT_ok (r := r.unionL o) (W := 3 * 2 ^ 49) (V := 2 ^ 49) hk ⟨h1.h.pos, h1.h.ext.mono (by omega)⟩
    (show Axis k (2 ^ 49) (2 ^ 49) (r.unionL o).y (r.unionL o).h t b by
      unfold Rect.unionL; split <;> exact h.v) ho (by omega) (by omega)
  have h3 := unionR_ok (r := (r.unionL o).unionT o) (W := 3 * 2 ^ 49) (V := 3 * 2 ^ 49) (Z := 2 ^ 49) hk h2.1
    ⟨h2.2.pos, h2.2.ext.mono (by omega)⟩ ho (by omega) (by omega)
  have h4 := unionB_ok (r := ((r.unionL o).unionT o).unionR o) (W := 9 * 2 ^ 49) (V := 3 * 2 ^ 49) (Z := 2 ^ 49) hk
    ⟨h3.1.pos, h3.1.ext.mono (by omega)⟩ h3.2 ho (by omega) (by omega)
  exact ⟨h4.1, ⟨h4.2.pos, h4.2.ext.mono (by omega)⟩⟩

/-- **C51 (union).** On a grid the union contains every point of both rectangles, and every
rectangle on the grid that contains the edges of both contains the union. -/
theorem union_contains_partial (k : Nat) (r o : Rect) (hr : OnGrid k r) (ho : OnGrid k o) :
    (∀ px py, r.contains px py = true ∨ o.contains px py = true → (r.unionWith o).contains px py = true) ∧
    (eq (r.unionWith o).left (fmin r.left o.left) = true ∧ eq (r.unionWith o).top (fmin r.top o.top) = true ∧
     eq (r.unionWith o).right (fmax r.right o.right) = true ∧
     eq (r.unionWith o).bottom (fmax r.bottom o.bottom) = true) := by
  have hk := hr.1
  obtain ⟨l, t, a, b, h1⟩ := hr.edges
  obtain ⟨l', t', a', b', h2⟩ := ho.edges
  have hu := union_edges hk h1 h2
  have hp : (0 : Int) ≤ 2 ^ k := by positivity
  constructor
  · intro px py hc
    rw [contains_iff hk hu (by omega)]
    rw [contains_iff hk h1 (by omega), contains_iff hk h2 (by omega)] at hc
    have m1 : (min l l') * (2 : Int) ^ k ≤ l * 2 ^ k := Int.mul_le_mul_of_nonneg_right (by omega) hp
    have m2 : (min l l') * (2 : Int) ^ k ≤ l' * 2 ^ k := Int.mul_le_mul_of_nonneg_right (by omega) hp
    have m3 : (min t t') * (2 : Int) ^ k ≤ t * 2 ^ k := Int.mul_le_mul_of_nonneg_right (by omega) hp
    have m4 : (min t t') * (2 : Int) ^ k ≤ t' * 2 ^ k := Int.mul_le_mul_of_nonneg_right (by omega) hp
    have m5 : a * (2 : Int) ^ k ≤ (max a a') * 2 ^ k := Int.mul_le_mul_of_nonneg_right (by omega) hp
    have m6 : a' * (2 : Int) ^ k ≤ (max a a') * 2 ^ k := Int.mul_le_mul_of_nonneg_right (by omega) hp
    have m7 : b * (2 : Int) ^ k ≤ (max b b') * 2 ^ k := Int.mul_le_mul_of_nonneg_right (by omega) hp
    have m8 : b' * (2 : Int) ^ k ≤ (max b b') * 2 ^ k := Int.mul_le_mul_of_nonneg_right (by omega) hp
    rcases hc with ⟨⟨n1, c1, c2⟩, n2, c3, c4⟩ | ⟨⟨n1, c1, c2⟩, n2, c3, c4⟩
    · exact ⟨⟨n1, by omega, by omega⟩, n2, by omega, by omega⟩
    · exact ⟨⟨n1, by omega, by omega⟩, n2, by omega, by omega⟩
  · have e1 := h1.h.edge hk (by omega)
    have e2 := h2.h.edge hk (by omega)
    have e3 := h1.v.edge hk (by omega)
    have e4 := h2.v.edge hk (by omega)
    have eu := hu.h.edge hk (by omega)
    have ev := hu.v.edge hk (by omega)
    have f1 := h1.h.pos.fmin h2.h.pos
    have f2 := h1.v.pos.fmin h2.v.pos
    have f3 := e1.fmax e2
    have f4 := e3.fmax e4
    refine ⟨?_, ?_, ?_, ?_⟩
    · show eq (r.unionWith o).x (fmin r.x o.x) = true
      rw [eq_iff hu.h.pos.nn f1.nn, hu.h.pos.val, f1.val]
    · show eq (r.unionWith o).y (fmin r.y o.y) = true
      rw [eq_iff hu.v.pos.nn f2.nn, hu.v.pos.val, f2.val]
    · show eq ((r.unionWith o).x + (r.unionWith o).w) (fmax (r.x + r.w) (o.x + o.w)) = true
      rw [eq_iff eu.nn f3.nn, eu.val, f3.val]
    · show eq ((r.unionWith o).y + (r.unionWith o).h) (fmax (r.y + r.h) (o.y + o.h)) = true
      rw [eq_iff ev.nn f4.nn, ev.val, f4.val]

/-! ### intersection -/

theorem setLeft_ok {k P W : Nat} {r : Rect} {l t a b n : Int} {x : F64} (hk : k < 2045)
    (h : Edges k P W r l t a b) (hx : Grid k P x n) (hB : W + (P + P) ≤ 2 ^ 53) (hB2 : P + (P + P) ≤ 2 ^ 53) :
    Axis k P (W + (P + P)) (r.setLeft x).x (r.setLeft x).w n a ∧ Axis k P W (r.setLeft x).y (r.setLeft x).h t b :=
  ⟨h.h.setFirst hk hx hB hB2, h.v⟩

theorem intersect_edges {k : Nat} {r o : Rect} {l t a b l' t' a' b' : Int} (hk : k < 2045)
    (h : Edges k (2 ^ 49) (2 ^ 49) r l t a b) (ho : Edges k (2 ^ 49) (2 ^ 49) o l' t' a' b') :
    Edges k (2 ^ 49) (5 * 2 ^ 49) (r.intersect o) (max l l') (max t t') (min a a') (min b b') := by
  have g1 := h.h.pos.fmax ho.h.pos
  have g2 := h.v.pos.fmax ho.v.pos
  obtain ⟨s1, s2⟩ := setLeft_ok hk h g1 (by omega) (by omega)
  obtain ⟨r1, hr1⟩ : ∃ r1, r1 = r.setLeft (fmax r.left o.left) := ⟨_, rfl⟩
  have s1' : Axis k (2 ^ 49) (3 * 2 ^ 49) r1.x r1.w (max l l') a := by
    rw [hr1]; exact ⟨s1.pos, s1.ext.mono (by omega)⟩
  have s2' : Axis k (2 ^ 49) (2 ^ 49) r1.y r1.h t b := by rw [hr1]; exact s2
  have hg2 : Grid k (2 ^ 49) (fmax r1.top o.top) (max t t') := s2'.pos.fmax ho.v.pos
  have t2 := s2'.setFirst hk hg2 (by omega) (by omega)
  obtain ⟨r2, hr2⟩ : ∃ r2, r2 = r1.setTop (fmax r1.top o.top) := ⟨_, rfl⟩
  have u1 : Axis k (2 ^ 49) (3 * 2 ^ 49) r2.x r2.w (max l l') a := by rw [hr2]; exact s1'
  have u2 : Axis k (2 ^ 49) (3 * 2 ^ 49) r2.y r2.h (max t t') b := by
    rw [hr2]; exact ⟨t2.pos, t2.ext.mono (by omega)⟩
  have e1 := (u1.edge hk (by omega)).fmin ((ho.h.edge hk (by omega)).mono (show _ ≤ 2 ^ 49 + 3 * 2 ^ 49 by omega))
  have e2 := (u2.edge hk (by omega)).fmin ((ho.v.edge hk (by omega)).mono (show _ ≤ 2 ^ 49 + 3 * 2 ^ 49 by omega))
  have w1 := e1.sub hk u1.pos (by omega)
  have w2 := e2.sub hk u2.pos (by omega)
  have hfin : r.intersect o = r2.cutSize o := by rw [hr2, hr1]; rfl
  rw [hfin]
  exact ⟨⟨u1.pos, w1.mono (by omega)⟩, ⟨u2.pos, w2.mono (by omega)⟩⟩

theorem grid_between {k : Nat} {p : Int} {l l' a a' : Int} :
    ((max l l') * (2 : Int) ^ k ≤ p ∧ p ≤ (min a a') * 2 ^ k) ↔
    ((l * (2 : Int) ^ k ≤ p ∧ p ≤ a * 2 ^ k) ∧ l' * (2 : Int) ^ k ≤ p ∧ p ≤ a' * 2 ^ k) := by
  have hp : (0 : Int) ≤ 2 ^ k := by positivity
  have e1 : (max l l') * (2 : Int) ^ k = max (l * 2 ^ k) (l' * 2 ^ k) := by
    rcases Int.le_total l l' with h | h
    · have := Int.mul_le_mul_of_nonneg_right h hp
      rw [show max l l' = l' by omega]; omega
    · have := Int.mul_le_mul_of_nonneg_right h hp
      rw [show max l l' = l by omega]; omega
  have e2 : (min a a') * (2 : Int) ^ k = min (a * 2 ^ k) (a' * 2 ^ k) := by
    rcases Int.le_total a a' with h | h
    · have := Int.mul_le_mul_of_nonneg_right h hp
      rw [show min a a' = a by omega]; omega
    · have := Int.mul_le_mul_of_nonneg_right h hp
      rw [show min a a' = a' by omega]; omega
  rw [e1, e2]; omega

/-- **C51 (intersect).** On a grid, after `r.intersect(o)` the rectangle contains exactly the
common points (none, with a negative size, if the rectangles are disjoint). -/
theorem intersect_exact_partial (k : Nat) (r o : Rect) (hr : OnGrid k r) (ho : OnGrid k o) (px py : F64) :
    (r.intersect o).contains px py = true ↔ r.contains px py = true ∧ o.contains px py = true := by
  have hk := hr.1
  obtain ⟨l, t, a, b, h1⟩ := hr.edges
  obtain ⟨l', t', a', b', h2⟩ := ho.edges
  rw [contains_iff hk (intersect_edges hk h1 h2) (by omega), contains_iff hk h1 (by omega),
    contains_iff hk h2 (by omega), grid_between, grid_between]
  tauto

theorem intersection_edges {k : Nat} {r o : Rect} {l t a b l' t' a' b' : Int} (hk : k < 2045)
    (h : Edges k (2 ^ 49) (2 ^ 49) r l t a b) (ho : Edges k (2 ^ 49) (2 ^ 49) o l' t' a' b')
    (hi : r.intersects o = true) :
    Edges k (2 ^ 49) (3 * 2 ^ 49) (r.intersection o) (max l l') (max t t') (min a a') (min b b') := by
  unfold Rect.intersection
  rw [if_pos hi]
  have g1 := h.h.pos.fmax ho.h.pos
  have g2 := h.v.pos.fmax ho.v.pos
  have e1 := (h.h.edge hk (by omega)).fmin (ho.h.edge hk (by omega))
  have e2 := (h.v.edge hk (by omega)).fmin (ho.v.edge hk (by omega))
  have w1 := e1.sub hk g1 (by omega)
  have w2 := e2.sub hk g2 (by omega)
  exact ⟨⟨g1, w1.mono (by omega)⟩, ⟨g2, w2.mono (by omega)⟩⟩

/-- **C51 (intersection).** On a grid, `r.intersection(o)` of rectangles that intersect contains
exactly the common points. Missing: disjoint rectangles (`intersection_disjoint`). -/
theorem intersection_exact_partial (k : Nat) (r o : Rect) (hr : OnGrid k r) (ho : OnGrid k o)
    (hi : r.intersects o = true) (px py : F64) :
    (r.intersection o).contains px py = true ↔ r.contains px py = true ∧ o.contains px py = true := by
  have hk := hr.1
  obtain ⟨l, t, a, b, h1⟩ := hr.edges
  obtain ⟨l', t', a', b', h2⟩ := ho.edges
  rw [contains_iff hk (intersection_edges hk h1 h2 hi) (by omega), contains_iff hk h1 (by omega),
    contains_iff hk h2 (by omega), grid_between, grid_between]
  tauto

/-- The intersection of disjoint rectangles is the rectangle at the origin of size 0, which
contains the point (0,0). For all doubles. -/
theorem intersection_disjoint (r o : Rect) (h : r.intersects o = false) :
    r.intersection o = Rect.empty ∧ (r.intersection o).contains zero zero = true := by
  have : r.intersection o = Rect.empty := by unfold Rect.intersection; rw [h]; rfl
  exact ⟨this, by rw [this]; decide +kernel⟩

/-! ### `intersects`, for all doubles -/

/-- `intersects` is symmetric -/
theorem intersects_symm (r o : Rect) : r.intersects o = o.intersects r := by
  unfold Rect.intersects
  cases le r.x (o.x + o.w) <;> cases le o.x (r.x + r.w) <;> cases le r.y (o.y + o.h) <;>
    cases le o.y (r.y + r.h) <;> rfl

theorem axis_common {x w x' w' : F64} (hx : Finite x) (hw : Finite w) (hx' : Finite x') (hw' : Finite w')
    (h0 : 0 ≤ units w) (h0' : 0 ≤ units w') :
    (le x (x' + w') = true ∧ le x' (x + w) = true) ↔
      ∃ p, (le x p = true ∧ le p (x + w) = true) ∧ (le x' p = true ∧ le p (x' + w') = true) := by
  have n1 := add_ne_nan hx hw
  have n2 := add_ne_nan hx' hw'
  have m1 := le_add_of hx hw hx.rep (by omega)
  have m2 := le_add_of hx' hw' hx'.rep (by omega)
  constructor
  · rintro ⟨h1, h2⟩
    refine ⟨fmax x x', ?_⟩
    have hn := fmax_ne_nan hx.ne_nan hx'.ne_nan
    have hu := units_fmax hx.ne_nan hx'.ne_nan
    rw [le_iff hx.ne_nan n2] at h1
    rw [le_iff hx'.ne_nan n1] at h2
    rw [le_iff hx.ne_nan hn, le_iff hn n1, le_iff hx'.ne_nan hn, le_iff hn n2, hu]
    omega
  · rintro ⟨p, ⟨h1, h2⟩, h3, h4⟩
    have hp : p ≠ .nan := by
      intro e; subst e
      have : le x .nan = false := by cases x <;> rfl
      rw [this] at h1; exact absurd h1 (by simp)
    rw [le_iff hx.ne_nan hp] at h1
    rw [le_iff hp n1] at h2
    rw [le_iff hx'.ne_nan hp] at h3
    rw [le_iff hp n2] at h4
    rw [le_iff hx.ne_nan n2, le_iff hx'.ne_nan n1]
    omega

/-- finite coordinates and a size that is not negative -/
def Proper (r : Rect) : Prop :=
  Finite r.x ∧ Finite r.y ∧ Finite r.w ∧ Finite r.h ∧ le zero r.w = true ∧ le zero r.h = true

instance (r : Rect) : Decidable (Proper r) := by unfold Proper; infer_instance

/-- **C51 (intersects).** Two proper rectangles intersect exactly if some point is contained in
both. For all finite doubles, with rounding. -/
theorem intersects_iff (r o : Rect) (hr : Proper r) (ho : Proper o) :
    r.intersects o = true ↔ ∃ px py, r.contains px py = true ∧ o.contains px py = true := by
  obtain ⟨r1, r2, r3, r4, r5, r6⟩ := hr
  obtain ⟨o1, o2, o3, o4, o5, o6⟩ := ho
  have hz : units zero = 0 := by decide +kernel
  have hzn : zero ≠ .nan := by decide
  rw [le_iff hzn r3.ne_nan, hz] at r5
  rw [le_iff hzn r4.ne_nan, hz] at r6
  rw [le_iff hzn o3.ne_nan, hz] at o5
  rw [le_iff hzn o4.ne_nan, hz] at o6
  have hx := axis_common r1 r3 o1 o3 r5 o5
  have hy := axis_common r2 r4 o2 o4 r6 o6
  unfold Rect.intersects Rect.contains
  simp only [Bool.and_eq_true]
  constructor
  · rintro ⟨⟨⟨c1, c2⟩, c3⟩, c4⟩
    obtain ⟨px, ⟨p1, p2⟩, p3, p4⟩ := hx.1 ⟨c1, c2⟩
    obtain ⟨py, ⟨q1, q2⟩, q3, q4⟩ := hy.1 ⟨c3, c4⟩
    exact ⟨px, py, ⟨⟨⟨p1, p2⟩, q1⟩, q2⟩, ⟨⟨p3, p4⟩, q3⟩, q4⟩
  · rintro ⟨px, py, ⟨⟨⟨p1, p2⟩, q1⟩, q2⟩, ⟨⟨p3, p4⟩, q3⟩, q4⟩
    obtain ⟨c1, c2⟩ := hx.2 ⟨px, ⟨p1, p2⟩, p3, p4⟩
    obtain ⟨c3, c4⟩ := hy.2 ⟨py, ⟨q1, q2⟩, q3, q4⟩
    exact ⟨⟨⟨c1, c2⟩, c3⟩, c4⟩

/-! ### normalize -/

theorem zero_grid (k B : Nat) : Grid k B zero 0 := ⟨by decide, by rw [Int.zero_mul]; decide +kernel, by simp⟩

theorem normX_ok {k P W : Nat} {r : Rect} {l t a b : Int} (hk : k < 2045) (h : Edges k P W r l t a b)
    (hB : P + W ≤ 2 ^ 53) : Edges k (P + W) W r.normalizeX (min l a) t (max l a) b := by
  unfold Rect.normalizeX
  have := h.h.ext.lt_iff (zero_grid k 0)
  split <;> rename_i hc
  · have hc' := this.1 hc
    have he := h.h.edge hk hB
    refine ⟨⟨?_, ?_⟩, ⟨h.v.pos.mono (by omega), h.v.ext⟩⟩
    · rw [show min l a = a by omega]; exact he
    · rw [show max l a - min l a = -(a - l) by omega]; exact h.h.ext.neg
  · have hc' : ¬ (a - l < 0) := fun h' => hc (this.2 h')
    refine ⟨⟨?_, ?_⟩, ⟨h.v.pos.mono (by omega), h.v.ext⟩⟩
    · rw [show min l a = l by omega]; exact h.h.pos.mono (by omega)
    · rw [show max l a - min l a = a - l by omega]; exact h.h.ext

theorem normY_ok {k P W : Nat} {r : Rect} {l t a b : Int} (hk : k < 2045) (h : Edges k P W r l t a b)
    (hB : P + W ≤ 2 ^ 53) : Edges k (P + W) W r.normalizeY l (min t b) a (max t b) := by
  unfold Rect.normalizeY
  have := h.v.ext.lt_iff (zero_grid k 0)
  split <;> rename_i hc
  · have hc' := this.1 hc
    have he := h.v.edge hk hB
    refine ⟨⟨h.h.pos.mono (by omega), h.h.ext⟩, ⟨?_, ?_⟩⟩
    · rw [show min t b = b by omega]; exact he
    · rw [show max t b - min t b = -(b - t) by omega]; exact h.v.ext.neg
  · have hc' : ¬ (b - t < 0) := fun h' => hc (this.2 h')
    refine ⟨⟨h.h.pos.mono (by omega), h.h.ext⟩, ⟨?_, ?_⟩⟩
    · rw [show min t b = t by omega]; exact h.v.pos.mono (by omega)
    · rw [show max t b - min t b = b - t by omega]; exact h.v.ext

/-- **C51 (normalize).** On a grid, `normalize` makes the size nonnegative and keeps the outline:
the new edges are the old ones in order. -/
theorem normalize_partial (k : Nat) (r : Rect) (hr : OnGrid k r) :
    le zero r.normalize.w = true ∧ le zero r.normalize.h = true ∧
    eq r.normalize.left (fmin r.left r.right) = true ∧ eq r.normalize.right (fmax r.left r.right) = true ∧
    eq r.normalize.top (fmin r.top r.bottom) = true ∧ eq r.normalize.bottom (fmax r.top r.bottom) = true := by
  have hk := hr.1
  obtain ⟨l, t, a, b, h⟩ := hr.edges
  have h1 := normX_ok hk h (by omega)
  have h2 := normY_ok hk h1 (by omega)
  have hz : units zero = 0 := by decide +kernel
  have hzn : zero ≠ .nan := by decide
  have hp : (0 : Int) ≤ 2 ^ k := by positivity
  have e1 := h2.h.edge hk (by omega)
  have e2 := h2.v.edge hk (by omega)
  have o1 := h.h.edge hk (by omega)
  have o2 := h.v.edge hk (by omega)
  have f1 := (h.h.pos.mono (show _ ≤ 2 ^ 49 + 2 ^ 49 by omega)).fmin o1
  have f2 := (h.h.pos.mono (show _ ≤ 2 ^ 49 + 2 ^ 49 by omega)).fmax o1
  have f3 := (h.v.pos.mono (show _ ≤ 2 ^ 49 + 2 ^ 49 by omega)).fmin o2
  have f4 := (h.v.pos.mono (show _ ≤ 2 ^ 49 + 2 ^ 49 by omega)).fmax o2
  have hw : le zero r.normalize.w = true := by
    show le zero r.normalizeX.normalizeY.w = true
    rw [le_iff hzn h2.h.ext.nn, hz, h2.h.ext.val]
    exact Int.mul_nonneg (by omega) hp
  have hh : le zero r.normalize.h = true := by
    show le zero r.normalizeX.normalizeY.h = true
    rw [le_iff hzn h2.v.ext.nn, hz, h2.v.ext.val]
    exact Int.mul_nonneg (by omega) hp
  refine ⟨hw, hh, ?_, ?_, ?_, ?_⟩
  · show eq r.normalizeX.normalizeY.x (fmin r.x (r.x + r.w)) = true
    rw [eq_iff h2.h.pos.nn f1.nn, h2.h.pos.val, f1.val]
  · show eq (r.normalizeX.normalizeY.x + r.normalizeX.normalizeY.w) (fmax r.x (r.x + r.w)) = true
    rw [eq_iff e1.nn f2.nn, e1.val, f2.val]
  · show eq r.normalizeX.normalizeY.y (fmin r.y (r.y + r.h)) = true
    rw [eq_iff h2.v.pos.nn f3.nn, h2.v.pos.val, f3.val]
  · show eq (r.normalizeX.normalizeY.y + r.normalizeX.normalizeY.h) (fmax r.y (r.y + r.h)) = true
    rw [eq_iff e2.nn f4.nn, e2.val, f4.val]

/-! ### moving edges -/

/-- **C51 (edges).** On a grid, `setLeft` puts the left edge where it is told and leaves the other
edges where they are; likewise the other three. -/
theorem set_edges_partial (k : Nat) (r : Rect) (hr : OnGrid k r) (p : F64) (m : Int)
    (hp : Grid k (2 ^ 49) p m) :
    (eq (r.setLeft p).left p = true ∧ eq (r.setLeft p).right r.right = true ∧
      (r.setLeft p).y = r.y ∧ (r.setLeft p).h = r.h) ∧
    (eq (r.setTop p).top p = true ∧ eq (r.setTop p).bottom r.bottom = true ∧
      (r.setTop p).x = r.x ∧ (r.setTop p).w = r.w) ∧
    (eq (r.setRight p).right p = true ∧ (r.setRight p).x = r.x ∧
      (r.setRight p).y = r.y ∧ (r.setRight p).h = r.h) ∧
    (eq (r.setBottom p).bottom p = true ∧ (r.setBottom p).y = r.y ∧
      (r.setBottom p).x = r.x ∧ (r.setBottom p).w = r.w) := by
  have hk := hr.1
  obtain ⟨l, t, a, b, h⟩ := hr.edges
  have o1 := h.h.edge hk (by omega)
  have o2 := h.v.edge hk (by omega)
  have s1 := h.h.setFirst hk hp (by omega) (by omega)
  have s2 := h.v.setFirst hk hp (by omega) (by omega)
  have s3 := h.h.setSecond hk hp (by omega)
  have s4 := h.v.setSecond hk hp (by omega)
  have e1 := s1.edge hk (by omega)
  have e2 := s2.edge hk (by omega)
  have e3 := s3.edge hk (by omega)
  have e4 := s4.edge hk (by omega)
  refine ⟨⟨?_, ?_, rfl, rfl⟩, ⟨?_, ?_, rfl, rfl⟩, ⟨?_, rfl, rfl, rfl⟩, ⟨?_, rfl, rfl, rfl⟩⟩
  · show eq (r.x + (p - r.x)) p = true
    rw [eq_iff s1.pos.nn hp.nn, s1.pos.val, hp.val]
  · show eq ((r.x + (p - r.x)) + (r.w - (p - r.x))) (r.x + r.w) = true
    rw [eq_iff e1.nn o1.nn, e1.val, o1.val]
  · show eq (r.y + (p - r.y)) p = true
    rw [eq_iff s2.pos.nn hp.nn, s2.pos.val, hp.val]
  · show eq ((r.y + (p - r.y)) + (r.h - (p - r.y))) (r.y + r.h) = true
    rw [eq_iff e2.nn o2.nn, e2.val, o2.val]
  · show eq (r.x + (r.w + (p - (r.x + r.w)))) p = true
    rw [eq_iff e3.nn hp.nn, e3.val, hp.val]
  · show eq (r.y + (r.h + (p - (r.y + r.h)))) p = true
    rw [eq_iff e4.nn hp.nn, e4.val, hp.val]

/-! ### the hypotheses are met -/

theorem grid_int (m : Int) (h : m.natAbs ≤ 2 ^ 49) : Grid 1074 (2 ^ 49) (ofInt m) m := by
  have hr := rep_int m (by omega)
  have hu := units_ofUnits_exact1 false _ hr
  have he : ofInt m = ofUnits false (m * one) 1 := rfl
  have e2 : (one : Int) = 2 ^ 1074 := by unfold one; push_cast; rfl
  rw [he]
  exact ⟨finite_ofUnits (by rw [hu]; exact hr), by rw [hu, e2], h⟩

/-- every rectangle with integer coordinates up to 2^49 is on a grid -/
theorem onGrid_int (x y w h : Int) (hx : x.natAbs ≤ 2 ^ 49) (hy : y.natAbs ≤ 2 ^ 49)
    (hw : w.natAbs ≤ 2 ^ 49) (hh : h.natAbs ≤ 2 ^ 49) :
    OnGrid 1074 ⟨ofInt x, ofInt y, ofInt w, ofInt h⟩ :=
  ⟨by omega, x, y, w, h, grid_int x hx, grid_int y hy, grid_int w hw, grid_int h hh⟩

example : (Rect.unionWith ⟨ofInt 0, ofInt 0, ofInt 10, ofInt 5⟩ ⟨ofInt 20, ofInt (-3), ofInt 7, ofInt 4⟩) =
    ⟨ofInt 0, ofInt (-3), ofInt 27, ofInt 8⟩ := by decide +kernel
example : Proper ⟨ofInt 0, ofInt 0, lit 1 10, ofInt 5⟩ := by decide +kernel
example : Rect.intersects ⟨ofInt 0, ofInt 0, ofInt 10, ofInt 5⟩ ⟨ofInt 20, ofInt (-3), ofInt 7, ofInt 4⟩ = false := by
  decide +kernel

/-! ### rounding breaks the claims for other coordinates -/

/-- [2.4, 2.6] united with [0.8, 1.1] ends at 2.5999999999999996 and misses the point 2.6 -/
theorem union_loses_point : let r : Rect := ⟨lit 24 10, zero, lit 2 10, zero⟩
    let o : Rect := ⟨lit 8 10, zero, lit 3 10, zero⟩
    r.contains (lit 26 10) zero = true ∧ (r.unionWith o).contains (lit 26 10) zero = false := by
  decide +kernel

/-- the intersection of [0.2, 1.5] and [0.3, 2.9] ends at 1.5000000000000002, outside the first -/
theorem intersect_exceeds : let r : Rect := ⟨lit 2 10, zero, lit 13 10, zero⟩
    let o : Rect := ⟨lit 3 10, zero, lit 26 10, zero⟩
    (r.intersect o).contains (r.intersect o).right zero = true ∧
    r.contains (r.intersect o).right zero = false := by decide +kernel

/-- `intersection` rounds outwards, too -/
theorem intersection_exceeds : let r : Rect := ⟨lit 9 10, zero, lit 3 1, zero⟩
    let o : Rect := ⟨lit 17 10, zero, lit 24 10, zero⟩
    (r.intersection o).contains (r.intersection o).right zero = true ∧
    r.contains (r.intersection o).right zero = false := by decide +kernel

/-- `setLeft(0.1)` on a rectangle at 1.3 puts the left edge at 0.10000000000000009 -/
theorem setLeft_inexact : eq ((Rect.mk (lit 13 10) zero (lit 3 1) zero).setLeft (lit 1 10)).left (lit 1 10) = false := by
  decide +kernel

end Verif.Geo
