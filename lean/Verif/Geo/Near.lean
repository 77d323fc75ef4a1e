import Verif.Geo.RectProps
import Verif.Fp.Rel
/-
C51, for all rectangles of finite size: how far rounding can move the edges.
-/
namespace Verif.Geo.Near
open Verif Verif.Fp Verif.Geo

/-! ### specification -/

/-- a finite double of at most `2^n` -/
def Bd (n : ℤ) (x : F64) : Prop := Fp.Finite x ∧ |val x| ≤ 2 ^ n

/-- all four numbers of the rectangle -/
def Bounded (n : ℤ) (r : Rect) : Prop := Bd n r.x ∧ Bd n r.y ∧ Bd n r.w ∧ Bd n r.h

/-- one part in `2^49` of the bound -/
def δ (n : ℤ) : ℚ := 2 ^ (n - 49)

/-- the exact outline: where the edges are if nothing is rounded -/
def L (r : Rect) : ℚ := val r.x
def R (r : Rect) : ℚ := val r.x + val r.w
def T (r : Rect) : ℚ := val r.y
def B (r : Rect) : ℚ := val r.y + val r.h

/-- the edges the object reports are finite and at most `k` parts away from these four positions -/
def Outline (k : ℚ) (n : ℤ) (r : Rect) (l t a b : ℚ) : Prop :=
  (Fp.Finite r.left ∧ Fp.Finite r.top ∧ Fp.Finite r.right ∧ Fp.Finite r.bottom) ∧
    |val r.left - l| ≤ k * δ n ∧ |val r.top - t| ≤ k * δ n ∧ |val r.right - a| ≤ k * δ n ∧ |val r.bottom - b| ≤ k * δ n

/-! ### one operation -/

theorem δ_pos (n : ℤ) : 0 < δ n := zpow_pos (by norm_num) _

theorem δ_le (n : ℤ) : 1000 * δ n ≤ 2 ^ n := by
  unfold δ
  rw [zpow_sub₀ (by norm_num)]
  have h : (0 : ℚ) < 2 ^ n := zpow_pos (by norm_num) _
  have : (2 : ℚ) ^ (49 : ℤ) = 562949953421312 := by norm_num
  rw [this]
  rw [mul_div_assoc', div_le_iff₀ (by norm_num)]
  linarith

theorem step {z : F64} {e : ℚ} {n : ℤ} (h1 : -1020 ≤ n) (h2 : n ≤ 1000) (h : Rounds z e) (hb : |e| ≤ 32 * 2 ^ n) :
    Fp.Finite z ∧ |val z - e| ≤ δ n := by
  have hn : (0 : ℚ) < 2 ^ n := zpow_pos (by norm_num) _
  have := h.zerr (n - 48) (by omega) (by omega) (by
    refine hb.trans (le_of_eq ?_)
    rw [show (2 : ℚ) ^ 53 = 2 ^ (53 : ℤ) by norm_num, ← zpow_add₀ (by norm_num), show (53 : ℤ) + (n - 48) = 5 + n by ring, zpow_add₀ (by norm_num)]
    norm_num)
  refine ⟨this.1, this.2.trans (le_of_eq ?_)⟩
  unfold δ
  rw [show n - 48 = (n - 49) + 1 by ring, zpow_add_one₀ (by norm_num)]
  ring

theorem plus {x y : F64} {n : ℤ} (h1 : -1020 ≤ n) (h2 : n ≤ 1000) (hx : Fp.Finite x) (hy : Fp.Finite y) (hb : |val x + val y| ≤ 32 * 2 ^ n) :
    Fp.Finite (x + y) ∧ |val (x + y) - (val x + val y)| ≤ δ n := step h1 h2 (add_rounds hx hy) hb

theorem minus {x y : F64} {n : ℤ} (h1 : -1020 ≤ n) (h2 : n ≤ 1000) (hx : Fp.Finite x) (hy : Fp.Finite y) (hb : |val x - val y| ≤ 32 * 2 ^ n) :
    Fp.Finite (x - y) ∧ |val (x - y) - (val x - val y)| ≤ δ n := step h1 h2 (sub_rounds hx hy) hb

/-! ### one axis -/

/-- origin `x` and size `w`; exact second edge `a` up to `k` parts -/
structure Ax (n : ℤ) (x w : F64) (l a k : ℚ) : Prop where
  fx : Fp.Finite x
  fw : Fp.Finite w
  bx : |val x| ≤ 4 * 2 ^ n
  bw : |val w| ≤ 8 * 2 ^ n
  el : |val x - l| ≤ k * δ n
  ea : |val x + val w - a| ≤ k * δ n

variable {n : ℤ}

theorem Ax.mono {x w : F64} {l a k k' : ℚ} (h : Ax n x w l a k) (hk : k ≤ k') : Ax n x w l a k' := by
  have := mul_le_mul_of_nonneg_right hk (δ_pos n).le
  exact ⟨h.fx, h.fw, h.bx, h.bw, h.el.trans this, h.ea.trans this⟩

theorem Ax.start {x w : F64} (hx : Bd n x) (hw : Bd n w) : Ax n x w (val x) (val x + val w) 0 := by
  have hn : (0 : ℚ) < 2 ^ n := zpow_pos (by norm_num) _
  refine ⟨hx.1, hw.1, ?_, ?_, by simp, by simp⟩
  · linarith [hx.2]
  · linarith [hw.2]

/-- the reported second edge -/
theorem Ax.edge {x w : F64} {l a k : ℚ} (h1 : -1020 ≤ n) (h2 : n ≤ 1000) (h : Ax n x w l a k) :
    Fp.Finite (x + w) ∧ |val (x + w) - a| ≤ (k + 1) * δ n ∧ |val (x + w) - (val x + val w)| ≤ δ n := by
  have hn : (0 : ℚ) < 2 ^ n := zpow_pos (by norm_num) _
  have hb : |val x + val w| ≤ 32 * 2 ^ n := by
    have := abs_add_le (val x) (val w); linarith [h.bx, h.bw]
  obtain ⟨f, e⟩ := plus h1 h2 h.fx h.fw hb
  refine ⟨f, ?_, e⟩
  have := h.ea
  have t := abs_add_le (val (x + w) - (val x + val w)) (val x + val w - a)
  have e2 : val (x + w) - (val x + val w) + (val x + val w - a) = val (x + w) - a := by ring
  rw [e2] at t
  linarith

/-- moving the first edge to `p`, the size changes in the opposite direction -/
theorem setFirst {x w p : F64} (h1 : -1020 ≤ n) (h2 : n ≤ 1000) (hx : Bd n x) (hw : Bd n w) (hp : Bd n p) :
    Ax n (x + (p - x)) (w - (p - x)) (val p) (val x + val w) 2 := by
  have hn : (0 : ℚ) < 2 ^ n := zpow_pos (by norm_num) _
  have hd := δ_le n
  have hd0 := δ_pos n
  obtain ⟨x1, x2⟩ := abs_le.1 hx.2
  obtain ⟨w1, w2⟩ := abs_le.1 hw.2
  obtain ⟨p1, p2⟩ := abs_le.1 hp.2
  obtain ⟨f, e⟩ := minus h1 h2 hp.1 hx.1 (abs_le.2 ⟨by linarith, by linarith⟩)
  obtain ⟨e1, e2⟩ := abs_le.1 e
  obtain ⟨g, j⟩ := plus h1 h2 hx.1 f (abs_le.2 ⟨by linarith, by linarith⟩)
  obtain ⟨j1, j2⟩ := abs_le.1 j
  obtain ⟨q, i⟩ := minus h1 h2 hw.1 f (abs_le.2 ⟨by linarith, by linarith⟩)
  obtain ⟨i1, i2⟩ := abs_le.1 i
  exact ⟨g, q, abs_le.2 ⟨by linarith, by linarith⟩, abs_le.2 ⟨by linarith, by linarith⟩, abs_le.2 ⟨by linarith, by linarith⟩,
    abs_le.2 ⟨by linarith, by linarith⟩⟩

/-- moving the second edge to `p` (up to `m` parts) -/
theorem setSecond {x w p : F64} {l a k m q : ℚ} (h1 : -1020 ≤ n) (h2 : n ≤ 1000) (h : Ax n x w l a k) (hk : k ≤ 10) (hm : m ≤ 10) (ha : |a| ≤ 2 * 2 ^ n)
    (hl : |l| ≤ 2 ^ n) (hp : Fp.Finite p) (hq : |q| ≤ 2 * 2 ^ n) (hpq : |val p - q| ≤ m * δ n) (hk0 : k ≤ m + 3) :
    Ax n x (w + (p - (x + w))) l q (m + 3) := by
  have hn : (0 : ℚ) < 2 ^ n := zpow_pos (by norm_num) _
  have hd := δ_le n
  have hd0 := δ_pos n
  have hkd : k * δ n ≤ 10 * δ n := mul_le_mul_of_nonneg_right hk hd0.le
  have hmd : m * δ n ≤ 10 * δ n := mul_le_mul_of_nonneg_right hm hd0.le
  have hkm : k * δ n ≤ (m + 3) * δ n := mul_le_mul_of_nonneg_right hk0 hd0.le
  obtain ⟨f, e, e'⟩ := h.edge h1 h2
  obtain ⟨e1, e2⟩ := abs_le.1 e
  obtain ⟨e3, e4⟩ := abs_le.1 e'
  obtain ⟨a1, a2⟩ := abs_le.1 ha
  obtain ⟨q1, q2⟩ := abs_le.1 hq
  obtain ⟨p1, p2⟩ := abs_le.1 hpq
  obtain ⟨l1, l2⟩ := abs_le.1 hl
  obtain ⟨x1, x2⟩ := abs_le.1 h.el
  obtain ⟨c1, c2⟩ := abs_le.1 h.ea
  obtain ⟨g, j⟩ := minus h1 h2 hp f (abs_le.2 ⟨by linarith, by linarith⟩)
  obtain ⟨j1, j2⟩ := abs_le.1 j
  obtain ⟨g', i⟩ := plus h1 h2 h.fw g (abs_le.2 ⟨by linarith, by linarith⟩)
  obtain ⟨i1, i2⟩ := abs_le.1 i
  refine ⟨h.fx, g', h.bx, abs_le.2 ⟨by linarith, by linarith⟩, h.el.trans hkm, abs_le.2 ⟨by linarith, by linarith⟩⟩

/-! ### setting edges -/

theorem outline {r : Rect} {l a t b k : ℚ} (h1 : -1020 ≤ n) (h2 : n ≤ 1000) (hx : Ax n r.x r.w l a k) (hy : Ax n r.y r.h t b k) :
    Outline (k + 1) n r l t a b := by
  have hd0 := δ_pos n
  obtain ⟨f, e, _⟩ := hx.edge h1 h2
  obtain ⟨g, j, _⟩ := hy.edge h1 h2
  have i1 := hx.el
  have i2 := hy.el
  exact ⟨⟨hx.fx, hy.fx, f, g⟩, by show |val r.x - l| ≤ _; linarith, by show |val r.y - t| ≤ _; linarith, e, j⟩

/-- **C51 for all finite rectangles (edges).** Setting an edge moves it to the place up to `5` parts in `2^49`, and the other three by at most that. -/
theorem set_edges_near {r : Rect} {p : F64} (h1 : -1020 ≤ n) (h2 : n ≤ 1000) (hr : Bounded n r) (hp : Bd n p) :
    Outline 5 n (r.setLeft p) (val p) (T r) (R r) (B r) ∧ Outline 5 n (r.setTop p) (L r) (val p) (R r) (B r) ∧
    Outline 5 n (r.setRight p) (L r) (T r) (val p) (B r) ∧ Outline 5 n (r.setBottom p) (L r) (T r) (R r) (val p) := by
  obtain ⟨hx, hy, hw, hh⟩ := hr
  have hn : (0 : ℚ) < 2 ^ n := zpow_pos (by norm_num) _
  have ax := Ax.start hx hw
  have ay := Ax.start hy hh
  have bx : |val r.x + val r.w| ≤ 2 * 2 ^ n := by have := abs_add_le (val r.x) (val r.w); linarith [hx.2, hw.2]
  have by' : |val r.y + val r.h| ≤ 2 * 2 ^ n := by have := abs_add_le (val r.y) (val r.h); linarith [hy.2, hh.2]
  have hp2 : |val p| ≤ 2 * 2 ^ n := by linarith [hp.2]
  have key : ∀ {s : Rect} {l a t b : ℚ}, Ax n s.x s.w l a 4 → Ax n s.y s.h t b 4 → Outline 5 n s l t a b := by
    intro s l a t b u v
    have := outline h1 h2 u v
    norm_num at this
    exact this
  refine ⟨key ((setFirst h1 h2 hx hw hp).mono (by norm_num)) (ay.mono (by norm_num)), key (ax.mono (by norm_num)) ((setFirst h1 h2 hy hh hp).mono (by norm_num)),
    key ?_ (ay.mono (by norm_num)), key (ax.mono (by norm_num)) ?_⟩
  · exact (setSecond h1 h2 ax (by norm_num) (m := 0) (by norm_num) bx hx.2 hp.1 hp2 (by simp) (by norm_num)).mono (by norm_num)
  · exact (setSecond h1 h2 ay (by norm_num) (m := 0) (by norm_num) by' hy.2 hp.1 hp2 (by simp) (by norm_num)).mono (by norm_num)

/-! ### union -/

/-- what the union does along one axis: first edge -/
def uniFirst (x w x' : F64) : F64 × F64 := if lt x' x then (x + (x' - x), w - (x' - x)) else (x, w)
/-- … and second edge -/
def uniSecond (p : F64 × F64) (a' : F64) : F64 × F64 := if lt (p.1 + p.2) a' then (p.1, p.2 + (a' - (p.1 + p.2))) else p

theorem union_axes (r o : Rect) : ((r.unionWith o).x, (r.unionWith o).w) = uniSecond (uniFirst r.x r.w o.x) (o.x + o.w) ∧
    ((r.unionWith o).y, (r.unionWith o).h) = uniSecond (uniFirst r.y r.h o.y) (o.y + o.h) := by
  unfold Rect.unionWith Rect.unionB Rect.unionR Rect.unionT Rect.unionL uniSecond uniFirst
  simp only [Rect.setLeft, Rect.setTop, Rect.setRight, Rect.setBottom, Rect.shiftLeft, Rect.shiftTop, Rect.shiftRight, Rect.shiftBottom, Rect.left, Rect.top, Rect.right, Rect.bottom]
  constructor
  · by_cases c1 : lt o.x r.x = true <;> by_cases c2 : lt o.y r.y = true <;> simp only [c1, c2, if_true, if_false, Bool.false_eq_true] <;>
      (split <;> split <;> rfl)
  · by_cases c1 : lt o.x r.x = true <;> by_cases c2 : lt o.y r.y = true <;> simp only [c1, c2, if_true, if_false, Bool.false_eq_true] <;>
      (split <;> split <;> rfl)

theorem uniFirst_near {x w x' : F64} (h1 : -1020 ≤ n) (h2 : n ≤ 1000) (hx : Bd n x) (hw : Bd n w) (hx' : Bd n x') :
    Ax n (uniFirst x w x').1 (uniFirst x w x').2 (min (val x) (val x')) (val x + val w) 2 := by
  unfold uniFirst
  have hc := (compare_val x' x hx'.1 hx.1).1
  by_cases c : lt x' x = true
  · rw [if_pos c, min_eq_right (hc.1 c).le]
    exact setFirst h1 h2 hx hw hx'
  · rw [if_neg c, min_eq_left (not_lt.1 fun h => c (hc.2 h))]
    exact (Ax.start hx hw).mono (by norm_num)

theorem uni_near {x w x' w' : F64} (h1 : -1020 ≤ n) (h2 : n ≤ 1000) (hx : Bd n x) (hw : Bd n w) (hx' : Bd n x') (hw' : Bd n w') :
    Ax n (uniSecond (uniFirst x w x') (x' + w')).1 (uniSecond (uniFirst x w x') (x' + w')).2 (min (val x) (val x')) (max (val x + val w) (val x' + val w')) 8 := by
  have hn : (0 : ℚ) < 2 ^ n := zpow_pos (by norm_num) _
  have hd := δ_le n
  have hd0 := δ_pos n
  have a := uniFirst_near h1 h2 hx hw hx'
  obtain ⟨f, e, _⟩ := a.edge h1 h2
  obtain ⟨g, j, _⟩ := (Ax.start hx' hw').edge h1 h2
  have hc := (compare_val _ _ f g).1
  generalize uniFirst x w x' = p at *
  have bx : |val x + val w| ≤ 2 * 2 ^ n := by have := abs_add_le (val x) (val w); linarith [hx.2, hw.2]
  have bx' : |val x' + val w'| ≤ 2 * 2 ^ n := by have := abs_add_le (val x') (val w'); linarith [hx'.2, hw'.2]
  have bm : |min (val x) (val x')| ≤ 2 ^ n := by
    rcases min_choice (val x) (val x') with h | h <;> rw [h]
    · exact hx.2
    · exact hx'.2
  have m1 := le_max_left (val x + val w) (val x' + val w')
  have m2 := le_max_right (val x + val w) (val x' + val w')
  obtain ⟨e1, e2⟩ := abs_le.1 e
  obtain ⟨j1, j2⟩ := abs_le.1 j
  unfold uniSecond
  by_cases c : lt (p.1 + p.2) (x' + w') = true
  · rw [if_pos c]
    have hl := hc.1 c
    have b := setSecond h1 h2 a (by norm_num) (m := 1) (by norm_num) bx bm g bx' (by simpa using j) (by norm_num)
    have m3 : max (val x + val w) (val x' + val w') ≤ val x' + val w' + 4 * δ n := max_le (by linarith) (by linarith)
    obtain ⟨b1, b2⟩ := abs_le.1 b.ea
    have := b.el
    exact ⟨b.fx, b.fw, b.bx, b.bw, by linarith, abs_le.2 ⟨by linarith, by linarith⟩⟩
  · rw [if_neg c]
    have hl := not_lt.1 fun h => c (hc.2 h)
    have m3 : max (val x + val w) (val x' + val w') ≤ val x + val w + 4 * δ n := max_le (by linarith) (by linarith)
    obtain ⟨b1, b2⟩ := abs_le.1 a.ea
    have := a.el
    exact ⟨a.fx, a.fw, a.bx, a.bw, by linarith, abs_le.2 ⟨by linarith, by linarith⟩⟩

/-- **C51 for all finite rectangles (union).** The edges of the union are the outermost of the exact edges, up to `9` parts in `2^49`. -/
theorem union_near {r o : Rect} (h1 : -1020 ≤ n) (h2 : n ≤ 1000) (hr : Bounded n r) (ho : Bounded n o) :
    Outline 9 n (r.unionWith o) (min (L r) (L o)) (min (T r) (T o)) (max (R r) (R o)) (max (B r) (B o)) := by
  obtain ⟨hx, hy, hw, hh⟩ := hr
  obtain ⟨hx', hy', hw', hh'⟩ := ho
  have a := uni_near h1 h2 hx hw hx' hw'
  have b := uni_near h1 h2 hy hh hy' hh'
  rw [← (union_axes r o).1] at a
  rw [← (union_axes r o).2] at b
  have := outline h1 h2 a b
  norm_num at this
  exact this

/-- A point of one of the two rectangles lies in the union or at most `10` parts beside it. -/
theorem union_covers {r o : Rect} (h1 : -1020 ≤ n) (h2 : n ≤ 1000) (hr : Bounded n r) (ho : Bounded n o) {px py : F64} (hpx : Fp.Finite px)
    (hpy : Fp.Finite py) (h : r.contains px py = true ∨ o.contains px py = true) :
    val (r.unionWith o).left - 10 * δ n ≤ val px ∧ val px ≤ val (r.unionWith o).right + 10 * δ n ∧
    val (r.unionWith o).top - 10 * δ n ≤ val py ∧ val py ≤ val (r.unionWith o).bottom + 10 * δ n := by
  obtain ⟨_, ul, ut, ua, ub⟩ := union_near h1 h2 hr ho
  have hd0 := δ_pos n
  have key : ∀ s : Rect, Bounded n s → s.contains px py = true → L s ≤ val px ∧ val px ≤ R s + δ n ∧ T s ≤ val py ∧ val py ≤ B s + δ n := by
    intro s hs hc
    obtain ⟨hx, hy, hw, hh⟩ := hs
    obtain ⟨f, e, _⟩ := (Ax.start hx hw).edge h1 h2
    obtain ⟨g, j, _⟩ := (Ax.start hy hh).edge h1 h2
    simp only [Rect.contains, Bool.and_eq_true] at hc
    obtain ⟨⟨⟨c1, c2⟩, c3⟩, c4⟩ := hc
    rw [le_iff hx.1.ne_nan hpx.ne_nan, units_le_val] at c1
    rw [le_iff hpx.ne_nan f.ne_nan, units_le_val] at c2
    rw [le_iff hy.1.ne_nan hpy.ne_nan, units_le_val] at c3
    rw [le_iff hpy.ne_nan g.ne_nan, units_le_val] at c4
    obtain ⟨e1, e2⟩ := abs_le.1 e
    obtain ⟨j1, j2⟩ := abs_le.1 j
    unfold L R T B
    exact ⟨c1, by linarith, c3, by linarith⟩
  obtain ⟨ul1, ul2⟩ := abs_le.1 ul
  obtain ⟨ut1, ut2⟩ := abs_le.1 ut
  obtain ⟨ua1, ua2⟩ := abs_le.1 ua
  obtain ⟨ub1, ub2⟩ := abs_le.1 ub
  rcases h with h | h
  · obtain ⟨k1, k2, k3, k4⟩ := key r hr h
    have := min_le_left (L r) (L o); have := min_le_left (T r) (T o); have := le_max_left (R r) (R o); have := le_max_left (B r) (B o)
    exact ⟨by linarith, by linarith, by linarith, by linarith⟩
  · obtain ⟨k1, k2, k3, k4⟩ := key o ho h
    have := min_le_right (L r) (L o); have := min_le_right (T r) (T o); have := le_max_right (R r) (R o); have := le_max_right (B r) (B o)
    exact ⟨by linarith, by linarith, by linarith, by linarith⟩

/-! ### intersection -/

theorem bd_max {x y : F64} (hx : Bd n x) (hy : Bd n y) : Bd n (fmax x y) := by
  obtain ⟨f, v⟩ := fmax_val hx.1 hy.1
  refine ⟨f, ?_⟩
  rw [v]
  rcases max_choice (val x) (val y) with h | h <;> rw [h]
  · exact hx.2
  · exact hy.2

/-- taking the smaller of two edges -/
theorem min_near {p q : F64} {a b k : ℚ} (hp : Fp.Finite p) (hq : Fp.Finite q) (ea : |val p - a| ≤ k) (eb : |val q - b| ≤ k) :
    Fp.Finite (fmin p q) ∧ |val (fmin p q) - min a b| ≤ k := by
  obtain ⟨f, v⟩ := fmin_val hp hq
  refine ⟨f, ?_⟩
  rw [v]
  obtain ⟨a1, a2⟩ := abs_le.1 ea
  obtain ⟨b1, b2⟩ := abs_le.1 eb
  rw [abs_le]
  rcases min_choice (val p) (val q) with h | h <;> rcases min_choice a b with g | g
  all_goals
    have i1 := min_le_left (val p) (val q)
    have i2 := min_le_right (val p) (val q)
    have i3 := min_le_left a b
    have i4 := min_le_right a b
    constructor <;> linarith

/-- the size between an origin and an edge -/
theorem size_near {x m : F64} {l a k : ℚ} (h1 : -1020 ≤ n) (h2 : n ≤ 1000) (hk : k ≤ 10) (hx : Fp.Finite x) (hl : |l| ≤ 2 ^ n) (ha : |a| ≤ 2 * 2 ^ n)
    (el : |val x - l| ≤ k * δ n) (hm : Fp.Finite m) (em : |val m - a| ≤ k * δ n) : Ax n x (m - x) l a (k + 1) := by
  have hn : (0 : ℚ) < 2 ^ n := zpow_pos (by norm_num) _
  have hd := δ_le n
  have hd0 := δ_pos n
  have hkd : k * δ n ≤ 10 * δ n := mul_le_mul_of_nonneg_right hk hd0.le
  obtain ⟨x1, x2⟩ := abs_le.1 el
  obtain ⟨m1, m2⟩ := abs_le.1 em
  obtain ⟨l1, l2⟩ := abs_le.1 hl
  obtain ⟨a1, a2⟩ := abs_le.1 ha
  obtain ⟨f, e⟩ := minus h1 h2 hm hx (abs_le.2 ⟨by linarith, by linarith⟩)
  obtain ⟨e1, e2⟩ := abs_le.1 e
  exact ⟨hx, f, abs_le.2 ⟨by linarith, by linarith⟩, abs_le.2 ⟨by linarith, by linarith⟩, by linarith, abs_le.2 ⟨by linarith, by linarith⟩⟩

theorem min_bd {a b s : ℚ} (ha : |a| ≤ s) (hb : |b| ≤ s) : |min a b| ≤ s := by
  rcases min_choice a b with h | h <;> rw [h] <;> assumption

theorem max_bd {a b s : ℚ} (ha : |a| ≤ s) (hb : |b| ≤ s) : |max a b| ≤ s := by
  rcases max_choice a b with h | h <;> rw [h] <;> assumption

theorem sum_bd {x w : F64} (hx : Bd n x) (hw : Bd n w) : |val x + val w| ≤ 2 * 2 ^ n := by
  have := abs_add_le (val x) (val w); linarith [hx.2, hw.2]

/-- one axis of `intersect` -/
theorem cut_near {x w x' w' : F64} (h1 : -1020 ≤ n) (h2 : n ≤ 1000) (hx : Bd n x) (hw : Bd n w) (hx' : Bd n x') (hw' : Bd n w') :
    Ax n (x + (fmax x x' - x)) (fmin (x + (fmax x x' - x) + (w - (fmax x x' - x))) (x' + w') - (x + (fmax x x' - x)))
      (max (val x) (val x')) (min (val x + val w) (val x' + val w')) 4 := by
  have hd0 := δ_pos n
  have a := setFirst h1 h2 hx hw (bd_max hx hx')
  rw [(fmax_val hx.1 hx'.1).2] at a
  obtain ⟨f, e, _⟩ := a.edge h1 h2
  obtain ⟨g, j, _⟩ := (Ax.start hx' hw').edge h1 h2
  obtain ⟨q, i⟩ := min_near f g (k := 3 * δ n) (by norm_num at e; exact e) (by linarith)
  have := size_near h1 h2 (by norm_num : (3 : ℚ) ≤ 10) a.fx (max_bd hx.2 hx'.2) (min_bd (sum_bd hx hw) (sum_bd hx' hw')) (by linarith [a.el]) q i
  norm_num at this
  exact this

/-- **C51 for all finite rectangles (`intersect`).** -/
theorem intersect_near {r o : Rect} (h1 : -1020 ≤ n) (h2 : n ≤ 1000) (hr : Bounded n r) (ho : Bounded n o) :
    Outline 5 n (r.intersect o) (max (L r) (L o)) (max (T r) (T o)) (min (R r) (R o)) (min (B r) (B o)) := by
  obtain ⟨hx, hy, hw, hh⟩ := hr
  obtain ⟨hx', hy', hw', hh'⟩ := ho
  have := outline (r := r.intersect o) h1 h2 (cut_near h1 h2 hx hw hx' hw') (cut_near h1 h2 hy hh hy' hh')
  norm_num at this
  exact this

/-- **C51 for all finite rectangles (`intersection`).** -/
theorem intersection_near {r o : Rect} (h1 : -1020 ≤ n) (h2 : n ≤ 1000) (hr : Bounded n r) (ho : Bounded n o) (hi : r.intersects o = true) :
    Outline 3 n (r.intersection o) (max (L r) (L o)) (max (T r) (T o)) (min (R r) (R o)) (min (B r) (B o)) := by
  obtain ⟨hx, hy, hw, hh⟩ := hr
  obtain ⟨hx', hy', hw', hh'⟩ := ho
  have hd0 := δ_pos n
  have ax : ∀ {x w x' w' : F64}, Bd n x → Bd n w → Bd n x' → Bd n w' →
      Ax n (fmax x x') (fmin (x + w) (x' + w') - fmax x x') (max (val x) (val x')) (min (val x + val w) (val x' + val w')) 2 := by
    intro x w x' w' hx hw hx' hw'
    obtain ⟨f, e, _⟩ := (Ax.start hx hw).edge h1 h2
    obtain ⟨g, j, _⟩ := (Ax.start hx' hw').edge h1 h2
    obtain ⟨q, i⟩ := min_near f g (k := 1 * δ n) (by norm_num at e ⊢; exact e) (by norm_num at j ⊢; exact j)
    have := size_near h1 h2 (by norm_num : (1 : ℚ) ≤ 10) (bd_max hx hx').1 (max_bd hx.2 hx'.2) (min_bd (sum_bd hx hw) (sum_bd hx' hw'))
      (by rw [(fmax_val hx.1 hx'.1).2]; simp only [sub_self, abs_zero]; linarith) q i
    norm_num at this
    exact this
  rw [Rect.intersection, if_pos hi]
  have := outline (r := ⟨fmax r.left o.left, fmax r.top o.top, fmin r.right o.right - fmax r.left o.left, fmin r.bottom o.bottom - fmax r.top o.top⟩) h1 h2
    (ax hx hw hx' hw') (ax hy hh hy' hh')
  norm_num at this
  exact this

/-! ### normalize, moving -/

theorem norm_axis {x w : F64} (h1 : -1020 ≤ n) (h2 : n ≤ 1000) (hx : Bd n x) (hw : Bd n w) (h : val w < 0) :
    Ax n (x + w) (-w) (min (val x) (val x + val w)) (max (val x) (val x + val w)) 1 := by
  have hn : (0 : ℚ) < 2 ^ n := zpow_pos (by norm_num) _
  have hd := δ_le n
  have hd0 := δ_pos n
  obtain ⟨f, e, _⟩ := (Ax.start hx hw).edge h1 h2
  rw [min_eq_right (by linarith), max_eq_left (by linarith)]
  obtain ⟨e1, e2⟩ := abs_le.1 e
  obtain ⟨x1, x2⟩ := abs_le.1 hx.2
  obtain ⟨w1, w2⟩ := abs_le.1 hw.2
  refine ⟨f, finite_neg.2 hw.1, abs_le.2 ⟨by linarith, by linarith⟩, ?_, abs_le.2 ⟨by linarith, by linarith⟩, ?_⟩
  · rw [val_neg, abs_le]; constructor <;> linarith
  · rw [val_neg, abs_le]; constructor <;> linarith

theorem lt_zero {w : F64} (hw : Fp.Finite w) : lt w zero = true ↔ val w < 0 := by
  have := (compare_val w zero hw (by decide +kernel)).1
  rw [val_zero] at this
  exact this

/-- **C51 for all finite rectangles (normalize).** The size is not negative afterwards, and the outline is the old one up to `2` parts. -/
theorem normalize_near {r : Rect} (h1 : -1020 ≤ n) (h2 : n ≤ 1000) (hr : Bounded n r) :
    0 ≤ val r.normalize.w ∧ 0 ≤ val r.normalize.h ∧
    Outline 2 n r.normalize (min (L r) (R r)) (min (T r) (B r)) (max (L r) (R r)) (max (T r) (B r)) := by
  obtain ⟨hx, hy, hw, hh⟩ := hr
  have sx : ∀ {x w : F64}, Bd n x → Bd n w → ¬ val w < 0 → Ax n x w (min (val x) (val x + val w)) (max (val x) (val x + val w)) 1 := by
    intro x w hx hw h
    rw [min_eq_left (by linarith), max_eq_right (by linarith)]
    exact (Ax.start hx hw).mono (by norm_num)
  have fin : ∀ {s : Rect} {l a t b : ℚ}, Ax n s.x s.w l a 1 → Ax n s.y s.h t b 1 → Outline 2 n s l t a b := by
    intro s l a t b u v
    have := outline h1 h2 u v
    norm_num at this
    exact this
  have cx := lt_zero hw.1
  have cy := lt_zero hh.1
  unfold Rect.normalize Rect.normalizeY Rect.normalizeX
  by_cases a : lt r.w zero = true <;> by_cases b : lt r.h zero = true <;> simp only [a, b, if_true, if_false, Bool.false_eq_true]
  · have a' := cx.1 a; have b' := cy.1 b
    exact ⟨by rw [val_neg]; linarith, by rw [val_neg]; linarith, fin (norm_axis h1 h2 hx hw a') (norm_axis h1 h2 hy hh b')⟩
  · have a' := cx.1 a; have b' : ¬ val r.h < 0 := fun h => b (cy.2 h)
    exact ⟨by rw [val_neg]; linarith, by linarith, fin (norm_axis h1 h2 hx hw a') (sx hy hh b')⟩
  · have a' : ¬ val r.w < 0 := fun h => a (cx.2 h); have b' := cy.1 b
    exact ⟨by linarith, by rw [val_neg]; linarith, fin (sx hx hw a') (norm_axis h1 h2 hy hh b')⟩
  · have a' : ¬ val r.w < 0 := fun h => a (cx.2 h); have b' : ¬ val r.h < 0 := fun h => b (cy.2 h)
    exact ⟨by linarith, by linarith, fin (sx hx hw a') (sx hy hh b')⟩

/-- **C108 for all finite rectangles.** Moving there and back leaves the outline where it was, up to `3` parts, and does not touch the size. -/
theorem move_back_near {r : Rect} {dx dy : F64} (h1 : -1020 ≤ n) (h2 : n ≤ 1000) (hr : Bounded n r) (hdx : Bd n dx) (hdy : Bd n dy) :
    Outline 3 n ((r.move dx dy).move (-dx) (-dy)) (L r) (T r) (R r) (B r) ∧ ((r.move dx dy).move (-dx) (-dy)).w = r.w ∧
      ((r.move dx dy).move (-dx) (-dy)).h = r.h := by
  obtain ⟨hx, hy, hw, hh⟩ := hr
  have hn : (0 : ℚ) < 2 ^ n := zpow_pos (by norm_num) _
  have hd := δ_le n
  have hd0 := δ_pos n
  have ax : ∀ {x w d : F64}, Bd n x → Bd n w → Bd n d → Ax n (x + d + -d) w (val x) (val x + val w) 2 := by
    intro x w d hx hw hd'
    obtain ⟨f, e, _⟩ := (Ax.start hx hd').edge h1 h2
    obtain ⟨x1, x2⟩ := abs_le.1 hx.2
    obtain ⟨w1, w2⟩ := abs_le.1 hw.2
    obtain ⟨d1, d2⟩ := abs_le.1 hd'.2
    obtain ⟨e1, e2⟩ := abs_le.1 e
    have hv := val_neg d
    obtain ⟨g, j⟩ := plus h1 h2 f (finite_neg.2 hd'.1) (by rw [hv, abs_le]; constructor <;> linarith)
    rw [hv] at j
    obtain ⟨j1, j2⟩ := abs_le.1 j
    exact ⟨g, hw.1, abs_le.2 ⟨by linarith, by linarith⟩, abs_le.2 ⟨by linarith, by linarith⟩, abs_le.2 ⟨by linarith, by linarith⟩,
      abs_le.2 ⟨by linarith, by linarith⟩⟩
  refine ⟨?_, rfl, rfl⟩
  have := outline (r := (r.move dx dy).move (-dx) (-dy)) h1 h2 (ax hx hw hdx) (ax hy hh hdy)
  norm_num at this
  exact this

/-! ### cases -/

/-- decimal numbers up to 16 -/
theorem bd_lit (m : ℤ) (d : ℕ) (hd : 0 < d) (h : m.natAbs ≤ 16 * d) : Bd 4 (lit m d) := by
  have hq : (0 : ℚ) < d := by exact_mod_cast hd
  have ha : |(m : ℚ)| ≤ 16 * d := by
    rw [← Int.cast_abs, Int.abs_eq_natAbs]
    exact_mod_cast h
  obtain ⟨a1, a2⟩ := abs_le.1 ha
  obtain ⟨f, b1, b2⟩ := (lit_rounds m d hd).between (lo := ((-16 : ℤ) : ℚ)) (hi := ((16 : ℤ) : ℚ)) (Rp.int (-16) (by decide)) (Rp.int 16 (by decide))
    (by rw [le_div_iff₀ hq]; push_cast; linarith) (by rw [div_le_iff₀ hq]; push_cast; linarith)
  refine ⟨f, abs_le.2 ⟨?_, ?_⟩⟩
  · push_cast at b1; norm_num at b1 ⊢; exact b1
  · push_cast at b2; norm_num at b2 ⊢; exact b2

theorem bounded_tenths (x y w h : ℤ) (hx : x.natAbs ≤ 160) (hy : y.natAbs ≤ 160) (hw : w.natAbs ≤ 160) (hh : h.natAbs ≤ 160) :
    Bounded 4 ⟨lit x 10, lit y 10, lit w 10, lit h 10⟩ :=
  ⟨bd_lit x 10 (by decide) hx, bd_lit y 10 (by decide) hy, bd_lit w 10 (by decide) hw, bd_lit h 10 (by decide) hh⟩

/-- the union of two rectangles with coordinates in tenths: the error is less than `5 · 10^-13` -/
example := union_near (n := 4) (by decide) (by decide) (bounded_tenths 3 1 5 7 (by decide) (by decide) (by decide) (by decide))
  (bounded_tenths 1 2 13 1 (by decide) (by decide) (by decide) (by decide))

end Verif.Geo.Near
