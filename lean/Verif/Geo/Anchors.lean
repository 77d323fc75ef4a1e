import Verif.Geo.RectProps
import Verif.Fp.Val
import Verif.Math.FpTol
/-
C108: points of a rectangle, Point and Size (Rect.cpp, Point.cpp, Size.cpp), on doubles.
-/
namespace Verif.Geo
open Verif Verif.Fp

/-- Point.h, Size.h: two doubles -/
structure Pt where
  x : F64
  y : F64
deriving DecidableEq

/-- the literal 0.5 -/
def half : F64 := lit 1 2

namespace Rect
/-- Rect.cpp:108-112 -/
def center (r : Rect) : Pt := ⟨r.x + half * r.w, r.y + half * r.h⟩
/-- Rect.cpp:114-117 -/
def topLeft (r : Rect) : Pt := ⟨r.x, r.y⟩
/-- Rect.cpp:119-123 -/
def topRight (r : Rect) : Pt := ⟨r.x + r.w, r.y⟩
/-- Rect.cpp:125-129 -/
def bottomLeft (r : Rect) : Pt := ⟨r.x, r.y + r.h⟩
/-- Rect.cpp:131-135 -/
def bottomRight (r : Rect) : Pt := ⟨r.x + r.w, r.y + r.h⟩
/-- Rect.cpp:137-141 -/
def topCenter (r : Rect) : Pt := ⟨r.x + half * r.w, r.top⟩
/-- Rect.cpp:143-147 -/
def bottomCenter (r : Rect) : Pt := ⟨r.x + half * r.w, r.bottom⟩
/-- Rect.cpp:149-153 -/
def leftCenter (r : Rect) : Pt := ⟨r.left, r.y + half * r.h⟩
/-- Rect.cpp:155-159 -/
def rightCenter (r : Rect) : Pt := ⟨r.right, r.y + half * r.h⟩
/-- Rect.h:308-311 -/
def containsPt (r : Rect) (p : Pt) : Bool := r.contains p.x p.y
/-- Rect.cpp:335-338 -/
def isEmpty (r : Rect) : Bool := Math.Fl.isEqual r.w zero || Math.Fl.isEqual r.h zero
/-- Rect.cpp:189-192 -/
def setSize (r : Rect) (s : Pt) : Rect := { r with w := s.x, h := s.y }
/-- Rect.cpp:199-202 -/
def setOrigin (r : Rect) (p : Pt) : Rect := { r with x := p.x, y := p.y }
end Rect

namespace Pt
/-- Point.cpp:77-80, Size.cpp:83-86 -/
def cWiseMin (a b : Pt) : Pt := ⟨fmin a.x b.x, fmin a.y b.y⟩
/-- Point.cpp:82-85, Size.cpp:88-91 -/
def cWiseMax (a b : Pt) : Pt := ⟨fmax a.x b.x, fmax a.y b.y⟩
/-- Point.cpp:87-92, 101-104 -/
def plus (a b : Pt) : Pt := ⟨a.x + b.x, a.y + b.y⟩
/-- Point.cpp:94-99, 106-109, Size.cpp:93-96 -/
def minus (a b : Pt) : Pt := ⟨a.x - b.x, a.y - b.y⟩
/-- Point.cpp:111-117, 119-125, Size.cpp:110-116 -/
def scale (d : F64) (a : Pt) : Pt := ⟨d * a.x, d * a.y⟩
/-- Size.cpp:98-102 -/
def sizeEq (a b : Pt) : Bool := Math.Fl.isEqual a.x b.x && Math.Fl.isEqual a.y b.y
/-- Size.cpp:104-108 -/
def sizeNe (a b : Pt) : Bool := Math.Fl.isNotEqual a.x b.x || Math.Fl.isNotEqual a.y b.y
end Pt

/-! ### the nine points -/

theorem half_finite : Finite half := by decide +kernel
theorem half_units : units half * 2 = one := by decide +kernel

theorem val_half : val half = 1 / 2 := by
  have h := val_eq half
  have h2 : ((units half : Int) : ℚ) * 2 = 2 ^ 1074 := by
    have := half_units
    have h3 : ((units half * 2 : Int) : ℚ) = ((one : Nat) : ℚ) := by rw [this]; rfl
    rw [one_cast] at h3
    push_cast at h3
    exact h3
  have hp : (0 : ℚ) < 2 ^ 1074 := by positivity
  rw [← h] at h2
  have : val half * 2 = 1 := by
    have h4 : (val half * 2) * 2 ^ 1074 = 1 * 2 ^ 1074 := by rw [one_mul, mul_right_comm]; exact h2
    exact mul_right_cancel₀ hp.ne' h4
  clear h h2 hp
  rw [eq_div_iff (by norm_num)]
  exact this

theorem tiny_empty : (⟨zero, zero, lit 1 10000000, lit 1 1⟩ : Rect).isEmpty = true := by decide +kernel
theorem unit_not_empty : (⟨zero, zero, lit (-1) 1, lit 1 1⟩ : Rect).isEmpty = false := by decide +kernel

attribute [local irreducible] half Math.Fl.RESABS

/-- half of a size lies between nothing and all of it -/
theorem half_mul {w : F64} (hw : Finite w) (h0 : 0 ≤ val w) : Finite (half * w) ∧ 0 ≤ val (half * w) ∧ val (half * w) ≤ val w := by
  have hr := mul_rounds half_finite hw
  have h := hr.between (lo := 0) (hi := val w) (by simpa using Rp.int 0 (by decide)) (Rp.of w hw)
    (by rw [val_half]; linarith) (by rw [val_half]; linarith)
  exact h

theorem mid {x w : F64} (hx : Finite x) (hw : Finite w) (h0 : le zero w = true) :
    le x (x + half * w) = true ∧ le (x + half * w) (x + w) = true ∧ le x (x + w) = true := by
  have hz : Finite zero := by decide
  have hu0 : units zero ≤ units w := (le_iff hz.ne_nan hw.ne_nan).1 h0
  have hv0 : 0 ≤ val w := by have := units_le_val.1 hu0; rwa [val_zero] at this
  obtain ⟨hf, h1, h2⟩ := half_mul hw hv0
  have hz0 : units zero = 0 := by decide +kernel
  have hu1 : 0 ≤ units (half * w) := by
    have := units_le_val.2 (show val zero ≤ val (half * w) by rw [val_zero]; exact h1)
    rwa [hz0] at this
  have hu2 : units (half * w) ≤ units w := units_le_val.2 h2
  rw [hz0] at hu0
  refine ⟨?_, ?_, ?_⟩
  · rw [le_iff hx.ne_nan (add_ne_nan hx hf)]
    exact le_add_of hx hf hx.rep (by omega)
  · rw [le_iff (add_ne_nan hx hf) (add_ne_nan hx hw)]
    exact add_mono hx hf hx hw (by omega)
  · rw [le_iff hx.ne_nan (add_ne_nan hx hw)]
    exact le_add_of hx hw hx.rep (by omega)

theorem le_self {x : F64} (h : x ≠ .nan) : le x x = true := by rw [le_iff h h]

/-- **C108.** All nine points of a rectangle of finite doubles with a size that is not negative are contained in it: rounding never carries
them outside. -/
theorem anchors_contained (r : Rect) (hr : Proper r) :
    ∀ p ∈ [r.center, r.topLeft, r.topRight, r.bottomLeft, r.bottomRight, r.topCenter, r.bottomCenter, r.leftCenter, r.rightCenter],
      r.containsPt p = true := by
  obtain ⟨hx, hy, hw, hh, h1, h2⟩ := hr
  obtain ⟨a1, a2, a3⟩ := mid hx hw h1
  obtain ⟨b1, b2, b3⟩ := mid hy hh h2
  have c1 := le_self hx.ne_nan
  have c2 := le_self hy.ne_nan
  have c3 := le_self (add_ne_nan hx hw)
  have c4 := le_self (add_ne_nan hy hh)
  intro p hp
  simp only [List.mem_cons, List.not_mem_nil, or_false] at hp
  rcases hp with h | h | h | h | h | h | h | h | h <;> subst h <;>
    simp [Rect.containsPt, Rect.contains, Rect.center, Rect.topLeft, Rect.topRight, Rect.bottomLeft, Rect.bottomRight, Rect.topCenter,
      Rect.bottomCenter, Rect.leftCenter, Rect.rightCenter, Rect.top, Rect.left, Rect.bottom, Rect.right, a1, a2, a3, b1, b2, b3, c1, c2,
      c3, c4]

/-- The points agree with the edges and with each other. -/
theorem anchors_edges (r : Rect) :
    r.topLeft = ⟨r.left, r.top⟩ ∧ r.topRight = ⟨r.right, r.top⟩ ∧ r.bottomLeft = ⟨r.left, r.bottom⟩ ∧ r.bottomRight = ⟨r.right, r.bottom⟩ ∧
    r.topCenter = ⟨r.center.x, r.top⟩ ∧ r.bottomCenter = ⟨r.center.x, r.bottom⟩ ∧ r.leftCenter = ⟨r.left, r.center.y⟩ ∧
    r.rightCenter = ⟨r.right, r.center.y⟩ := ⟨rfl, rfl, rfl, rfl, rfl, rfl, rfl, rfl⟩

/-- The centre is the double nearest to the true centre, if half the size is a double (it is, but for odd multiples of the smallest one). -/
theorem center_nearest_partial (r : Rect) (hx : Finite r.x) (hy : Finite r.y) (hw : Finite r.w) (hh : Finite r.h)
    (h1 : Rp (val r.w / 2)) (h2 : Rp (val r.h / 2)) :
    Rounds r.center.x (val r.x + val r.w / 2) ∧ Rounds r.center.y (val r.y + val r.h / 2) := by
  have key : ∀ {x w : F64}, Finite x → Finite w → Rp (val w / 2) → Rounds (x + half * w) (val x + val w / 2) := by
    intro x w hx hw h
    have hr := mul_rounds half_finite hw
    have e : val half * val w = val w / 2 := by rw [val_half]; ring
    rw [e] at hr
    obtain ⟨hf, hv⟩ := hr.exact h
    have := add_rounds hx hf
    rwa [hv] at this
  exact ⟨key hx hw h1, key hy hh h2⟩

/-! ### empty rectangles -/

theorem tol_iff {w : F64} (hw : Finite w) : Math.Fl.isEqual w zero = true ↔ |val w| < val Math.Fl.RESABS := by
  have hz : Finite zero := by decide
  have hd := sub_rounds hz hw
  rw [val_zero, zero_sub] at hd
  obtain ⟨hf, hv⟩ := hd.exact (Rp.of w hw).neg
  have hR := Math.Fl.finite_R
  have hlt : ∀ {a b : F64}, a ≠ .nan → b ≠ .nan → (lt a b = true ↔ val a < val b) := by
    intro a b ha hb
    rw [lt_iff ha hb]
    constructor
    · intro h; by_contra hc; have := units_le_val.2 (not_lt.1 hc); omega
    · intro h; by_contra hc; exact absurd (units_le_val.1 (not_lt.1 hc)) (not_le.2 h)
  show (lt (zero - w) Math.Fl.RESABS && lt (-Math.Fl.RESABS) (zero - w)) = true ↔ _
  rw [Bool.and_eq_true, hlt hf.ne_nan hR.ne_nan, hlt Math.Fl.negR_ne_nan hf.ne_nan, hv, val_neg, abs_lt]
  constructor
  · rintro ⟨h1, h2⟩; exact ⟨by linarith, by linarith⟩
  · rintro ⟨h1, h2⟩; exact ⟨by linarith, by linarith⟩

/-- `isEmpty` means: the width or the height is less than the tolerance (0.000001), also for negative sizes.  It does not mean that no
point is contained. -/
theorem isEmpty_iff (r : Rect) (hw : Finite r.w) (hh : Finite r.h) :
    r.isEmpty = true ↔ |val r.w| < val Math.Fl.RESABS ∨ |val r.h| < val Math.Fl.RESABS := by
  unfold Rect.isEmpty
  rw [Bool.or_eq_true, tol_iff hw, tol_iff hh]

/-- An "empty" rectangle contains points (its nine), and one that is not may contain none. -/
theorem empty_contains : (∀ r : Rect, Proper r → r.containsPt r.center = true) ∧
    (⟨zero, zero, lit 1 10000000, lit 1 1⟩ : Rect).isEmpty = true ∧ Proper ⟨zero, zero, lit 1 10000000, lit 1 1⟩ ∧
    (⟨zero, zero, lit (-1) 1, lit 1 1⟩ : Rect).isEmpty = false ∧
    ∀ p, (⟨zero, zero, lit (-1) 1, lit 1 1⟩ : Rect).containsPt p = false := by
  refine ⟨fun r hr => anchors_contained r hr _ List.mem_cons_self, tiny_empty, by decide +kernel, unit_not_empty, ?_⟩
  intro p
  cases hp : p.x with
  | nan => simp [Rect.containsPt, Rect.contains, hp, le]
  | num s a ha =>
    have hne : (F64.num s a ha) ≠ .nan := by intro h; cases h
    have e : (zero + lit (-1) 1 : F64) = lit (-1) 1 := by decide +kernel
    have hl : lit (-1) 1 ≠ F64.nan := by decide +kernel
    have hu : units (lit (-1) 1) < units zero := by decide +kernel
    have hb : ¬ (le zero (.num s a ha) = true ∧ le (.num s a ha) (lit (-1) 1) = true) := by
      rintro ⟨h1, h2⟩
      rw [le_iff (by decide) hne] at h1
      rw [le_iff hne hl] at h2
      omega
    simp only [Rect.containsPt, Rect.contains, hp, e]
    cases h1 : le zero (.num s a ha) <;> cases h2 : le (.num s a ha) (lit (-1) 1) <;> simp
    exact absurd ⟨h1, h2⟩ hb

/-! ### moving -/

/-- same rectangle as a set of points (the sign of a zero does not matter) -/
structure SameRect (r s : Rect) : Prop where
  x : Fp.eq r.x s.x = true
  y : Fp.eq r.y s.y = true
  w : r.w = s.w
  h : r.h = s.h

theorem eq_of_grid {k B C : Nat} {x y : F64} {m : Int} (hx : Grid k B x m) (hy : Grid k C y m) : Fp.eq x y = true := by
  rw [Fp.eq_iff hx.nn hy.nn, hx.val, hy.val]

/-- On a grid, moving a rectangle forth and back restores it, and moves every edge by the same. -/
theorem move_back_partial (k : Nat) (r : Rect) (hr : OnGrid k r) {dx dy : F64} {m n : Int} (hx : Grid k (2 ^ 49) dx m)
    (hy : Grid k (2 ^ 49) dy n) : SameRect ((r.move dx dy).move (-dx) (-dy)) r ∧
    Fp.eq (r.move dx dy).right (r.right + dx) = true ∧ Fp.eq (r.move dx dy).bottom (r.bottom + dy) = true := by
  obtain ⟨hk, x, y, w, h, h1, h2, h3, h4⟩ := hr
  have a1 := h1.add hk hx (by decide)
  have a2 := h2.add hk hy (by decide)
  have b1 := a1.add hk hx.neg (by decide)
  have b2 := a2.add hk hy.neg (by decide)
  rw [show x + m + -m = x by omega] at b1
  rw [show y + n + -n = y by omega] at b2
  have c1 := a1.add hk h3 (by decide)
  have c2 := a2.add hk h4 (by decide)
  have d1 := (h1.add hk h3 (by decide)).add hk hx (by decide)
  have d2 := (h2.add hk h4 (by decide)).add hk hy (by decide)
  rw [show x + w + m = x + m + w by omega] at d1
  rw [show y + h + n = y + n + h by omega] at d2
  exact ⟨⟨eq_of_grid b1 h1, eq_of_grid b2 h2, rfl, rfl⟩, eq_of_grid c1 d1, eq_of_grid c2 d2⟩

/-- Not for all doubles: 0.1 moved by 0.2 and back is not 0.1. -/
theorem move_back_inexact : Fp.eq (((⟨lit 1 10, zero, zero, zero⟩ : Rect).move (lit 2 10) zero).move (-lit 2 10) zero).x (lit 1 10) = false := by
  decide +kernel

/-! ### Point and Size -/

/-- smallest and largest of coordinates that are numbers -/
theorem cWise_spec (a b : Pt) (h : a.x ≠ .nan ∧ a.y ≠ .nan ∧ b.x ≠ .nan ∧ b.y ≠ .nan) :
    (le (a.cWiseMin b).x a.x ∧ le (a.cWiseMin b).x b.x ∧ le (a.cWiseMin b).y a.y ∧ le (a.cWiseMin b).y b.y) ∧
    ((a.cWiseMin b).x = a.x ∨ (a.cWiseMin b).x = b.x) ∧ ((a.cWiseMin b).y = a.y ∨ (a.cWiseMin b).y = b.y) ∧
    (le a.x (a.cWiseMax b).x ∧ le b.x (a.cWiseMax b).x ∧ le a.y (a.cWiseMax b).y ∧ le b.y (a.cWiseMax b).y) ∧
    ((a.cWiseMax b).x = a.x ∨ (a.cWiseMax b).x = b.x) ∧ ((a.cWiseMax b).y = a.y ∨ (a.cWiseMax b).y = b.y) := by
  have hmin : ∀ x y : F64, x ≠ .nan → y ≠ .nan → le (fmin x y) x = true ∧ le (fmin x y) y = true ∧ (fmin x y = x ∨ fmin x y = y) := by
    intro x y hx hy
    unfold fmin
    by_cases e : lt y x = true
    · rw [if_pos e]
      refine ⟨?_, le_self hy, Or.inr rfl⟩
      rw [lt_iff hy hx] at e
      rw [le_iff hy hx]; omega
    · rw [if_neg e]
      refine ⟨le_self hx, ?_, Or.inl rfl⟩
      rw [lt_iff hy hx] at e
      rw [le_iff hx hy]; omega
  have hmax : ∀ x y : F64, x ≠ .nan → y ≠ .nan → le x (fmax x y) = true ∧ le y (fmax x y) = true ∧ (fmax x y = x ∨ fmax x y = y) := by
    intro x y hx hy
    unfold fmax
    by_cases e : lt x y = true
    · rw [if_pos e]
      refine ⟨?_, le_self hy, Or.inr rfl⟩
      rw [lt_iff hx hy] at e
      rw [le_iff hx hy]; omega
    · rw [if_neg e]
      refine ⟨le_self hx, ?_, Or.inl rfl⟩
      rw [lt_iff hx hy] at e
      rw [le_iff hy hx]; omega
  obtain ⟨h1, h2, h3, h4⟩ := h
  have p := hmin _ _ h1 h3
  have q := hmin _ _ h2 h4
  have r := hmax _ _ h1 h3
  have s := hmax _ _ h2 h4
  exact ⟨⟨p.1, p.2.1, q.1, q.2.1⟩, p.2.2, q.2.2, ⟨r.1, r.2.1, s.1, s.2.1⟩, r.2.2, s.2.2⟩

/-- NaN wins on the left and loses on the right. -/
theorem cWise_nan (x y : F64) (a : Pt) : (Pt.mk .nan .nan).cWiseMin a = ⟨.nan, .nan⟩ ∧ (Pt.mk x y).cWiseMin ⟨.nan, .nan⟩ = ⟨x, y⟩ ∧
    (Pt.mk .nan .nan).cWiseMax a = ⟨.nan, .nan⟩ ∧ (Pt.mk x y).cWiseMax ⟨.nan, .nan⟩ = ⟨x, y⟩ := by
  have h1 : ∀ z : F64, lt z .nan = false := by intro z; cases z <;> rfl
  have h2 : ∀ z : F64, lt .nan z = false := by intro z; cases z <;> rfl
  simp [Pt.cWiseMin, Pt.cWiseMax, fmin, fmax, h1, h2]

theorem plus_comm (a b : Pt) : a.plus b = b.plus a := by
  simp [Pt.plus, add_comm' a.x b.x, add_comm' a.y b.y]

/-- Sums, differences and multiples are right in each coordinate, up to rounding. -/
theorem arith_rounds (d : F64) (a b : Pt) (hd : Finite d) (h : Finite a.x ∧ Finite a.y ∧ Finite b.x ∧ Finite b.y) :
    Rounds (a.plus b).x (val a.x + val b.x) ∧ Rounds (a.plus b).y (val a.y + val b.y) ∧
    Rounds (a.minus b).x (val a.x - val b.x) ∧ Rounds (a.minus b).y (val a.y - val b.y) ∧
    Rounds (Pt.scale d a).x (val d * val a.x) ∧ Rounds (Pt.scale d a).y (val d * val a.y) :=
  ⟨add_rounds h.1 h.2.2.1, add_rounds h.2.1 h.2.2.2, sub_rounds h.1 h.2.2.1, sub_rounds h.2.1 h.2.2.2, mul_rounds hd h.1, mul_rounds hd h.2.1⟩

/-- `!=` is the negation of `==`, for all sizes, NaN included; `==` is symmetric, and reflexive for finite sizes. -/
theorem size_eq_spec (a b : Pt) : a.sizeNe b = !a.sizeEq b ∧ a.sizeEq b = b.sizeEq a ∧ (Finite a.x → Finite a.y → a.sizeEq a = true) := by
  refine ⟨?_, ?_, ?_⟩
  · simp only [Pt.sizeNe, Pt.sizeEq, Math.Fl.isNotEqual_not]
    cases Math.Fl.isEqual a.x b.x <;> cases Math.Fl.isEqual a.y b.y <;> rfl
  · simp only [Pt.sizeEq, Math.Fl.isEqual_symm a.x b.x, Math.Fl.isEqual_symm a.y b.y]
  · intro h1 h2
    simp [Pt.sizeEq, Math.Fl.isEqual_refl _ h1, Math.Fl.isEqual_refl _ h2]

/-! ### cases that meet the hypotheses -/

example : Proper ⟨lit 1 10, lit (-7) 2, lit 3 10, lit 5 1⟩ := by decide +kernel
example : Rp (val (lit 6 1) / 2) := by
  rw [(lit_int 6 (by decide)).2]
  have := Rp.int 3 (by decide)
  norm_num
  exact this
example : OnGrid 1074 ⟨ofInt 3, ofInt (-5), ofInt 10, ofInt 20⟩ := onGrid_int 3 (-5) 10 20 (by decide) (by decide) (by decide) (by decide)
example : Grid 1074 (2 ^ 49) (ofInt 8) 8 := grid_int 8 (by decide)

end Verif.Geo
