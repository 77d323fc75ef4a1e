import Verif.Geo.RectProps
/-
C51: common points of rectangles, for all doubles, and exactly when `intersection` consists of them.
-/
namespace Verif.Geo
open Verif Verif.Fp

theorem le_through {x p y : F64} (h1 : le x p = true) (h2 : le p y = true) : le x y = true := by
  have hp : p ≠ .nan := by
    intro e; subst e
    have : le x .nan = false := by cases x <;> rfl
    rw [this] at h1; exact absurd h1 (by simp)
  have hx : x ≠ .nan := by
    intro e; subst e
    have : le .nan p = false := by cases p <;> rfl
    rw [this] at h1; exact absurd h1 (by simp)
  have hy : y ≠ .nan := by
    intro e; subst e
    have : le p .nan = false := by cases p <;> rfl
    rw [this] at h2; exact absurd h2 (by simp)
  rw [le_iff hx hp] at h1
  rw [le_iff hp hy] at h2
  rw [le_iff hx hy]; omega

/-- Rectangles with a common point intersect: for all doubles, whatever the sizes, infinities and NaN included. -/
theorem common_point_intersects (r o : Rect) (px py : F64) (h1 : r.contains px py = true) (h2 : o.contains px py = true) :
    r.intersects o = true := by
  unfold Rect.contains at h1 h2
  unfold Rect.intersects
  simp only [Bool.and_eq_true] at h1 h2 ⊢
  obtain ⟨⟨⟨p1, p2⟩, q1⟩, q2⟩ := h1
  obtain ⟨⟨⟨p3, p4⟩, q3⟩, q4⟩ := h2
  refine ⟨⟨⟨?_, ?_⟩, ?_⟩, ?_⟩
  all_goals first
    | exact le_through p1 p4
    | exact le_through p3 p2
    | exact le_through q1 q4
    | exact le_through q3 q2

/-- On a grid, `intersection` of two rectangles contains exactly the common points if and only if they intersect: for disjoint
rectangles it contains the origin, which is no common point. -/
theorem intersection_exact_iff (k : Nat) (r o : Rect) (hr : OnGrid k r) (ho : OnGrid k o) :
    (∀ px py, (r.intersection o).contains px py = true ↔ r.contains px py = true ∧ o.contains px py = true) ↔
      r.intersects o = true := by
  refine ⟨fun h => ?_, fun h => intersection_exact_partial k r o hr ho h⟩
  cases hc : r.intersects o with
  | true => rfl
  | false =>
    obtain ⟨-, hz⟩ := intersection_disjoint r o hc
    obtain ⟨a, b⟩ := (h zero zero).1 hz
    rw [common_point_intersects r o zero zero a b] at hc
    exact absurd hc (by simp)

/-- the points of the intersection of disjoint rectangles: the two zeros only -/
theorem disjoint_points (r o : Rect) (h : r.intersects o = false) (px py : F64) :
    (r.intersection o).contains px py = true ↔ (eq px zero = true ∧ eq py zero = true) := by
  rw [(intersection_disjoint r o h).1]
  unfold Rect.contains
  have hs : zero + zero = zero := by decide +kernel
  have key : ∀ p : F64, (le zero p = true ∧ le p zero = true) ↔ eq p zero = true := by
    intro p
    by_cases hp : p = .nan
    · subst hp; decide
    · rw [le_iff (by decide) hp, le_iff hp (by decide), eq_iff hp (by decide)]; omega
  have e1 : Rect.empty.x = zero := rfl
  have e2 : Rect.empty.y = zero := rfl
  have e3 : Rect.empty.w = zero := rfl
  have e4 : Rect.empty.h = zero := rfl
  rw [e1, e2, e3, e4, hs]
  simp only [Bool.and_eq_true]
  rw [← key px, ← key py]
  tauto

example : Rect.intersects ⟨lit 1 1, lit 1 1, lit 1 1, lit 1 1⟩ ⟨lit 5 1, lit 1 1, lit 1 1, lit 1 1⟩ = false ∧
    Rect.intersects ⟨lit 1 1, lit 1 1, lit 4 1, lit 1 1⟩ ⟨lit 5 1, lit 1 1, lit 1 1, lit 1 1⟩ = true := by decide +kernel

end Verif.Geo
