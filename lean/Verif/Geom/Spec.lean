import Verif.Vtx.Spec
/-
Specification: planes, lines, segments and circles as sets of points.
-/
namespace Verif.Geom
open Verif Verif.Exact Verif.Mx Verif.Vtx

/-- the plane through `p` with the normal vector `n` -/
def Plane (p n : R3) : Set R3 := {x | R3.dot n (x - p) = 0}
/-- the line through `p` in the direction of `d` -/
def Line (p d : R3) : Set R3 := {x | ∃ t : ℝ, x = p + t * d}
/-- the points of a line between the parameters `a` and `b`, the ends included or not -/
def Part (p d : R3) (I : Set ℝ) : Set R3 := {x | ∃ t ∈ I, x = p + t * d}
/-- the circle around `c` with radius `r` in the plane across `n` -/
noncomputable def Circle (c : R3) (r : ℝ) (n : R3) : Set R3 := {x | R3.dot n (x - c) = 0 ∧ R3.dist x c = r}
/-- `q` is the only point of `S` that is closest to `p` -/
def Closest (S : Set R3) (p q : R3) : Prop := q ∈ S ∧ ∀ x ∈ S, x ≠ q → R3.dist p q < R3.dist p x

/-- the line in the plane -/
def Line2 (p d : R2) : Set R2 := {x | ∃ t : ℝ, x = p + t * d}
def Closest2 (S : Set R2) (p q : R2) : Prop := q ∈ S ∧ ∀ x ∈ S, x ≠ q → R2.dist p q < R2.dist p x
/-- the circle in the plane -/
noncomputable def Circle2 (c : R2) (r : ℝ) : Set R2 := {x | R2.dist x c = r}

end Verif.Geom
