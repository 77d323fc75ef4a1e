import Verif.Vtx.Props
import Verif.Nurbs.Model
import Mathlib.Algebra.BigOperators.Group.Finset.Basic
/-
Specification: curves with real data, B-spline bases, points of a rational curve.
-/
namespace Verif.Nurbs
open Verif Verif.Exact Verif.Mx Verif.Vtx

/-- the data of a curve -/
structure Data where
  degree : ℕ
  points : List R3
  knots : List ℝ
  weights : List ℝ

namespace Data
/-- the object -/
def toX (d : Data) : Curve X := ⟨d.degree, d.points.map R3.toX, d.knots.map X.r, d.weights.map X.r⟩
def u (d : Data) (i : ℕ) : ℝ := d.knots.getD i 0
def w (d : Data) (i : ℕ) : ℝ := d.weights.getD i 0
def p (d : Data) (i : ℕ) : R3 := d.points.getD i ⟨0, 0, 0⟩
/-- the number of control points -/
def n (d : Data) : ℕ := d.points.length

/-- The usual conditions: enough points, knots and weights, the knots in ascending order, the weights positive. -/
structure Valid (d : Data) : Prop where
  degree : 1 ≤ d.degree
  points : d.degree < d.n
  knots : d.n + d.degree + 1 ≤ d.knots.length
  small : d.knots.length < 2 ^ 32
  weights : d.n ≤ d.weights.length
  positive : ∀ i, i < d.n → 0 < d.w i
  sorted : ∀ i, i + 1 < d.knots.length → d.u i ≤ d.u (i + 1)

/-- Knots that differ do so by at least 10^-6. -/
def Spaced (d : Data) : Prop := ∀ i, i + 1 < d.knots.length → d.u i = d.u (i + 1) ∨ d.u i + tol ≤ d.u (i + 1)
end Data

/-- Specification: `N` are the values of the B-splines of degree `p` with the knots `u` at `t`: each is zero outside its `p + 1`
intervals, and Marsden's identity holds.  There is only one such `N`: `basis_unique`. -/
def IsBasis (u : ℕ → ℝ) (n p : ℕ) (t : ℝ) (N : ℕ → ℝ) : Prop :=
  (∀ i, i < n → N i ≠ 0 → u i ≤ t ∧ t < u (i + p + 1)) ∧
  ∀ x : ℝ, ∑ i ∈ Finset.range n, N i * ∏ j ∈ Finset.range p, (x - u (i + 1 + j)) = (x - t) ^ p

/-- the weighted mean of the control points with the weights `c` -/
noncomputable def mean (d : Data) (c : ℕ → ℝ) : R3 :=
  let W := ∑ i ∈ Finset.range d.n, c i
  ⟨(∑ i ∈ Finset.range d.n, c i * (d.p i).x) / W, (∑ i ∈ Finset.range d.n, c i * (d.p i).y) / W,
   (∑ i ∈ Finset.range d.n, c i * (d.p i).z) / W⟩

/-- Specification: `q` is the point of the curve for the parameter `t`. -/
def OnCurve (d : Data) (t : ℝ) (q : R3) : Prop :=
  ∃ N : ℕ → ℝ, IsBasis d.u d.n d.degree t N ∧ q = mean d fun i => d.w i * N i

end Verif.Nurbs
