import Verif.Vtx.Model
/-
Model of src/core/NURBS.cpp, for any number type.
-/
namespace Verif.Nurbs
open Verif Verif.Exact Verif.Mx

/-- `uint32` arithmetic -/
def u32 (n : Nat) : Nat := n % 2 ^ 32

/-- include/core/Nurbs.h:119-148: the members; the counts are the lengths of the blocks (below 2^32) -/
structure Curve (K : Type) where
  degree : Nat
  points : List (V3 K)
  knots : List K
  weights : List K

section
variable {K : Type} [Arith K]

/-- NURBS.cpp:47-69: the arrays are copied -/
def Curve.create (degree : Nat) (points : List (V3 K)) (knots weights : List K) : Res (Curve K) :=
  if degree < 1 then .error .thrown else .ok ⟨degree, points, knots, weights⟩

/-- NURBS.cpp:81-85 -/
def basis0 (U : List K) (i : Nat) (t : K) : Res K := do
  let u ← rd U i
  if Arith.le u t then (rd U (u32 (i + 1))).bind fun v => .ok (if Arith.lt t v then one else zero)
  else .ok zero

/-- NURBS.cpp:95-103: one of the two summands -/
def part (n : Res K) (a b : K) : Res K := if !isEqual b zero then (do let n ← n; return n * a / b) else .ok zero

/-- NURBS.cpp:78-105 `N(i, k, t)` -/
def basis (U : List K) (t : K) : Nat → Nat → Res K
  | 0, i => basis0 U i t
  | k + 1, i => do
    let ui ← rd U i
    let uk ← rd U (u32 (i + (k + 1)))
    let uk1 ← rd U (u32 (i + (k + 1) + 1))
    let ui1 ← rd U (u32 (i + 1))
    let n1 ← part (basis U t k i) (t - ui) (uk - ui)
    let n2 ← part (basis U t k (u32 (i + 1))) (uk1 - t) (uk1 - ui1)
    return n1 + n2

namespace Curve

/-- NURBS.cpp:110-112: the sum in `R` -/
def weightSum (c : Curve K) (k : Nat) (t : K) : Res K :=
  (List.range c.points.length).foldlM (fun b j => do
    let w ← rd c.weights j
    let n ← basis c.knots t k j
    return b + w * n) zero

/-- NURBS.cpp:107-115 `R(i, k, t)` -/
def ratio (c : Curve K) (i k : Nat) (t : K) : Res K := do
  let w ← rd c.weights i
  let n ← basis c.knots t k i
  let b ← c.weightSum k t
  return w * n / b

/-- NURBS.cpp:117-124 -/
def point (c : Curve K) (t : K) : Res (V3 K) :=
  (List.range c.points.length).foldlM (fun P i => do
    let p ← rd c.points i
    let r ← c.ratio i c.degree t
    return P.plus (.times r p)) ⟨zero, zero, zero⟩

/-- NURBS.cpp:126-129 -/
def start (_ : Curve K) : K := zero

/-- NURBS.cpp:131-137; `mControlCount - mDegree + 2` is unsigned -/
def «end» (c : Curve K) : Res K :=
  if c.knots.length < 1 then .ok zero
  else do
    let m : K := Arith.lit (u32 (c.points.length + 2 ^ 32 - c.degree + 2)) 1
    let last ← rd c.knots (c.knots.length - 1)
    return if Arith.lt m last then last else m

/-- NURBS.cpp:149-152 -/
def knot (c : Curve K) (i : Nat) : Res K := rd c.knots i

end Curve
end
end Verif.Nurbs
