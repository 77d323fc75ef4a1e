import Verif.Fp.Sqrt
import Verif.Vtx.Model
import Verif.Geom.Model
/-
Lengths, distances and unit vectors computed with doubles.  The functions are those of Verif/Vtx/Model.lean and
Verif/Geom/Model.lean, which are written for any numbers; here the numbers are doubles, `sqrt` is the root of
Verif/Fp/Sqrt.lean, and nothing is assumed about the other functions of libm unless a theorem says so.
-/
namespace Verif.FpLen
open Verif Verif.Fp Verif.Exact
open Verif.Mx (V2 V3 Vec)

/-- the functions of libm other than `sqrt` -/
structure Lib where
  cos : F64 → F64
  sin : F64 → F64
  acos : F64 → F64
  atan2 : F64 → F64 → F64
  pi : F64

/-- doubles with the functions of libm -/
@[reducible] def Lib.libm (c : Lib) : Libm F64 :=
  { (inferInstance : Arith F64) with sqrt := Fp.sqrt, cos := c.cos, sin := c.sin, acos := c.acos, atan2 := c.atan2, pi := c.pi }

attribute [local irreducible] Fp.one Fp.lit

variable (c : Lib)

/-- Vertex2.cpp:50-53 `Vertex2::abs` -/
def abs2 (v : V2 F64) : F64 := @V2.abs F64 c.libm v
/-- Vertex3.cpp:82-85 `Vertex3::abs` -/
def abs3 (v : V3 F64) : F64 := @V3.abs F64 c.libm v
/-- Vector.cpp:67-76 `Vector::abs` -/
def absN (v : Vec F64) : Res F64 := @Vec.abs F64 c.libm v
/-- Vertex2.cpp:55-60, 62-67 `Vertex2::normalize`, `normalized` -/
def unit2 (v : V2 F64) : V2 F64 := @V2.normalized F64 c.libm v
/-- Vertex3.cpp:147-152, 154-159 `Vertex3::normalize`, `normalized` -/
def unit3 (v : V3 F64) : V3 F64 := @V3.normalized F64 c.libm v
/-- Geometry.cpp:244-249 `distancePointToPoint` -/
def dist2 (p q : V2 F64) : F64 := @Geom.distancePointToPoint2 F64 c.libm p q
/-- Geometry.cpp:236-241 `distancePointToPoint` -/
def dist3 (p q : V3 F64) : F64 := @Geom.distancePointToPoint F64 c.libm p q
/-- Vertex3.cpp:76-80 `Vertex3::angleTo` -/
def angle3 (v w : V3 F64) : F64 := @V3.angleTo F64 c.libm v w
/-- Vertex2.cpp:89-99 `Vertex2::angleTo` -/
def angle2 (v w : V2 F64) : F64 := @V2.angleTo F64 c.libm v w

theorem abs2_eq (v : V2 F64) : abs2 c v = Fp.sqrt (v.x * v.x + v.y * v.y) := rfl
theorem abs3_eq (v : V3 F64) : abs3 c v = Fp.sqrt (v.x * v.x + v.y * v.y + v.z * v.z) := rfl
theorem dist2_eq (p q : V2 F64) : dist2 c p q = abs2 c ⟨q.x - p.x, q.y - p.y⟩ := rfl
theorem dist3_eq (p q : V3 F64) : dist3 c p q = abs3 c ⟨q.x - p.x, q.y - p.y, q.z - p.z⟩ := rfl
theorem angle3_eq (v w : V3 F64) : angle3 c v w = c.acos ((v.x * w.x + v.y * w.y + v.z * w.z) / (abs3 c v * abs3 c w)) := rfl
theorem angle2_eq (v w : V2 F64) : angle2 c v w = c.acos ((v.x * w.x + v.y * w.y) / (abs2 c v * abs2 c w)) *
    (if Fp.lt (lit 0 1) (v.x * w.y - v.y * w.x) then lit 1 1 else -(lit 1 1)) := rfl
theorem unit3_eq (v : V3 F64) : unit3 c v = if isEqual (abs3 c v) (lit 0 1) then v else
    ⟨lit 1 1 / abs3 c v * v.x, lit 1 1 / abs3 c v * v.y, lit 1 1 / abs3 c v * v.z⟩ := rfl
theorem unit2_eq (v : V2 F64) : unit2 c v = if isEqual (abs2 c v) (lit 0 1) then v else
    ⟨lit 1 1 / abs2 c v * v.x, lit 1 1 / abs2 c v * v.y⟩ := rfl

end Verif.FpLen
