import Verif.Mat.Model
/-
Model of src/core/Vertex3.cpp, src/core/Vertex2.cpp, src/core/Vector.cpp, src/core/Transform.cpp and the parts of
src/core/Matrix.cpp that need vectors, for any number type.  Not modelled: output to streams and strings.
-/
namespace Verif.Mx
open Verif Verif.Exact

/-- include/core/Vertex2.h:44-60 -/
structure V2 (K : Type) where
  x : K
  y : K
deriving DecidableEq

section
variable {K : Type} [Arith K]

namespace V3
/-- Vertex3.cpp:191-194, 238-244 -/
def plus (a b : V3 K) : V3 K := ⟨a.x + b.x, a.y + b.y, a.z + b.z⟩
/-- Vertex3.cpp:196-199, 246-252 -/
def minus (a b : V3 K) : V3 K := ⟨a.x - b.x, a.y - b.y, a.z - b.z⟩
/-- Vertex3.cpp:201-209: both orders of the factors -/
def times (d : K) (v : V3 K) : V3 K := ⟨d * v.x, d * v.y, d * v.z⟩
/-- Vertex3.cpp:223-226 -/
def over (v : V3 K) (d : K) : V3 K := ⟨v.x / d, v.y / d, v.z / d⟩
/-- Vertex3.cpp:54-59 -/
def crossProduct (a b : V3 K) : V3 K := ⟨a.y * b.z - a.z * b.y, a.z * b.x - a.x * b.z, a.x * b.y - a.y * b.x⟩
/-- Vertex3.cpp:61-64 -/
def dotProduct (a b : V3 K) : K := a.x * b.x + a.y * b.y + a.z * b.z
/-- Vertex3.cpp:71-74 -/
def isOrthogonal (a b : V3 K) : Bool := isEqual (a.dotProduct b) zero
/-- Vertex3.cpp:87-90 -/
def isNull (v : V3 K) : Bool := isEqual v.x zero && isEqual v.y zero && isEqual v.z zero
/-- Vertex3.cpp:92-95 -/
def isValid (v : V3 K) : Bool := !(isNaN v.x || isNaN v.y || isNaN v.z)
/-- Vertex3.cpp:161-164 -/
def scale (a b : V3 K) : V3 K := ⟨a.x * b.x, a.y * b.y, a.z * b.z⟩
/-- Vertex3.cpp:166-169 -/
def biggest (v : V3 K) : K :=
  if Arith.lt v.y v.x && Arith.lt v.z v.x then v.x else if Arith.lt v.x v.y && Arith.lt v.z v.y then v.y else v.z
/-- Vertex3.cpp:233-236 -/
def eq (a b : V3 K) : Bool := isEqual a.x b.x && isEqual a.y b.y && isEqual a.z b.z
/-- Vertex3.cpp:228-231 -/
def ne (a b : V3 K) : Bool := isNotEqual a.x b.x || isNotEqual a.y b.y || isNotEqual a.z b.z
/-- `Vertex3(NAN, NAN, NAN)` -/
def invalid : V3 K := ⟨Arith.nan, Arith.nan, Arith.nan⟩
end V3

/-- Vertex3.cpp:266-272 -/
def isLinearIndependent (a b c : V3 K) : Res Bool := do
  let (_, d) ← (Mat.ofVertices a b c false).det zero
  return isNotEqual d zero

namespace V2
/-- Vertex2.cpp:147-152, 162-168 -/
def plus (a b : V2 K) : V2 K := ⟨a.x + b.x, a.y + b.y⟩
/-- Vertex2.cpp:154-159, 170-176 -/
def minus (a b : V2 K) : V2 K := ⟨a.x - b.x, a.y - b.y⟩
/-- Vertex2.cpp:178-186 -/
def times (d : K) (v : V2 K) : V2 K := ⟨d * v.x, d * v.y⟩
/-- Vertex2.cpp:188-191 -/
def over (v : V2 K) (d : K) : V2 K := ⟨v.x / d, v.y / d⟩
/-- Vertex2.cpp:69-72 -/
def crossProduct (a b : V2 K) : K := a.x * b.y - a.y * b.x
/-- Vertex2.cpp:74-77 -/
def dotProduct (a b : V2 K) : K := a.x * b.x + a.y * b.y
/-- Vertex2.cpp:79-82 -/
def isCollinear (a b : V2 K) : Bool := isEqual (a.crossProduct b) zero
/-- Vertex2.cpp:84-87 -/
def isOrthogonal (a b : V2 K) : Bool := isEqual (a.dotProduct b) zero
/-- Vertex2.cpp:101-106 -/
def isRightTo (a b : V2 K) : Bool := Arith.lt zero (b.x * -a.y + b.y * a.x)
/-- Vertex2.cpp:108-113 -/
def isLeftTo (a b : V2 K) : Bool := Arith.lt (b.x * -a.y + b.y * a.x) zero
/-- Vertex2.cpp:136-139 -/
def scale (a b : V2 K) : V2 K := ⟨a.x * b.x, a.y * b.y⟩
/-- Vertex2.cpp:141-144 -/
def isValid (v : V2 K) : Bool := !(isNaN v.x || isNaN v.y)
/-- Vertex2.cpp:193-196 -/
def eq (a b : V2 K) : Bool := isEqual a.x b.x && isEqual a.y b.y
/-- Vertex2.cpp:198-201 -/
def ne (a b : V2 K) : Bool := isNotEqual a.x b.x || isNotEqual a.y b.y
/-- `Vertex2(NAN, NAN)` -/
def invalid : V2 K := ⟨Arith.nan, Arith.nan⟩
end V2

/-- Vertex2.cpp:231-241: elimination and back substitution -/
def eliminate (A1 A2 B1 B2 R1 R2 : K) : V2 K :=
  let F := A2 / A1
  let B2' := B2 - F * B1
  let R2' := R2 - F * R1
  let B := R2' / B2'
  ⟨(R1 - B * B1) / A1, B⟩
/-- Vertex2.cpp:209-242 -/
def solveLinearSystem (a b r : V2 K) : V2 K :=
  if isEqual a.x zero then eliminate a.y a.x b.y b.x r.y r.x else eliminate a.x a.y b.x b.y r.x r.y

namespace Vec
/-- Vector.cpp:42-47 -/
def new (rows : Nat) : Vec K := ⟨rows, List.replicate rows zero⟩
/-- Vector.cpp:95-103; the length of the other vector is not tested -/
def dotProduct (a b : Vec K) : Res K :=
  (List.range a.m).foldlM (fun s i => do
    let x ← rd a.data i
    let y ← rd b.data i
    return s + x * y) zero
/-- Vector.cpp:130-138, 140-149 -/
def zip (f : K → K → K) (a b : Vec K) : Res (Vec K) :=
  if a.m ≠ b.m then .error .thrown
  else do
    let d ← (List.range a.m).mapM fun i => do
      let x ← rd a.data i
      let y ← rd b.data i
      return f x y
    return ⟨a.m, d⟩
/-- Vector.cpp:130-138 -/
def add (a b : Vec K) : Res (Vec K) := zip (· + ·) a b
/-- Vector.cpp:140-149 -/
def sub (a b : Vec K) : Res (Vec K) := zip (· - ·) a b
/-- Vector.cpp:151-159 -/
def smul (d : K) (v : Vec K) : Res (Vec K) := do
  let r ← (List.range v.m).mapM fun i => do
    let x ← rd v.data i
    return d * x
  return ⟨v.m, r⟩
end Vec
end

section
variable {L : Type} [Libm L]

namespace V3
/-- Vertex3.cpp:82-85 -/
def abs (v : V3 L) : L := Libm.sqrt (v.x * v.x + v.y * v.y + v.z * v.z)
/-- Vertex3.cpp:66-69 -/
def isCollinear (a b : V3 L) : Bool := isEqual (a.crossProduct b).abs zero
/-- Vertex3.cpp:76-80 -/
def angleTo (a b : V3 L) : L := Libm.acos (a.dotProduct b / (a.abs * b.abs))
/-- Vertex3.cpp:147-152 (in place), 154-159 -/
def normalized (v : V3 L) : V3 L := if isEqual v.abs zero then v else times (one / v.abs) v
/-- Vertex3.cpp:98-107 -/
def rotateX (v : V3 L) (angle : L) : Res (V3 L) := (Mat.rotationX angle).mulV3 v
/-- Vertex3.cpp:109-118 -/
def rotateY (v : V3 L) (angle : L) : Res (V3 L) := (Mat.rotationY angle).mulV3 v
/-- Vertex3.cpp:120-129, 131-136 -/
def rotateZ (v : V3 L) (angle : L) : Res (V3 L) := (Mat.rotationZ angle).mulV3 v
/-- Vertex3.cpp:138-145 -/
def rotate (v : V3 L) (angle : L) (axis : V3 L) : Res (V3 L) := (Mat.rotation angle axis).mulV3 v
end V3

namespace V2
/-- Vertex2.cpp:50-53 -/
def abs (v : V2 L) : L := Libm.sqrt (v.x * v.x + v.y * v.y)
/-- Vertex2.cpp:55-60 (in place), 62-67 -/
def normalized (v : V2 L) : V2 L := if isEqual v.abs zero then v else times (one / v.abs) v
/-- Vertex2.cpp:89-99 -/
def angleTo (a b : V2 L) : L :=
  Libm.acos (a.dotProduct b / (a.abs * b.abs)) * (if Arith.lt zero (a.crossProduct b) then one else -(one : L))
/-- Vertex2.cpp:115-124 (in place), 126-133 -/
def rotated (v : V2 L) (angle : L) : V2 L :=
  ⟨v.x * Libm.cos angle - v.y * Libm.sin angle, v.x * Libm.sin angle + v.y * Libm.cos angle⟩
end V2

namespace Vec
/-- Vector.cpp:67-76 -/
def abs (v : Vec L) : Res L := do
  let s ← v.dotProduct v
  return Libm.sqrt s
/-- Vector.cpp:78-83 -/
def normalize (v : Vec L) : Res (Vec L) := do
  let a ← v.abs
  let r ← (List.range v.m).mapM fun i => do
    let x ← rd v.data i
    return x / a
  return ⟨v.m, r⟩
end Vec

namespace Mat
/-- Matrix.cpp:810-816 -/
def transLength (A : Mat L) (value : L) : Res L := do
  let p1 ← A.trans ⟨zero, zero, zero⟩
  let p2 ← A.trans ⟨value, zero, zero⟩
  return (p2.minus p1).abs
/-- Matrix.cpp:818-835 -/
def transAngle (A : Mat L) (angle : L) : Res L := do
  let x : V3 L := ⟨one, zero, zero⟩
  let dir ← x.rotateZ angle
  let dir ← A.trans dir
  let center ← A.trans ⟨zero, zero, zero⟩
  return (dir.minus center).angleTo x

/-- Matrix.cpp:1097-1116: half a turn around a vector across `u` -/
def halfTurn (u : V3 L) : Mat L :=
  let o : V3 L := if Arith.lt (Arith.abs u.y) (Arith.abs u.x) then ⟨-u.z, zero, u.x⟩ else ⟨zero, -u.z, u.y⟩
  let o := o.normalized
  ⟨3, 3, [-(one : L) + two * o.x * o.x, two * o.y * o.x, two * o.z * o.x,
    two * o.x * o.y, -(one : L) + two * o.y * o.y, two * o.z * o.y,
    two * o.x * o.z, two * o.y * o.z, -(one : L) + two * o.z * o.z]⟩
/-- Matrix.cpp:1126-1140 -/
def turn (axis : V3 L) (c s : L) : Mat L :=
  ⟨3, 3, [c + axis.x * axis.x * (one - c), axis.y * axis.x * (one - c) + axis.z * s, axis.z * axis.x * (one - c) - axis.y * s,
    axis.x * axis.y * (one - c) - axis.z * s, c + axis.y * axis.y * (one - c), axis.z * axis.y * (one - c) + axis.x * s,
    axis.x * axis.z * (one - c) + axis.y * s, axis.y * axis.z * (one - c) - axis.x * s, c + axis.z * axis.z * (one - c)]⟩
/-- Matrix.cpp:1085-1142 `generate3x3RotationMatrix(u, v)` -/
def rotationUV (u v : V3 L) : Mat L :=
  let un := u.normalized
  let vn := v.normalized
  let c := un.dotProduct vn
  if isEqual c (-(one : L)) then halfTurn un
  else turn (u.crossProduct v).normalized c (Libm.sqrt (one - c * c))

/-- Transform.cpp:21-42 -/
def ocsMatrix (e : V3 L) : Mat L :=
  let wy : V3 L := ⟨zero, one, zero⟩
  let wz : V3 L := ⟨zero, zero, one⟩
  let b : L := one / Arith.lit 64 1
  let ox := (if Arith.lt (Arith.abs e.x) b && Arith.lt (Arith.abs e.y) b then wy.crossProduct e else wz.crossProduct e).normalized
  let oy := (e.crossProduct ox).normalized
  ofVertices ox oy e true
/-- Transform.cpp:44-50; the status is ignored -/
def wcsMatrix (e : V3 L) : Res (Mat L) := do
  let (_, w) ← (ocsMatrix e).inverse
  return w
/-- Transform.cpp:53-61 -/
def wcsToOcs (wcs e : V3 L) : Res (V3 L) := (ocsMatrix e).mulV3 wcs
/-- Transform.cpp:63-70 -/
def ocsToWcs (ocs e : V3 L) : Res (V3 L) := do
  let w ← wcsMatrix e
  w.mulV3 ocs
/-- Matrix.cpp:611-627 -/
def initWcs (e : V3 L) : Res (Mat L) := do
  let w ← wcsMatrix e
  let r := elems w.data
  return mat4 [r 0, r 1, r 2, zero, r 3, r 4, r 5, zero, r 6, r 7, r 8, zero, zero, zero, zero, one]

/-- Matrix.cpp:542-552 -/
def eigen2 (A : Mat L) : Res (Vec L) := do
  let tr ← A.trace
  let (_, d) ← A.det zero
  let gap := Libm.sqrt (tr * tr - Arith.lit 4 1 * d)
  return ⟨2, [(tr - gap) / two, (tr + gap) / two]⟩
/-- Matrix.cpp:569-596; `M_2PI` is `2 * M_PI` -/
def eigenSym (A : Mat L) (p1 : L) : Res (Vec L) := do
  let three : L := Arith.lit 3 1
  let tr ← A.trace
  let q := tr / three
  let a00 ← A.get 0 0
  let a11 ← A.get 1 1
  let a22 ← A.get 2 2
  let p2 := (a00 - q) * (a00 - q) + (a11 - q) * (a11 - q) + (a22 - q) * (a22 - q) + two * p1
  let p := Libm.sqrt (p2 / Arith.lit 6 1)
  let I ← (new 3 3 : Mat L).diag one
  let qI ← smul q I
  let D ← sub A qI
  let B ← smul (one / p) D
  let (_, detB) ← B.det zero
  let r := detB / two
  let phi := if Arith.le r (-(one : L)) then Libm.pi / three else if Arith.le one r then zero else Libm.acos r / three
  let eig1 := q + two * p * Libm.cos phi
  let eig3 := q + two * p * Libm.cos (phi + two * Libm.pi / three)
  let eig2 := three * q - eig1 - eig3
  return ⟨3, [eig1, eig2, eig3]⟩
/-- Matrix.cpp:528-602; `pow(x, 2.0)` is written `x * x` -/
def eigen (A : Mat L) : Res (Vec L) :=
  if A.m ≠ A.n then .error .thrown
  else if A.m = 1 then do
    let x ← A.get 0 0
    return ⟨1, [x]⟩
  else if A.m = 2 then eigen2 A
  else if A.m = 3 then do
    let a01 ← A.get 0 1
    let a02 ← A.get 0 2
    let a12 ← A.get 1 2
    let p1 := a01 * a01 + a02 * a02 + a12 * a12
    if Arith.eq p1 zero then do
      let a00 ← A.get 0 0
      let a11 ← A.get 1 1
      let a22 ← A.get 2 2
      return ⟨3, [a00, a11, a22]⟩
    else eigenSym A p1
  else .error .thrown
end Mat
end
end Verif.Mx
