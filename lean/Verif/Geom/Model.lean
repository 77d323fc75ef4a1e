import Verif.Vtx.Model
/-
Model of src/core/Geometry.cpp, for any number type.  Objects passed by non-const reference are results; the
case that such a reference denotes one of the other arguments is in Verif/Geom/AliasProps.
-/
namespace Verif.Geom
open Verif Verif.Exact Verif.Mx

section
variable {K : Type} [Arith K]

/-- Geometry.cpp:57-60 -/
def lambda (planePos normal linePos dir : V3 K) : K :=
  (normal.x * (planePos.x - linePos.x) + normal.y * (planePos.y - linePos.y) + normal.z * (planePos.z - linePos.z))
    / (dir.x * normal.x + dir.y * normal.y + dir.z * normal.z)
/-- Geometry.cpp:37-76 -/
def intersectionPointLineAndPlane (planePos normal linePos dir : V3 K) (extend : Bool) : V3 K :=
  if normal.isNull then .invalid
  else if dir.isNull then .invalid
  else if normal.isOrthogonal dir then .invalid
  else
    let l := lambda planePos normal linePos dir
    if !extend && (isLess l zero || isGreater l one) then .invalid
    else linePos.plus (.times l dir)

/-- Geometry.cpp:115-126 -/
def closestPointOnPlane (point pos normal : V3 K) : V3 K := intersectionPointLineAndPlane pos normal point normal true
/-- Geometry.cpp:145-156 -/
def closestPointOnLine (point pos dir : V3 K) : V3 K := intersectionPointLineAndPlane point dir pos dir true
/-- Geometry.cpp:158-179: two lines -/
def closestPointLines (pos1 dir1 pos2 dir2 : V3 K) : V3 K :=
  let normal1 := dir1.crossProduct dir2
  let normal2 := dir1.crossProduct normal1
  intersectionPointLineAndPlane pos1 normal2 pos2 dir2 true
/-- Geometry.cpp:182-197: a segment -/
def closestPointSegment (point s e : V3 K) (extend : Bool) : V3 K :=
  let dir := e.minus s
  intersectionPointLineAndPlane point dir s dir extend

/-- Geometry.cpp:365-376 -/
def intersectionPoint2 (pos1 dir1 pos2 dir2 : V2 K) : V2 K :=
  if dir1.isCollinear dir2 then .invalid
  else
    let x := solveLinearSystem dir1 (.times (-(one : K)) dir2) (pos2.minus pos1)
    pos2.plus (.times x.y dir2)

/-- Geometry.cpp:414-434 -/
def crosses (s1 e1 s2 e2 : V2 K) : Bool :=
  let dir1 := e1.minus s1
  let dir2 := e2.minus s2
  if dir1.isCollinear dir2 then false
  else
    let x := solveLinearSystem dir1 (.times (-(one : K)) dir2) (s2.minus s1)
    !(isLess x.x zero || isGreater x.x one || isLess x.y zero || isGreater x.y one)

/-- `while(c(s)) s = f(s)` with at most `n` iterations: `none` if the loop is still running then -/
def whileN {S : Type} (c : S → Bool) (f : S → S) : Nat → S → Option S
  | 0, s => if c s then none else some s
  | n + 1, s => if c s then whileN c f n (f s) else some s
end

section
variable {L : Type} [Libm L]

/-- Geometry.cpp:78-113: both results -/
def intersectionPointsOfCircles (c1 : V2 L) (r1 : L) (c2 : V2 L) (r2 : L) : V2 L × V2 L :=
  let d := Libm.sqrt ((c2.x - c1.x) * (c2.x - c1.x) + (c2.y - c1.y) * (c2.y - c1.y))
  if Arith.lt (r1 + r2) d || Arith.lt d (Arith.abs (r1 - r2)) || (Arith.eq d zero && Arith.eq r1 r2) then (.invalid, .invalid)
  else
    let a := (r1 * r1 - r2 * r2 + d * d) / (two * d)
    let h := Libm.sqrt (r1 * r1 - a * a)
    let px := c1.x + a * (c2.x - c1.x) / d
    let py := c1.y + a * (c2.y - c1.y) / d
    (⟨px + h * (c2.y - c1.y) / d, py - h * (c2.x - c1.x) / d⟩, ⟨px - h * (c2.y - c1.y) / d, py + h * (c2.x - c1.x) / d⟩)

/-- Geometry.cpp:128-143: in the plane -/
def closestPointOnLine2 (point pos dir : V2 L) : V2 L :=
  let v := point.minus pos
  let d := dir.normalized
  let t := v.dotProduct d
  pos.plus (.times t d)

/-- Geometry.cpp:199-221 -/
def closestPointOnCircle (point center : V3 L) (radius : L) (normal : V3 L) : V3 L :=
  if isEqual radius zero then .invalid
  else
    let loc := closestPointOnPlane point center normal
    let r := loc.minus center
    center.plus (.times (radius / r.abs) r)

/-- Geometry.cpp:236-241 -/
def distancePointToPoint (p q : V3 L) : L := (q.minus p).abs
/-- Geometry.cpp:244-249 -/
def distancePointToPoint2 (p q : V2 L) : L := (q.minus p).abs
/-- Geometry.cpp:223-234 -/
def distancePointToPlane (point pos normal : V3 L) : L := ((closestPointOnPlane point pos normal).minus point).abs
/-- Geometry.cpp:251-263 -/
def distancePointToLine (point pos dir : V3 L) : L := ((closestPointOnLine point pos dir).minus point).abs
/-- Geometry.cpp:265-278 -/
def distancePointToSegment (point s e : V3 L) (extend : Bool) : L := ((closestPointSegment point s e extend).minus point).abs
/-- Geometry.cpp:280-292 -/
def distancePointToCircle (point center : V3 L) (radius : L) (normal : V3 L) : L :=
  ((closestPointOnCircle point center radius normal).minus point).abs
/-- Geometry.cpp:294-320 -/
def distanceLineToLine (pos1 dir1 pos2 dir2 : V3 L) : L :=
  if dir1.isCollinear dir2 then (dir1.crossProduct (pos2.minus pos1)).abs / dir1.abs
  else distancePointToPoint (closestPointLines pos2 dir2 pos1 dir1) (closestPointLines pos1 dir1 pos2 dir2)

/-- Geometry.cpp:323-330; the default of `maxDistance` is 0.0 (include/core/Geometry.h:249-252) -/
def isPointOnPlane (point pos normal : V3 L) (maxDistance : L := zero) : Bool :=
  isLess (distancePointToPlane point pos normal) maxDistance
/-- Geometry.cpp:332-338 -/
def isPointOnLine (point pos dir : V3 L) : Bool := isEqual (distancePointToLine point pos dir) zero
/-- Geometry.cpp:340-347 -/
def isPointOnSegment (point s e : V3 L) (extend : Bool) : Bool := isEqual (distancePointToSegment point s e extend) zero
/-- Geometry.cpp:349-356 -/
def isPointOnCircle (point center : V3 L) (radius : L) (normal : V3 L) : Bool :=
  isEqual (distancePointToCircle point center radius normal) zero
/-- Geometry.cpp:358-363 -/
def isSamePoint (p q : V3 L) : Bool := isEqual (distancePointToPoint p q) zero

/-- Geometry.cpp:378-412 -/
def intersectionPoint3 (pos1 dir1 pos2 dir2 : V3 L) : V3 L :=
  if isLessEqual (distanceLineToLine pos1 dir1 pos2 dir2) zero then closestPointLines pos1 dir1 pos2 dir2 else .invalid

/-- Geometry.cpp:436-479 -/
def extensionPointOnLine (origin dir s e : V2 L) : V2 L :=
  let dir2 := e.minus s
  if dir.isCollinear dir2 then .invalid
  else
    let x := solveLinearSystem dir (.times (-(one : L)) dir2) (s.minus origin)
    let l := x.y
    let i := s.plus (.times l dir2)
    if isNaN i.x || isNaN i.y then i
    else if isEqual i.x origin.x && isEqual i.y origin.y then .invalid
    else if isLess l zero || isGreater l one then .invalid
    else
      let n := dir.normalized
      let n2 := (i.minus origin).normalized
      if isEqual n.x n2.x && isEqual n.y n2.y then i else .invalid

/-- Geometry.cpp:497-499 -/
def twoPi : L := two * Libm.pi
/-- Geometry.cpp:489-514; each of the four loops runs at most `n` times, `none` if that is not enough -/
def checkAngle (n : Nat) (point center : V2 L) (start finish : L) : Option Bool := do
  let dir := point.minus center
  let angle := Libm.atan2 dir.y dir.x
  let start ← whileN (fun s => isGreaterEqual s twoPi) (· - twoPi) n start
  let finish ← whileN (fun s => isGreaterEqual s twoPi) (· - twoPi) n finish
  let finish ← whileN (fun s => isLessEqual s start) (· + twoPi) n finish
  let angle ← whileN (fun s => isLess s start) (· + twoPi) n angle
  return isLessEqual angle finish

/-- Geometry.cpp:536-544: `rt` afterwards, `none` for the early return -/
def pqRoot (rt : L) : Option L := if isLessEqual rt zero then (if isLess rt zero then none else some zero) else some rt
/-- Geometry.cpp:555-584: the choice of the point -/
def pqPick (n1 n2 : L) (pt1 pt2 : V2 L) (ok1 ok2 : Bool) : V2 L :=
  if isGreater n1 zero && isGreater n2 zero then
    if isLess n1 n2 then (if ok1 then pt1 else if ok2 then pt2 else .invalid)
    else if ok2 then pt2 else if ok1 then pt1 else .invalid
  else if isLessEqual n1 zero && ok2 then pt2
  else if isLessEqual n2 zero && ok1 then pt1
  else .invalid
/-- Geometry.cpp:526-585 -/
def pqCheck (n : Nat) (p q : L) (origin dir center : V2 L) (start finish : L) : Option (V2 L) :=
  let p2 := Arith.lit 1 2 * p
  match pqRoot (p2 * p2 - q) with
  | none => some .invalid
  | some rt =>
    let n1 := -p2 - Libm.sqrt rt
    let n2 := -p2 + Libm.sqrt rt
    if isLessEqual n1 zero && isLessEqual n2 zero then some .invalid
    else
      let pt1 := origin.plus (.times n1 dir)
      let pt2 := origin.plus (.times n2 dir)
      do
        let ok1 ← checkAngle n pt1 center start finish
        let ok2 ← checkAngle n pt2 center start finish
        return pqPick n1 n2 pt1 pt2 ok1 ok2

/-- Geometry.cpp:587-630 -/
def extensionPointOnArc (n : Nat) (origin dir center : V2 L) (radius start finish : L) : Option (V2 L) :=
  let a := dir.x * dir.x + dir.y * dir.y
  let b := two * (dir.x * origin.x - center.x * dir.x + dir.y * origin.y - center.y * dir.y)
  let c := radius * radius - origin.x * origin.x - origin.y * origin.y - center.x * center.x - center.y * center.y
    + two * origin.x * center.x + two * origin.y * center.y
  pqCheck n (b / a) (-c / a) origin dir center start finish

/-- Geometry.cpp:632-683 -/
def extensionPointOnEllipse (n : Nat) (origin' dir' center' mainAxis : V2 L) (ratio start finish : L) : Option (V2 L) :=
  let angle := Libm.atan2 center'.y center'.x
  let center := center'.rotated (-angle)
  let dir := dir'.rotated (-angle)
  let origin := origin'.rotated (-angle)
  let a := mainAxis.abs
  let b := a * ratio
  let a2 := a * a
  let b2 := b * b
  let qx := origin.x - center.x
  let qy := origin.y - center.y
  let div := dir.x * dir.x / a2 + dir.y * dir.y / b2
  let p := two * (dir.x * qx / a2 + dir.y * qy / b2) / div
  let q := (qx * qx / a2 + qy * qy / b - one) / div
  do
    let result ← pqCheck n p q origin dir center start finish
    return if result.isValid then result.rotated angle else result

/-- Geometry.cpp:685-688 -/
def angleBisector (d1 d2 : V3 L) : V3 L := d1.normalized.plus d2.normalized
/-- Geometry.cpp:690-693 -/
def angleBisector2 (d1 d2 : V2 L) : V2 L := d1.normalized.plus d2.normalized

/-- Geometry.cpp:713-723: the three rows of a minor -/
def minor (f g : V2 L → L) (p1 p2 p3 : V2 L) : Mat L :=
  .ofVertices ⟨f p1, g p1, one⟩ ⟨f p2, g p2, one⟩ ⟨f p3, g p3, one⟩ true
/-- Geometry.cpp:695-740: centre and radius; the status is always eOK because the matrices are 3 × 3 -/
def circleParameterBy3Points (p1 p2 p3 : V2 L) : Res (Status × V2 L × L) := do
  let sq := fun p : V2 L => p.x * p.x + p.y * p.y
  let (_, m11) ← (minor (·.x) (·.y) p1 p2 p3).det zero
  let (_, m12) ← (minor sq (·.y) p1 p2 p3).det zero
  let (_, m13) ← (minor sq (·.x) p1 p2 p3).det zero
  let c : V2 L := ⟨Arith.lit 1 2 * m12 / m11, -(Arith.lit 1 2 : L) * m13 / m11⟩
  return (.ok, c, (p1.minus c).abs)

/-- Geometry.cpp:742-768; `none`: eInvalidInput, the centre is not changed -/
def circleParameterBy2TangentsRadius (radius : L) (p1 dir1 p2 dir2 : V2 L) : Option (V2 L) :=
  if dir1.isCollinear dir2 then none
  else
    let ctrl := intersectionPoint2 p1 dir1 p2 dir2
    let d1 := p1.minus ctrl
    let d1 := if isEqual d1.abs zero then dir1 else d1
    let d2 := p2.minus ctrl
    let d2 := if isEqual d2.abs zero then dir2 else d2
    let bisector := (angleBisector2 d1 d2).normalized
    let angle := Arith.abs (d1.angleTo d2 / two)
    let dist := radius / Libm.sin angle
    some (ctrl.plus (.times dist bisector))
end
end Verif.Geom
