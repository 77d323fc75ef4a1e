import Verif.Fp.Mono
/-
Model of src/core/Rect.cpp and include/core/Rect.h on doubles (`Verif/Fp/Model.lean`).
`Point` and `Size` are pairs of doubles with getters and setters (Point.cpp:33-76,
Size.cpp:33-80); their fields are written directly.
-/
namespace Verif.Geo
open Verif Verif.Fp

/-- include/core/Rect.h:336-337: `mOrigin` and `mSize` -/
structure Rect where
  x : F64
  y : F64
  w : F64
  h : F64
deriving DecidableEq

namespace Rect

/-- Rect.cpp:34-38 -/
def empty : Rect := ⟨zero, zero, zero, zero⟩

/-- Rect.cpp:88-91 -/
def left (r : Rect) : F64 := r.x
/-- Rect.cpp:93-96 -/
def right (r : Rect) : F64 := r.x + r.w
/-- Rect.cpp:98-101 -/
def top (r : Rect) : F64 := r.y
/-- Rect.cpp:103-106 -/
def bottom (r : Rect) : F64 := r.y + r.h

/-- Rect.cpp:243-247 -/
def shiftTop (r : Rect) (d : F64) : Rect := { r with y := r.y + d, h := r.h - d }
/-- Rect.cpp:249-253 -/
def shiftLeft (r : Rect) (d : F64) : Rect := { r with x := r.x + d, w := r.w - d }
/-- Rect.cpp:255-258 -/
def shiftRight (r : Rect) (d : F64) : Rect := { r with w := r.w + d }
/-- Rect.cpp:260-263 -/
def shiftBottom (r : Rect) (d : F64) : Rect := { r with h := r.h + d }

/-- Rect.cpp:289-292 -/
def setTop (r : Rect) (t : F64) : Rect := r.shiftTop (t - r.top)
/-- Rect.cpp:294-297 -/
def setLeft (r : Rect) (l : F64) : Rect := r.shiftLeft (l - r.left)
/-- Rect.cpp:299-302 -/
def setRight (r : Rect) (a : F64) : Rect := r.shiftRight (a - r.right)
/-- Rect.cpp:304-307 -/
def setBottom (r : Rect) (b : F64) : Rect := r.shiftBottom (b - r.bottom)

/-- Rect.cpp:214-217 -/
def moveHorizontal (r : Rect) (d : F64) : Rect := { r with x := r.x + d }
/-- Rect.cpp:219-222 -/
def moveVertical (r : Rect) (d : F64) : Rect := { r with y := r.y + d }
/-- Rect.cpp:224-227, Point.cpp:87-92 -/
def move (r : Rect) (dx dy : F64) : Rect := { r with x := r.x + dx, y := r.y + dy }
/-- Rect.cpp:229-232 -/
def alignTopLeft (r o : Rect) : Rect := { r with x := o.x, y := o.y }
/-- Rect.cpp:234-237 -/
def alignBottomLeft (r o : Rect) : Rect := { r with x := o.left, y := o.bottom - r.h }

/-- Rect.cpp:309-321, first condition -/
def normalizeX (r : Rect) : Rect := if lt r.w zero then { r with x := r.x + r.w, w := -r.w } else r
/-- Rect.cpp:309-321, second condition -/
def normalizeY (r : Rect) : Rect := if lt r.h zero then { r with y := r.y + r.h, h := -r.h } else r
/-- Rect.cpp:309-321 -/
def normalize (r : Rect) : Rect := r.normalizeX.normalizeY

/-- Rect.cpp:327-333, the four steps -/
def unionL (r o : Rect) : Rect := if lt o.left r.left then r.setLeft o.left else r
def unionT (r o : Rect) : Rect := if lt o.top r.top then r.setTop o.top else r
def unionR (r o : Rect) : Rect := if lt r.right o.right then r.setRight o.right else r
def unionB (r o : Rect) : Rect := if lt r.bottom o.bottom then r.setBottom o.bottom else r
/-- Rect.cpp:327-333 -/
def unionWith (r o : Rect) : Rect := (((r.unionL o).unionT o).unionR o).unionB o

/-- Rect.cpp:161-167, the last two lines -/
def cutSize (r o : Rect) : Rect :=
  let r := { r with w := fmin r.right o.right - r.x }
  { r with h := fmin r.bottom o.bottom - r.y }
/-- Rect.cpp:161-167 -/
def intersect (r o : Rect) : Rect :=
  let r := r.setLeft (fmax r.left o.left)
  let r := r.setTop (fmax r.top o.top)
  r.cutSize o

/-- include/core/Rect.h:296-302 -/
def contains (r : Rect) (px py : F64) : Bool :=
  le r.x px && le px (r.x + r.w) && le r.y py && le py (r.y + r.h)

/-- include/core/Rect.h:326-332 -/
def intersects (r o : Rect) : Bool :=
  le r.x (o.x + o.w) && le o.x (r.x + r.w) && le r.y (o.y + o.h) && le o.y (r.y + r.h)

/-- Rect.cpp:339-355 -/
def intersection (r o : Rect) : Rect :=
  if r.intersects o then
    let l := fmax r.left o.left
    let t := fmax r.top o.top
    let a := fmin r.right o.right
    let b := fmin r.bottom o.bottom
    ⟨l, t, a - l, b - t⟩
  else empty

end Rect
end Verif.Geo
