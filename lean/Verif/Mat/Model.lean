import Verif.Base
import Verif.Exact.Arith
/-
Model of src/core/Matrix.cpp, src/core/Vector.cpp and the vector operations of src/core/Vertex3.cpp it
needs, for any number type `K` (Verif/Exact/Arith.lean).

Sizes are natural numbers: a negative size makes `new` throw std::bad_array_new_length, and a matrix of
2^32 elements or more, for which the loops with `uint32` counters do not end, is not modelled.
-/
namespace Verif.Mx
open Verif Verif.Exact

/-- include/core/Vertex3.h:41-66 -/
structure V3 (K : Type) where
  x : K
  y : K
  z : K
deriving DecidableEq

/-- include/core/Matrix.h:65-80, 413-417: the data, column by column.  A null pointer is the empty block:
every access is undefined behaviour. -/
structure Mat (K : Type) where
  m : Nat
  n : Nat
  data : List K
deriving DecidableEq

/-- include/core/Vector.h:45-54 -/
structure Vec (K : Type) where
  m : Nat
  data : List K
deriving DecidableEq

/-- `data[i]` with a signed index -/
def rdI {α : Type} (d : List α) (i : Int) : Res α := if i < 0 then .error .ub else rd d i.toNat
/-- `data[i] = v` with a signed index -/
def wrI {α : Type} (d : List α) (i : Int) (v : α) : Res (List α) := if i < 0 then .error .ub else wr d i.toNat v

variable {K : Type} [Arith K]

/-- the constants 0.0, 1.0, 2.0 -/
def zero : K := Arith.lit 0 1
def one : K := Arith.lit 1 1
def two : K := Arith.lit 2 1

/-- status codes used: eOK, eError -/
inductive Status where
  | ok | error
deriving DecidableEq

namespace Mat

/-- Matrix.cpp:36-40, 131-136, 154-161 `Matrix(rows, cols)`: `init`, then every element is set to 0 -/
def new (rows cols : Nat) : Mat K := ⟨rows, cols, List.replicate (rows * cols) zero⟩
/-- Matrix.cpp:42-78; `rowwise`: the vectors are the rows, otherwise they are the columns -/
def ofVertices (c1 c2 c3 : V3 K) (rowwise : Bool) : Mat K :=
  if rowwise then ⟨3, 3, [c1.x, c2.x, c3.x, c1.y, c2.y, c3.y, c1.z, c2.z, c3.z]⟩
  else ⟨3, 3, [c1.x, c1.y, c1.z, c2.x, c2.y, c2.z, c3.x, c3.y, c3.z]⟩
/-- Matrix.cpp:80-85 -/
def null : Mat K := ⟨0, 0, []⟩
/-- Matrix.cpp:87-92 -/
def ofValue (v : K) : Mat K := ⟨1, 1, [v]⟩

/-- Matrix.cpp:103-106, 116-119, 852-855: the copy loop.  Every element below `m * n` is read. -/
def copyLoop (src : List K) (count : Nat) : Res (List K) := (List.range count).mapM (rd src)
/-- Matrix.cpp:94-110 copy constructor, and `operator=` (Matrix.cpp:841-861) for another object -/
def copy (o : Mat K) : Res (Mat K) := do
  let d ← copyLoop o.data (o.m * o.n)
  return ⟨o.m, o.n, d⟩
/-- Matrix.cpp:841-861; `same` is the test for self assignment -/
def assign (A o : Mat K) (same : Bool) : Res (Mat K) := if same then .ok A else copy o

/-- Matrix.cpp:138-142 -/
def set (A : Mat K) (row col : Int) (v : K) : Res (Mat K) := do
  let d ← wrI A.data (row + col * A.m) v
  return { A with data := d }
/-- Matrix.cpp:149-152 -/
def get (A : Mat K) (row col : Int) : Res K := rdI A.data (row + col * A.m)
/-- Matrix.cpp:144-147 -/
def addTo (A : Mat K) (row col : Int) (v : K) : Res (Mat K) := do
  let x ← rdI A.data (row + col * A.m)
  let d ← wrI A.data (row + col * A.m) (x + v)
  return { A with data := d }
/-- Matrix.cpp:154-161 -/
def zeros (A : Mat K) : Res (Mat K) := do
  let d ← (List.range (A.m * A.n)).foldlM (fun d i => wr d i zero) A.data
  return { A with data := d }

/-- Matrix.cpp:179 -/
def det2 (d : Nat → K) : K := d 0 * d 3 - d 1 * d 2
/-- Matrix.cpp:190-197 -/
def det3 (d : Nat → K) : K :=
  let p1 := d 0 * d 4 * d 8
  let p2 := d 3 * d 7 * d 2
  let p3 := d 6 * d 1 * d 5
  let m1 := d 6 * d 4 * d 2
  let m2 := d 7 * d 5 * d 0
  let m3 := d 8 * d 3 * d 1
  p1 + p2 + p3 - m1 - m2 - m3
/-- Matrix.cpp:209-235 -/
def det4 (d : Nat → K) : K :=
  let a11 := d 0
  let a21 := d 1
  let a31 := d 2
  let a41 := d 3
  let a12 := d 4
  let a22 := d 5
  let a32 := d 6
  let a42 := d 7
  let a13 := d 8
  let a23 := d 9
  let a33 := d 10
  let a43 := d 11
  let a14 := d 12
  let a24 := d 13
  let a34 := d 14
  let a44 := d 15
  let p1 := a11 * a22 * a33 * a44 + a11 * a23 * a34 * a42 + a11 * a24 * a32 * a43
  let p2 := a12 * a21 * a34 * a43 + a12 * a23 * a31 * a44 + a12 * a24 * a33 * a41
  let p3 := a13 * a21 * a32 * a44 + a13 * a22 * a34 * a41 + a13 * a24 * a31 * a42
  let p4 := a14 * a21 * a33 * a42 + a14 * a22 * a31 * a43 + a14 * a23 * a32 * a41
  let m1 := a11 * a22 * a34 * a43 + a11 * a23 * a32 * a44 + a11 * a24 * a33 * a42
  let m2 := a12 * a21 * a33 * a44 + a12 * a23 * a34 * a41 + a12 * a24 * a31 * a43
  let m3 := a13 * a21 * a34 * a42 + a13 * a22 * a31 * a44 + a13 * a24 * a32 * a41
  let m4 := a14 * a21 * a32 * a43 + a14 * a22 * a33 * a41 + a14 * a23 * a31 * a42
  p1 + p2 + p3 + p4 - m1 - m2 - m3 - m4

/-- the elements of the block as a function; only used when `count` elements have been read -/
def elems (d : List K) (i : Nat) : K := d.getD i zero

/-- reading the elements below `count`: undefined behaviour if the block is smaller -/
def readAll (d : List K) (count : Nat) : Res (Nat → K) :=
  if d.length < count then .error .ub else .ok (elems d)

/-- Matrix.cpp:163-245: the status and the new value of the argument -/
def det (A : Mat K) (arg : K) : Res (Status × K) :=
  if A.m = A.n then
    if A.m = 1 then (readAll A.data 1).map fun d => (.ok, d 0)
    else if A.m = 2 then (readAll A.data 4).map fun d => (.ok, det2 d)
    else if A.m = 3 then (readAll A.data 9).map fun d => (.ok, det3 d)
    else if A.m = 4 then (readAll A.data 16).map fun d => (.ok, det4 d)
    else .ok (.error, arg)
  else .ok (.error, arg)

/-- Matrix.cpp:272-279 -/
def inv2 (d : Nat → K) (t : K) : List K :=
  let a := d 0
  let b := d 2
  let c := d 1
  let e := d 3
  [e * t, (-c) * t, (-b) * t, a * t]
/-- Matrix.cpp:294-311 -/
def inv3 (x : Nat → K) (t : K) : List K :=
  let a := x 0
  let b := x 3
  let c := x 6
  let d := x 1
  let e := x 4
  let f := x 7
  let g := x 2
  let h := x 5
  let i := x 8
  [(e * i - f * h) * t, (f * g - d * i) * t, (d * h - e * g) * t,
   (c * h - b * i) * t, (a * i - c * g) * t, (b * g - a * h) * t,
   (b * f - c * e) * t, (c * d - a * f) * t, (a * e - b * d) * t]
/-- Matrix.cpp:327-375 -/
def inv4 (d : Nat → K) (t : K) : List K :=
  let a11 := d 0
  let a21 := d 1
  let a31 := d 2
  let a41 := d 3
  let a12 := d 4
  let a22 := d 5
  let a32 := d 6
  let a42 := d 7
  let a13 := d 8
  let a23 := d 9
  let a33 := d 10
  let a43 := d 11
  let a14 := d 12
  let a24 := d 13
  let a34 := d 14
  let a44 := d 15
  [(a22 * a33 * a44 + a23 * a34 * a42 + a24 * a32 * a43 - a22 * a34 * a43 - a23 * a32 * a44 - a24 * a33 * a42) * t,
   (a21 * a34 * a43 + a23 * a31 * a44 + a24 * a33 * a41 - a21 * a33 * a44 - a23 * a34 * a41 - a24 * a31 * a43) * t,
   (a21 * a32 * a44 + a22 * a34 * a41 + a24 * a31 * a42 - a21 * a34 * a42 - a22 * a31 * a44 - a24 * a32 * a41) * t,
   (a21 * a33 * a42 + a22 * a31 * a43 + a23 * a32 * a41 - a21 * a32 * a43 - a22 * a33 * a41 - a23 * a31 * a42) * t,
   (a12 * a34 * a43 + a13 * a32 * a44 + a14 * a33 * a42 - a12 * a33 * a44 - a13 * a34 * a42 - a14 * a32 * a43) * t,
   (a11 * a33 * a44 + a13 * a34 * a41 + a14 * a31 * a43 - a11 * a34 * a43 - a13 * a31 * a44 - a14 * a33 * a41) * t,
   (a11 * a34 * a42 + a12 * a31 * a44 + a14 * a32 * a41 - a11 * a32 * a44 - a12 * a34 * a41 - a14 * a31 * a42) * t,
   (a11 * a32 * a43 + a12 * a33 * a41 + a13 * a31 * a42 - a11 * a33 * a42 - a12 * a31 * a43 - a13 * a32 * a41) * t,
   (a12 * a23 * a44 + a13 * a24 * a42 + a14 * a22 * a43 - a12 * a24 * a43 - a13 * a22 * a44 - a14 * a23 * a42) * t,
   (a11 * a24 * a43 + a13 * a21 * a44 + a14 * a23 * a41 - a11 * a23 * a44 - a13 * a24 * a41 - a14 * a21 * a43) * t,
   (a11 * a22 * a44 + a12 * a24 * a41 + a14 * a21 * a42 - a11 * a24 * a42 - a12 * a21 * a44 - a14 * a22 * a41) * t,
   (a11 * a23 * a42 + a12 * a21 * a43 + a13 * a22 * a41 - a11 * a22 * a43 - a12 * a23 * a41 - a13 * a21 * a42) * t,
   (a12 * a24 * a33 + a13 * a22 * a34 + a14 * a23 * a32 - a12 * a23 * a34 - a13 * a24 * a32 - a14 * a22 * a33) * t,
   (a11 * a23 * a34 + a13 * a24 * a31 + a14 * a21 * a33 - a11 * a24 * a33 - a13 * a21 * a34 - a14 * a23 * a31) * t,
   (a11 * a24 * a32 + a12 * a21 * a34 + a14 * a22 * a31 - a11 * a22 * a34 - a12 * a24 * a31 - a14 * a21 * a32) * t,
   (a11 * a22 * a33 + a12 * a23 * a31 + a13 * a21 * a32 - a11 * a23 * a32 - a12 * a21 * a33 - a13 * a22 * a31) * t]

/-- Matrix.cpp:249-382: the status and the matrix afterwards -/
def inverse (A : Mat K) : Res (Status × Mat K) :=
  if A.m = A.n then
    if A.m = 1 then (readAll A.data 1).map fun d => (.ok, { A with data := [one / d 0] })
    else if A.m = 2 then (readAll A.data 4).map fun d => (.ok, { A with data := inv2 d (one / det2 d) })
    else if A.m = 3 then (readAll A.data 9).map fun d => (.ok, { A with data := inv3 d (one / det3 d) })
    else if A.m = 4 then (readAll A.data 16).map fun d => (.ok, { A with data := inv4 d (one / det4 d) })
    else .ok (.error, A)
  else .ok (.error, A)

/-- two nested loops that write to the block `d`: `for r in rows, for c in cols: d[at r c] = v r c` -/
def fill (rows cols : Nat) (at' : Nat → Nat → Int) (v : Nat → Nat → Res K) (d : List K) : Res (List K) :=
  (List.range rows).foldlM (fun d r => (List.range cols).foldlM (fun d c => do
    let x ← v r c
    wrI d (at' r c) x) d) d

/-- Matrix.cpp:384-398 -/
def transpose (A : Mat K) : Res (Mat K) := do
  let tmp ← copy A
  let d ← fill tmp.m tmp.n (fun a b => (b : Int) + a * (A.n : Nat)) (fun a b => tmp.get a b) A.data
  return ⟨A.n, A.m, d⟩

/-- Matrix.cpp:401-413 -/
def insert (M A : Mat K) : Res (Mat K) := do
  let d ← fill (min M.m A.m) (min M.n A.n) (fun r c => (r : Int) + c * (M.m : Nat))
    (fun r c => rdI A.data ((r : Int) + c * (A.m : Nat))) M.data
  return { M with data := d }

/-- Matrix.cpp:416-428: no iteration if `_r` or `_c` is beyond the matrix -/
def insertAt (M A : Mat K) (r' c' : Int) : Res (Mat K) := do
  let rows := (min ((M.m : Int) - r') (A.m : Int)).toNat
  let cols := (min ((M.n : Int) - c') (A.n : Int)).toNat
  let d ← fill rows cols (fun r c => ((r : Int) + r') + ((c : Int) + c') * (M.m : Nat))
    (fun r c => rdI A.data ((r : Int) + c * (A.m : Nat))) M.data
  return { M with data := d }

/-- Matrix.cpp:430-438 -/
def diag (A : Mat K) (v : K) : Res (Mat K) := do
  let d ← (List.range (min A.m A.n)).foldlM (fun d i => wr d (i * (A.m + 1)) v) A.data
  return { A with data := d }

/-- `sum += fabs(x)`, beginning with 0 -/
def sumAbs (count : Nat) (x : Nat → Res K) : Res K :=
  (List.range count).foldlM (fun s i => do
    let v ← x i
    return s + Arith.abs v) zero
/-- the largest of the sums, beginning with 0: `if(sum > norm)norm = sum` -/
def largest (count : Nat) (sum : Nat → Res K) : Res K :=
  (List.range count).foldlM (fun n i => do
    let s ← sum i
    return if Arith.lt n s then s else n) zero
/-- Matrix.cpp:452-462 -/
def norm1 (A : Mat K) : Res K := largest A.n fun col => sumAbs A.m fun row => A.get row col
/-- Matrix.cpp:465-475 -/
def normInf (A : Mat K) : Res K := largest A.m fun row => sumAbs A.n fun col => A.get row col

/-- Matrix.cpp:498-511 -/
def nonZeroElementCount (A : Mat K) : Res Nat :=
  (List.range A.m).foldlM (fun cnt (r : Nat) => (List.range A.n).foldlM (fun cnt (c : Nat) => do
    let x ← A.get r c
    return if Arith.eq x zero then cnt else cnt + 1) cnt) 0

/-- Matrix.cpp:513-526 -/
def trace (A : Mat K) : Res K :=
  (List.range (min A.m A.n)).foldlM (fun s i => do
    let x ← rd A.data (i * (A.m + 1))
    return s + x) zero

/-- Matrix.cpp:899-904, the inner loop -/
def dotLoop (A B : Mat K) (i j : Nat) (r : List K) : Res (List K) :=
  (List.range A.n).foldlM (fun r k => do
    let a ← rd A.data (i + k * A.m)
    let b ← rd B.data (k + j * B.m)
    let x ← rd r (i + j * A.m)
    wr r (i + j * A.m) (x + a * b)) r
/-- Matrix.cpp:879-909 `operator*` -/
def mul (A B : Mat K) : Res (Mat K) :=
  if A.n ≠ B.m then .error .thrown
  else do
    let d ← (List.range A.m).foldlM (fun d i => (List.range B.n).foldlM (fun d j => dotLoop A B i j d) d)
      (new A.m B.n : Mat K).data
    return ⟨A.m, B.n, d⟩

/-- Matrix.cpp:911-934 and 936-959: `operator+`, `operator-`; the same test as for the product -/
def zip (f : K → K → K) (A B : Mat K) : Res (Mat K) :=
  if A.n ≠ B.m then .error .thrown
  else do
    let d ← fill A.m B.n (fun i j => (i : Int) + j * (A.m : Nat)) (fun i j => do
      let a ← rd A.data (i + j * A.m)
      let b ← rd B.data (i + j * A.m)
      return f a b) (new A.m B.n : Mat K).data
    return ⟨A.m, B.n, d⟩
/-- Matrix.cpp:911-934 -/
def add (A B : Mat K) : Res (Mat K) := zip (· + ·) A B
/-- Matrix.cpp:936-959 -/
def sub (A B : Mat K) : Res (Mat K) := zip (· - ·) A B

/-- Matrix.cpp:965-968, 982-985 -/
def mapLoop (f : K → K) (A : Mat K) : Res (Mat K) := do
  let d ← (List.range (A.m * A.n)).foldlM (fun r i => do
    let a ← rd A.data i
    wr r i (f a)) (new A.m A.n : Mat K).data
  return ⟨A.m, A.n, d⟩
/-- Matrix.cpp:961-971, and 973-976 with the arguments exchanged -/
def smul (d : K) (A : Mat K) : Res (Mat K) := mapLoop (d * ·) A
/-- Matrix.cpp:978-988 -/
def sdiv (A : Mat K) (d : K) : Res (Mat K) := mapLoop (· / d) A

/-- Matrix.cpp:864-877 `operator*(Matrix, Vertex3)` -/
def mulV3 (A : Mat K) (b : V3 K) : Res (V3 K) :=
  if A.m ≠ 3 ∨ A.n ≠ 3 then .error .thrown
  else (readAll A.data 9).map fun d =>
    ⟨d 0 * b.x + d 3 * b.y + d 6 * b.z, d 1 * b.x + d 4 * b.y + d 7 * b.z, d 2 * b.x + d 5 * b.y + d 8 * b.z⟩

/-- Matrix.cpp:1145-1165 `operator*(Matrix, Vector)` -/
def mulVec (A : Mat K) (b : Vec K) : Res (Vec K) :=
  if A.n ≠ b.m then .error .thrown
  else do
    let d ← (List.range A.m).mapM fun (r : Nat) => (List.range A.n).foldlM (fun s (c : Nat) => do
      let x ← rd b.data c
      let a ← A.get r c
      return s + x * a) zero
    return ⟨A.m, d⟩

/-! ### Transformations -/

/-- Matrix.cpp:606, 613, 631, 684, 700, 711, 739, 759: `if(m != 4 || n != 4) init(4, 4)` and `zeros()`
(the block that was there before is not freed), with the elements set afterwards: column by column -/
def mat4 (d : List K) : Mat K := ⟨4, 4, d⟩

/-- Matrix.cpp:604-609 -/
def identity : Mat K :=
  mat4 [one, zero, zero, zero, zero, one, zero, zero, zero, zero, one, zero, zero, zero, zero, one]

/-- Matrix.cpp:682-696 -/
def moving (d : V3 K) : Mat K :=
  mat4 [one, zero, zero, zero, zero, one, zero, zero, zero, zero, one, zero, d.x, d.y, d.z, one]

/-- Matrix.cpp:698-707 -/
def scaling (f : V3 K) : Mat K :=
  mat4 [f.x, zero, zero, zero, zero, f.y, zero, zero, zero, zero, f.z, zero, zero, zero, zero, one]

/-- Matrix.cpp:709-735 -/
def scalingAt (p : V3 K) (f : K) : Mat K :=
  mat4 [f, zero, zero, zero, zero, f, zero, zero, zero, zero, f, zero,
    p.x - f * p.x, p.y - f * p.y, p.z - f * p.z, one]

/-- Matrix.cpp:629-680; the constant `-2.0` is the negated constant -/
def mirroring (p nrm : V3 K) : Mat K :=
  let a := nrm.x
  let b := nrm.y
  let c := nrm.z
  let d := -p.x * nrm.x - p.y * nrm.y - p.z * nrm.z
  mat4 [one - two * a * a, -two * a * b, -two * a * c, zero,
    -two * b * a, one - two * b * b, -two * b * c, zero,
    -two * a * c, -two * b * c, one - two * c * c, zero,
    -two * a * d, -two * b * d, -two * c * d, one]

/-- Matrix.cpp:796-808 `trans(Vertex3)` -/
def trans (A : Mat K) (v : V3 K) : Res (V3 K) := do
  let mx ← copy A
  let out ← mx.mulVec ⟨4, [v.x, v.y, v.z, one]⟩
  let x ← rd out.data 0
  let y ← rd out.data 1
  let z ← rd out.data 2
  return ⟨x, y, z⟩

section libm
variable {L : Type} [Libm L]

/-- Matrix.cpp:990-1023 -/
def rotation (angle : L) (axis : V3 L) : Mat L :=
  let x := axis.x
  let y := axis.y
  let z := axis.z
  let c := Libm.cos angle
  let s := Libm.sin angle
  ⟨3, 3, [c + x * x * (one - c), y * x * (one - c) + z * s, z * x * (one - c) - y * s,
    x * y * (one - c) - z * s, c + y * y * (one - c), y * z * (one - c) + x * s,
    x * z * (one - c) + y * s, y * z * (one - c) - x * s, c + z * z * (one - c)]⟩
/-- Matrix.cpp:1025-1043 -/
def rotationX (angle : L) : Mat L :=
  ⟨3, 3, [one, zero, zero, zero, Libm.cos angle, Libm.sin angle, zero, -Libm.sin angle, Libm.cos angle]⟩
/-- Matrix.cpp:1045-1063 -/
def rotationY (angle : L) : Mat L :=
  ⟨3, 3, [Libm.cos angle, zero, -Libm.sin angle, zero, one, zero, Libm.sin angle, zero, Libm.cos angle]⟩
/-- Matrix.cpp:1065-1083 -/
def rotationZ (angle : L) : Mat L :=
  ⟨3, 3, [Libm.cos angle, Libm.sin angle, zero, -Libm.sin angle, Libm.cos angle, zero, zero, zero, one]⟩

/-- Matrix.cpp:737-753 -/
def rotationZ4 (angle : L) : Mat L :=
  let r := elems (rotationZ angle).data
  mat4 [r 0, r 1, r 2, zero, r 3, r 4, r 5, zero, r 6, r 7, r 8, zero, zero, zero, zero, one]
/-- Matrix.cpp:755-794 -/
def rotationAt (p axis : V3 L) (angle : L) : Mat L :=
  let r := elems (rotation angle axis).data
  let x := p.x
  let y := p.y
  let z := p.z
  mat4 [r 0, r 1, r 2, zero, r 3, r 4, r 5, zero, r 6, r 7, r 8, zero,
    x - x * r 0 - y * r 3 - z * r 6, y - x * r 1 - y * r 4 - z * r 7, z - x * r 2 - y * r 5 - z * r 8, one]

end libm
end Mat
end Verif.Mx
