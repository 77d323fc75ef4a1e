import Verif.Sort.Model
/-
Model of src/core/ByteArray.cpp and of the Array template (include/core/Array.h).
A memory cell that was allocated but never written is `none` (indeterminate).  `resize` frees the old block
with `delete` instead of `delete[]`; this mismatch is not modelled.  Allocation failure is not modelled.
-/
namespace Verif.Arrays
open Verif

/-- one byte of allocated memory -/
abbrev Cell := Option Byte

/-- include/core/ByteArray.h:142-149; `mem = none` is `mData == nullptr`; `mRawSize` is the length of the block
(0 for nullptr); `mArrSize` is `size`. -/
structure BA where
  mem : Option (List Cell)
  size : Int
deriving DecidableEq

/-- the block behind `mData`; dereferencing nullptr is UB at every index, like a block without cells -/
def BA.block (b : BA) : List Cell := b.mem.getD []

/-- ByteArray.cpp `mRawSize` -/
def BA.raw (b : BA) : Nat := b.block.length

/-- access `mData[i]` with an int64 index -/
def rdI {α : Type} (v : List α) (i : Int) : Res α := if i < 0 then .error .ub else rd v i.toNat
def wrI {α : Type} (v : List α) (i : Int) (x : α) : Res (List α) := if i < 0 then .error .ub else wr v i.toNat x

/-- ByteArray.cpp:36-41 -/
def BA.null : BA := ⟨none, 0⟩

/-- ByteArray.cpp:65-68: length of a NUL terminated buffer -/
def strlen (buffer : List Byte) (n : Nat) : Res Nat :=
  if h : n < buffer.length then
    if buffer[n] ≠ 0 then strlen buffer (n + 1) else .ok n
  else .error .ub
termination_by buffer.length - n

/-- ByteArray.cpp:53-79 `init` (constructors 43-51) with `size ≥ 0` and a buffer: `memcpy` of `size` bytes -/
def BA.initSized (buffer : List Byte) (size : Nat) : Res BA :=
  if size ≤ buffer.length then .ok ⟨some ((buffer.take size).map some ++ [some 0]), size⟩ else .error .ub

/-- ByteArray.cpp:53-78 `init`; the buffer is the memory behind the pointer (`none` for nullptr) -/
def BA.init (buffer : Option (List Byte)) (size : Int) : Res BA :=
  match buffer with
  | none => .ok BA.null
  | some buffer =>
    if size < 0 then do
      let n ← strlen buffer 0
      BA.initSized buffer n
    else BA.initSized buffer size.toNat

/-- ByteArray.cpp:176-179 `fill` -/
def fillLoop (ch : Byte) (size : Int) (index : Nat) (v : List Cell) : Res (List Cell) :=
  if (index : Int) < size then do
    let v ← wr v index (some ch)
    fillLoop ch size (index + 1) v
  else .ok v
termination_by size.toNat - index

def BA.fill (b : BA) (ch : Byte) : Res BA := do
  let v ← fillLoop ch b.size 0 b.block
  return ⟨b.mem.map (fun _ => v), b.size⟩

/-- ByteArray.cpp:81-88 the filling constructor, `length ≥ -1`: `new` of a negative length throws before. -/
def BA.filled (length : Int) (ch : Byte) : Res BA :=
  if length + 1 < 0 then .error .thrown
  else do
    let v ← wrI (List.replicate (length + 1).toNat none) length (some 0)
    BA.fill ⟨some v, length⟩ ch

/-- ByteArray.cpp:101-112 from an initializer list -/
def BA.ofList (l : List Byte) : BA := ⟨some (l.map some ++ [some 0]), l.length⟩

/-- ByteArray.cpp:90-99 the copy constructor, 254-269 `operator=` from another array -/
def BA.copy (other : BA) : BA := ⟨some other.block, other.size⟩

/-- ByteArray.cpp:182-187 `get`, 239-251 `operator[]` -/
def BA.get (b : BA) (index : Int) : Res Cell := rdI b.block index

/-- ByteArray.cpp:189-194 `set`; a null array has no block to write to -/
def BA.set (b : BA) (index : Int) (item : Byte) : Res BA := do
  let v ← wrI b.block index (some item)
  return ⟨b.mem.map (fun _ => v), b.size⟩

/-- ByteArray.cpp:201-204: the loop of `replace` -/
def replaceLoop (src : List Cell) (srcOffset range : Int) (a : Nat) (v : List Cell) : Res (List Cell) :=
  if (a : Int) < range then do
    let x ← rdI src (srcOffset + a)
    let v ← wr v a x
    replaceLoop src srcOffset range (a + 1) v
  else .ok v
termination_by range.toNat - a

/-- ByteArray.cpp:196-205 `replace(tgtOffset, srcOffset, buffer, length)`, buffer ≠ this (`buffer` = this: Verif/Arrays/AliasProps) -/
def BA.replaceRange (b : BA) (tgtOffset srcOffset : Int) (buffer : BA) (length : Int) : Res BA := do
  let v ← replaceLoop buffer.block srcOffset (min length (b.size - tgtOffset)) 0 b.block
  return ⟨b.mem.map (fun _ => v), b.size⟩

/-- ByteArray.cpp:211: one step of `replace(oldValue, newValue)` -/
def replaceOne (old new : Byte) (x : Cell) : Cell := if x = some old then some new else x

/-- ByteArray.cpp:209-212: the loop of `replace(oldValue, newValue)`; an unchanged byte is written back -/
def replaceValLoop (old new : Byte) (size : Int) (index : Nat) (v : List Cell) : Res (List Cell) :=
  if (index : Int) < size then do
    let x ← rd v index
    let v ← wr v index (replaceOne old new x)
    replaceValLoop old new size (index + 1) v
  else .ok v
termination_by size.toNat - index

/-- ByteArray.cpp:207-213 -/
def BA.replaceVal (b : BA) (old new : Byte) : Res BA := do
  let v ← replaceValLoop old new b.size 0 b.block
  return ⟨b.mem.map (fun _ => v), b.size⟩

/-- ByteArray.cpp:226-229: copying into the new block -/
def growCopy (old : List Cell) (size : Int) (index : Nat) (tmp : List Cell) : Res (List Cell) :=
  if (index : Int) < size then do
    let x ← rd old index
    let tmp ← wr tmp index x
    growCopy old size (index + 1) tmp
  else .ok tmp
termination_by size.toNat - index

/-- ByteArray.cpp:230-233: zeroes for the new part -/
def growZero (newSize : Int) (index : Nat) (tmp : List Cell) : Res (List Cell) :=
  if (index : Int) < newSize then do
    let tmp ← wr tmp index (some 0)
    growZero newSize (index + 1) tmp
  else .ok tmp
termination_by newSize.toNat - index

/-- ByteArray.cpp:216-239 `resize` -/
def BA.resize (b : BA) (newSize : Int) : Res BA :=
  if newSize ≤ (b.raw : Int) - 1 then do
    let v ← wrI b.block newSize (some 0)
    return ⟨b.mem.map (fun _ => v), newSize⟩
  else do
    let tmp ← growCopy b.block b.size 0 (List.replicate (newSize + 1).toNat none)
    let tmp ← growZero newSize b.size.toNat tmp
    return ⟨some tmp, newSize⟩

/-- ByteArray.cpp:273-284 `operator==` -/
def eqLoop (v w : List Cell) (size : Int) (index : Nat) : Res Bool :=
  if (index : Int) < size then do
    let x ← rd v index
    let y ← rd w index
    if x ≠ y then return false else eqLoop v w size (index + 1)
  else .ok true
termination_by size.toNat - index

def BA.eq (a b : BA) : Res Bool := if a.size ≠ b.size then .ok false else eqLoop a.block b.block a.size 0

/-- ByteArray.cpp:148-174 `sort`, on initialised cells -/
def BA.sort (b : BA) : Res BA := do
  let v ← Sort.sort (fun x y : Cell => decide ((x.getD 0).toNat > (y.getD 0).toNat)) b.size.toNat b.block
  return ⟨b.mem.map (fun _ => v), b.size⟩

/-! ### Array<T> (include/core/Array.h:46-158); `data` is the block of `mSize` elements -/
structure Arr (α : Type) where
  data : List α
deriving DecidableEq

variable {α : Type}
/-- Array.h:81-84 -/
def Arr.size (a : Arr α) : Int := a.data.length
/-- Array.h:115-120 `get`; 134-139 `operator[]` -/
def Arr.get (a : Arr α) (index : Int) : Res α :=
  if index < 0 ∨ index ≥ a.size then .error .thrown else rd a.data index.toNat
/-- Array.h:122-127 `set` -/
def Arr.set (a : Arr α) (index : Int) (x : α) : Res (Arr α) :=
  if index < 0 ∨ index ≥ a.size then .error .thrown
  else do
    let d ← wr a.data index.toNat x
    return ⟨d⟩
/-- Array.h:65-73, 141-157: the copy loops; `dflt` is the value of a default constructed element -/
def arrCopyLoop (src : List α) (i : Nat) (dst : List α) : Res (List α) :=
  if i < src.length then do
    let x ← rd src i
    let dst ← wr dst i x
    arrCopyLoop src (i + 1) dst
  else .ok dst
termination_by src.length - i

def Arr.copy (dflt : α) (a : Arr α) : Res (Arr α) := do
  let d ← arrCopyLoop a.data 0 (List.replicate a.data.length dflt)
  return ⟨d⟩

end Verif.Arrays
