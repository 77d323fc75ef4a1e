import Verif.Sort.Model
import Verif.Fp32.Model
/-
Model of Array<T*> and FloatArray (include/core/Array.h:171-285 and 291-415).

 * A cell that `new` has not initialised is `none`; using its value is undefined behaviour.
 * A pointer is `none` (null) or `some p`; what it points to is not freed by the array and not modelled.
 * Lengths are uint32; `n - 1` does not wrap because the loops start with at least one element.
 * The comparison of the bubble sort may be undefined, so it is the loop of `Verif.Sort` with a comparison that returns a `Res`.
-/
namespace Verif.Arrays
open Verif

section Sorting
variable {β : Type}

/-- Array.h:217-232, 349-364: one pass; returns `newn` and the data -/
def passM (gt : β → β → Res Bool) (n i newn : Nat) (v : List β) : Res (Nat × List β) :=
  if i + 1 < n then do
    let a1 ← rd v i
    let a2 ← rd v (i + 1)
    let g ← gt a1 a2
    if g then do
      let v ← wr v i a2
      let v ← wr v (i + 1) a1
      passM gt n (i + 1) (i + 1) v
    else passM gt n (i + 1) newn v
  else .ok (newn, v)
termination_by n - i

/-- Array.h:215-235, 347-367: `do … while(n > 1)`, with a bound on the number of passes -/
def sortLoopM (gt : β → β → Res Bool) : Nat → Nat → List β → Res (List β)
  | 0, _, _ => .error .ub
  | fuel + 1, n, v => do
    let r ← passM gt n 0 1 v
    if r.1 > 1 then sortLoopM gt fuel r.1 r.2 else .ok r.2

end Sorting

variable {α : Type}

/-- Array.h:171-285; the block has `mLength` cells -/
structure PArr (α : Type) where
  data : List (Option (Option α))

/-- Array.h:182-186 -/
def PArr.new (length : Nat) : PArr α := ⟨List.replicate length none⟩
/-- Array.h:204-207 -/
def PArr.size (a : PArr α) : Nat := a.data.length
/-- the value of a cell -/
def value {β : Type} : Option β → Res β
  | some x => .ok x
  | none => .error .ub
/-- Array.h:238-243 `get`, 252-257 `operator[]` -/
def PArr.get (a : PArr α) (index : Nat) : Res (Option α) :=
  if index ≥ a.size then .error .thrown
  else do
    let c ← rd a.data index
    value c
/-- Array.h:245-250 -/
def PArr.set (a : PArr α) (index : Nat) (item : Option α) : Res (PArr α) :=
  if index ≥ a.size then .error .thrown
  else do
    let d ← wr a.data index (some item)
    return ⟨d⟩
/-- Array.h:192-195, 268-271 and 311-314, 397-400: the copy loops -/
def copyLoop {β : Type} (src : List (Option β)) (i : Nat) (dst : List (Option β)) : Res (List (Option β)) :=
  if i < src.length then do
    let c ← rd src i
    let x ← value c
    let dst ← wr dst i (some x)
    copyLoop src (i + 1) dst
  else .ok dst
termination_by src.length - i
/-- Array.h:188-196 the copy constructor, 260-275 `operator=` from another array -/
def PArr.copy (a : PArr α) : Res (PArr α) := do
  let d ← copyLoop a.data 0 (List.replicate a.data.length none)
  return ⟨d⟩
/-- Array.h:221-223: `static_cast<Comparable<T>*>(mData[i])->compareTo(*mData[j]) > 0` -/
def ptrGt (gt : α → α → Bool) (c1 c2 : Option (Option α)) : Res Bool := do
  let p ← value c1
  let q ← value c2
  match p, q with
  | some x, some y => return gt x y
  | _, _ => .error .ub
/-- Array.h:209-236 -/
def PArr.sort (gt : α → α → Bool) (a : PArr α) : Res (PArr α) :=
  if a.size < 1 then .ok a
  else do
    let c ← rd a.data 0
    let p ← value c
    if p.isNone then return a
    else
      let d ← sortLoopM (ptrGt gt) a.size a.size a.data
      return ⟨d⟩

/-- Array.h:291-415 -/
structure FArr where
  data : List (Option Fp32.F32)

/-- Array.h:301-305 -/
def FArr.new (length : Nat) : FArr := ⟨List.replicate length none⟩
/-- Array.h:317-328 -/
def FArr.ofList (l : List Fp32.F32) : FArr := ⟨l.map some⟩
/-- Array.h:336-339 -/
def FArr.length (a : FArr) : Nat := a.data.length
/-- Array.h:369-374 `Get`, 383-388 `operator[]`: not checked -/
def FArr.get (a : FArr) (index : Nat) : Res Fp32.F32 := do
  let c ← rd a.data index
  value c
/-- Array.h:376-381: not checked -/
def FArr.set (a : FArr) (index : Nat) (item : Fp32.F32) : Res FArr := do
  let d ← wr a.data index (some item)
  return ⟨d⟩
/-- Array.h:307-315, 390-405 -/
def FArr.copy (a : FArr) : Res FArr := do
  let d ← copyLoop a.data 0 (List.replicate a.data.length none)
  return ⟨d⟩
/-- Array.h:352-354 `a1 > a2` -/
def floatGt (c1 c2 : Option Fp32.F32) : Res Bool := do
  let x ← value c1
  let y ← value c2
  return Fp32.lt y x
/-- Array.h:341-368 -/
def FArr.sort (a : FArr) : Res FArr :=
  if a.length < 1 then .ok a
  else do
    let d ← sortLoopM floatGt a.length a.length a.data
    return ⟨d⟩

end Verif.Arrays
