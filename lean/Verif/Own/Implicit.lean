import Verif.Own.Model
/-
C96: classes that give memory back in the destructor but leave copying to the compiler, which copies the pointers
(implicitly defined copy constructor), and classes whose own copy constructor or assignment does something else.
-/
namespace Verif.Own
open Verif
variable {α : Type}

/-- the implicitly defined copy constructor: member by member -/
def implicitCopy {O : Type} (o : O) (h : Mem α) : Res (Mem α × O) := .ok (h, o)

/-- Nurbs.h:120-145: the three arrays of a `Nurbs` (their elements are of different types; here cells of one kind) -/
structure NurbsObj where
  controlpoints : Option Nat
  knots : Option Nat
  weights : Option Nat

/-- NURBS.cpp:47-69: three blocks; the elements are copied from the arguments -/
def nurbsMake (c k w : List α) (h : Mem α) : Res (Mem α × NurbsObj) := do
  let (h, p) := newArr none c.length h
  let h ← fillFrom c (some p) 0 h
  let (h, q) := newArr none k.length h
  let h ← fillFrom k (some q) 0 h
  let (h, r) := newArr none w.length h
  let h ← fillFrom w (some r) 0 h
  return (h, ⟨some p, some q, some r⟩)

/-- NURBS.cpp:71-76 -/
def nurbsDtor (o : NurbsObj) (h : Mem α) : Res (Mem α) := do
  let h ← deleteArr h o.controlpoints
  let h ← deleteArr h o.knots
  deleteArr h o.weights

/-- MemoryStream.cpp:36-43: buffer and ownership -/
structure StreamObj where
  stream : Option Nat
  owner : Bool

/-- MemoryStream.cpp:45-48 -/
def streamDtor (o : StreamObj) (h : Mem α) : Res (Mem α) := if o.owner then deleteArr h o.stream else .ok h

/-- Hashtable.cpp:147-160 `clear`, the part that touches `mData`; the entries are not modelled -/
def clearLoop (p : Option Nat) (n i : Nat) (null : α) (h : Mem α) : Res (Mem α) :=
  if i < n then do
    let _ ← rdCell h p i
    let h ← wrCell h p i (some null)
    clearLoop p n (i + 1) null h
  else .ok h
termination_by n - i

/-- Hashtable.cpp:36-47: `new HashtableEntry*[7]`, all null -/
def tableMake (null : α) (h : Mem α) : Res (Mem α × Obj) := do
  let (h, p) := newArr none 7 h
  let h ← fillFrom (List.replicate 7 null) (some p) 0 h
  return (h, ⟨0, 7, some p⟩)

/-- Hashtable.cpp:49-55 -/
def tableDtor (null : α) (o : Obj) (h : Mem α) : Res (Mem α) := do
  let h ← clearLoop o.ptr o.cap 0 null h
  deleteArr h o.ptr

/-- SAXAttributes.cpp:36-40: two vectors allocated on the heap -/
structure AttrObj where
  names : Option Nat
  values : Option Nat

/-- SAXAttributes.cpp:48-58 the copy constructor: `mNames` and `mValues` are used without ever having been given a value
(`none`), `mNames->clear()` -/
def attrCopy (_other : AttrObj) (_h : Mem α) : Res (Mem α × AttrObj) := do
  let mNames : Option (Option Nat) := none
  let _ ← defined mNames
  .error .ub

end Verif.Own
