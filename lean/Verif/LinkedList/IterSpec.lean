import Verif.LinkedList.Spec
/-
Specification of iterating over a list while it is changed: any number of iterators and the cursor of the list itself, as
positions in a sequence.  Nothing here refers to elements or links.
-/
namespace Verif.LinkedList.Iter
open Verif Verif.Undo
open Verif.LinkedList.Spec (Op Out)

/-- what the caller does: calls on the list, on iterator number `i`, and on the cursor of the list -/
inductive Act where
  | op (o : Op)
  /-- `it_i = list.iterator()` -/
  | iter (i : Nat)
  /-- `it_j = LinkedListIterator(it_i)` -/
  | copy (j i : Nat)
  /-- `it_i.hasNext()`, `it_i.next()`, `it_i.seek()` -/
  | itHas (i : Nat)
  | itNext (i : Nat)
  | itSeek (i : Nat)
  /-- `list.rewind()`, `list.hasNext()`, `list.next()` -/
  | rewind
  | has
  | next

/-- where an iterator is: before the object at position `k`, at the end, or at an object `d` that was removed meanwhile -/
inductive Pos where
  | before (k : Nat)
  | fin
  | gone (d : Nat)
deriving DecidableEq

structure St where
  xs : List Nat
  its : Nat → Pos
  /-- the cursor of the list: before the object at this position, or at the end -/
  cur : Option Nat

def St.new : St := ⟨[], fun _ => .fin, none⟩

/-- before position `k` of `n` objects -/
def norm (n k : Nat) : Option Nat := if k < n then some k else none
def posAt (n k : Nat) : Pos := if k < n then .before k else .fin

/-- an iterator while the list `xs` is changed by a call: it stays before the same object, wherever that moves to; if this very object
is removed, it has lost its place.  At the end it stays at the end. -/
def moveIt (xs : List Nat) (o : Op) : Pos → Pos
  | .fin => .fin
  | .gone d => .gone d
  | .before k =>
    match o with
    | .addBefore t _ => if t ∈ xs ∧ xs.idxOf t ≤ k then .before (k + 1) else .before k
    | .remove d => if d ∈ xs ∧ xs.idxOf d = k then .gone d else if d ∈ xs ∧ xs.idxOf d < k then .before (k - 1) else .before k
    | .clear => .gone (xs.getD k 0)
    | _ => .before k

/-- the cursor of the list while the list `xs` is changed by a call: calls that search leave it behind the object they found, or at the
end; `add` and the calls that read leave it where it is -/
def moveCur (xs : List Nat) (o : Op) (c : Option Nat) : Option Nat :=
  match o with
  | .addBefore t _ => if t ∈ xs then norm (xs.length + 1) (xs.idxOf t + 2) else none
  | .remove d => if d ∈ xs then norm (xs.length - 1) (xs.idxOf d) else none
  | .swap a b =>
    match Spec.scan a b xs 0 none none with
    | some (i, j) => norm xs.length (max i j + 1)
    | none => none
  | .clear => none
  | .nexts => none
  | _ => c

/-- reading at an iterator: without undo manager (`um = false`) an object that was removed is gone together with its element -/
def look (um : Bool) (xs : List Nat) : Pos → Res Nat
  | .before k => .ok (xs.getD k 0)
  | .fin => .ok 0
  | .gone d => if um then .ok d else .error .ub

/-- the position after `next()` -/
def advance (n : Nat) : Pos → Pos
  | .before k => posAt n (k + 1)
  | _ => .fin

def setIt (its : Nat → Pos) (i : Nat) (p : Pos) : Nat → Pos := fun j => if j = i then p else its j

def step (um : Bool) (s : St) : Act → Res (St × Out)
  | .op o => .ok (⟨(Spec.step um s.xs o).1, fun i => moveIt s.xs o (s.its i), moveCur s.xs o s.cur⟩, (Spec.step um s.xs o).2)
  | .iter i => .ok ({ s with its := setIt s.its i (posAt s.xs.length 0) }, .none)
  | .copy j i => .ok ({ s with its := setIt s.its j (s.its i) }, .none)
  | .itHas i => .ok (s, .bool (decide (s.its i ≠ .fin)))
  | .itNext i => do
    let d ← look um s.xs (s.its i)
    return ({ s with its := setIt s.its i (advance s.xs.length (s.its i)) }, .obj d)
  | .itSeek i => do
    let d ← look um s.xs (s.its i)
    return (s, .obj d)
  | .rewind => .ok ({ s with cur := norm s.xs.length 0 }, .none)
  | .has => .ok (s, .bool s.cur.isSome)
  | .next =>
    match s.cur with
    | some k => .ok ({ s with cur := norm s.xs.length (k + 1) }, .obj (s.xs.getD k 0))
    | none => .error .ub

def run (um : Bool) : List Act → St → Res (List Out)
  | [], _ => .ok []
  | a :: as, s => do
    let x ← step um s a
    let r ← run um as x.1
    return x.2 :: r

/-! The same calls on the code. -/

/-- the list and the iterators -/
structure X where
  s : S
  its : Nat → Nat

def setA (its : Nat → Nat) (i p : Nat) : Nat → Nat := fun j => if j = i then p else its j

def exec (x : X) : Act → Res (X × Out)
  | .op o => do
    let r ← Spec.execOp x.s o
    return ({ x with s := r.1 }, r.2)
  | .iter i => .ok ({ x with its := setA x.its i (iterator x.s) }, .none)
  -- LinkedList.cpp:321-327
  | .copy j i => .ok ({ x with its := setA x.its j (x.its i) }, .none)
  | .itHas i => .ok (x, .bool (itHasNext (x.its i)))
  | .itNext i => do
    let r ← LinkedList.itNext x.s (x.its i)
    return ({ x with its := setA x.its i r.2 }, .obj r.1)
  | .itSeek i => do
    let d ← LinkedList.itSeek x.s (x.its i)
    return (x, .obj d)
  | .rewind => .ok ({ x with s := LinkedList.rewind x.s }, .none)
  | .has => .ok (x, .bool (hasNext x.s))
  | .next => do
    let r ← LinkedList.next x.s
    return ({ x with s := r.2 }, .obj r.1)

def execActs : List Act → X → Res (List Out)
  | [], _ => .ok []
  | a :: as, x => do
    let y ← exec x a
    let r ← execActs as y.1
    return y.2 :: r

/-- a new list; the iterators are made of no list (LinkedList.cpp:305-314) -/
def X.new (um : Bool) : X := ⟨S.new um, fun _ => 0⟩

end Verif.LinkedList.Iter
