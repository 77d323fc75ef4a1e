import Verif.LinkedList.Model
import Verif.Undo.Spec
/-
Specification of LinkedList: a list of objects, and a history of such lists for undo and redo.  Nothing here refers
to elements, links or changes.
-/
namespace Verif.LinkedList.Spec
open Verif Verif.Undo

inductive Op where
  | add (d : Nat)
  | addBefore (target d : Nat)
  | remove (d : Nat)
  | swap (a b : Nat)
  | clear
  | first
  | last
  | size
  /-- all objects an iterator returns -/
  | items
  /-- all objects returned after `rewind` by `next` -/
  | nexts

inductive Out where
  | none
  | status (st : Status)
  | obj (d : Nat)
  | num (n : Nat)
  | objs (l : List Nat)
  | bool (b : Bool)
deriving DecidableEq

/-- `d` before the first `t`, if there is one -/
def insertBefore (t d : Nat) : List Nat → List Nat
  | [] => []
  | x :: xs => if x = t then d :: x :: xs else x :: insertBefore t d xs

/-- positions of the objects to be swapped: the latest ones seen when both have been seen for the first time -/
def scan (a b : Nat) : List Nat → Nat → Option Nat → Option Nat → Option (Nat × Nat)
  | [], _, _, _ => none
  | x :: xs, k, i, j =>
    match (if x = a then some k else i), (if x = b then some k else j) with
    | some i, some j => some (i, j)
    | i, j => scan a b xs (k + 1) i j

def swapped (a b : Nat) (xs : List Nat) : List Nat :=
  match scan a b xs 0 none none with
  | some (i, j) => (xs.set i b).set j a
  | none => xs

/-- one call, `um`: with an undo manager -/
def step (um : Bool) (xs : List Nat) : Op → List Nat × Out
  | .add d => (xs ++ [d], .none)
  | .addBefore t d => (insertBefore t d xs, .none)
  | .remove d => if d ∈ xs then (xs.erase d, .status eOK) else (xs, .status eNotFound)
  | .swap a b => if um then (swapped a b xs, .none) else (xs, .none)
  | .clear => ([], .none)
  | .first => (xs, .obj (xs.headD 0))
  | .last => (xs, .obj (xs.getLastD 0))
  | .size => (xs, .num xs.length)
  | .items => (xs, .objs xs)
  | .nexts => (xs, .objs xs)

def run (um : Bool) : List Op → List Nat → List Nat × List Out
  | [], xs => (xs, [])
  | o :: os, xs =>
    let x := step um xs o
    let y := run um os x.1
    (y.1, x.2 :: y.2)

/-- the calls that register something with the undo manager -/
def touches (xs : List Nat) : Op → Bool
  | .add _ => true
  | .addBefore t _ => decide (t ∈ xs)
  | .remove d => decide (d ∈ xs)
  | .swap a b => decide (a ∈ xs) && decide (b ∈ xs)
  | .clear => !xs.isEmpty
  | _ => false

/-! History of lists. -/

/-- an open transaction: nesting depth, list when it was opened, whether something was registered -/
structure Tr where
  level : Nat
  before : List Nat
  dirty : Bool

/-- lists before each closed step (latest first), present list, lists after each undone step, list before the open
step, open transaction, last failing status -/
structure Hist where
  past : List (List Nat)
  cur : List Nat
  future : List (List Nat)
  start : Option (List Nat)
  tr : Option Tr
  status : Status

def Hist.new : Hist := ⟨[], [], [], none, none, eOK⟩

inductive Act where
  | op (o : Op)
  | close
  | undo
  | redo
  | clearStacks
  | clearUndo
  | clearRedo
  | openT
  | closeT
  | commit
  | rollback
  | status (st : Status)

def Hist.close (h : Hist) : Hist :=
  match h.start with
  | none => h
  | some m => { h with past := m :: h.past, start := none }

def Hist.commit (h : Hist) : Hist :=
  match h.tr with
  | none => h
  | some t =>
    if t.level = 1 then
      if t.dirty then { h with tr := none, status := eOK, start := some (h.start.getD t.before), future := [] }
      else { h with tr := none, status := eOK }
    else { h with tr := some { t with level := t.level - 1 } }

def Hist.rollback (h : Hist) : Hist :=
  match h.tr with
  | none => h
  | some t =>
    if t.level = 1 then { h with cur := t.before, tr := none, status := eOK }
    else { h with tr := some { t with level := t.level - 1 } }

/-- the list is edited -/
def Hist.edit (h : Hist) (xs : List Nat) : Hist :=
  match h.tr with
  | some t => { h with cur := xs, tr := some { t with dirty := true } }
  | none => { h with cur := xs, start := some (h.start.getD h.cur), future := [] }

def Hist.step (h : Hist) : Act → Hist × Out
  | .op o =>
    let x := Spec.step true h.cur o
    (if touches h.cur o then h.edit x.1 else h, x.2)
  | .close => (h.close, .none)
  | .undo =>
    match h.start, h.past with
    | none, m :: p => ({ h with past := p, cur := m, future := h.cur :: h.future }, .bool true)
    | _, _ => (h, .bool false)
  | .redo =>
    match h.start, h.future with
    | none, m :: f => ({ h with past := h.cur :: h.past, cur := m, future := f }, .bool true)
    | _, _ => (h, .bool false)
  | .clearStacks => ({ h.close with past := [], future := [] }, .none)
  | .clearUndo => ({ h with past := [] }, .none)
  | .clearRedo => ({ h with future := [] }, .none)
  | .openT =>
    match h.tr with
    | none => ({ h with tr := some ⟨1, h.cur, false⟩, status := eOK }, .none)
    | some t => ({ h with tr := some { t with level := t.level + 1 } }, .none)
  | .closeT => (if h.status = eOK then h.commit else h.rollback, .status h.status)
  | .commit => (h.commit, .none)
  | .rollback => (h.rollback, .none)
  | .status st => (if Undo.Spec.failing st then { h with status := st } else h, .none)

def Hist.run : List Act → Hist → Hist × List Out
  | [], h => (h, [])
  | a :: as, h =>
    let x := h.step a
    let y := Hist.run as x.1
    (y.1, x.2 :: y.2)

/-- undo and redo are not called while a transaction is open, and the lists stay shorter than 2³² -/
def Legal : List Act → Hist → Prop
  | [], _ => True
  | a :: as, h =>
    (match a with
      | .undo | .redo => h.tr = none
      | _ => True) ∧ h.cur.length < 2 ^ 32 ∧ Legal as (h.step a).1

/-! The same calls on the model of the code. -/

def execOp (s : S) : Op → Res (S × Out)
  | .add d => do
    let s ← add s d
    return (s, .none)
  | .addBefore t d => do
    let s ← addBefore s t d
    return (s, .none)
  | .remove d => do
    let x ← remove s d
    return (x.2, .status x.1)
  | .swap a b => do
    let s ← swapData s a b
    return (s, .none)
  | .clear => do
    let s ← clear s
    return (s, .none)
  | .first => do
    let d ← first s
    return (s, .obj d)
  | .last => do
    let d ← last s
    return (s, .obj d)
  | .size => .ok (s, .num (size s))
  | .items => do
    let l ← itAll s.brk s (iterator s)
    return (s, .objs l)
  | .nexts => do
    let x ← nextAll s.brk (rewind s)
    return (x.2, .objs x.1)

def execOps : List Op → S → Res (S × List Out)
  | [], s => .ok (s, [])
  | o :: os, s => do
    let x ← execOp s o
    let y ← execOps os x.1
    return (y.1, x.2 :: y.2)

def outOf : Undo.Spec.Out → Out
  | .none => .none
  | .bool b => .bool b
  | .status st => .status st

/-- a call of the undo manager -/
def execU (s : S) (a : Undo.Spec.Act Nat) : Res (S × Out) := do
  let x ← Undo.Spec.exec s.u a
  return ({ s with u := x.1 }, outOf x.2)

def exec (s : S) : Act → Res (S × Out)
  | .op o => execOp s o
  | .close => execU s .close
  | .undo => execU s .undo
  | .redo => execU s .redo
  | .clearStacks => execU s .clearStacks
  | .clearUndo => execU s .clearUndo
  | .clearRedo => execU s .clearRedo
  | .openT => execU s .openT
  | .closeT => execU s .closeT
  | .commit => execU s .commit
  | .rollback => execU s .rollback
  | .status st => execU s (.status st)

def execAll : List Act → S → Res (S × List Out)
  | [], s => .ok (s, [])
  | a :: as, s => do
    let x ← exec s a
    let y ← execAll as x.1
    return (y.1, x.2 :: y.2)

end Verif.LinkedList.Spec
