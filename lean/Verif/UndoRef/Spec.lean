import Verif.UndoRef.Model
/-
What an application relies on when it stores pointers under an undo manager.  Independent of how the history is stored: the
history is the sequence of the states before and after each step.
-/
namespace Verif.UndoRef.Spec
open Verif Verif.UndoRef

/-- the part of the application that undo restores: its registered pointers, and the references it took or gave up with
`registerRetain` and `registerRelease` -/
@[ext] structure App where
  cells : Cells
  refs : Obj → Int

/-- the application does not give up more references than it has -/
def App.Valid (a : App) : Prop := ∀ o, 0 ≤ a.refs o

/-- every stored pointer is backed by a registered reference -/
def App.Backed (a : App) : Prop := ∀ c v, a.cells c = some v → 1 ≤ a.refs v

/-- one more reference to an object -/
def App.shift (o : Obj) (a : App) : App := { a with refs := upd a.refs o (a.refs o + 1) }

def App.empty : App := ⟨fun _ => none, fun _ => 0⟩

/-- an open transaction: nesting, state at its beginning, whether something was registered -/
structure Tr where
  level : Nat
  start : App
  edited : Bool

structure Hist where
  /-- number of objects created so far; they are numbered in the order of their creation -/
  fresh : Nat
  /-- references the application holds without having registered them -/
  base : Obj → Nat
  now : App
  /-- the states before the steps that can be undone, most recent first -/
  past : List App
  /-- the states after the steps that can be redone, next first -/
  future : List App
  /-- the state before the open step, if there is one -/
  start : Option App
  tr : Option Tr

def Hist.new : Hist := ⟨0, fun _ => 0, .empty, [], [], none, none⟩

/-- the references the application holds -/
def Hist.own (h : Hist) (o : Obj) : Int := h.base o + h.now.refs o

inductive Act where
  /-- `new`: the application holds one reference -/
  | create
  /-- `retain`, `release` without the manager -/
  | keep (o : Obj) | drop (o : Obj)
  /-- no code: a reference the application already has counts as registered from now on, so the application will not give it up without
  registering that; as the history never changes it, it is part of all states of the history -/
  | adopt (o : Obj)
  /-- `registerChange(owner, &cell); cell = v` -/
  | setRef (owner : Obj) (cell : Cell) (v : Option Obj)
  /-- `registerRetain(o); o->retain()` -/
  | retain (o : Obj)
  /-- `registerRelease(o); o->release()` -/
  | release (o : Obj)
  /-- any other `registerChange`, for a member of `owner` -/
  | other (owner : Obj)
  | undo | redo | close | clearUndo | clearRedo | begin | commit | rollback

/-- a registered change to `a` -/
def Hist.edit (h : Hist) (a : App) : Hist :=
  match h.tr with
  | some t => { h with now := a, tr := some { t with edited := true } }
  | none => { h with now := a, start := some (h.start.getD h.now), future := [] }

def Hist.commit (h : Hist) : Hist :=
  match h.tr with
  | none => h
  | some t =>
    if t.level = 1 then
      (if t.edited then { h with tr := none, start := some (h.start.getD t.start), future := [] } else { h with tr := none })
    else { h with tr := some { t with level := t.level - 1 } }

def Hist.rollback (h : Hist) : Hist :=
  match h.tr with
  | none => h
  | some t => if t.level = 1 then { h with tr := none, now := t.start } else { h with tr := some { t with level := t.level - 1 } }

def Tr.adopt (o : Obj) (t : Tr) : Tr := { t with start := t.start.shift o }

def Hist.adopt (h : Hist) (o : Obj) : Hist :=
  { h with base := upd h.base o (h.base o - 1), now := h.now.shift o, past := h.past.map (App.shift o), future := h.future.map (App.shift o),
           start := h.start.map (App.shift o), tr := h.tr.map (Tr.adopt o) }

/-- what an action does, and whether `undo`/`redo` did something -/
def Hist.step (h : Hist) : Act → Hist × Bool
  | .create => ({ h with fresh := h.fresh + 1, base := upd h.base h.fresh 1 }, true)
  | .keep o => ({ h with base := upd h.base o (h.base o + 1) }, true)
  | .drop o => ({ h with base := upd h.base o (h.base o - 1) }, true)
  | .adopt o => (h.adopt o, true)
  | .setRef _ cell v => (h.edit { h.now with cells := upd h.now.cells cell v }, true)
  | .retain o => (h.edit { h.now with refs := upd h.now.refs o (h.now.refs o + 1) }, true)
  | .release o => (h.edit { h.now with refs := upd h.now.refs o (h.now.refs o - 1) }, true)
  | .other _ => (h.edit h.now, true)
  | .undo =>
    match h.start, h.past with
    | none, p :: ps => ({ h with now := p, past := ps, future := h.now :: h.future }, true)
    | _, _ => (h, false)
  | .redo =>
    match h.start, h.future with
    | none, f :: fs => ({ h with now := f, future := fs, past := h.now :: h.past }, true)
    | _, _ => (h, false)
  | .close =>
    match h.start with
    | none => (h, true)
    | some a => ({ h with past := a :: h.past, start := none }, true)
  | .clearUndo => ({ h with past := [] }, true)
  | .clearRedo => ({ h with future := [] }, true)
  | .begin =>
    match h.tr with
    | none => ({ h with tr := some ⟨1, h.now, false⟩ }, true)
    | some t => ({ h with tr := some { t with level := t.level + 1 } }, true)
  | .commit => (h.commit, true)
  | .rollback => (h.rollback, true)

/-- the discipline of the application -/
def Hist.allowed (h : Hist) : Act → Prop
  | .create => True
  | .keep o => 1 ≤ h.own o
  | .drop o => 1 ≤ h.base o
  | .adopt o => 1 ≤ h.base o
  | .setRef owner cell v => 1 ≤ h.own owner ∧ (cell.1 = owner ∨ 1 ≤ h.now.refs cell.1) ∧
      (∀ w, h.now.cells cell = some w → 1 ≤ h.now.refs w) ∧ ∀ w, v = some w → 1 ≤ h.now.refs w
  | .retain o => 1 ≤ h.own o
  | .release o => 1 ≤ h.now.refs o
  | .other owner => 1 ≤ h.own owner
  | .undo | .redo => h.tr = none
  | _ => True

/-- every action of the sequence is allowed when it is its turn -/
def Legal (h : Hist) : List Act → Prop
  | [] => True
  | a :: as => h.allowed a ∧ Legal (h.step a).1 as

/-- the last registered reference to an object is given up only when no stored pointer points to it -/
def Hist.careful (h : Hist) : Act → Prop
  | .release o => h.now.refs o = 1 → ∀ c, h.now.cells c ≠ some o
  | _ => True

def Careful (h : Hist) : List Act → Prop
  | [] => True
  | a :: as => h.careful a ∧ Careful (h.step a).1 as

def Hist.run (h : Hist) : List Act → Hist × List Bool
  | [] => (h, [])
  | a :: as => let x := h.step a; let y := x.1.run as; (y.1, x.2 :: y.2)

/-! ### The program that performs the actions -/

/-- one action, with the number of objects created so far -/
def exec (n : Nat) (s : State) : Act → Res (Nat × State × Bool)
  | .create => .ok (n + 1, { s with cnt := upd s.cnt n 1 }, true)
  | .keep o => do let cnt ← UndoRef.retain s.cnt o; return (n, { s with cnt := cnt }, true)
  | .drop o => do let cnt ← UndoRef.release s.cnt o; return (n, { s with cnt := cnt }, true)
  | .adopt _ => .ok (n, s, true)
  | .setRef owner cell v => do let s ← registerRef s owner cell; return (n, { s with cells := upd s.cells cell v }, true)
  | .retain o => do
    let s ← registerRel s o false
    let cnt ← UndoRef.retain s.cnt o
    return (n, { s with cnt := cnt }, true)
  | .release o => do
    let s ← registerRel s o true
    let cnt ← UndoRef.release s.cnt o
    return (n, { s with cnt := cnt }, true)
  | .other owner => do let s ← registerOther s owner; return (n, s, true)
  | .undo => do let (b, s) ← UndoRef.undo s; return (n, s, b)
  | .redo => do let (b, s) ← UndoRef.redo s; return (n, s, b)
  | .close => .ok (n, UndoRef.close s, true)
  | .clearUndo => do let s ← clearUndoStack s; return (n, s, true)
  | .clearRedo => do let s ← clearRedoStack s; return (n, s, true)
  | .begin => .ok (n, openTransaction s, true)
  | .commit => do let s ← UndoRef.commit s; return (n, s, true)
  | .rollback => do let s ← UndoRef.rollback s; return (n, s, true)

def execAll (n : Nat) (s : State) : List Act → Res (Nat × State × List Bool)
  | [] => .ok (n, s, [])
  | a :: as => do
    let (n, s, b) ← exec n s a
    let (n, s, bs) ← execAll n s as
    return (n, s, b :: bs)

/-- how often a change refers to an object it has retained: its owner, and the two values of a pointer -/
def refsOf (c : Change) (o : Obj) : Nat :=
  (if c.owner = o then 1 else 0) +
  match c.kind with
  | .ref _ _ v1 v2 _ => (if v1 = some o then 1 else 0) + (if v2 = some o then 1 else 0)
  | _ => 0

/-- all changes in a list of changes -/
def heldBy (cs : List Change) (o : Obj) : Nat := (cs.map (refsOf · o)).sum

/-- all changes the manager has -/
def changes (s : State) : List Change := s.current ++ s.undoStack.flatten ++ s.redoStack.flatten ++ s.trans.getD []

end Verif.UndoRef.Spec
