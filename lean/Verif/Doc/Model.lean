import Verif.Heap
import Verif.Undo.Model
/-
Model of the life of documents and their undo managers: src/core/Document.cpp, src/core/UndoManager.cpp, the parts of
src/core/EditableObject.cpp that reach the undo manager through the document, and the reference count of
src/core/Object.cpp.

 * Documents and undo managers are objects on two heaps; using a freed one is undefined behaviour.
 * An undo step is the number of its changes; what the changes do to the members is the model of Verif/Undo.
   (`ManProps.abs_…` in Verif/Doc/Abs.lean proves that counting changes commutes with that model.)
 * `undoCount`/`redoCount` are the lengths of the stacks here; that the 32-bit counters follow them is C22.
 * `mFile` of a document is not modelled (File: Verif/FileIO).
 * One thread; the pool of `Object` exists (its absence is C69), so `release` counts.
-/
namespace Verif.Doc
open Verif
open Verif.Undo (Status eOK eInvalidInput eNotChanged)

/-- UndoManager.h:420-475 and `mRefCount` (Object.h); `cur`, `undo`, `redo`, `trans` hold the sizes of the steps. -/
structure Man where
  rc : Nat
  doc : Option Nat
  active : Bool
  isOpen : Bool
  cur : Nat
  undo : List Nat
  redo : List Nat
  level : Nat
  trans : Option Nat
  tstatus : Status
deriving DecidableEq, Repr

/-- Document.h: `mUndoManager`, `mChanged`, `mRegenerate` -/
structure Doc where
  man : Option Nat
  changed : Bool
  regen : Bool
deriving DecidableEq, Repr

/-- all documents and undo managers of the program, and the number of undo steps that nobody can free any more -/
structure World where
  docs : Heap Doc
  mans : Heap Man
  leaked : Nat
deriving DecidableEq, Repr

/-! ### The undo manager.  The Boolean of a result tells whether `mDocument->setDocumentChanged(true)` is called
(if `mDocument` is not null). -/

/-- UndoManager.cpp:37-55; `Object::Object` starts with one reference -/
def Man.new : Man :=
  { rc := 1, doc := none, active := false, isOpen := false, cur := 0, undo := [], redo := [], level := 0, trans := none,
    tstatus := eOK }

/-- UndoManager.cpp:83-113 `undo`: (result, state, notify) -/
def Man.undoStep (m : Man) : Bool × Man × Bool :=
  if m.isOpen then (false, m, false) else
    match m.undo with
    | [] => (false, m, false)
    | s :: r => (true, { m with undo := r, redo := s :: m.redo }, true)

/-- UndoManager.cpp:115-145 `redo` -/
def Man.redoStep (m : Man) : Bool × Man × Bool :=
  if m.isOpen then (false, m, false) else
    match m.redo with
    | [] => (false, m, false)
    | s :: r => (true, { m with redo := r, undo := s :: m.undo }, true)

/-- UndoManager.cpp:147-158 `close` -/
def Man.close (m : Man) : Man × Bool :=
  if m.cur = 0 then (m, false) else ({ m with undo := m.cur :: m.undo, cur := 0, isOpen := false }, true)

/-- UndoManager.cpp:314-333 `registerChange` -/
def Man.register (m : Man) : Res Man :=
  if !m.active then .ok m
  else if m.level > 0 then
    match m.trans with
    | none => .error .ub
    | some n => .ok { m with trans := some (n + 1) }
  else .ok { m with cur := m.cur + 1, redo := [], isOpen := true }

/-- UndoManager.cpp:339-348 -/
def Man.openTransaction (m : Man) : Man :=
  if m.level = 0 then { m with tstatus := eOK, trans := some 0, level := m.level + 1 } else { m with level := m.level + 1 }

/-- UndoManager.cpp:366-379, the loop over the `n` changes of the transaction -/
def Man.registerTimes : Nat → Man → Res Man
  | 0, m => .ok m
  | n + 1, m => do
    let m ← m.register
    Man.registerTimes n m

/-- UndoManager.cpp:360-391 -/
def Man.commit (m : Man) : Res Man :=
  if m.level = 0 then .ok m
  else if m.level - 1 = 0 then
    match m.trans with
    | none => .error .ub
    | some n => do
      let m ← Man.registerTimes n { m with level := m.level - 1 }
      return { m with trans := none, tstatus := eOK }
  else .ok { m with level := m.level - 1 }

/-- UndoManager.cpp:393-416 -/
def Man.rollback (m : Man) : Res Man :=
  if m.level = 0 then .ok m
  else if m.level - 1 = 0 then
    match m.trans with
    | none => .error .ub
    | some _ => .ok { m with level := m.level - 1, trans := none, tstatus := eOK }
  else .ok { m with level := m.level - 1 }

/-- UndoManager.cpp:350-358 -/
def Man.closeTransaction (m : Man) : Res (Status × Man) := do
  let m' ← if m.tstatus = eOK then m.commit else m.rollback
  return (m.tstatus, m')

/-- UndoManager.cpp:423-427 -/
def Man.registerStatus (m : Man) (st : Status) : Man := if st ≠ eOK ∧ st ≠ eNotChanged then { m with tstatus := st } else m

/-! ### The heaps -/

/-- Document.cpp:98-101 `setDocumentChanged` -/
def setChanged (w : World) (d : Nat) (b : Bool) : Res World := do
  let doc ← w.docs.load d
  let docs ← w.docs.store d { doc with changed := b }
  return { w with docs := docs }

/-- `if(mDocument != nullptr)mDocument->setDocumentChanged(true);` -/
def notify (w : World) (doc : Option Nat) (b : Bool) : Res World :=
  match b, doc with
  | true, some d => setChanged w d true
  | _, _ => .ok w

/-- `um->close()`: UndoManager.cpp:147-158 -/
def manClose (w : World) (p : Nat) : Res World := do
  let m ← w.mans.load p
  let mans ← w.mans.store p m.close.1
  notify { w with mans := mans } m.doc m.close.2

/-- `um->undo()`: UndoManager.cpp:83-113 -/
def manUndo (w : World) (p : Nat) : Res (Bool × World) := do
  let m ← w.mans.load p
  let mans ← w.mans.store p m.undoStep.2.1
  let w ← notify { w with mans := mans } m.doc m.undoStep.2.2
  return (m.undoStep.1, w)

/-- `um->redo()`: UndoManager.cpp:115-145 -/
def manRedo (w : World) (p : Nat) : Res (Bool × World) := do
  let m ← w.mans.load p
  let mans ← w.mans.store p m.redoStep.2.1
  let w ← notify { w with mans := mans } m.doc m.redoStep.2.2
  return (m.redoStep.1, w)

/-- `um->registerChange(…)` -/
def manRegister (w : World) (p : Nat) : Res World := do
  let m ← w.mans.load p
  let m ← m.register
  let mans ← w.mans.store p m
  return { w with mans := mans }

/-- `um->registerTransactionStatus(status)` -/
def manStatus (w : World) (p : Nat) (st : Status) : Res World := do
  let m ← w.mans.load p
  let mans ← w.mans.store p (m.registerStatus st)
  return { w with mans := mans }

/-- `um->openTransaction()` -/
def manOpen (w : World) (p : Nat) : Res World := do
  let m ← w.mans.load p
  let mans ← w.mans.store p m.openTransaction
  return { w with mans := mans }

/-- `um->closeTransaction()` -/
def manCloseT (w : World) (p : Nat) : Res (Status × World) := do
  let m ← w.mans.load p
  let x ← m.closeTransaction
  let mans ← w.mans.store p x.2
  return (x.1, { w with mans := mans })

/-- UndoManager.cpp:68-71 `setActive` -/
def manActive (w : World) (p : Nat) (b : Bool) : Res World := do
  let m ← w.mans.load p
  let mans ← w.mans.store p { m with active := b }
  return { w with mans := mans }

/-- the step of an open transaction: nothing in the destructor frees it -/
def lost (t : Option Nat) : Nat := if t.isSome then 1 else 0

/-- UndoManager.cpp:57-61 `~UndoManager` (with `clearStacks`, 160-191) and the deallocation: `delete um`.
`mTransaction` is not deleted. -/
def manDelete (w : World) (p : Nat) : Res World := do
  let w ← manClose w p
  let m ← w.mans.load p
  let mans ← w.mans.free p
  return { w with mans := mans, leaked := w.leaked + lost m.trans }

/-- Object.cpp:49-69 `release` of an undo manager -/
def manRelease (w : World) (p : Nat) : Res World := do
  let m ← w.mans.load p
  let mans ← w.mans.store p { m with rc := m.rc - 1 }
  if m.rc - 1 = 0 then manDelete { w with mans := mans } p else return { w with mans := mans }

/-- Object.cpp:71-78 `retain` of an undo manager -/
def manRetain (w : World) (p : Nat) : Res World := do
  let m ← w.mans.load p
  let mans ← w.mans.store p { m with rc := m.rc + 1 }
  return { w with mans := mans }

/-- Document.cpp:69-77: `new UndoManager()`, `setDocument(this)`, `setActive(true)` -/
def attach (w : World) (d : Nat) (doc : Doc) : Res World := do
  let a := w.mans.alloc { Man.new with doc := some d, active := true }
  let docs ← w.docs.store d { doc with man := some a.2 }
  return { w with docs := docs, mans := a.1 }

/-- Document.cpp:78-85: `release()` and null the pointer -/
def detach (w : World) (d : Nat) (p : Nat) : Res World := do
  let w ← manRelease w p
  let doc ← w.docs.load d
  let docs ← w.docs.store d { doc with man := none }
  return { w with docs := docs }

/-- Document.cpp:67-86 `setUndoManager` -/
def setUndoManager (w : World) (d : Nat) (b : Bool) : Res World := do
  let doc ← w.docs.load d
  match b, doc.man with
  | true, none => attach w d doc
  | false, some p => detach w d p
  | _, _ => return w

/-- Document.cpp:36-42 `new Document()` -/
def newDoc (w : World) : Res World := do
  let a := w.docs.alloc ⟨none, false, false⟩
  setUndoManager { w with docs := a.1 } a.2 true

/-- Document.cpp:44-55 `~Document` and the deallocation: `delete document`.  The undo manager is deleted whatever its
reference count is. -/
def destroy (w : World) (d : Nat) : Res World := do
  let doc ← w.docs.load d
  let w ← (match doc.man with
    | some p => manDelete w p
    | none => .ok w)
  let docs ← w.docs.free d
  return { w with docs := docs }

/-! ### What a program calls -/

/-- Calls on a document or on an object of that document. -/
inductive DocOp where
  /-- `setUndoManager(b)` -/
  | setUndo (b : Bool)
  /-- `setMember` of an object of the document with a new value -/
  | edit
  /-- `setMember(int64*, …)` with a new value outside the range -/
  | badEdit
  /-- `closeUndoStep()` -/
  | closeStep
  /-- `openTransaction()` / `closeTransaction()` of an object of the document -/
  | openT
  | closeT
  /-- `if(hasUndoManager())undoManager()->undo()`, likewise `redo` and `setActive` -/
  | undo
  | redo
  | setActive (b : Bool)
  | setChanged (b : Bool)
  | regenerate
  | regenerationDone
deriving DecidableEq, Repr

inductive Out where
  | none
  | bool (b : Bool)
  | status (st : Status)
deriving DecidableEq, Repr

/-- `UndoManager* um = nullptr; if(mDocument != nullptr)um = mDocument->undoManager(); if(um != nullptr) …`
(EditableObject.cpp:61-63 and likewise): `f` on the manager, or `out` without one. -/
def withMan (w : World) (d : Nat) (out : Out) (f : Nat → Res (World × Out)) : Res (World × Out) := do
  let doc ← w.docs.load d
  match doc.man with
  | some p => f p
  | none => return (w, out)

/-- One call on document `d`: Document.cpp:57-131, EditableObject.cpp:57-161 -/
def onDoc (w : World) (d : Nat) : DocOp → Res (World × Out)
  | .setUndo b => do
    let w ← setUndoManager w d b
    return (w, .none)
  | .edit => withMan w d (.status eOK) (fun p => do
      let w ← manRegister w p
      return (w, .status eOK))
  | .badEdit => withMan w d (.status eInvalidInput) (fun p => do
      let w ← manStatus w p eInvalidInput
      return (w, .status eInvalidInput))
  | .closeStep => withMan w d .none (fun p => do
      let w ← manClose w p
      return (w, .none))
  | .openT => withMan w d (.status eOK) (fun p => do
      let w ← manOpen w p
      return (w, .status eOK))
  | .closeT => withMan w d (.status eNotChanged) (fun p => do
      let x ← manCloseT w p
      return (x.2, .status x.1))
  | .undo => withMan w d (.bool false) (fun p => do
      let x ← manUndo w p
      return (x.2, .bool x.1))
  | .redo => withMan w d (.bool false) (fun p => do
      let x ← manRedo w p
      return (x.2, .bool x.1))
  | .setActive b => withMan w d .none (fun p => do
      let w ← manActive w p b
      return (w, .none))
  | .setChanged b => do
    let w ← setChanged w d b
    return (w, .none)
  | .regenerate => do
    let doc ← w.docs.load d
    let docs ← w.docs.store d { doc with regen := true }
    return ({ w with docs := docs }, .none)
  | .regenerationDone => do
    let doc ← w.docs.load d
    let docs ← w.docs.store d { doc with regen := false }
    return ({ w with docs := docs }, .none)

/-- Calls of the program; `keep`, `drop`, `useUndo` are for a client that keeps pointers to undo managers. -/
inductive Op where
  | newDoc
  | on (d : Nat) (a : DocOp)
  | destroy (d : Nat)
  /-- `um->retain()`, `um->release()`, `um->undo()`, `um->close()` through a kept pointer -/
  | keep (p : Nat)
  | drop (p : Nat)
  | useUndo (p : Nat)
  | useClose (p : Nat)
deriving DecidableEq, Repr

def step (w : World) : Op → Res (World × Out)
  | .newDoc => do
    let w ← newDoc w
    return (w, .none)
  | .on d a => onDoc w d a
  | .destroy d => do
    let w ← destroy w d
    return (w, .none)
  | .keep p => do
    let w ← manRetain w p
    return (w, .none)
  | .drop p => do
    let w ← manRelease w p
    return (w, .none)
  | .useUndo p => do
    let x ← manUndo w p
    return (x.2, .bool x.1)
  | .useClose p => do
    let w ← manClose w p
    return (w, .none)

def run : List Op → World → Res (World × List Out)
  | [], w => .ok (w, [])
  | o :: os, w => do
    let x ← step w o
    let y ← run os x.1
    return (y.1, x.2 :: y.2)

def World.empty : World := ⟨[], [], 0⟩

end Verif.Doc
