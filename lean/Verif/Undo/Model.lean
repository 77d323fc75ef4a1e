import Verif.Base
/-
Model of src/core/UndoManager.cpp, src/core/UndoStep.cpp, src/core/UndoChange.cpp and
src/core/EditableObject.cpp.

 * Memory is a function from addresses to cells of a type `V`.  A member occupies a range of cells: the bytes of a
   scalar, Vertex, Colour or Date, or one cell for an object with value semantics (String, Integer).  So members may overlap.
 * An `UndoStep` is the list of its changes, eldest first (`mPrev`/`mNext` links); freeing of changes is not modelled.
 * A stack of steps is a list, top first (`UndoStep::prev` links).
 * The owner of a change is a number; `regen` is the flag `mRegenerate` of each object.  All owners are
   EditableObjects here and use `EditableObject::regenerate` (an override that registers changes is not modelled).
 * `mUndoing` is true only inside `undo`/`redo`, where no call from outside happens; it is not modelled.
 * `UndoChangeBuffer` always throws (UndoChange.cpp:413-446), see Verif/Undo/Buffer.  Reference counts (`UndoObjectRelease`
   and the retain/release calls in constructors and destructors) are not part of this model.
-/
namespace Verif.Undo
open Verif

variable {V : Type}

/-- UndoChange.cpp:36-43 and the constructors of the derived classes: owner, `mPointer` and `mValue`.  A
regeneration marker (448-450) has no value. -/
structure Change (V : Type) where
  owner : Nat
  ptr : Nat
  val : List V

abbrev Mem (V : Type) := Nat → V

/-- `*mPointer` of `n` cells -/
def readMem (m : Mem V) (p n : Nat) : List V := (List.range n).map (fun i => m (p + i))

/-- `*mPointer = value` -/
def writeMem (m : Mem V) (p : Nat) (v : List V) : Mem V := fun a =>
  if p ≤ a then (v[a - p]?).getD (m a) else m a

/-- Types.h:161-195: `Status` as its number; `eOK` = 1, `eInvalidInput` = 15, `eNotChanged` = 16 -/
abbrev Status := Nat
def eOK : Status := 1
def eInvalidInput : Status := 15
def eNotChanged : Status := 16

/-- UndoManager.h:420-475 together with the memory the changes point to -/
structure State (V : Type) where
  mem : Mem V
  regen : Nat → Bool
  /-- Document.cpp:93-101 `mChanged` of the attached document -/
  docChanged : Bool
  active : Bool
  isOpen : Bool
  current : List (Change V)
  undoStack : List (List (Change V))
  redoStack : List (List (Change V))
  undoCount : BitVec 32
  redoCount : BitVec 32
  level : Nat
  /-- `mTransaction`, `none` for nullptr -/
  trans : Option (List (Change V))
  tstatus : Status

/-- UndoManager.cpp:37-55, with `setActive(true)` of Document.cpp:67-86 -/
def State.new (m : Mem V) (regen : Nat → Bool) (docChanged : Bool) : State V :=
  { mem := m, regen := regen, docChanged := docChanged, active := true, isOpen := false, current := [], undoStack := [],
    redoStack := [], undoCount := 0, redoCount := 0, level := 0, trans := none, tstatus := eOK }

/-- `swap()` of the derived classes, UndoChange.cpp:71-77 and likewise, with `UndoChange::swap` 55-59 -/
def swap (c : Change V) (m : Mem V) (r : Nat → Bool) : Change V × Mem V × (Nat → Bool) :=
  ({ c with val := readMem m c.ptr c.val.length }, writeMem m c.ptr c.val, fun o => if o = c.owner then true else r o)

/-- `while(change != nullptr) { change->swap(); change = …; }` in the order of the list -/
def swapAll : List (Change V) → Mem V → (Nat → Bool) → List (Change V) × Mem V × (Nat → Bool)
  | [], m, r => ([], m, r)
  | c :: cs, m, r =>
    let x := swap c m r
    let y := swapAll cs x.2.1 x.2.2
    (x.1 :: y.1, y.2)

/-- backwards: from `recent` along `mPrev` -/
def swapBack (cs : List (Change V)) (m : Mem V) (r : Nat → Bool) : List (Change V) × Mem V × (Nat → Bool) :=
  let x := swapAll cs.reverse m r
  (x.1.reverse, x.2)

/-- UndoManager.cpp:83-113 `undo` -/
def undo (s : State V) : Bool × State V :=
  if s.isOpen then (false, s) else
    match s.undoStack with
    | [] => (false, s)
    | step :: rest =>
      let x := swapBack step s.mem s.regen
      (true, { s with mem := x.2.1, regen := x.2.2, undoStack := rest, redoStack := x.1 :: s.redoStack,
                      undoCount := s.undoCount - 1, redoCount := s.redoCount + 1, docChanged := true })

/-- UndoManager.cpp:115-145 `redo` -/
def redo (s : State V) : Bool × State V :=
  if s.isOpen then (false, s) else
    match s.redoStack with
    | [] => (false, s)
    | step :: rest =>
      let x := swapAll step s.mem s.regen
      (true, { s with mem := x.2.1, regen := x.2.2, redoStack := rest, undoStack := x.1 :: s.undoStack,
                      undoCount := s.undoCount + 1, redoCount := s.redoCount - 1, docChanged := true })

/-- UndoManager.cpp:147-158 `close` -/
def close (s : State V) : State V :=
  if s.current.length = 0 then s else
    { s with undoStack := s.current :: s.undoStack, current := [], isOpen := false, undoCount := s.undoCount + 1,
             docChanged := true }

/-- UndoManager.cpp:167-178 -/
def clearUndoStack (s : State V) : State V := { s with undoStack := [], undoCount := 0 }

/-- UndoManager.cpp:180-191 -/
def clearRedoStack (s : State V) : State V := { s with redoStack := [], redoCount := 0 }

/-- UndoManager.cpp:160-165 -/
def clearStacks (s : State V) : State V := clearRedoStack (clearUndoStack (close s))

/-- UndoManager.cpp:314-333 `registerChange(UndoChange*)`; `UndoStep::add` (UndoStep.cpp:62-73) appends. -/
def addChange (s : State V) (c : Change V) : Res (State V) :=
  if !s.active then .ok s
  else if s.level > 0 then
    match s.trans with
    | none => .error .ub
    | some t => .ok { s with trans := some (t ++ [c]) }
  else .ok { clearRedoStack { s with current := s.current ++ [c] } with isOpen := true }

/-- UndoManager.cpp:203-301 `registerChange(object, pointer)`, `registerRegenerationMarker`: the constructor of
the change reads the present value. -/
def register (s : State V) (owner ptr n : Nat) : Res (State V) :=
  addChange s ⟨owner, ptr, readMem s.mem ptr n⟩

/-- an assignment to a member by the program -/
def store (s : State V) (ptr : Nat) (v : List V) : State V := { s with mem := writeMem s.mem ptr v }

/-- UndoManager.cpp:68-71 -/
def setActive (s : State V) (b : Bool) : State V := { s with active := b }

/-- UndoManager.cpp:339-348 `openTransaction` -/
def openTransaction (s : State V) : State V :=
  if s.level = 0 then { s with tstatus := eOK, trans := some [], level := s.level + 1 }
  else { s with level := s.level + 1 }

/-- UndoManager.cpp:360-391: `registerChange` of every change of the transaction, eldest first -/
def addAll : List (Change V) → State V → Res (State V)
  | [], s => .ok s
  | c :: cs, s => do
    let s ← addChange s c
    addAll cs s

/-- UndoManager.cpp:360-391 `commit` -/
def commit (s : State V) : Res (State V) :=
  if s.level = 0 then .ok s
  else if s.level - 1 = 0 then
    match s.trans with
    | none => .error .ub
    | some t => do
      let s ← addAll t { s with level := s.level - 1 }
      return { s with trans := none, tstatus := eOK }
  else .ok { s with level := s.level - 1 }

/-- UndoManager.cpp:393-416 `rollback` -/
def rollback (s : State V) : Res (State V) :=
  if s.level = 0 then .ok s
  else if s.level - 1 = 0 then
    match s.trans with
    | none => .error .ub
    | some t =>
      let x := swapBack t s.mem s.regen
      .ok { s with level := s.level - 1, mem := x.2.1, regen := x.2.2, trans := none, tstatus := eOK }
  else .ok { s with level := s.level - 1 }

/-- UndoManager.cpp:350-358 `closeTransaction` -/
def closeTransaction (s : State V) : Res (Status × State V) := do
  let status := s.tstatus
  let s ← if status = eOK then commit s else rollback s
  return (status, s)

/-- UndoManager.cpp:423-427 -/
def registerTransactionStatus (s : State V) (st : Status) : State V :=
  if st ≠ eOK ∧ st ≠ eNotChanged then { s with tstatus := st } else s

/-! ### EditableObject (src/core/EditableObject.cpp), with a document and its undo manager -/

/-- EditableObject.cpp:57-66 (String), 100-142 (bool, uint8, int16, Vertex3): `same` is the comparison of the type. -/
def setMember (same : List V → List V → Bool) (s : State V) (this ptr : Nat) (value : List V) : Res (Status × State V) :=
  if same value (readMem s.mem ptr value.length) then .ok (eNotChanged, s) else do
    let s ← register s this ptr value.length
    return (eOK, store s ptr value)

/-- EditableObject.cpp:68-86 (int64 with a range): `inRange value` is `value >= rangeMin && value <= rangeMax`. -/
def setMemberRange (same : List V → List V → Bool) (inRange : List V → Bool) (s : State V) (this ptr : Nat)
    (value : List V) : Res (Status × State V) :=
  if same value (readMem s.mem ptr value.length) then .ok (eNotChanged, s)
  else if !inRange value then .ok (eInvalidInput, registerTransactionStatus s eInvalidInput)
  else do
    let s ← register s this ptr value.length
    return (eOK, store s ptr value)

/-- EditableObject.cpp:88-98 (double) -/
def setMemberDouble (same : List V → List V → Bool) (isNaN : List V → Bool) (s : State V) (this ptr : Nat)
    (value : List V) : Res (Status × State V) :=
  if isNaN value then .ok (eInvalidInput, s)
  else if same value (readMem s.mem ptr value.length) then .ok (eNotChanged, s)
  else do
    let s ← register s this ptr value.length
    return (eOK, store s ptr value)

end Verif.Undo
