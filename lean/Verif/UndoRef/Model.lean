import Verif.Base
/-
Model of the reference counts in src/core/UndoChange.cpp, UndoStep.cpp and UndoManager.cpp: which objects the undo history keeps
alive, and when it lets them go.  The values of members are the subject of `Verif/Undo`; here only pointers to objects matter.

 * An object is a number; `cnt o` is its reference count, 0 if it does not exist (any more).  `retain` and `release` of an object that
   does not exist, and every other access to it, are undefined behaviour.  The count does not overflow (31 bits, C27).
 * Destroying an object runs no further `release`: objects give up what they own before.
 * `cells` are the members of type `Object*` that are registered with the manager; a cell is an object and the number of a member.  The
   object a change is registered for need not be the one the member lies in: reading or writing the member accesses the latter as well.
 * The manager is active (`setActive(true)`); counters, document and status are modelled in `Verif/Undo`.
-/
namespace Verif.UndoRef
open Verif

abbrev Obj := Nat
abbrev Counts := Obj → Nat
/-- a member of an object -/
abbrev Cell := Obj × Nat
abbrev Cells := Cell → Option Obj

/-- a function changed at one place -/
def upd {κ α : Type} [DecidableEq κ] (f : κ → α) (a : κ) (v : α) : κ → α := fun x => if x = a then v else f x

/-- any access to an object -/
def touch (cnt : Counts) (o : Obj) : Res Unit := if cnt o = 0 then .error .ub else .ok ()

/-- Object.cpp:71-78 -/
def retain (cnt : Counts) (o : Obj) : Res Counts := if cnt o = 0 then .error .ub else .ok (upd cnt o (cnt o + 1))

/-- Object.cpp:49-69 -/
def release (cnt : Counts) (o : Obj) : Res Counts := if cnt o = 0 then .error .ub else .ok (upd cnt o (cnt o - 1))

/-- `if(p != nullptr)p->retain();` -/
def retainOpt (cnt : Counts) : Option Obj → Res Counts
  | none => .ok cnt
  | some o => retain cnt o

/-- `if(p != nullptr)p->release();` -/
def releaseOpt (cnt : Counts) : Option Obj → Res Counts
  | none => .ok cnt
  | some o => release cnt o

/-- include/core/UndoData.h: the members of the derived classes -/
inductive Kind where
  /-- UndoChangeObjectRef: `mPointer`, `mValue`, `mValue1`, `mValue2`, `mSwapped` -/
  | ref (cell : Cell) (value v1 v2 : Option Obj) (swapped : Bool)
  /-- UndoObjectRelease: `mReleased` -/
  | rel (released : Bool)
  /-- all others (numbers, strings, …, regeneration marker) -/
  | other
  deriving DecidableEq

/-- UndoChange: `mObject` and what the derived class adds -/
structure Change where
  owner : Obj
  kind : Kind
  deriving DecidableEq

/-- UndoChange.cpp:36-43 with 371-381: a change of a pointer -/
def mkRef (cnt : Counts) (cells : Cells) (owner : Obj) (cell : Cell) : Res (Change × Counts) := do
  let cnt ← retain cnt owner
  touch cnt cell.1
  let cnt ← retainOpt cnt (cells cell)
  return (⟨owner, .ref cell (cells cell) (cells cell) none false⟩, cnt)

/-- UndoChange.cpp:36-43 with 458-464 -/
def mkRel (cnt : Counts) (o : Obj) (released : Bool) : Res (Change × Counts) := do
  let cnt ← retain cnt o
  return (⟨o, .rel released⟩, cnt)

/-- UndoChange.cpp:36-43 with the other constructors, 65-361, 448-450 -/
def mkOther (cnt : Counts) (o : Obj) : Res (Change × Counts) := do
  let cnt ← retain cnt o
  return (⟨o, .other⟩, cnt)

/-- UndoChange.cpp:45-53: the destructor of the base class looks at the count, then releases -/
def destroyBase (cnt : Counts) (o : Obj) : Res Counts := do
  touch cnt o
  release cnt o

/-- `delete change`: UndoChange.cpp:383-389 or 466-470, then 45-53 -/
def destroy (cnt : Counts) (c : Change) : Res Counts :=
  match c.kind with
  | .ref _ _ v1 v2 _ => do
    let cnt ← releaseOpt cnt v1
    let cnt ← releaseOpt cnt v2
    destroyBase cnt c.owner
  | _ => destroyBase cnt c.owner

/-- UndoChange.cpp:396-401: at the first swap the other value is kept as well -/
def keepSecond (cnt : Counts) (tmp v2 : Option Obj) (swapped : Bool) : Res (Option Obj × Counts) :=
  if swapped then .ok (v2, cnt) else do
    let cnt ← retainOpt cnt tmp
    return (tmp, cnt)

/-- UndoChange.cpp:475-476 -/
def swapRel (cnt : Counts) (o : Obj) (released : Bool) : Res Counts := if released then retain cnt o else release cnt o

/-- `swap()`: UndoChange.cpp:392-407, 472-481, the others; each ends with 55-59, which accesses the owner -/
def swap (cnt : Counts) (cells : Cells) (c : Change) : Res (Change × Counts × Cells) := do
  touch cnt c.owner
  match c.kind with
  | .ref cell value v1 v2 swapped => do
    touch cnt cell.1
    let tmp := cells cell
    let (v2, cnt) ← keepSecond cnt tmp v2 swapped
    return (⟨c.owner, .ref cell tmp v1 v2 true⟩, cnt, upd cells cell value)
  | .rel released => do
    let cnt ← swapRel cnt c.owner released
    touch cnt c.owner
    return (⟨c.owner, .rel (!released)⟩, cnt, cells)
  | .other => return (c, cnt, cells)

/-- the loops of `undo`, `redo`, `rollback`, in the order of the list -/
def swapAll (cnt : Counts) (cells : Cells) : List Change → Res (List Change × Counts × Cells)
  | [] => .ok ([], cnt, cells)
  | c :: cs => do
    let (c, cnt, cells) ← swap cnt cells c
    let (cs, cnt, cells) ← swapAll cnt cells cs
    return (c :: cs, cnt, cells)

/-- from `recent` along `mPrev` -/
def swapBack (cnt : Counts) (cells : Cells) (cs : List Change) : Res (List Change × Counts × Cells) := do
  let (cs, cnt, cells) ← swapAll cnt cells cs.reverse
  return (cs.reverse, cnt, cells)

/-- `delete` of the changes of a list, in its order -/
def destroyAll (cnt : Counts) : List Change → Res Counts
  | [] => .ok cnt
  | c :: cs => do
    let cnt ← destroy cnt c
    destroyAll cnt cs

/-- UndoStep.cpp:45-60: from `recent` along `mPrev` -/
def destroyStep (cnt : Counts) (step : List Change) : Res Counts := destroyAll cnt step.reverse

/-- UndoManager.cpp:167-178, 180-191: from the top along `prev` -/
def destroySteps (cnt : Counts) : List (List Change) → Res Counts
  | [] => .ok cnt
  | s :: ss => do
    let cnt ← destroyStep cnt s
    destroySteps cnt ss

/-- UndoManager.h:420-475, and the world around it -/
structure State where
  cnt : Counts
  cells : Cells
  isOpen : Bool
  /-- `mCurrent`, eldest first -/
  current : List Change
  undoStack : List (List Change)
  redoStack : List (List Change)
  level : Nat
  /-- `mTransaction`, `none` for nullptr -/
  trans : Option (List Change)

/-- UndoManager.cpp:37-55, with no objects yet -/
def State.new : State :=
  { cnt := fun _ => 0, cells := fun _ => none, isOpen := false, current := [], undoStack := [], redoStack := [], level := 0, trans := none }

/-- UndoManager.cpp:180-191 -/
def clearRedoStack (s : State) : Res State := do
  let cnt ← destroySteps s.cnt s.redoStack
  return { s with cnt := cnt, redoStack := [] }

/-- UndoManager.cpp:167-178 -/
def clearUndoStack (s : State) : Res State := do
  let cnt ← destroySteps s.cnt s.undoStack
  return { s with cnt := cnt, undoStack := [] }

/-- UndoManager.cpp:147-158 -/
def close (s : State) : State :=
  if s.current.length = 0 then s else { s with undoStack := s.current :: s.undoStack, current := [], isOpen := false }

/-- UndoManager.cpp:160-165 -/
def clearStacks (s : State) : Res State := do
  let s ← clearUndoStack (close s)
  clearRedoStack s

/-- UndoManager.cpp:57-61: `mTransaction` is not looked at -/
def destroyManager (s : State) : Res State := do
  let s ← clearStacks s
  let cnt ← destroyStep s.cnt s.current
  return { s with cnt := cnt, current := [] }

/-- UndoManager.cpp:314-333, active -/
def addChange (s : State) (c : Change) : Res State :=
  if s.level > 0 then
    match s.trans with
    | none => .error .ub
    | some t => .ok { s with trans := some (t ++ [c]) }
  else do
    let s ← clearRedoStack { s with current := s.current ++ [c] }
    return { s with isOpen := true }

/-- UndoManager.cpp:288-291 `registerChange(object, Object**)` -/
def registerRef (s : State) (owner : Obj) (cell : Cell) : Res State := do
  let (c, cnt) ← mkRef s.cnt s.cells owner cell
  addChange { s with cnt := cnt } c

/-- UndoManager.cpp:303-311 `registerRelease` (`true`), `registerRetain` (`false`) -/
def registerRel (s : State) (o : Obj) (released : Bool) : Res State := do
  let (c, cnt) ← mkRel s.cnt o released
  addChange { s with cnt := cnt } c

/-- UndoManager.cpp:203-286, 298-301 -/
def registerOther (s : State) (o : Obj) : Res State := do
  let (c, cnt) ← mkOther s.cnt o
  addChange { s with cnt := cnt } c

/-- UndoManager.cpp:83-113 -/
def undo (s : State) : Res (Bool × State) :=
  if s.isOpen then .ok (false, s) else
    match s.undoStack with
    | [] => .ok (false, s)
    | step :: rest => do
      let (step, cnt, cells) ← swapBack s.cnt s.cells step
      return (true, { s with cnt := cnt, cells := cells, undoStack := rest, redoStack := step :: s.redoStack })

/-- UndoManager.cpp:115-145 -/
def redo (s : State) : Res (Bool × State) :=
  if s.isOpen then .ok (false, s) else
    match s.redoStack with
    | [] => .ok (false, s)
    | step :: rest => do
      let (step, cnt, cells) ← swapAll s.cnt s.cells step
      return (true, { s with cnt := cnt, cells := cells, redoStack := rest, undoStack := step :: s.undoStack })

/-- UndoManager.cpp:339-348 -/
def openTransaction (s : State) : State :=
  if s.level = 0 then { s with trans := some [], level := s.level + 1 } else { s with level := s.level + 1 }

/-- UndoManager.cpp:371-379 -/
def addAll (s : State) : List Change → Res State
  | [] => .ok s
  | c :: cs => do
    let s ← addChange s c
    addAll s cs

/-- UndoManager.cpp:360-391 -/
def commit (s : State) : Res State :=
  if s.level = 0 then .ok s
  else if s.level - 1 = 0 then
    match s.trans with
    | none => .error .ub
    | some t => do
      let s ← addAll { s with level := s.level - 1 } t
      return { s with trans := none }
  else .ok { s with level := s.level - 1 }

/-- UndoManager.cpp:393-416: the changes are swapped back, then deleted -/
def rollback (s : State) : Res State :=
  if s.level = 0 then .ok s
  else if s.level - 1 = 0 then
    match s.trans with
    | none => .error .ub
    | some t => do
      let (t, cnt, cells) ← swapBack s.cnt s.cells t
      let cnt ← destroyStep cnt t
      return { s with level := s.level - 1, cnt := cnt, cells := cells, trans := none }
  else .ok { s with level := s.level - 1 }

/-! ### LinkedList under an undo manager: the pointers and references -/

/-- the members of a list element and of a list, as cells: include/core/LinkedList.h:41-56, 165-171 -/
def dataCell (o : Obj) : Cell := (o, 0)
def prevCell (o : Obj) : Cell := (o, 1)
def nextCell (o : Obj) : Cell := (o, 2)
def startCell (o : Obj) : Cell := (o, 0)
def endCell (o : Obj) : Cell := (o, 1)

/-- an assignment to a pointer -/
def setCell (s : State) (cell : Cell) (v : Option Obj) : State := { s with cells := upd s.cells cell v }

/-- `if(p != nullptr)um->registerChange(p, &p->member);` -/
def registerOpt (s : State) (p : Option Obj) (cell : Obj → Cell) : Res State :=
  match p with
  | none => .ok s
  | some o => registerRef s o (cell o)

/-- LinkedList.cpp:129-136 -/
def registerAdd (s : State) (list item : Obj) : Res State := do
  let s ← registerRef s item (prevCell item)
  let s ← registerOpt s (s.cells (endCell list)) nextCell
  let s ← if s.cells (startCell list) = none then registerRef s list (startCell list) else .ok s
  let s ← registerRef s list (endCell list)
  registerOther s list

/-- LinkedList.cpp:138-152 -/
def linkAdd (s : State) (list item : Obj) : State :=
  let last := s.cells (endCell list)
  let s := setCell s (prevCell item) last
  let s := match last with
    | none => s
    | some e => setCell (setCell s (nextCell e) (some item)) (prevCell item) last
  let s := setCell s (endCell list) (some item)
  if s.cells (startCell list) = none then setCell s (startCell list) (some item) else s

/-- LinkedList.cpp:119-125 with 127-153: `add(data, um)`; the new element is object `item` -/
def listAdd (s : State) (list item : Obj) (data : Option Obj) : Res State := do
  let s : State := { s with cnt := upd s.cnt item 1, cells := upd (upd (upd s.cells (dataCell item) none) (prevCell item) none) (nextCell item) none }
  let s ← registerRef s item (dataCell item)
  let s := setCell s (dataCell item) data
  let s ← registerAdd s list item
  return linkAdd s list item

/-- LinkedList.cpp:218-228 -/
def registerRemove (s : State) (list e : Obj) : Res State := do
  let s ← registerOpt s (s.cells (prevCell e)) nextCell
  let s ← registerOpt s (s.cells (nextCell e)) prevCell
  let s ← if s.cells (startCell list) = some e then registerRef s list (startCell list) else .ok s
  let s ← if s.cells (endCell list) = some e then registerRef s list (endCell list) else .ok s
  let s ← registerRef s e (prevCell e)
  let s ← registerRef s e (nextCell e)
  let s ← registerOther s list
  registerRel s e true

/-- LinkedList.cpp:230-246 -/
def unlink (s : State) (list e : Obj) : State :=
  let prev := s.cells (prevCell e)
  let next := s.cells (nextCell e)
  let s := match prev with | none => s | some p => setCell s (nextCell p) next
  let s := match next with | none => s | some n => setCell s (prevCell n) prev
  let s := if s.cells (startCell list) = some e then setCell s (startCell list) (s.cells (nextCell e)) else s
  let s := if s.cells (endCell list) = some e then setCell s (endCell list) (s.cells (prevCell e)) else s
  setCell (setCell s (prevCell e) none) (nextCell e) none

/-- LinkedList.cpp:213-251 `remove(element, um)` -/
def listRemove (s : State) (list e : Obj) : Res State := do
  touch s.cnt e
  let s ← registerRemove s list e
  let s := unlink s list e
  let cnt ← release s.cnt e
  return { s with cnt := cnt }

/-- LinkedList.cpp:184-193: the change of the predecessor's `next` is registered for the successor, 190-191 -/
def registerAddBefore (s : State) (list before item : Obj) : Res State := do
  let s ← registerRef s item (prevCell item)
  let s ← registerRef s item (nextCell item)
  let s ← if s.cells (startCell list) = some before then registerRef s list (startCell list) else .ok s
  let s ← registerRef s before (prevCell before)
  let s ← match s.cells (prevCell before) with
    | none => .ok s
    | some a => registerRef s before (nextCell a)
  registerOther s list

/-- LinkedList.cpp:182, 195-206 -/
def linkAddBefore (s : State) (list before item : Obj) : State :=
  let after := s.cells (prevCell before)
  let s := if s.cells (startCell list) = some before then setCell s (startCell list) (some item) else s
  let s := setCell s (prevCell item) after
  let s := setCell s (nextCell item) (some before)
  let s := match after with | none => s | some a => setCell s (nextCell a) (some item)
  setCell s (prevCell before) (some item)

/-- the loops of LinkedList.cpp:159-168 and 256-264: the first element with the data, from `e` on; `fuel` bounds the number of elements, a
loop that needs more counts as one that does not end -/
def findData (s : State) (d : Option Obj) : Nat → Option Obj → Res (Option Obj)
  | _, none => .ok none
  | 0, some _ => .error .ub
  | fuel + 1, some e => do
    touch s.cnt e
    if s.cells (dataCell e) = d then return some e else findData s d fuel (s.cells (nextCell e))

/-- LinkedList.cpp:155-178 with 180-210: `addBefore(addBeforeThis, itemToAdd, um)`; the new element is object `item`.  Returns whether there was
an element to add the new one before, that is, whether `item` was created. -/
def listAddBefore (s : State) (list item : Obj) (before data : Option Obj) (fuel : Nat) : Res (Bool × State) := do
  touch s.cnt list
  match ← findData s before fuel (s.cells (startCell list)) with
  | none => return (false, s)
  | some b => do
    let s : State := { s with cnt := upd s.cnt item 1, cells := upd (upd (upd s.cells (dataCell item) none) (prevCell item) none) (nextCell item) none }
    let s ← registerRef s item (dataCell item)
    let s := setCell s (dataCell item) data
    let s ← registerAddBefore s list b item
    return (true, linkAddBefore s list b item)

/-- LinkedList.cpp:254-267 `remove(data, um)`; returns whether the data was found -/
def listRemoveData (s : State) (list : Obj) (data : Option Obj) (fuel : Nat) : Res (Bool × State) := do
  touch s.cnt list
  match ← findData s data fuel (s.cells (startCell list)) with
  | none => return (false, s)
  | some e => do
    let s ← listRemove s list e
    return (true, s)

/-- LinkedList.cpp:101-105 -/
def removeAll (list : Obj) : Nat → State → Res State
  | 0, s =>
    match s.cells (startCell list) with
    | none => .ok s
    | some _ => .error .ub
  | fuel + 1, s =>
    match s.cells (startCell list) with
    | none => .ok s
    | some e => do
      let s ← listRemove s list e
      removeAll list fuel s

/-- LinkedList.cpp:97-117 `clear(um)`, with an undo manager; the pointers are cleared once more, without registering it -/
def listClear (s : State) (list : Obj) (fuel : Nat) : Res State := do
  touch s.cnt list
  let s ← removeAll list fuel s
  return setCell (setCell s (startCell list) none) (endCell list) none

/-- LinkedList.cpp:279-286: the elements found; see `findData` for `fuel` -/
def swapLoop (s : State) (d1 d2 : Option Obj) : Nat → Option Obj → Option Obj → Option Obj → Res (Option Obj × Option Obj)
  | _, none, e1, e2 => .ok (e1, e2)
  | 0, some _, _, _ => .error .ub
  | fuel + 1, some e, e1, e2 => do
    touch s.cnt e
    let e1 := if s.cells (dataCell e) = d1 then some e else e1
    let e2 := if s.cells (dataCell e) = d2 then some e else e2
    if e1.isSome && e2.isSome then return (e1, e2) else swapLoop s d1 d2 fuel (s.cells (nextCell e)) e1 e2

/-- LinkedList.cpp:292-295 -/
def swapElems (s : State) (e1 e2 : Obj) (d1 d2 : Option Obj) : Res State := do
  let s ← registerRef s e1 (dataCell e1)
  let s ← registerRef s e2 (dataCell e2)
  return setCell (setCell s (dataCell e1) d2) (dataCell e2) d1

/-- LinkedList.cpp:274-298 `swapData(data1, data2, um)`, with an undo manager -/
def listSwap (s : State) (list : Obj) (d1 d2 : Option Obj) (fuel : Nat) : Res State := do
  touch s.cnt list
  let r ← swapLoop s d1 d2 fuel (s.cells (startCell list)) none none
  match r with
  | (some e1, some e2) => swapElems s e1 e2 d1 d2
  | _ => return s

end Verif.UndoRef
