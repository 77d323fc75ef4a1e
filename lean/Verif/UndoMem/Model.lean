import Verif.Undo.Spec
import Verif.Heap
/-
Model of the undo manager with its steps and changes in memory: src/core/UndoManager.cpp and src/core/UndoStep.cpp.

 * Steps (`UndoStep`) and changes (`UndoChange`) live on two heaps; pointers are addresses, `nullptr` is `none`.
 * What a change does to the program's memory is that of `Verif.Undo` (`swap`, `readMem`); likewise `mDocument` and `regen`.
 * `retain`/`release` of the owner in the constructor and destructor of a change are in `Verif.UndoRef`.
 * Loops along pointers get the number of addresses ever used as fuel; running out of it (a cycle) counts as undefined behaviour.
 * `mUndoing` is true only inside `undo`/`redo`, where no call from outside happens; it is not modelled.
-/
namespace Verif.UndoMem
open Verif Verif.Undo

variable {V : Type}

/-- UndoData.h:53-89 `UndoChange` -/
structure CNode (V : Type) where
  prev : Option Nat
  next : Option Nat
  chg : Change V

/-- UndoData.h:646-674 `UndoStep` -/
structure SNode where
  prev : Option Nat
  recent : Option Nat
  eldest : Option Nat
  count : BitVec 32

/-- UndoManager.h:420-473 together with the memory -/
structure M (V : Type) where
  mem : Mem V
  regen : Nat → Bool
  docChanged : Bool
  ch : Heap (CNode V)
  sh : Heap SNode
  active : Bool
  isOpen : Bool
  current : Nat
  undoStack : Option Nat
  redoStack : Option Nat
  undoCount : BitVec 32
  redoCount : BitVec 32
  level : Nat
  trans : Option Nat
  tstatus : Status

/-- UndoStep.cpp:37-43 -/
def SNode.new : SNode := ⟨none, none, none, 0⟩

/-- UndoManager.cpp:37-55, with `setActive(true)` of Document.cpp:67-86 -/
def M.new (m : Mem V) (regen : Nat → Bool) (docChanged : Bool) : M V :=
  { mem := m, regen := regen, docChanged := docChanged, ch := [], sh := [some SNode.new], active := true, isOpen := false, current := 0,
    undoStack := none, redoStack := none, undoCount := 0, redoCount := 0, level := 0, trans := none, tstatus := eOK }

/-- UndoStep.cpp:66 `if(recent != nullptr)recent->mNext = change;` -/
def linkNext (ch : Heap (CNode V)) (change : Nat) : Option Nat → Res (Heap (CNode V))
  | none => .ok ch
  | some r => do
    let n ← ch.load r
    ch.store r { n with next := some change }

/-- UndoStep.cpp:62-73 `add` -/
def stepAdd (m : M V) (step change : Nat) : Res (M V) := do
  let s ← m.sh.load step
  let c ← m.ch.load change
  let ch ← m.ch.store change { c with prev := s.recent }
  let ch ← linkNext ch change s.recent
  let sh ← m.sh.store step { s with recent := some change, eldest := if s.eldest.isNone then some change else s.eldest, count := s.count + 1 }
  return { m with ch := ch, sh := sh }

/-- UndoStep.cpp:47-54: the loop of the destructor -/
def freeChain : Nat → Option Nat → Heap (CNode V) → Res (Heap (CNode V))
  | _, none, ch => .ok ch
  | 0, some _, _ => .error .ub
  | fuel + 1, some p, ch => do
    let n ← ch.load p
    let ch ← ch.free p
    freeChain fuel n.prev ch

/-- UndoStep.cpp:45-60: `delete step` -/
def deleteStep (m : M V) (step : Nat) : Res (M V) := do
  let s ← m.sh.load step
  let ch ← freeChain m.ch.length s.recent m.ch
  let sh ← m.sh.free step
  return { m with ch := ch, sh := sh }

/-- UndoManager.cpp:95-100, 405-410: `while(change != nullptr) { change->swap(); change = change->mPrev; }` -/
def swapPrev : Nat → Option Nat → M V → Res (M V)
  | _, none, m => .ok m
  | 0, some _, _ => .error .ub
  | fuel + 1, some p, m => do
    let n ← m.ch.load p
    let x := swap n.chg m.mem m.regen
    let ch ← m.ch.store p { n with chg := x.1 }
    swapPrev fuel n.prev { m with ch := ch, mem := x.2.1, regen := x.2.2 }

/-- UndoManager.cpp:127-132: the same along `mNext` -/
def swapNext : Nat → Option Nat → M V → Res (M V)
  | _, none, m => .ok m
  | 0, some _, _ => .error .ub
  | fuel + 1, some p, m => do
    let n ← m.ch.load p
    let x := swap n.chg m.mem m.regen
    let ch ← m.ch.store p { n with chg := x.1 }
    swapNext fuel n.next { m with ch := ch, mem := x.2.1, regen := x.2.2 }

/-- UndoManager.cpp:83-113 -/
def undo (m : M V) : Res (Bool × M V) :=
  if m.isOpen then .ok (false, m) else
    match m.undoStack with
    | none => .ok (false, m)
    | some step => do
      let s ← m.sh.load step
      let m ← swapPrev m.ch.length s.recent { m with undoStack := s.prev }
      let s ← m.sh.load step
      let sh ← m.sh.store step { s with prev := m.redoStack }
      return (true, { m with sh := sh, redoStack := some step, undoCount := m.undoCount - 1, redoCount := m.redoCount + 1, docChanged := true })

/-- UndoManager.cpp:115-145 -/
def redo (m : M V) : Res (Bool × M V) :=
  if m.isOpen then .ok (false, m) else
    match m.redoStack with
    | none => .ok (false, m)
    | some step => do
      let s ← m.sh.load step
      let m ← swapNext m.ch.length s.eldest { m with redoStack := s.prev }
      let s ← m.sh.load step
      let sh ← m.sh.store step { s with prev := m.undoStack }
      return (true, { m with sh := sh, undoStack := some step, undoCount := m.undoCount + 1, redoCount := m.redoCount - 1, docChanged := true })

/-- UndoManager.cpp:147-158 -/
def close (m : M V) : Res (M V) := do
  let s ← m.sh.load m.current
  if s.count = 0 then return m
  else
    let sh ← m.sh.store m.current { s with prev := m.undoStack }
    let a := sh.alloc SNode.new
    return { m with sh := a.1, undoStack := some m.current, current := a.2, isOpen := false, undoCount := m.undoCount + 1, docChanged := true }

/-- UndoManager.cpp:169-175, 182-188: the loops that delete a stack -/
def freeSteps : Nat → Option Nat → M V → Res (M V)
  | _, none, m => .ok m
  | 0, some _, _ => .error .ub
  | fuel + 1, some p, m => do
    let s ← m.sh.load p
    let m ← deleteStep m p
    freeSteps fuel s.prev m

/-- UndoManager.cpp:167-178 -/
def clearUndoStack (m : M V) : Res (M V) := do
  let m ← freeSteps m.sh.length m.undoStack m
  return { m with undoStack := none, undoCount := 0 }

/-- UndoManager.cpp:180-191 -/
def clearRedoStack (m : M V) : Res (M V) := do
  let m ← freeSteps m.sh.length m.redoStack m
  return { m with redoStack := none, redoCount := 0 }

/-- UndoManager.cpp:160-165 -/
def clearStacks (m : M V) : Res (M V) := do
  let m ← close m
  let m ← clearUndoStack m
  clearRedoStack m

/-- UndoManager.cpp:314-333 `registerChange(UndoChange*)` -/
def registerChange (m : M V) (change : Nat) : Res (M V) :=
  if !m.active then do
    let ch ← m.ch.free change
    return { m with ch := ch }
  else if m.level > 0 then
    match m.trans with
    | none => .error .ub
    | some t => stepAdd m t change
  else do
    let m ← stepAdd m m.current change
    let m ← clearRedoStack m
    return { m with isOpen := true }

/-- UndoManager.cpp:203-301 with the constructors UndoChange.cpp:36-43 and following -/
def register (m : M V) (owner ptr n : Nat) : Res (M V) :=
  let a := m.ch.alloc ⟨none, none, ⟨owner, ptr, readMem m.mem ptr n⟩⟩
  registerChange { m with ch := a.1 } a.2

/-- UndoManager.cpp:339-348 -/
def openTransaction (m : M V) : M V :=
  if m.level = 0 then
    let a := m.sh.alloc SNode.new
    { m with tstatus := eOK, sh := a.1, trans := some a.2, level := m.level + 1 }
  else { m with level := m.level + 1 }

/-- UndoManager.cpp:371-379: the loop of `commit` -/
def moveChanges : Nat → Option Nat → M V → Res (M V)
  | _, none, m => .ok m
  | 0, some _, _ => .error .ub
  | fuel + 1, some p, m => do
    let n ← m.ch.load p
    let ch ← m.ch.store p { n with prev := none, next := none }
    let m ← registerChange { m with ch := ch } p
    moveChanges fuel n.next m

/-- UndoManager.cpp:360-391 -/
def commit (m : M V) : Res (M V) :=
  if m.level = 0 then .ok m
  else if m.level - 1 = 0 then
    match m.trans with
    | none => .error .ub
    | some t => do
      let s ← m.sh.load t
      let m ← moveChanges m.ch.length s.eldest { m with level := m.level - 1 }
      let sh ← m.sh.store t SNode.new
      let m ← deleteStep { m with sh := sh } t
      return { m with trans := none, tstatus := eOK }
  else .ok { m with level := m.level - 1 }

/-- UndoManager.cpp:393-416 -/
def rollback (m : M V) : Res (M V) :=
  if m.level = 0 then .ok m
  else if m.level - 1 = 0 then
    match m.trans with
    | none => .error .ub
    | some t => do
      let s ← m.sh.load t
      let m ← swapPrev m.ch.length s.recent { m with level := m.level - 1 }
      let m ← deleteStep m t
      return { m with trans := none, tstatus := eOK }
  else .ok { m with level := m.level - 1 }

/-- UndoManager.cpp:350-358 -/
def closeTransaction (m : M V) : Res (Status × M V) := do
  let status := m.tstatus
  let m ← if status = eOK then commit m else rollback m
  return (status, m)

/-- UndoManager.cpp:423-427 -/
def registerTransactionStatus (m : M V) (st : Status) : M V :=
  if st ≠ eOK ∧ st ≠ eNotChanged then { m with tstatus := st } else m

/-- UndoManager.cpp:57-61 the destructor -/
def destroy (m : M V) : Res (M V) := do
  let m ← clearStacks m
  deleteStep m m.current

/-- an assignment to a member by the program -/
def store (m : M V) (ptr : Nat) (v : List V) : M V := { m with mem := writeMem m.mem ptr v }

/-- UndoManager.cpp:68-71 -/
def setActive (m : M V) (b : Bool) : M V := { m with active := b }

end Verif.UndoMem
