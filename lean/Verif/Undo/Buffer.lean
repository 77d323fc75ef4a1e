import Verif.Heap
import Verif.Undo.Model
/-
Registering a block of bytes with the undo manager: `UndoManager::registerChange(object, uint8** pointer, length)`.

 * `count` is the reference count of the object, 0 if it does not exist; `block` the bytes at `*pointer`; `copies` the arrays the
   constructor of `UndoChangeBuffer` allocates (a freed one is `none`).
 * Allocation always succeeds.  The memory of the change itself is returned by the `new` expression when the constructor throws.
-/
namespace Verif.Undo.Buffer
open Verif

/-- the parts of the program the call touches -/
structure W (V : Type) where
  um : State V
  count : Nat
  block : List Byte
  copies : Heap (List Byte)

/-- how a call ends, if it is defined -/
inductive Ended (V : Type) where
  | returned (w : W V)
  | threw (w : W V)

variable {V : Type}

/-- UndoChange.cpp:36-43, Object.cpp:71-78: the base class retains the object -/
def baseNew (w : W V) : Res (W V) := if w.count = 0 then .error .ub else .ok { w with count := w.count + 1 }

/-- UndoChange.cpp:45-53, Object.cpp:49-69: the base class releases it -/
def baseDelete (w : W V) : Res (W V) := if w.count = 0 then .error .ub else .ok { w with count := w.count - 1 }

/-- UndoChange.cpp:417-428: for up to eight bytes the pointer itself is kept, otherwise a copy is made (`memcpy`) -/
def copyBlock (w : W V) (length : Nat) : Res (W V) :=
  if length ≤ 8 then .ok w
  else if w.block.length < length then .error .ub
  else .ok { w with copies := (w.copies.alloc (w.block.take length)).1 }

/-- UndoManager.cpp:293-296 with UndoChange.cpp:413-431: the constructor ends with `throw`, so that the destructor of the base class
runs, but not that of `UndoChangeBuffer`, and the manager's `registerChange(UndoChange*)` (314-333) is never entered, whether the
manager is active or not. -/
def registerBuffer (w : W V) (length : Nat) : Res (Ended V) := do
  let w ← baseNew w
  let w ← copyBlock w length
  let w ← baseDelete w
  return .threw w

/-- a program that registers blocks of the given lengths one after the other and catches every exception -/
def registerAll : List Nat → W V → Res (W V)
  | [], w => .ok w
  | n :: ns, w => do
    match ← registerBuffer w n with
    | .returned w => registerAll ns w
    | .threw w => registerAll ns w

end Verif.Undo.Buffer
