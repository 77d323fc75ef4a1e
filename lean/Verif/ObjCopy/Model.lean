import Verif.Heap
import Verif.RefCount.Model
/-
C121: reference counts of objects that are copied or assigned, of objects older than `System::init` and of objects younger
than the last `System::quit`: src/core/Object.cpp, src/core/AutoreleasePool.cpp, src/core/System.cpp, used by one thread
(several threads: Verif/RefCount).

 * Destructors of the objects do nothing to other objects.
 * `userCopy` tells whether the class of the object has its own copy constructor and assignment (String, ByteArray, File, Array,
   StringList, …: they call `Object()` and do not assign the base) or leaves them to the compiler (LinkedList, Hashtable,
   Document, Nurbs, URI, Thread, and every class of an application that does not write them): then the members of `Object`
   are copied as well. Only the base `Object` is modelled here; the other members are in Verif/Own.
-/
namespace Verif.ObjCopy
open Verif
open Verif.RefCount (refCount withHighBit highBit)

/-- Object.h:113-125: `mRefCount` and `mPool` -/
structure Obj where
  raw : BitVec 32
  pool : Option Nat
  userCopy : Bool

/-- objects, pools (with the objects added to them, oldest first) and System.cpp:421 `gMainThreadPool` -/
structure State where
  objs : Heap Obj
  pools : Heap (List Nat)
  main : Option Nat

/-- the program starts -/
def State.start : State := ⟨[], [], none⟩

/-- Object.cpp:36-42 the constructor, for `new` -/
def create (s : State) (userCopy : Bool) : State := { s with objs := (s.objs.alloc ⟨1, s.main, userCopy⟩).1 }

/-- `new T(*src)`. With an own copy constructor Object.cpp:36-42 runs, e.g. ByteArray.cpp:90, String.cpp:52, Array.h:65; the
implicit one copies the members of `Object`. -/
def copy (s : State) (src : Nat) : Res State := do
  let x ← s.objs.load src
  return { s with objs := (s.objs.alloc (if x.userCopy then ⟨1, s.main, true⟩ else x)).1 }

/-- the base of the target `y` after `y = x`: an own assignment does not touch it (ByteArray.cpp:255, String.cpp:1233,
File.cpp:79, Array.h:136), the implicit one copies the members of Object.h:113-125 -/
def assigned (y x : Obj) : Obj := if y.userCopy then y else { y with raw := x.raw, pool := x.pool }

/-- `*dst = *src`, objects of one class -/
def assign (s : State) (dst src : Nat) : Res State := do
  let x ← s.objs.load src
  let y ← s.objs.load dst
  let objs ← s.objs.store dst (assigned y x)
  return { s with objs := objs }

/-- the mutex of a pool is used: there must be such a pool -/
def lockPool (s : State) : Option Nat → Res Unit
  | none => .error .ub
  | some p => do let _ ← s.pools.load p; return ()

/-- Object.cpp:49-69 -/
def release (s : State) (o : Nat) : Res State := do
  let x ← s.objs.load o
  if x.pool.isNone then return s
  lockPool s x.pool
  if x.raw = 0x80000000 then .error .ub
  else
    let raw := x.raw - 1
    if refCount raw = 0 then do
      let objs ← s.objs.free o
      return { s with objs := objs }
    else do
      let objs ← s.objs.store o { x with raw := raw }
      return { s with objs := objs }

/-- Object.cpp:71-78 -/
def retain (s : State) (o : Nat) : Res State := do
  let x ← s.objs.load o
  lockPool s x.pool
  if x.raw = 0x7FFFFFFF then .error .ub
  else do
    let objs ← s.objs.store o { x with raw := x.raw + 1 }
    return { s with objs := objs }

/-- Object.cpp:80-84, AutoreleasePool.cpp:74-83 -/
def autorelease (s : State) (o : Nat) : Res State := do
  let x ← s.objs.load o
  match x.pool with
  | none => .error .ub
  | some p => do
    let l ← s.pools.load p
    let pools ← s.pools.store p (l ++ [o])
    return { s with pools := pools }

/-- Object.cpp:106-109 -/
def setHighBit (s : State) (o : Nat) (b : Bool) : Res State := do
  let x ← s.objs.load o
  let objs ← s.objs.store o { x with raw := withHighBit x.raw b }
  return { s with objs := objs }

/-- AutoreleasePool.cpp:59-66, the loop -/
def releaseAll (s : State) : List Nat → Res State
  | [] => .ok s
  | o :: l => do let s ← release s o; releaseAll s l

/-- AutoreleasePool.cpp:54-72 `drain` of the pool `p` -/
def drainPool (s : State) (p : Nat) : Res State := do
  let l ← s.pools.load p
  let s ← releaseAll s l
  let pools ← s.pools.store p []
  return { s with pools := pools }

/-- `System::autoreleasePool()->drain()`, System.cpp:424-427 -/
def drain (s : State) : Res State :=
  match s.main with
  | none => .error .ub
  | some p => drainPool s p

/-- System.cpp:434-442, the part that makes the pool -/
def init (s : State) : State :=
  match s.main with
  | none => { s with pools := (s.pools.alloc []).1, main := some (s.pools.alloc []).2 }
  | some _ => s

/-- System.cpp:467-471, AutoreleasePool.cpp:45-52 -/
def quit (s : State) : Res State :=
  match s.main with
  | none => .ok s
  | some p => do
    let s ← drainPool s p
    let pools ← s.pools.free p
    return { s with pools := pools, main := none }

/-- what a program does -/
inductive Act where
  | init
  | quit
  | create (userCopy : Bool)
  | copy (src : Nat)
  | assign (dst src : Nat)
  | retain (o : Nat)
  | release (o : Nat)
  | autorelease (o : Nat)
  | mark (o : Nat) (b : Bool)
  | drain

def step (s : State) : Act → Res State
  | .init => .ok (init s)
  | .quit => quit s
  | .create u => .ok (create s u)
  | .copy src => copy s src
  | .assign dst src => assign s dst src
  | .retain o => retain s o
  | .release o => release s o
  | .autorelease o => autorelease s o
  | .mark o b => setHighBit s o b
  | .drain => drain s

def run (s : State) : List Act → Res State
  | [] => .ok s
  | a :: l => do let s ← step s a; run s l

end Verif.ObjCopy
