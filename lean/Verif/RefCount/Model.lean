import Verif.Base
/-
Model of src/core/Object.cpp (retain, release, autorelease, setHighBit) and src/core/AutoreleasePool.cpp (add, drain)
as a transition system: any number of threads, any number of objects, every interleaving.
 * A thread has a stack of frames; a frame says which statement it executes next.  Every step is one access to shared
   memory or one operation on a mutex.
 * `m` is AutoreleasePool::mMutex, `pm` is mPoolMutex; locking a mutex that is held blocks (a normal pthread mutex).
 * `tok` counts the references a thread owns.  They are not part of the program; they say what the client is allowed to
   do: `retain` and `release` and `autorelease` are called by a thread that owns a reference only, `release` and
   `autorelease` give one up, `retain` yields one, `give` hands one over to another thread.
 * `delete this` runs the destructor of the object: the frame `dtor`, in which the thread may call everything again.
 * Every access to an object after `delete` is undefined behaviour.
 * The list of pool entries is a list of objects, taken out at the beginning of `drain`.  (In the code mPool->next is
   reset at the end; both happen under mPoolMutex.  Verif/RefCount/Pool.lean has the linked entries.)
 * Objects whose pool is null (Object.cpp:51, only during destruction) are not modelled.
-/
namespace Verif.RefCount
open Verif

inductive Frame where
  /-- Object.cpp:49-54: reads mPool -/
  | relCall (o : Nat)
  /-- Object.cpp:56 -/
  | relLock (o : Nat)
  /-- Object.cpp:57: the load of `mRefCount--` -/
  | relLoad (o : Nat)
  /-- Object.cpp:57: the store of `mRefCount--` -/
  | relStore (o : Nat) (v : BitVec 32)
  /-- Object.cpp:58 -/
  | relCount (o : Nat)
  /-- Object.cpp:59 -/
  | relUnlock (o : Nat) (c : BitVec 32)
  /-- Object.cpp:61-68 -/
  | relTest (o : Nat) (c : BitVec 32)
  /-- inside the destructor -/
  | dtor (o : Nat)
  /-- Object.cpp:73 -/
  | retCall (o : Nat)
  /-- Object.cpp:74 -/
  | retLock (o : Nat)
  /-- Object.cpp:75: the load of `mRefCount++` -/
  | retLoad (o : Nat)
  /-- Object.cpp:75: the store of `mRefCount++` -/
  | retStore (o : Nat) (v : BitVec 32)
  /-- Object.cpp:76-77 -/
  | retUnlock (o : Nat)
  /-- Object.cpp:82: reads mPool -/
  | addCall (o : Nat)
  /-- AutoreleasePool.cpp:78 -/
  | addLock (o : Nat)
  /-- AutoreleasePool.cpp:79-83 -/
  | addLink (o : Nat)
  /-- AutoreleasePool.cpp:84 -/
  | addUnlock
  /-- AutoreleasePool.cpp:58 -/
  | drainLock
  /-- AutoreleasePool.cpp:59 -/
  | drainTake
  /-- AutoreleasePool.cpp:61-69: `r` is what `pool` points to -/
  | drainLoop (r : List Nat)
  /-- AutoreleasePool.cpp:71-73 -/
  | drainUnlock
  /-- Object.cpp:108: the load -/
  | markLoad (o : Nat) (b : Bool)
  /-- Object.cpp:108: the store -/
  | markStore (o : Nat) (b : Bool) (v : BitVec 32)
deriving DecidableEq

structure Thr where
  stack : List Frame
  tok : Nat → Nat

structure State where
  thr : List Thr
  /-- mRefCount -/
  raw : Nat → BitVec 32
  alive : Nat → Bool
  next : Nat
  m : Bool
  pm : Bool
  pool : List Nat

/-- what can be seen from outside -/
inductive Ev where
  /-- a constructor has run -/
  | created (o : Nat)
  /-- `retain` has returned -/
  | retained (o : Nat)
  /-- the client calls `release` -/
  | released (o : Nat)
  /-- `autorelease` has put the object into the pool -/
  | added (o : Nat)
  /-- `drain` calls `release` -/
  | poolReleased (o : Nat)
  /-- `drain` returns -/
  | drained
  /-- `delete this` -/
  | destroyed (o : Nat)
deriving DecidableEq

def upd {β : Type} (f : Nat → β) (o : Nat) (x : β) : Nat → β := fun o' => if o' = o then x else f o'

def State.setT (s : State) (i : Nat) (t : Thr) : State := { s with thr := s.thr.set i t }

/-- Object.cpp:86-89 `referenceCount` -/
def refCount (v : BitVec 32) : BitVec 32 := v &&& 0x7FFFFFFF

/-- Object.cpp:106-109 `setHighBit` on a value of mRefCount -/
def withHighBit (v : BitVec 32) (b : Bool) : BitVec 32 := refCount v ||| (if b then 0x80000000 else 0)

/-- Object.cpp:111-114 `highBit` -/
def highBit (v : BitVec 32) : Bool := (v &&& 0x80000000) != 0

/-! ### weights of frames: how many references to `o` a frame stands for -/

def sumBy (w : Frame → Nat) : List Frame → Nat
  | [] => 0
  | f :: l => w f + sumBy w l

def State.S (s : State) (w : Frame → Nat) : Nat := (s.thr.map (fun t => sumBy w t.stack)).sum

/-- references owned by threads -/
def State.T (s : State) (o : Nat) : Nat := (s.thr.map (fun t => t.tok o)).sum

/-- references held by a call in progress: by `retain` the one of the caller, by `autorelease` and `drain` those in
transit from and to the pool -/
def own (o : Nat) : Frame → Nat
  | .retCall p | .retLock p | .retLoad p | .retStore p _ | .retUnlock p => if p = o then 1 else 0
  | .addCall p | .addLock p | .addLink p => if p = o then 1 else 0
  | .drainLoop r => r.count o
  | _ => 0

/-- a `release` that has not counted down yet -/
def pre (o : Nat) : Frame → Nat
  | .relCall p | .relLock p | .relLoad p | .relStore p _ => if p = o then 1 else 0
  | _ => 0

/-- a `retain` in progress -/
def pend (o : Nat) : Frame → Nat
  | .retCall p | .retLock p | .retLoad p | .retStore p _ | .retUnlock p => if p = o then 1 else 0
  | _ => 0

/-- all references to `o` there are or will be when the calls in progress have returned -/
def State.refs (s : State) (o : Nat) : Nat := s.T o + s.pool.count o + s.S (own o) + s.S (pre o) + s.S (pend o)

/-- the client may call something: in its own code or in a destructor -/
def atClient : List Frame → Bool
  | [] => true
  | .dtor _ :: _ => true
  | _ => false

/-- one step of thread `i` in frame `f` -/
def micro (s : State) (i : Nat) (tok : Nat → Nat) (rest : List Frame) : Frame → Res (State × List Ev)
  | .relCall o => if s.alive o then .ok (s.setT i ⟨.relLock o :: rest, tok⟩, []) else .error .ub
  | .relLock o => if s.m then .ok (s, []) else .ok ({ s.setT i ⟨.relLoad o :: rest, tok⟩ with m := true }, [])
  | .relLoad o => if s.alive o then .ok (s.setT i ⟨.relStore o (s.raw o) :: rest, tok⟩, []) else .error .ub
  | .relStore o v =>
    if s.alive o ∧ v ≠ 0x80000000 then
      .ok ({ s.setT i ⟨.relCount o :: rest, tok⟩ with raw := upd s.raw o (v - 1) }, [])
    else .error .ub
  | .relCount o => if s.alive o then .ok (s.setT i ⟨.relUnlock o (refCount (s.raw o)) :: rest, tok⟩, []) else .error .ub
  | .relUnlock o c => .ok ({ s.setT i ⟨.relTest o c :: rest, tok⟩ with m := false }, [])
  | .relTest o c =>
    if c = 0 then
      if s.alive o then .ok ({ s.setT i ⟨.dtor o :: rest, tok⟩ with alive := upd s.alive o false }, [.destroyed o])
      else .error .ub
    else .ok (s.setT i ⟨rest, tok⟩, [])
  | .dtor o => .ok (s.setT i ⟨.dtor o :: rest, tok⟩, [])
  | .retCall o => if s.alive o then .ok (s.setT i ⟨.retLock o :: rest, tok⟩, []) else .error .ub
  | .retLock o => if s.m then .ok (s, []) else .ok ({ s.setT i ⟨.retLoad o :: rest, tok⟩ with m := true }, [])
  | .retLoad o => if s.alive o then .ok (s.setT i ⟨.retStore o (s.raw o) :: rest, tok⟩, []) else .error .ub
  | .retStore o v =>
    if s.alive o ∧ v ≠ 0x7FFFFFFF then
      .ok ({ s.setT i ⟨.retUnlock o :: rest, tok⟩ with raw := upd s.raw o (v + 1) }, [])
    else .error .ub
  | .retUnlock o => .ok ({ s.setT i ⟨rest, upd tok o (tok o + 2)⟩ with m := false }, [.retained o])
  | .addCall o => if s.alive o then .ok (s.setT i ⟨.addLock o :: rest, tok⟩, []) else .error .ub
  | .addLock o => if s.pm then .ok (s, []) else .ok ({ s.setT i ⟨.addLink o :: rest, tok⟩ with pm := true }, [])
  | .addLink o => .ok ({ s.setT i ⟨.addUnlock :: rest, tok⟩ with pool := s.pool ++ [o] }, [.added o])
  | .addUnlock => .ok ({ s.setT i ⟨rest, tok⟩ with pm := false }, [])
  | .drainLock => if s.pm then .ok (s, []) else .ok ({ s.setT i ⟨.drainTake :: rest, tok⟩ with pm := true }, [])
  | .drainTake => .ok ({ s.setT i ⟨.drainLoop s.pool :: rest, tok⟩ with pool := [] }, [])
  | .drainLoop [] => .ok (s.setT i ⟨.drainUnlock :: rest, tok⟩, [])
  | .drainLoop (o :: r) => .ok (s.setT i ⟨.relCall o :: .drainLoop r :: rest, tok⟩, [.poolReleased o])
  | .drainUnlock => .ok ({ s.setT i ⟨rest, tok⟩ with pm := false }, [.drained])
  | .markLoad o b => if s.alive o then .ok (s.setT i ⟨.markStore o b (s.raw o) :: rest, tok⟩, []) else .error .ub
  | .markStore o b v =>
    if s.alive o then .ok ({ s.setT i ⟨rest, tok⟩ with raw := upd s.raw o (withHighBit v b) }, []) else .error .ub

/-- what the client does next -/
inductive Act where
  /-- Object.cpp:36-42: creates an object -/
  | new
  | retain (o : Nat)
  | release (o : Nat)
  | autorelease (o : Nat)
  | drain
  | give (o j : Nat)
  | mark (o : Nat) (b : Bool)
  | endDtor
deriving DecidableEq

/-- a thread hands a reference over to thread `j` -/
def giveTo (s : State) (j o : Nat) : State :=
  match s.thr[j]? with
  | some u => s.setT j { u with tok := upd u.tok o (u.tok o + 1) }
  | none => s

/-- the end of the innermost destructor -/
def endDtor (s : State) (i : Nat) (t : Thr) : State :=
  match t.stack with
  | .dtor _ :: rest => s.setT i ⟨rest, t.tok⟩
  | _ => s

/-- a call of thread `i` (`t`) by the client; what the client must not do is skipped.  `retain` needs fewer than
2³¹ - 1 references. -/
def client (s : State) (i : Nat) (t : Thr) : Act → State × List Ev
  | .new =>
    ({ s.setT i ⟨t.stack, upd t.tok s.next (t.tok s.next + 1)⟩ with
        raw := upd s.raw s.next 1, alive := upd s.alive s.next true, next := s.next + 1 }, [.created s.next])
  | .retain o =>
    if 0 < t.tok o ∧ s.refs o + 1 < 2 ^ 31 then (s.setT i ⟨.retCall o :: t.stack, upd t.tok o (t.tok o - 1)⟩, []) else (s, [])
  | .release o =>
    if 0 < t.tok o then (s.setT i ⟨.relCall o :: t.stack, upd t.tok o (t.tok o - 1)⟩, [.released o]) else (s, [])
  | .autorelease o =>
    if 0 < t.tok o then (s.setT i ⟨.addCall o :: t.stack, upd t.tok o (t.tok o - 1)⟩, []) else (s, [])
  | .drain => (s.setT i ⟨.drainLock :: t.stack, t.tok⟩, [])
  | .give o j =>
    if 0 < t.tok o ∧ j < s.thr.length ∧ j ≠ i then
      (giveTo (s.setT i ⟨t.stack, upd t.tok o (t.tok o - 1)⟩) j o, [])
    else (s, [])
  | .mark o b => if 0 < t.tok o then (s.setT i ⟨.markLoad o b :: t.stack, t.tok⟩, []) else (s, [])
  | .endDtor => (endDtor s i t, [])

/-- the scheduler lets thread `i` make a step; `a` is what the client does if it is its turn -/
def step (s : State) (i : Nat) (a : Act) : Res (State × List Ev) :=
  match s.thr[i]? with
  | none => .ok (s, [])
  | some t =>
    match t.stack with
    | [] => .ok (client s i t a)
    | f :: rest => if atClient (f :: rest) then .ok (client s i t a) else micro s i t.tok rest f

/-- a schedule -/
def run (s : State) : List (Nat × Act) → Res (State × List Ev)
  | [] => .ok (s, [])
  | (i, a) :: l => do
    let r ← step s i a
    let q ← run r.1 l
    return (q.1, r.2 ++ q.2)

/-- `n` threads, no object -/
def init (n : Nat) : State :=
  { thr := List.replicate n ⟨[], fun _ => 0⟩, raw := fun _ => 0, alive := fun _ => false, next := 0, m := false, pm := false,
    pool := [] }

end Verif.RefCount
