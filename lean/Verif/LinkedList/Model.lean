import Verif.Undo.Model
/-
Model of src/core/LinkedList.cpp.

 * The list and its elements live in the memory of the undo model (`Undo.State.mem`, one cell per member).  The members
   of the list are the cells 1 (`listStart`), 2 (`listEnd`) and 4 (`count`); an element at address `e` has the cells
   `e` (`prev`), `e + 1` (`next`) and `e + 2` (`data`).  `nullptr` is 0, an object is a number.
 * `current`, the internal cursor, is never registered with the undo manager; it is a separate field.
 * `new` takes fresh cells at `brk`; addresses are never reused.
 * An access to an element that is null, was never allocated or was freed is undefined behaviour.
 * `um = false` is a call with `nullptr` as undo manager: then an element has reference count 1 and `release` frees it.
   `um = true`: the list is used with an undo manager, which retains every object a change refers to; elements are
   then taken to stay alive (the reference counts of the changes are not modelled here).
 * Reads of members are placed before the registrations in between (registering does not change the memory).
 * The loops carry a bound on the number of rounds (a list that is cyclic would make them endless; the result is `ub` then).
-/
namespace Verif.LinkedList
open Verif Verif.Undo

structure S where
  u : State Nat
  cur : Nat
  brk : Nat
  dead : Nat → Bool
  um : Bool

def aStart : Nat := 1
def aEnd : Nat := 2
def aCount : Nat := 4
/-- the address of the list as owner of changes -/
def this : Nat := 1

/-- Types.h:161-195 -/
def eNotFound : Status := 7

/-- every access to an element -/
def chk (s : S) (e : Nat) : Res Unit :=
  if e ≠ 0 ∧ e < s.brk ∧ s.dead e = false then .ok () else .error .ub

def ldE (s : S) (e f : Nat) : Res Nat := do
  chk s e
  return s.u.mem (e + f)

def stE (s : S) (e f v : Nat) : Res S := do
  chk s e
  return { s with u := store s.u (e + f) [v] }

def stL (s : S) (f v : Nat) : S := { s with u := store s.u f [v] }

/-- `um->registerChange(owner, &(e->field))` if `um` is not null -/
def regE (s : S) (owner e f : Nat) : Res S :=
  if s.um then do
    chk s owner
    chk s e
    let u ← register s.u owner (e + f) 1
    return { s with u := u }
  else .ok s

/-- `um->registerChange(this, &field)` if `um` is not null -/
def regL (s : S) (f : Nat) : Res S :=
  if s.um then do
    let u ← register s.u this f 1
    return { s with u := u }
  else .ok s

/-- `if(c) …` -/
def cond (c : Bool) (f : S → Res S) (s : S) : Res S := if c then f s else .ok s

/-- LinkedList.cpp:36-41 with `new` -/
def newElem (s : S) : S × Nat :=
  ({ s with u := store s.u s.brk [0, 0, 0], brk := s.brk + 3 }, s.brk)

/-- LinkedList.cpp:127-153 -/
def addElem (s : S) (item : Nat) : Res S := do
  let lend := s.u.mem aEnd
  let lstart := s.u.mem aStart
  let cnt := s.u.mem aCount
  let s ← regE s item item 0
  let s ← cond (lend != 0) (fun s => regE s lend lend 1) s
  let s ← cond (lstart == 0) (fun s => regL s aStart) s
  let s ← regL s aEnd
  let s ← regL s aCount
  let s ← stE s item 0 lend
  let s ← cond (lend != 0) (fun s => stE s lend 1 item) s
  let s ← cond (lend != 0) (fun s => stE s item 0 lend) s
  let s := stL s aEnd item
  let s ← cond (lstart == 0) (fun s => .ok (stL s aStart item)) s
  return stL s aCount ((cnt + 1) % 2 ^ 32)

/-- LinkedList.cpp:119-125 -/
def add (s : S) (data : Nat) : Res S := do
  let x := newElem s
  let s ← regE x.1 x.2 x.2 2
  let s ← stE s x.2 2 data
  addElem s x.2

/-- LinkedList.cpp:92-95 -/
def rewind (s : S) : S := { s with cur := s.u.mem aStart }

/-- LinkedList.cpp:61-64 -/
def hasNext (s : S) : Bool := s.cur != 0

/-- LinkedList.cpp:66-71 -/
def nextElement (s : S) : Res (Nat × S) := do
  let n ← ldE s s.cur 1
  return (s.cur, { s with cur := n })

/-- LinkedList.cpp:73-78 -/
def next (s : S) : Res (Nat × S) := do
  let d ← ldE s s.cur 2
  let n ← ldE s s.cur 1
  return (d, { s with cur := n })

/-- the search loops of addBefore (LinkedList.cpp:159-168) and remove (257-265): the first element with this data -/
def findLoop : Nat → S → Nat → Res (Option Nat × S)
  | 0, _, _ => .error .ub
  | fuel + 1, s, data =>
    if hasNext s then do
      let x ← nextElement s
      let d ← ldE x.2 x.1 2
      if d = data then return (some x.1, x.2) else findLoop fuel x.2 data
    else .ok (none, s)

/-- LinkedList.cpp:180-210 -/
def addBeforeElem (s : S) (before item : Nat) : Res S := do
  let after ← ldE s before 0
  let lstart := s.u.mem aStart
  let cnt := s.u.mem aCount
  let s ← regE s item item 0
  let s ← regE s item item 1
  let s ← cond (lstart == before) (fun s => regL s aStart) s
  let s ← regE s before before 0
  let s ← cond (after != 0) (fun s => regE s before after 1) s
  let s ← regL s aCount
  let s ← cond (lstart == before) (fun s => .ok (stL s aStart item)) s
  let s ← stE s item 0 after
  let s ← stE s item 1 before
  let s ← cond (after != 0) (fun s => stE s after 1 item) s
  let s ← stE s before 0 item
  return stL s aCount ((cnt + 1) % 2 ^ 32)

/-- LinkedList.cpp:155-178 -/
def addBefore (s : S) (target data : Nat) : Res S := do
  let r ← findLoop s.brk (rewind s) target
  match r.1 with
  | none => return r.2
  | some before =>
    let x := newElem r.2
    let s ← regE x.1 x.2 x.2 2
    let s ← stE s x.2 2 data
    addBeforeElem s before x.2

/-- `element->release()`: see the head of this file -/
def release (s : S) (e : Nat) : Res S := do
  chk s e
  return if s.um then s else { s with dead := fun a => if a = e then true else s.dead a }

/-- LinkedList.cpp:233-237 -/
def advStart (s : S) (lstart : Nat) : Res S := do
  let n ← ldE s lstart 1
  return if n != 0 then stL s aStart n else stL s aStart 0

/-- LinkedList.cpp:239-243 -/
def advEnd (s : S) (lend : Nat) : Res S := do
  let p ← ldE s lend 0
  return if p != 0 then stL s aEnd p else stL s aEnd 0

/-- LinkedList.cpp:213-251 -/
def removeElem (s : S) (element : Nat) : Res S := do
  let prev ← ldE s element 0
  let next ← ldE s element 1
  let lstart := s.u.mem aStart
  let lend := s.u.mem aEnd
  let cnt := s.u.mem aCount
  let s ← cond (prev != 0) (fun s => regE s prev prev 1) s
  let s ← cond (next != 0) (fun s => regE s next next 0) s
  let s ← cond (lstart == element) (fun s => regL s aStart) s
  let s ← cond (lend == element) (fun s => regL s aEnd) s
  let s ← regE s element element 0
  let s ← regE s element element 1
  let s ← regL s aCount
  let s ← cond (prev != 0) (fun s => stE s prev 1 next) s
  let s ← cond (next != 0) (fun s => stE s next 0 prev) s
  let s ← cond (lstart == element) (fun s => advStart s lstart) s
  let s ← cond (lend == element) (fun s => advEnd s lend) s
  let s ← stE s element 0 0
  let s ← stE s element 1 0
  let s ← release s element
  return stL s aCount ((cnt + 2 ^ 32 - 1) % 2 ^ 32)

/-- LinkedList.cpp:254-267 -/
def remove (s : S) (data : Nat) : Res (Status × S) := do
  let r ← findLoop s.brk (rewind s) data
  match r.1 with
  | none => return (eNotFound, r.2)
  | some e =>
    let s ← removeElem r.2 e
    return (eOK, s)

/-- LinkedList.cpp:269-272 -/
def size (s : S) : Nat := s.u.mem aCount

/-- LinkedList.cpp:279-286 -/
def swapLoop : Nat → S → Nat → Nat → Nat → Nat → Res (Nat × Nat × S)
  | 0, _, _, _, _, _ => .error .ub
  | fuel + 1, s, d1, d2, e1, e2 =>
    if hasNext s then do
      let x ← nextElement s
      let d ← ldE x.2 x.1 2
      let e1 := if d = d1 then x.1 else e1
      let e2 := if d = d2 then x.1 else e2
      if e1 ≠ 0 ∧ e2 ≠ 0 then return (e1, e2, x.2) else swapLoop fuel x.2 d1 d2 e1 e2
    else .ok (e1, e2, s)

/-- LinkedList.cpp:292-295 -/
def swapElems (s : S) (e1 e2 d1 d2 : Nat) : Res S := do
  let s ← regE s e1 e1 2
  let s ← regE s e2 e2 2
  let s ← stE s e1 2 d2
  stE s e2 2 d1

/-- LinkedList.cpp:274-298 -/
def swapData (s : S) (d1 d2 : Nat) : Res S := do
  let r ← swapLoop s.brk (rewind s) d1 d2 0 0
  if r.1 ≠ 0 ∧ r.2.1 ≠ 0 then
    if s.um then swapElems r.2.2 r.1 r.2.1 d1 d2
    else return r.2.2
  else return r.2.2

/-- LinkedList.cpp:97-117, the loop with undo manager -/
def clearLoopUm : Nat → S → Res S
  | 0, _ => .error .ub
  | fuel + 1, s =>
    if s.u.mem aStart != 0 then do
      let s ← removeElem s (s.u.mem aStart)
      clearLoopUm fuel s
    else .ok s

/-- LinkedList.cpp:97-117, the loop without undo manager -/
def clearLoop : Nat → S → Res S
  | 0, _ => .error .ub
  | fuel + 1, s =>
    if hasNext s then do
      let x ← nextElement s
      let s ← release x.2 x.1
      clearLoop fuel s
    else .ok s

/-- LinkedList.cpp:97-117 -/
def clear (s : S) : Res S := do
  let fuel := s.brk
  let s ← if s.um then clearLoopUm fuel s else clearLoop fuel (rewind s)
  return { stL (stL (stL s aStart 0) aEnd 0) aCount 0 with cur := 0 }

/-- LinkedList.cpp:80-84 -/
def first (s : S) : Res Nat :=
  if s.u.mem aCount = 0 then .ok 0 else ldE s (s.u.mem aStart) 2

/-- LinkedList.cpp:86-90 -/
def last (s : S) : Res Nat :=
  if s.u.mem aCount = 0 then .ok 0 else ldE s (s.u.mem aEnd) 2

/-- LinkedList.cpp:300-319: an iterator is its `current` (its other members are never used) -/
def iterator (s : S) : Nat := s.u.mem aStart

/-- LinkedList.cpp:330-333 -/
def itHasNext (it : Nat) : Bool := it != 0

/-- LinkedList.cpp:335-341 -/
def itNext (s : S) (it : Nat) : Res (Nat × Nat) :=
  if it = 0 then .ok (0, it) else do
    let d ← ldE s it 2
    let n ← ldE s it 1
    return (d, n)

/-- LinkedList.cpp:343-347 -/
def itSeek (s : S) (it : Nat) : Res Nat :=
  if it ≠ 0 then ldE s it 2 else .ok 0

/-- the loop of a caller: `while(it.hasNext()) it.next();` -/
def itAll : Nat → S → Nat → Res (List Nat)
  | 0, _, _ => .error .ub
  | fuel + 1, s, it =>
    if itHasNext it then do
      let x ← itNext s it
      let r ← itAll fuel s x.2
      return x.1 :: r
    else .ok []

/-- the loop of a caller: `rewind(); while(hasNext()) next();` -/
def nextAll : Nat → S → Res (List Nat × S)
  | 0, _ => .error .ub
  | fuel + 1, s =>
    if hasNext s then do
      let x ← next s
      let r ← nextAll fuel x.2
      return (x.1 :: r.1, r.2)
    else .ok ([], s)

/-- LinkedList.cpp:43-54, on empty memory -/
def S.new (um : Bool) : S := { u := State.new (fun _ => 0) (fun _ => false) false, cur := 0, brk := 8, dead := fun _ => false, um := um }

end Verif.LinkedList
