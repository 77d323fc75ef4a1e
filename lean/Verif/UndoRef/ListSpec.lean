import Verif.UndoRef.Spec
/-
What an application relies on when it edits linked lists under an undo manager, without pointers: every list is a sequence of elements with
their data, and the history is the sequence of the states before and after each step.
-/
namespace Verif.UndoRef.ListSpec
open Verif Verif.UndoRef

/-- an open transaction: nesting, state at its beginning, whether something was registered -/
structure Tr (α : Type) where
  level : Nat
  start : α
  edited : Bool

/-- a history of states -/
structure History (α : Type) where
  now : α
  past : List α
  future : List α
  start : Option α
  tr : Option (Tr α)

variable {α β : Type}

def Tr.map (f : α → β) (t : Tr α) : Tr β := ⟨t.level, f t.start, t.edited⟩

def History.map (f : α → β) (h : History α) : History β :=
  ⟨f h.now, h.past.map f, h.future.map f, h.start.map f, h.tr.map (Tr.map f)⟩

def History.edit (h : History α) (a : α) : History α :=
  match h.tr with
  | some t => { h with now := a, tr := some { t with edited := true } }
  | none => { h with now := a, start := some (h.start.getD h.now), future := [] }

/-- moving through the history -/
inductive Move where
  | undo | redo | close | clearUndo | clearRedo | begin | commit | rollback

def History.undo (h : History α) : History α × Bool :=
  match h.start, h.past with
  | none, p :: ps => ({ h with now := p, past := ps, future := h.now :: h.future }, true)
  | _, _ => (h, false)

def History.redo (h : History α) : History α × Bool :=
  match h.start, h.future with
  | none, f :: fs => ({ h with now := f, future := fs, past := h.now :: h.past }, true)
  | _, _ => (h, false)

def History.close (h : History α) : History α :=
  match h.start with
  | none => h
  | some a => { h with past := a :: h.past, start := none }

def History.begin (h : History α) : History α :=
  match h.tr with
  | none => { h with tr := some ⟨1, h.now, false⟩ }
  | some t => { h with tr := some { t with level := t.level + 1 } }

def History.commit (h : History α) : History α :=
  match h.tr with
  | none => h
  | some t =>
    if t.level = 1 then
      (if t.edited then { h with tr := none, start := some (h.start.getD t.start), future := [] } else { h with tr := none })
    else { h with tr := some { t with level := t.level - 1 } }

def History.rollback (h : History α) : History α :=
  match h.tr with
  | none => h
  | some t => if t.level = 1 then { h with tr := none, now := t.start } else { h with tr := some { t with level := t.level - 1 } }

def History.move (h : History α) : Move → History α × Bool
  | .undo => h.undo
  | .redo => h.redo
  | .close => (h.close, true)
  | .clearUndo => ({ h with past := [] }, true)
  | .clearRedo => ({ h with future := [] }, true)
  | .begin => (h.begin, true)
  | .commit => (h.commit, true)
  | .rollback => (h.rollback, true)

/-- what undo restores: the elements of each list, with their data; and the registered references to each object -/
structure Lists where
  seq : Obj → List (Obj × Option Obj)
  refs : Obj → Int

def Lists.new : Lists := ⟨fun _ => [], fun _ => 0⟩

def Lists.shift (o : Obj) (p : Lists) : Lists := { p with refs := upd p.refs o (p.refs o + 1) }

structure World where
  /-- number of objects created so far -/
  n : Nat
  /-- references the application holds without having registered them -/
  base : Obj → Nat
  isList : Obj → Bool
  isElem : Obj → Bool
  hist : History Lists

def World.new : World := ⟨0, fun _ => 0, fun _ => false, fun _ => false, ⟨.new, [], [], none, none⟩⟩

/-- the references the application holds -/
def World.own (w : World) (o : Obj) : Int := w.base o + w.hist.now.refs o

inductive Act where
  /-- `new`, an object that is not a list -/
  | create
  /-- `new LinkedList`; the application keeps the list as long as the history -/
  | newList
  /-- `retain`, `release` without the manager -/
  | keep (o : Obj) | drop (o : Obj)
  /-- a reference the application has counts as registered from now on -/
  | adopt (o : Obj)
  /-- `registerRetain(o); o->retain()` -/
  | retain (o : Obj)
  /-- `registerRelease(o); o->release()` -/
  | release (o : Obj)
  /-- `registerChange` of a member that is no pointer -/
  | other (owner : Obj)
  /-- `list->add(data, um)`, `list->addBefore(before, data, um)`, `list->remove(data, um)`, `list->clear(um)` -/
  | add (list : Obj) (data : Option Obj) | addBefore (list : Obj) (before data : Option Obj) | remove (list : Obj) (data : Option Obj) | clear (list : Obj)
  /-- `list->swapData(data1, data2, um)` -/
  | swap (list : Obj) (data1 data2 : Option Obj)
  | move (m : Move)

/-- insert before the first element with this data; `none` if there is none -/
def insertBefore (d : Option Obj) (x : Obj × Option Obj) : List (Obj × Option Obj) → Option (List (Obj × Option Obj))
  | [] => none
  | y :: ys => if y.2 = d then some (x :: y :: ys) else (insertBefore d x ys).map (y :: ·)

/-- take out the first element with this data; `none` if there is none -/
def takeOut (d : Option Obj) : List (Obj × Option Obj) → Option (Obj × List (Obj × Option Obj))
  | [] => none
  | y :: ys => if y.2 = d then some (y.1, ys) else (takeOut d ys).map (fun r => (r.1, y :: r.2))

/-- the elements whose data is swapped: the latest ones seen when both data have been seen for the first time -/
def seen (d1 d2 : Option Obj) : List (Obj × Option Obj) → Option Obj → Option Obj → Option Obj × Option Obj
  | [], e1, e2 => (e1, e2)
  | x :: xs, e1, e2 =>
    let e1 := if x.2 = d1 then some x.1 else e1
    let e2 := if x.2 = d2 then some x.1 else e2
    if e1.isSome && e2.isSome then (e1, e2) else seen d1 d2 xs e1 e2

/-- other data for an element -/
def setData (e : Obj) (d : Option Obj) (xs : List (Obj × Option Obj)) : List (Obj × Option Obj) := xs.map (fun x => if x.1 = e then (x.1, d) else x)

/-- one reference less to each object of a sequence -/
def dropRefs (refs : Obj → Int) : List Obj → Obj → Int
  | [] => refs
  | e :: es => dropRefs (upd refs e (refs e - 1)) es

/-- a new object `w.n`, whose reference counts as registered -/
def World.newAdopted (w : World) : World := { w with n := w.n + 1, base := upd w.base w.n 0, hist := w.hist.map (Lists.shift w.n) }

/-- a new element, and the list with it -/
def World.insert (w : World) (list : Obj) (xs : List (Obj × Option Obj)) : World :=
  let w' := w.newAdopted
  { w' with isElem := upd w.isElem w.n true, hist := w'.hist.edit { w'.hist.now with seq := upd w'.hist.now.seq list xs } }

def World.removeOne (w : World) (list e : Obj) (xs : List (Obj × Option Obj)) : World :=
  { w with hist := w.hist.edit ⟨upd w.hist.now.seq list xs, upd w.hist.now.refs e (w.hist.now.refs e - 1)⟩ }

/-- what an action does, and what it reports -/
def World.step (w : World) : Act → World × Bool
  | .create => ({ w with n := w.n + 1, base := upd w.base w.n 1 }, true)
  | .newList => ({ w.newAdopted with isList := upd w.isList w.n true }, true)
  | .keep o => ({ w with base := upd w.base o (w.base o + 1) }, true)
  | .drop o => ({ w with base := upd w.base o (w.base o - 1) }, true)
  | .adopt o => ({ w with base := upd w.base o (w.base o - 1), hist := w.hist.map (Lists.shift o) }, true)
  | .retain o => ({ w with hist := w.hist.edit { w.hist.now with refs := upd w.hist.now.refs o (w.hist.now.refs o + 1) } }, true)
  | .release o => ({ w with hist := w.hist.edit { w.hist.now with refs := upd w.hist.now.refs o (w.hist.now.refs o - 1) } }, true)
  | .other _ => ({ w with hist := w.hist.edit w.hist.now }, true)
  | .add list data => (w.insert list (w.hist.now.seq list ++ [(w.n, data)]), true)
  | .addBefore list before data =>
    match insertBefore before (w.n, data) (w.hist.now.seq list) with
    | none => (w, false)
    | some xs => (w.insert list xs, true)
  | .remove list data =>
    match takeOut data (w.hist.now.seq list) with
    | none => (w, false)
    | some (e, xs) => (w.removeOne list e xs, true)
  | .clear list =>
    match w.hist.now.seq list with
    | [] => (w, true)
    | xs => ({ w with hist := w.hist.edit ⟨upd w.hist.now.seq list [], dropRefs w.hist.now.refs (xs.map (·.1))⟩ }, true)
  | .swap list d1 d2 =>
    match seen d1 d2 (w.hist.now.seq list) none none with
    | (some e1, some e2) => ({ w with hist := w.hist.edit { w.hist.now with seq := upd w.hist.now.seq list (setData e2 d1 (setData e1 d2 (w.hist.now.seq list))) } }, true)
    | _ => (w, true)
  | .move m => ({ w with hist := (w.hist.move m).1 }, (w.hist.move m).2)

/-- the discipline of the application.  It need not care for the elements; data it puts into lists has to be backed by registered references. -/
def World.allowed (w : World) : Act → Prop
  | .create | .newList => True
  | .keep o => 1 ≤ w.own o
  | .drop o => 1 ≤ w.base o
  | .adopt o => 1 ≤ w.base o
  | .retain o => 1 ≤ w.own o
  | .release o => 1 ≤ w.hist.now.refs o ∧ w.isList o = false ∧ w.isElem o = false ∧
      (w.hist.now.refs o = 1 → ∀ list, ∀ x ∈ w.hist.now.seq list, x.2 ≠ some o)
  | .other owner => 1 ≤ w.own owner
  | .add list data => w.isList list = true ∧ ∀ d, data = some d → 1 ≤ w.hist.now.refs d ∧ w.isElem d = false
  | .addBefore list _ data => w.isList list = true ∧ ∀ d, data = some d → 1 ≤ w.hist.now.refs d ∧ w.isElem d = false
  | .remove list _ => w.isList list = true
  | .clear list => w.isList list = true
  | .swap list _ _ => w.isList list = true
  | .move .undo | .move .redo => w.hist.tr = none
  | .move _ => True

def Legal (w : World) : List Act → Prop
  | [] => True
  | a :: as => w.allowed a ∧ Legal (w.step a).1 as

def World.run (w : World) : List Act → World × List Bool
  | [] => (w, [])
  | a :: as => let x := w.step a; let y := x.1.run as; (y.1, x.2 :: y.2)

/-! ### The program that performs the actions -/

def execMove (s : State) : Move → Res (State × Bool)
  | .undo => do let (b, s) ← UndoRef.undo s; return (s, b)
  | .redo => do let (b, s) ← UndoRef.redo s; return (s, b)
  | .close => .ok (UndoRef.close s, true)
  | .clearUndo => do let s ← clearUndoStack s; return (s, true)
  | .clearRedo => do let s ← clearRedoStack s; return (s, true)
  | .begin => .ok (openTransaction s, true)
  | .commit => do let s ← UndoRef.commit s; return (s, true)
  | .rollback => do let s ← UndoRef.rollback s; return (s, true)

/-- one action, with the number of objects created so far.  No list has more elements than there are objects. -/
def exec (n : Nat) (s : State) : Act → Res (Nat × State × Bool)
  | .create | .newList => .ok (n + 1, { s with cnt := upd s.cnt n 1 }, true)
  | .keep o => do let cnt ← UndoRef.retain s.cnt o; return (n, { s with cnt := cnt }, true)
  | .drop o => do let cnt ← UndoRef.release s.cnt o; return (n, { s with cnt := cnt }, true)
  | .adopt _ => .ok (n, s, true)
  | .retain o => do
    let s ← registerRel s o false
    let cnt ← UndoRef.retain s.cnt o
    return (n, { s with cnt := cnt }, true)
  | .release o => do
    let s ← registerRel s o true
    let cnt ← UndoRef.release s.cnt o
    return (n, { s with cnt := cnt }, true)
  | .other owner => do let s ← registerOther s owner; return (n, s, true)
  | .add list data => do let s ← listAdd s list n data; return (n + 1, s, true)
  | .addBefore list before data => do
    let (b, s) ← listAddBefore s list n before data n
    return (if b then n + 1 else n, s, b)
  | .remove list data => do let (b, s) ← listRemoveData s list data n; return (n, s, b)
  | .clear list => do let s ← listClear s list n; return (n, s, true)
  | .swap list d1 d2 => do let s ← listSwap s list d1 d2 n; return (n, s, true)
  | .move m => do let (s, b) ← execMove s m; return (n, s, b)

def execAll (n : Nat) (s : State) : List Act → Res (Nat × State × List Bool)
  | [] => .ok (n, s, [])
  | a :: as => do
    let (n, s, b) ← exec n s a
    let (n, s, bs) ← execAll n s as
    return (n, s, b :: bs)

/-- walking through the list from `e` on: the elements met, each of which has to exist -/
def walk (s : State) : Nat → Option Obj → Res (List (Obj × Option Obj))
  | _, none => .ok []
  | 0, some _ => .error .ub
  | k + 1, some e => do
    touch s.cnt e
    let rest ← walk s k (s.cells (nextCell e))
    return (e, s.cells (dataCell e)) :: rest

/-- … and backwards -/
def walkBack (s : State) : Nat → Option Obj → Res (List (Obj × Option Obj))
  | _, none => .ok []
  | 0, some _ => .error .ub
  | k + 1, some e => do
    touch s.cnt e
    let rest ← walkBack s k (s.cells (prevCell e))
    return (e, s.cells (dataCell e)) :: rest

/-- the program finds the lists of `w` when it walks through them, in both directions; the data they point to exists -/
structure Shows (w : World) (s : State) : Prop where
  forth : ∀ l, w.isList l = true → walk s w.n (s.cells (startCell l)) = .ok (w.hist.now.seq l)
  back : ∀ l, w.isList l = true → walkBack s w.n (s.cells (endCell l)) = .ok (w.hist.now.seq l).reverse
  list : ∀ l, w.isList l = true → s.cnt l ≠ 0
  data : ∀ l, ∀ x ∈ w.hist.now.seq l, ∀ d, x.2 = some d → s.cnt d ≠ 0

end Verif.UndoRef.ListSpec
