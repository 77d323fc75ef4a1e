import Verif.Undo.Model
/-
Specification of the undo manager: snapshots of the memory.  Nothing here refers to changes, swapping or stacks of
steps.
-/
namespace Verif.Undo.Spec
open Verif.Undo

variable {V : Type}

/-- One edit of the program: it first registers members (owner, address, number of cells) and then assigns. -/
structure Edit (V : Type) where
  regs : List (Nat × Nat × Nat)
  stores : List (Nat × List V)

/-- Every assigned cell belongs to a member registered in this edit. -/
def Edit.Disciplined (e : Edit V) : Prop :=
  ∀ s ∈ e.stores, ∀ i, i < s.2.length → ∃ r ∈ e.regs, r.2.1 ≤ s.1 + i ∧ s.1 + i < r.2.1 + r.2.2

/-- memory after the assignments, in order -/
def assign (m : Mem V) : List (Nat × List V) → Mem V
  | [] => m
  | (p, v) :: rest => assign (fun a => if p ≤ a ∧ a < p + v.length then (v[a - p]?).getD (m a) else m a) rest

/-- Calls of the program. -/
inductive Act (V : Type) where
  | edit (e : Edit V)
  | close
  | undo
  | redo
  | clearStacks
  | clearUndo
  | clearRedo
  | openT
  | closeT
  | commit
  | rollback
  | status (st : Status)

/-- What a call returns: nothing, a truth value or a status. -/
inductive Out where
  | none
  | bool (b : Bool)
  | status (st : Status)
deriving DecidableEq

/-- an open transaction: nesting depth, memory when it was opened, whether something was registered -/
structure Tr (V : Type) where
  level : Nat
  before : Mem V
  dirty : Bool

/-- The history: memory before each closed step (latest first), present memory, memory after each undone step,
memory before the open step, open transaction, last registered failure. -/
structure Hist (V : Type) where
  past : List (Mem V)
  cur : Mem V
  future : List (Mem V)
  start : Option (Mem V)
  tr : Option (Tr V)
  status : Status

def Hist.new (m : Mem V) : Hist V := ⟨[], m, [], none, none, eOK⟩

/-- a failing status: neither eOK nor eNotChanged -/
def failing (st : Status) : Bool := st != eOK && st != eNotChanged

def Hist.close (h : Hist V) : Hist V :=
  match h.start with
  | none => h
  | some m => { h with past := m :: h.past, start := none }

def Hist.commit (h : Hist V) : Hist V :=
  match h.tr with
  | none => h
  | some t =>
    if t.level = 1 then
      if t.dirty then { h with tr := none, status := eOK, start := some (h.start.getD t.before), future := [] }
      else { h with tr := none, status := eOK }
    else { h with tr := some { t with level := t.level - 1 } }

def Hist.rollback (h : Hist V) : Hist V :=
  match h.tr with
  | none => h
  | some t =>
    if t.level = 1 then { h with cur := t.before, tr := none, status := eOK }
    else { h with tr := some { t with level := t.level - 1 } }

def Hist.step (h : Hist V) : Act V → Hist V × Out
  | .edit e =>
    let h' := { h with cur := assign h.cur e.stores }
    if e.regs = [] then (h', .none)
    else match h.tr with
      | some t => ({ h' with tr := some { t with dirty := true } }, .none)
      | none => ({ h' with start := some (h.start.getD h.cur), future := [] }, .none)
  | .close => (h.close, .none)
  | .undo =>
    match h.start, h.past with
    | none, m :: p => ({ h with past := p, cur := m, future := h.cur :: h.future }, .bool true)
    | _, _ => (h, .bool false)
  | .redo =>
    match h.start, h.future with
    | none, m :: f => ({ h with past := h.cur :: h.past, cur := m, future := f }, .bool true)
    | _, _ => (h, .bool false)
  | .clearStacks => ({ h.close with past := [], future := [] }, .none)
  | .clearUndo => ({ h with past := [] }, .none)
  | .clearRedo => ({ h with future := [] }, .none)
  | .openT =>
    match h.tr with
    | none => ({ h with tr := some ⟨1, h.cur, false⟩, status := eOK }, .none)
    | some t => ({ h with tr := some { t with level := t.level + 1 } }, .none)
  | .closeT => (if h.status = eOK then h.commit else h.rollback, .status h.status)
  | .commit => (h.commit, .none)
  | .rollback => (h.rollback, .none)
  | .status st => (if failing st then { h with status := st } else h, .none)

def Hist.run : List (Act V) → Hist V → Hist V × List Out
  | [], h => (h, [])
  | a :: as, h =>
    let x := h.step a
    let y := Hist.run as x.1
    (y.1, x.2 :: y.2)

/-- The calls the claim is about: edits register what they assign, and undo and redo are not called while a
transaction is open. -/
def Legal : List (Act V) → Hist V → Prop
  | [], _ => True
  | a :: as, h =>
    (match a with
      | .edit e => e.Disciplined
      | .undo | .redo => h.tr = none
      | _ => True) ∧ Legal as (h.step a).1

/-! The same calls on the model of the code. -/

def registerAll : List (Nat × Nat × Nat) → State V → Res (State V)
  | [], s => .ok s
  | (o, p, n) :: rest, s => do
    let s ← register s o p n
    registerAll rest s

def storeAll : List (Nat × List V) → State V → State V
  | [], s => s
  | (p, v) :: rest, s => storeAll rest (store s p v)

def exec (s : State V) : Act V → Res (State V × Out)
  | .edit e => do
    let s ← registerAll e.regs s
    return (storeAll e.stores s, .none)
  | .close => .ok (Undo.close s, .none)
  | .undo => .ok ((Undo.undo s).2, .bool (Undo.undo s).1)
  | .redo => .ok ((Undo.redo s).2, .bool (Undo.redo s).1)
  | .clearStacks => .ok (Undo.clearStacks s, .none)
  | .clearUndo => .ok (Undo.clearUndoStack s, .none)
  | .clearRedo => .ok (Undo.clearRedoStack s, .none)
  | .openT => .ok (Undo.openTransaction s, .none)
  | .closeT => do
    let x ← Undo.closeTransaction s
    return (x.2, .status x.1)
  | .commit => do
    let s ← Undo.commit s
    return (s, .none)
  | .rollback => do
    let s ← Undo.rollback s
    return (s, .none)
  | .status st => .ok (Undo.registerTransactionStatus s st, .none)

def execAll : List (Act V) → State V → Res (State V × List Out)
  | [], s => .ok (s, [])
  | a :: as, s => do
    let x ← exec s a
    let y ← execAll as x.1
    return (y.1, x.2 :: y.2)

end Verif.Undo.Spec
