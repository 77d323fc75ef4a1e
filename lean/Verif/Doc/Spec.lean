import Verif.Doc.Model
/-
Specification: a document is a record on its own; no pointers, heaps or reference counts.
-/
namespace Verif.Doc.Spec
open Verif
open Verif.Undo (Status eOK eInvalidInput eNotChanged)

/-- an open transaction: its nesting depth and the number of changes in it -/
structure Tr where
  depth : Nat
  changes : Nat
deriving DecidableEq, Repr

/-- What there is to undo: whether changes are recorded, the changes of the open step, the numbers of steps that can
be undone and redone, the open transaction and the failure registered in it. -/
structure Hist where
  active : Bool
  pending : Nat
  undoable : Nat
  redoable : Nat
  tr : Option Tr
  status : Status
deriving DecidableEq, Repr

def Hist.new : Hist := ⟨true, 0, 0, 0, none, eOK⟩

/-- A document, with or without an undo history. -/
structure SDoc where
  hist : Option Hist
  changed : Bool
  regen : Bool
deriving DecidableEq, Repr

/-- `n` changes outside transactions -/
def Hist.change (n : Nat) (h : Hist) : Hist := if h.active && n != 0 then { h with pending := h.pending + n, redoable := 0 } else h

/-- one change: into the transaction if there is one -/
def Hist.edit (h : Hist) : Hist :=
  match h.tr with
  | none => h.change 1
  | some t => if h.active then { h with tr := some { t with changes := t.changes + 1 } } else h

def Hist.openT (h : Hist) : Hist :=
  match h.tr with
  | none => { h with tr := some ⟨1, 0⟩, status := eOK }
  | some t => { h with tr := some { t with depth := t.depth + 1 } }

/-- The outermost close ends the transaction: its changes are kept unless a failure was registered. -/
def Hist.closeT (h : Hist) : Hist :=
  match h.tr with
  | none => h
  | some t =>
    if t.depth = 1 then
      if h.status = eOK then { h.change t.changes with tr := none, status := eOK } else { h with tr := none, status := eOK }
    else { h with tr := some { t with depth := t.depth - 1 } }

/-- an open transaction is lost when the history is dropped -/
def lostBy : Option Hist → Nat
  | none => 0
  | some h => if h.tr.isSome then 1 else 0

/-- an open step is closed, and so marks the document as changed, when the history is dropped -/
def pendingOf : Option Hist → Bool
  | none => false
  | some h => h.pending != 0

/-- One call on a document: the document after it, the result, and the transactions lost. -/
def SDoc.call (s : SDoc) : DocOp → SDoc × Out × Nat
  | .setUndo true => ({ s with hist := some (s.hist.getD Hist.new) }, .none, 0)
  | .setUndo false => ({ s with hist := none, changed := s.changed || pendingOf s.hist }, .none, lostBy s.hist)
  | .edit => ({ s with hist := s.hist.map Hist.edit }, .status eOK, 0)
  | .badEdit => ({ s with hist := s.hist.map (fun h => { h with status := eInvalidInput }) }, .status eInvalidInput, 0)
  | .closeStep =>
    match s.hist with
    | some h => if h.pending = 0 then (s, .none, 0)
        else ({ s with hist := some { h with pending := 0, undoable := h.undoable + 1 }, changed := true }, .none, 0)
    | none => (s, .none, 0)
  | .openT => ({ s with hist := s.hist.map Hist.openT }, .status eOK, 0)
  | .closeT => ({ s with hist := s.hist.map Hist.closeT },
      .status (match s.hist with | none => eNotChanged | some h => h.status), 0)
  | .undo =>
    match s.hist with
    | some h => if h.pending = 0 ∧ 0 < h.undoable
        then ({ s with hist := some { h with undoable := h.undoable - 1, redoable := h.redoable + 1 }, changed := true }, .bool true, 0)
        else (s, .bool false, 0)
    | none => (s, .bool false, 0)
  | .redo =>
    match s.hist with
    | some h => if h.pending = 0 ∧ 0 < h.redoable
        then ({ s with hist := some { h with redoable := h.redoable - 1, undoable := h.undoable + 1 }, changed := true }, .bool true, 0)
        else (s, .bool false, 0)
    | none => (s, .bool false, 0)
  | .setActive b => ({ s with hist := s.hist.map (fun h => { h with active := b }) }, .none, 0)
  | .setChanged b => ({ s with changed := b }, .none, 0)
  | .regenerate => ({ s with regen := true }, .none, 0)
  | .regenerationDone => ({ s with regen := false }, .none, 0)

/-- The documents in the order of their creation, destroyed ones as `none`; the lost transactions. -/
structure SWorld where
  docs : List (Option SDoc)
  lost : Nat
deriving DecidableEq, Repr

/-- `none`: the program uses a document that does not exist, or keeps a pointer to an undo manager. -/
def SWorld.step (w : SWorld) : Op → Option (SWorld × Out)
  | .newDoc => some ({ w with docs := w.docs ++ [some ⟨some Hist.new, false, false⟩] }, .none)
  | .on d a =>
    match w.docs[d]? with
    | some (some s) => some (⟨w.docs.set d (some (s.call a).1), w.lost + (s.call a).2.2⟩, (s.call a).2.1)
    | _ => none
  | .destroy d =>
    match w.docs[d]? with
    | some (some s) => some (⟨w.docs.set d none, w.lost + lostBy s.hist⟩, .none)
    | _ => none
  | _ => none

def SWorld.run : List Op → SWorld → Option (SWorld × List Out)
  | [], w => some (w, [])
  | o :: os, w =>
    match w.step o with
    | none => none
    | some (w', out) =>
      match SWorld.run os w' with
      | none => none
      | some (w'', outs) => some (w'', out :: outs)

def SWorld.empty : SWorld := ⟨[], 0⟩

/-! What a program can ask of the documents in the model. -/

/-- the answers of an undo manager -/
def viewMan (m : Man) : Hist :=
  { active := m.active, pending := m.cur, undoable := m.undo.length, redoable := m.redo.length,
    tr := (if m.level = 0 then none else m.trans.map (fun n => ⟨m.level, n⟩)), status := m.tstatus }

def lookMan (mans : Heap Man) (p : Nat) : Option Hist :=
  match mans[p]? with
  | some (some m) => some (viewMan m)
  | _ => none

def viewDoc (mans : Heap Man) (d : Doc) : SDoc := ⟨d.man.bind (lookMan mans), d.changed, d.regen⟩

def view (w : World) : SWorld := ⟨w.docs.map (Option.map (viewDoc w.mans)), w.leaked⟩

end Verif.Doc.Spec
