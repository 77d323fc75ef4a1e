import Verif.Doc.Model
/-
Counting changes commutes with the undo manager of Verif/Undo, which keeps what the changes do: the numbers in
Verif/Doc are those of that model.
-/
namespace Verif.Doc.ManProps
open Verif Verif.Doc

variable {V : Type}

/-- the sizes of the steps of an undo manager -/
def abs (rc : Nat) (doc : Option Nat) (s : Undo.State V) : Man :=
  { rc := rc, doc := doc, active := s.active, isOpen := s.isOpen, cur := s.current.length, undo := s.undoStack.map List.length,
    redo := s.redoStack.map List.length, level := s.level, trans := s.trans.map List.length, tstatus := s.tstatus }

/-- The new manager of a document. -/
theorem abs_new (m : Undo.Mem V) (r : Nat → Bool) (c : Bool) (d : Nat) :
    abs 1 (some d) (Undo.State.new m r c) = { Man.new with doc := some d, active := true } := rfl

/-- `undo` returns the same and marks the document when it returns true. -/
theorem abs_undo (rc : Nat) (doc : Option Nat) (s : Undo.State V) :
    (abs rc doc s).undoStep = ((Undo.undo s).1, abs rc doc (Undo.undo s).2, (Undo.undo s).1) ∧
    (Undo.undo s).2.docChanged = (s.docChanged || (Undo.undo s).1) := by
  unfold Undo.undo Man.undoStep
  cases ho : s.isOpen with
  | true => simp [abs, ho]
  | false =>
    cases hu : s.undoStack with
    | nil => simp [abs, ho, hu]
    | cons c cs => simp [abs, ho, hu, Undo.swapBack, swapAll_len]
where
  swapAll_len (cs : List (Undo.Change V)) (m : Undo.Mem V) (r : Nat → Bool) : (Undo.swapAll cs m r).1.length = cs.length := by
    induction cs generalizing m r with
    | nil => rfl
    | cons c cs ih => simp only [Undo.swapAll, List.length_cons, ih]

/-- `redo` likewise. -/
theorem abs_redo (rc : Nat) (doc : Option Nat) (s : Undo.State V) :
    (abs rc doc s).redoStep = ((Undo.redo s).1, abs rc doc (Undo.redo s).2, (Undo.redo s).1) ∧
    (Undo.redo s).2.docChanged = (s.docChanged || (Undo.redo s).1) := by
  unfold Undo.redo Man.redoStep
  cases ho : s.isOpen with
  | true => simp [abs, ho]
  | false =>
    cases hu : s.redoStack with
    | nil => simp [abs, ho, hu]
    | cons c cs => simp [abs, ho, hu, abs_undo.swapAll_len]

/-- `close`, with the mark of the document. -/
theorem abs_close (rc : Nat) (doc : Option Nat) (s : Undo.State V) :
    (abs rc doc s).close.1 = abs rc doc (Undo.close s) ∧ (Undo.close s).docChanged = (s.docChanged || (abs rc doc s).close.2) := by
  unfold Undo.close Man.close
  by_cases h : s.current.length = 0
  · rw [if_pos h, if_pos (show (abs rc doc s).cur = 0 from h)]
    simp
  · rw [if_neg h, if_neg (show ¬ (abs rc doc s).cur = 0 from h)]
    simp [abs]

/-- results with their states counted -/
def absRes (rc : Nat) (doc : Option Nat) : Res (Undo.State V) → Res Man
  | .ok s => .ok (abs rc doc s)
  | .error e => .error e

def absRes2 (rc : Nat) (doc : Option Nat) : Res (Undo.Status × Undo.State V) → Res (Undo.Status × Man)
  | .ok x => .ok (x.1, abs rc doc x.2)
  | .error e => .error e

def withOK : Res Man → Res (Undo.Status × Man)
  | .ok m => .ok (Undo.eOK, m)
  | .error e => .error e

theorem abs_addChange (rc : Nat) (doc : Option Nat) (s : Undo.State V) (c : Undo.Change V) :
    (abs rc doc s).register = absRes rc doc (Undo.addChange s c) := by
  unfold Undo.addChange Man.register
  have h1 : (abs rc doc s).active = s.active := rfl
  have h2 : (abs rc doc s).level = s.level := rfl
  rw [h1, h2]
  cases s.active with
  | false => rfl
  | true =>
    simp only [Bool.not_true, Bool.false_eq_true, if_false]
    split
    · cases ht : s.trans with
      | none => simp [abs, ht, absRes]
      | some t => simp [abs, ht, absRes]
    · simp [abs, absRes, Undo.clearRedoStack]

/-- `registerChange` of any member. -/
theorem abs_register (rc : Nat) (doc : Option Nat) (s : Undo.State V) (o p n : Nat) :
    (abs rc doc s).register = absRes rc doc (Undo.register s o p n) := abs_addChange rc doc s _

theorem abs_addAll (rc : Nat) (doc : Option Nat) (cs : List (Undo.Change V)) (s : Undo.State V) :
    Man.registerTimes cs.length (abs rc doc s) = absRes rc doc (Undo.addAll cs s) := by
  induction cs generalizing s with
  | nil => rfl
  | cons c cs ih =>
    simp only [List.length_cons, Man.registerTimes, Undo.addAll, abs_addChange rc doc s c]
    cases h : Undo.addChange s c with
    | error e => rfl
    | ok s1 => exact ih s1

theorem abs_openTransaction (rc : Nat) (doc : Option Nat) (s : Undo.State V) :
    (abs rc doc s).openTransaction = abs rc doc (Undo.openTransaction s) := by
  unfold Undo.openTransaction Man.openTransaction
  have h2 : (abs rc doc s).level = s.level := rfl
  rw [h2]
  split <;> rfl

theorem abs_commit (rc : Nat) (doc : Option Nat) (s : Undo.State V) :
    (abs rc doc s).commit = absRes rc doc (Undo.commit s) := by
  unfold Undo.commit Man.commit
  have h2 : (abs rc doc s).level = s.level := rfl
  have h3 : (abs rc doc s).trans = s.trans.map List.length := rfl
  rw [h2, h3]
  split
  · rfl
  · split
    · cases ht : s.trans with
      | none => rfl
      | some t =>
        simp only [Option.map_some]
        have e := abs_addAll rc doc t { s with level := s.level - 1, trans := some t }
        have e0 : abs rc doc { s with level := s.level - 1, trans := some t } =
            { abs rc doc s with level := s.level - 1, trans := some t.length } := rfl
        rw [e0] at e
        dsimp only at e ⊢
        rw [e]
        cases h : Undo.addAll t { s with level := s.level - 1, trans := some t } with
        | error e => rfl
        | ok s1 => rfl
    · rfl

theorem abs_rollback (rc : Nat) (doc : Option Nat) (s : Undo.State V) :
    (abs rc doc s).rollback = absRes rc doc (Undo.rollback s) := by
  unfold Undo.rollback Man.rollback
  have h2 : (abs rc doc s).level = s.level := rfl
  have h3 : (abs rc doc s).trans = s.trans.map List.length := rfl
  rw [h2, h3]
  split
  · rfl
  · split
    · cases ht : s.trans with
      | none => rfl
      | some t => rfl
    · rfl

/-- `closeTransaction`, with its result. -/
theorem abs_closeTransaction (rc : Nat) (doc : Option Nat) (s : Undo.State V) :
    (abs rc doc s).closeTransaction =
      absRes2 rc doc (Undo.closeTransaction s) := by
  unfold Undo.closeTransaction Man.closeTransaction
  have h2 : (abs rc doc s).tstatus = s.tstatus := rfl
  rw [h2]
  by_cases h : s.tstatus = Undo.eOK
  · simp only [h, if_true, abs_commit]
    cases Undo.commit s <;> rfl
  · simp only [h, if_false, abs_rollback]
    cases Undo.rollback s <;> rfl

theorem abs_status (rc : Nat) (doc : Option Nat) (s : Undo.State V) (st : Undo.Status) :
    (abs rc doc s).registerStatus st = abs rc doc (Undo.registerTransactionStatus s st) := by
  unfold Undo.registerTransactionStatus Man.registerStatus
  split <;> rfl

/-- `setMember` with a new value is `registerChange` for the manager; with the value the member has it is nothing. -/
theorem abs_setMember (rc : Nat) (doc : Option Nat) (same : List V → List V → Bool) (s : Undo.State V) (this ptr : Nat) (value : List V) :
    (same value (Undo.readMem s.mem ptr value.length) = true → Undo.setMember same s this ptr value = .ok (Undo.eNotChanged, s)) ∧
    (same value (Undo.readMem s.mem ptr value.length) = false →
      absRes2 rc doc (Undo.setMember same s this ptr value) = withOK (abs rc doc s).register) := by
  constructor
  · intro h; simp only [Undo.setMember, h, if_true]
  · intro h
    simp only [Undo.setMember, h, Bool.false_eq_true, if_false, abs_register rc doc s this ptr value.length]
    cases Undo.register s this ptr value.length <;> rfl

example : abs 1 (some 0) (Undo.close { Undo.State.new (fun _ => (0 : Nat)) (fun _ => false) false with current := [⟨1, 0, [5]⟩], isOpen := true }) =
    { Man.new with doc := some 0, active := true, undo := [1] } := rfl

end Verif.Doc.ManProps
