import Verif.UndoRef.States
/-
C92: the undo history keeps objects alive exactly as long as it needs them.
C93: undo and redo restore pointers and references.
-/
namespace Verif.UndoRef
open Verif Verif.UndoRef.Spec

/-- **C92, C93.** Whatever an application does that keeps to the rules: nothing undefined happens, `undo` and `redo` report what they should,
the stored pointers and the application's references are those of the specified history; and the count of every object is the
number of references the application holds, plus those of the changes in the history. -/
theorem history (as : List Act) (hl : Legal .new as) :
    ∃ s, execAll 0 .new as = .ok ((Hist.new.run as).1.fresh, s, (Hist.new.run as).2) ∧ s.cells = (Hist.new.run as).1.now.cells ∧
      ∀ o, (s.cnt o : Int) = (Hist.new.run as).1.own o + heldBy (changes s) o := by
  obtain ⟨s, h1, i⟩ := run_ok as inv_new hl
  exact ⟨s, h1, i.cells, i.bal⟩

/-- an application that kept to the rules so far -/
def Reached (s : State) (h : Hist) : Prop := ∃ as bs n, Legal .new as ∧ (Hist.new.run as).1 = h ∧ execAll 0 .new as = .ok (n, s, bs)

theorem Reached.inv {s : State} {h : Hist} (r : Reached s h) : Inv s h := by
  obtain ⟨as, bs, n, hl, rfl, he⟩ := r
  obtain ⟨s', h1, i⟩ := run_ok as inv_new hl
  have h2 : execAll 0 .new as = execAll Hist.new.fresh .new as := rfl
  rw [h2, h1] at he
  simp only [Except.ok.injEq, Prod.mk.injEq] at he
  rw [← he.2.1]
  exact i

/-- **C92.** An object exists exactly as long as the application or a change in the history refers to it. -/
theorem exists_iff {s : State} {h : Hist} (r : Reached s h) (o : Obj) :
    s.cnt o ≠ 0 ↔ 1 ≤ h.own o ∨ ∃ c ∈ changes s, c.owner = o ∨ ∃ cell v v1 v2 sw, c.kind = .ref cell v v1 v2 sw ∧ (v1 = some o ∨ v2 = some o) := by
  have i := r.inv
  have hb := i.bal o
  have hv := i.valid o
  have hr : ∀ c : Change, refsOf c o ≠ 0 ↔ (c.owner = o ∨ ∃ cell v v1 v2 sw, c.kind = .ref cell v v1 v2 sw ∧ (v1 = some o ∨ v2 = some o)) := by
    intro c
    obtain ⟨w, k⟩ := c
    cases k with
    | ref cell v v1 v2 sw =>
      simp only [refsOf, Kind.ref.injEq]
      constructor
      · intro h
        by_cases h1 : w = o
        · exact .inl h1
        · by_cases h2 : v1 = some o
          · exact .inr ⟨cell, v, v1, v2, sw, ⟨rfl, rfl, rfl, rfl, rfl⟩, .inl h2⟩
          · by_cases h3 : v2 = some o
            · exact .inr ⟨cell, v, v1, v2, sw, ⟨rfl, rfl, rfl, rfl, rfl⟩, .inr h3⟩
            · simp [h1, h2, h3] at h
      · rintro (h1 | ⟨_, _, a, b, _, ⟨_, _, rfl, rfl, _⟩, h2 | h2⟩) <;> simp_all
    | rel q => simp [refsOf]
    | other => simp [refsOf]
  have hh : heldBy (changes s) o ≠ 0 ↔ ∃ c ∈ changes s, refsOf c o ≠ 0 := by
    unfold heldBy
    generalize changes s = l
    induction l with
    | nil => simp
    | cons a l ih =>
      simp only [List.map_cons, List.sum_cons, List.mem_cons, exists_eq_or_imp]
      rw [← ih]
      omega
  simp only [← hr]
  rw [← hh]
  unfold Hist.own
  simp only at hb
  constructor
  · intro h1
    by_cases h2 : 1 ≤ (h.base o : Int) + h.now.refs o
    · exact .inl h2
    · right; omega
  · rintro (h1 | h1) <;> omega

/-- **C92.** No stored pointer dangles, if the application does not itself give up the last registered reference to an object it still stores
a pointer to: neither now nor after any `undo`, `redo`, `rollback`. -/
theorem no_dangling (as : List Act) (hl : Legal .new as) (hc : Careful .new as) : ∃ s n bs, execAll 0 .new as = .ok (n, s, bs) ∧
    ∀ c v, s.cells c = some v → s.cnt v ≠ 0 := by
  obtain ⟨s, h1, i⟩ := run_ok as inv_new hl
  refine ⟨s, _, _, h1, fun c v e => ?_⟩
  rw [i.cells] at e
  have h1 := (backed_run as backed_new hl hc).now c v e
  have h2 := i.bal v
  simp only at h2
  omega

/-- **C92.** `clearStacks` gives up all references of the history, the rest is untouched; so it does when the manager is destroyed.  The
transaction, if one is open, keeps its references. -/
theorem clear_gives_up {s : State} {h : Hist} (r : Reached s h) : ∃ s', clearStacks s = .ok s' ∧ s'.cells = s.cells ∧
    (∀ o, (s'.cnt o : Int) = h.own o + heldBy (s.trans.getD []) o) ∧ ∃ s'', destroyManager s = .ok s'' ∧ s''.cnt = s'.cnt := by
  have i := close_inv r.inv
  have hc : (close s).current = [] := by
    unfold close
    split
    · next h => exact List.length_eq_zero_iff.1 h
    · rfl
  have ht : (close s).trans = s.trans ∧ (close s).cells = s.cells := by unfold close; split <;> exact ⟨rfl, rfl⟩
  obtain ⟨s1, a1, a2, a3, a4⟩ := clearUndo_ok i
  obtain ⟨s2, b1, b2, b3, b4⟩ := clearRedo_ok a2
  have e1 : s2.current = [] := by rw [b4, a4]; exact hc
  have e2 : s2.undoStack = [] := by rw [b4, a4]
  have e3 : s2.trans = s.trans := by rw [b4, a4]; exact ht.1
  have e4 : clearStacks s = .ok s2 := by simp only [clearStacks, a1, bind, Except.bind, b1]
  refine ⟨s2, e4, by rw [b4, a4]; exact ht.2, fun o => ?_, { s2 with current := [] }, ?_, rfl⟩
  · have := b2.bal o
    simp only [held_changes, e1, e2, e3, b3, List.flatten_nil, heldBy_nil] at this
    rw [this]
    have e5 : ((((h.step .close).1.step .clearUndo).1.step .clearRedo).1).base = h.base ∧ ((((h.step .close).1.step .clearUndo).1.step .clearRedo).1).now = h.now := by
      simp only [Hist.step]
      cases h.start <;> exact ⟨rfl, rfl⟩
    rw [e5.1, e5.2]
    unfold Hist.own
    ring
  · simp only [destroyManager, e4, e1, destroyStep, destroyAll, List.reverse_nil, bind, Except.bind, pure, Except.pure]

/-- **C93.** A step is undone as a whole: pointers and references are again those before its first change, redone those after its last.
Other references of the application are not touched. -/
theorem undo_step {s : State} {h : Hist} (r : Reached s h) (ht : h.tr = none) (n : Nat) :
    ((h.start = none ∧ h.past ≠ []) → ∃ s' p, h.past.head? = some p ∧ UndoRef.undo s = .ok (true, s') ∧ s'.cells = p.cells ∧
      (∀ o, (s'.cnt o : Int) = h.base o + p.refs o + heldBy (changes s') o) ∧
      ∃ s'', UndoRef.redo s' = .ok (true, s'') ∧ s''.cells = s.cells ∧ ∀ o, (s''.cnt o : Int) = h.own o + heldBy (changes s'') o) ∧
    ((h.start ≠ none ∨ h.past = []) → UndoRef.undo s = .ok (false, s)) := by
  have i := r.inv
  obtain ⟨s', h1, i1⟩ := undo_ok i n ht
  obtain ⟨fresh, base, now, past, future, start, tr⟩ := h
  simp only at ht
  subst ht
  constructor
  · rintro ⟨rfl, hp⟩
    cases past with
    | nil => exact absurd rfl hp
    | cons p ps =>
      refine ⟨s', p, rfl, ?_, i1.cells, i1.bal, ?_⟩
      · simp only [exec, bind, Except.bind] at h1
        cases hu : UndoRef.undo s with
        | error e => rw [hu] at h1; cases h1
        | ok x =>
          rw [hu] at h1
          simp only [pure, Except.pure, Except.ok.injEq, Prod.mk.injEq] at h1
          obtain ⟨_, h2, h3⟩ := h1
          obtain ⟨b, t⟩ := x
          simp only at h2 h3
          rw [h2, h3]; rfl
      · obtain ⟨s'', h2, i2⟩ := redo_ok i1 n rfl
        refine ⟨s'', ?_, ?_, i2.bal⟩
        · simp only [exec, bind, Except.bind] at h2
          cases hu : UndoRef.redo s' with
          | error e => rw [hu] at h2; cases h2
          | ok x =>
            rw [hu] at h2
            simp only [pure, Except.pure, Except.ok.injEq, Prod.mk.injEq] at h2
            obtain ⟨_, h3, h4⟩ := h2
            obtain ⟨b, t⟩ := x
            simp only at h3 h4
            rw [h3, h4]; rfl
        · rw [i2.cells, i.cells]; rfl
  · intro hp
    unfold UndoRef.undo
    cases start with
    | some a => rw [if_pos (by rw [i.opn]; rfl)]
    | none =>
      rw [if_neg (by rw [i.opn]; simp)]
      have : past = [] := by rcases hp with hp | hp; exact absurd rfl hp; exact hp
      have hu := i.und
      simp only [this] at hu
      generalize s.undoStack = l at hu ⊢
      cases hu
      rfl

/-! ### Cases -/

/-- Object 0 stores a pointer to object 1, which is registered; the application gives up its own reference; the pointer is cleared again, in a
second step; all of it is undone, redone, and undone within a transaction that is rolled back. -/
def sample : List Act :=
  [.create, .create, .retain 1, .setRef 0 (0, 7) (some 1), .drop 1, .close, .setRef 0 (0, 7) none, .release 1, .close, .undo, .undo, .redo, .redo, .undo,
   .begin, .setRef 0 (0, 7) none, .other 0, .rollback, .begin, .begin, .other 0, .commit, .commit, .close]

theorem sample_legal : Legal .new sample := by
  simp [sample, Legal, Hist.allowed, Hist.step, Hist.new, Hist.own, Hist.edit, Hist.commit, Hist.rollback, App.empty, upd]

theorem sample_careful : Careful .new sample := by
  simp [sample, Careful, Hist.careful, Hist.step, Hist.new, Hist.edit, App.empty, upd]

/-- After it, object 1 has one reference of the application (which undo has given back), and those of the history. -/
theorem sample_result : ∃ s bs, execAll 0 .new sample = .ok (2, s, bs) ∧ s.cells (0, 7) = some 1 ∧ (Hist.new.run sample).1.own 1 = 1 ∧ s.cnt 1 = 3 ∧
    bs = [true, true, true, true, true, true, true, true, true, true, true, true, true, true, true, true, true, true, true, true, true, true, true, true] := by
  refine ⟨_, _, rfl, rfl, ?_, ?_, rfl⟩ <;> decide +kernel

/-- **C92 fails**: a manager that is destroyed while a transaction is open never gives up the references of the transaction.  The object is
never destroyed, though nobody refers to it. -/
theorem open_transaction_leaks : ∃ s h s1 cnt, Reached s h ∧ h.own 0 = 1 ∧ destroyManager s = .ok s1 ∧ release s1.cnt 0 = .ok cnt ∧ cnt 0 = 1 := by
  refine ⟨_, _, _, _, ⟨[.create, .begin, .other 0], _, _, ?_, rfl, rfl⟩, ?_, rfl, rfl, ?_⟩
  · simp [Legal, Hist.allowed, Hist.step, Hist.new, Hist.own, App.empty, upd]
  · decide +kernel
  · decide +kernel

/-- **C92 fails**, if a stored pointer is not backed by a registered reference: after the pointer was cleared and the object given up, `undo`
restores the pointer; the next change discards the redo stack, and with it the object. -/
theorem unbacked_dangles : ∃ n s bs, execAll 0 .new
    [.create, .create, .setRef 0 (0, 7) (some 1), .close, .setRef 0 (0, 7) none, .close, .drop 1, .undo, .other 0] = .ok (n, s, bs) ∧
    s.cells (0, 7) = some 1 ∧ s.cnt 1 = 0 := ⟨_, _, _, rfl, rfl, by decide +kernel⟩

/-- add to a list, close the step, undo, do something else -/
def addUndo (s : State) (list item : Obj) : Res State := do
  let s ← listAdd s list item none
  let (_, s) ← UndoRef.undo (close s)
  clearRedoStack s

/-- add to a list, close the step, clear the history; remove, close the step, clear the history -/
def addRemove (s : State) (list item : Obj) : Res State := do
  let s ← listAdd s list item none
  let s ← clearStacks s
  let s ← listRemove s list item
  clearStacks s

/-- a list, object 0, held by the application -/
def oneList : State := { State.new with cnt := upd State.new.cnt 0 1 }

/-- **C92 fails** for `LinkedList::add`: the reference a new element is created with is not registered.  If the addition is undone and can no
longer be redone, the element is in no list and the history does not refer to it, but it is never destroyed. -/
theorem undone_add_leaks : ∃ s, addUndo oneList 0 1 = .ok s ∧ s.cnt 1 = 1 ∧ changes s = [] ∧ s.cells (startCell 0) = none ∧ s.cells (endCell 0) = none := by
  refine ⟨_, rfl, ?_, rfl, ?_, ?_⟩ <;> decide +kernel

/-- `LinkedList::remove` registers the reference it gives up: the element is destroyed when the history forgets it. -/
theorem remove_destroys : ∃ s, addRemove oneList 0 1 = .ok s ∧ s.cnt 1 = 0 ∧ s.cnt 0 = 1 ∧ s.cells (startCell 0) = none := by
  refine ⟨_, rfl, ?_, ?_, ?_⟩ <;> decide +kernel

/-- add to a list, forget the history; remove, undo the removal, forget the history -/
def addRemoveUndo (s : State) (list item : Obj) : Res State := do
  let s ← listAdd s list item none
  let s ← clearStacks s
  let s ← listRemove s list item
  let (_, s) ← UndoRef.undo (close s)
  clearStacks s

/-- add to a list, forget the history; remove, undo and redo the removal, forget the history -/
def addRemoveRedo (s : State) (list item : Obj) : Res State := do
  let s ← listAdd s list item none
  let s ← clearStacks s
  let s ← listRemove s list item
  let (_, s) ← UndoRef.undo (close s)
  let (_, s) ← UndoRef.redo s
  clearStacks s

/-- A removal that is undone gives the reference back: the element is in the list again and stays alive when the history forgets it.  A redone
removal gives it up again. -/
theorem remove_undo_keeps :
    (∃ s, addRemoveUndo oneList 0 1 = .ok s ∧ s.cnt 1 = 1 ∧ s.cnt 0 = 1 ∧ s.cells (startCell 0) = some 1 ∧ s.cells (endCell 0) = some 1) ∧
    (∃ s, addRemoveRedo oneList 0 1 = .ok s ∧ s.cnt 1 = 0 ∧ s.cnt 0 = 1 ∧ s.cells (startCell 0) = none ∧ s.cells (endCell 0) = none) := by
  refine ⟨⟨_, rfl, ?_, ?_, ?_, ?_⟩, ⟨_, rfl, ?_, ?_, ?_, ?_⟩⟩ <;> decide +kernel

end Verif.UndoRef
