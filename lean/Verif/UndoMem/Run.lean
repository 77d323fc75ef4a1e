import Verif.UndoMem.Refine
/-
Sequences of calls on the undo manager in memory, and the same calls on the one of `Verif.Undo`.
-/
namespace Verif.UndoMem
open Verif Verif.Undo Verif.Undo.Spec

variable {V : Type}

/-- a call of the program: one of `Verif.Undo.Spec.Act`, or `setActive` -/
inductive Ev (V : Type) where
  | act (a : Act V)
  | setActive (b : Bool)

/-- the number of registrations of a sequence of calls -/
def regs : List (Ev V) → Nat
  | [] => 0
  | .act (.edit e) :: es => e.regs.length + regs es
  | _ :: es => regs es

def registerAll : List (Nat × Nat × Nat) → M V → Res (M V)
  | [], m => .ok m
  | (o, p, n) :: rest, m => do
    let m ← register m o p n
    registerAll rest m

def storeAll : List (Nat × List V) → M V → M V
  | [], m => m
  | (p, v) :: rest, m => storeAll rest (store m p v)

/-- one call in memory -/
def exec (m : M V) : Ev V → Res (M V × Out)
  | .act (.edit e) => do
    let m ← registerAll e.regs m
    return (storeAll e.stores m, .none)
  | .act .close => do
    let m ← close m
    return (m, .none)
  | .act .undo => do
    let x ← undo m
    return (x.2, .bool x.1)
  | .act .redo => do
    let x ← redo m
    return (x.2, .bool x.1)
  | .act .clearStacks => do
    let m ← clearStacks m
    return (m, .none)
  | .act .clearUndo => do
    let m ← clearUndoStack m
    return (m, .none)
  | .act .clearRedo => do
    let m ← clearRedoStack m
    return (m, .none)
  | .act .openT => .ok (openTransaction m, .none)
  | .act .closeT => do
    let x ← closeTransaction m
    return (x.2, .status x.1)
  | .act .commit => do
    let m ← commit m
    return (m, .none)
  | .act .rollback => do
    let m ← rollback m
    return (m, .none)
  | .act (.status st) => .ok (registerTransactionStatus m st, .none)
  | .setActive b => .ok (setActive m b, .none)

def execAll : List (Ev V) → M V → Res (M V × List Out)
  | [], m => .ok (m, [])
  | a :: as, m => do
    let x ← exec m a
    let y ← execAll as x.1
    return (y.1, x.2 :: y.2)

/-- the same call on lists -/
def execL (s : State V) : Ev V → Res (State V × Out)
  | .act a => Spec.exec s a
  | .setActive b => .ok ({ s with active := b }, .none)

def execAllL : List (Ev V) → State V → Res (State V × List Out)
  | [], s => .ok (s, [])
  | a :: as, s => do
    let x ← execL s a
    let y ← execAllL as x.1
    return (y.1, x.2 :: y.2)

theorem new_rel (m : Mem V) (r : Nat → Bool) (d : Bool) : Rel (M.new m r d) ⟨(0, []), [], [], none⟩ := by
  refine ⟨⟨⟨?_, ?_, ?_, ?_, ?_, ?_⟩, rfl, rfl, rfl⟩, rfl, by simp [M.new]⟩
  · intro o ho
    simp [Lay.all] at ho
    subst ho
    exact ⟨none, rfl⟩
  · intro o ho
    simp [Lay.all] at ho
    subst ho
    exact trivial
  · simp [Lay.all]
  · simp [Lay.all, addrs]
  · intro a n e
    have := Heap.lt_of_live e
    simp [M.new] at this
    simp [Lay.all, this]
  · intro a n e
    have := Heap.lt_of_live e
    simp [M.new] at this

theorem new_state (m : Mem V) (r : Nat → Bool) (d : Bool) : Lay.state (⟨(0, []), [], [], none⟩ : Lay V) (M.new m r d) = State.new m r d := rfl

theorem registerAll_spec : ∀ (l : List (Nat × Nat × Nat)) {m : M V} {L : Lay V}, Rel m L →
    ∃ (m' : M V) (L' : Lay V), registerAll l m = .ok m' ∧ Rel m' L' ∧ Spec.registerAll l (L.state m) = .ok (L'.state m') ∧ m'.ch.length = m.ch.length + l.length := by
  intro l
  induction l with
  | nil => intro m L h; exact ⟨m, L, rfl, h, rfl, rfl⟩
  | cons x l ih =>
    obtain ⟨o, p, n⟩ := x
    intro m L h
    obtain ⟨m1, L1, e1, e2, e3, e4⟩ := register_spec h o p n
    obtain ⟨m2, L2, g1, g2, g3, g4⟩ := ih e2
    refine ⟨m2, L2, ?_, g2, ?_, ?_⟩
    · simp only [registerAll]; rw [e1]; exact g1
    · simp only [Spec.registerAll]; rw [e3]; exact g3
    · rw [g4, e4]; simp; omega

theorem storeAll_spec : ∀ (l : List (Nat × List V)) {m : M V} {L : Lay V}, Rel m L →
    Rel (storeAll l m) L ∧ L.state (storeAll l m) = Spec.storeAll l (L.state m) ∧ (storeAll l m).ch.length = m.ch.length := by
  intro l
  induction l with
  | nil => intro m L h; exact ⟨h, rfl, rfl⟩
  | cons x l ih =>
    obtain ⟨p, v⟩ := x
    intro m L h
    have h1 : Rel (store m p v) L := ⟨⟨h.r0.ok, h.r0.cur, h.r0.und, h.r0.red⟩, h.tr, h.lev⟩
    exact ih h1

theorem clearUndo_rel {m : M V} {L : Lay V} (h : Rel m L) :
    ∃ (m' : M V) (L' : Lay V), clearUndoStack m = .ok m' ∧ Rel m' L' ∧ L'.state m' = Undo.clearUndoStack (L.state m) ∧ m'.ch.length = m.ch.length := by
  obtain ⟨ch', sh', e1, e2, e3⟩ := clearUndoStack_spec h.r0
  exact ⟨_, _, e1, ⟨e2, h.tr, h.lev⟩, rfl, e3⟩

theorem clearRedo_rel {m : M V} {L : Lay V} (h : Rel m L) :
    ∃ (m' : M V) (L' : Lay V), clearRedoStack m = .ok m' ∧ Rel m' L' ∧ L'.state m' = Undo.clearRedoStack (L.state m) ∧ m'.ch.length = m.ch.length := by
  obtain ⟨ch', sh', e1, e2, -, -, e3⟩ := clearRedoStack_spec h.r0
  exact ⟨_, _, e1, ⟨e2, h.tr, h.lev⟩, rfl, e3⟩

theorem clearStacks_rel {m : M V} {L : Lay V} (h : Rel m L) (hb : m.ch.length < 2 ^ 32) :
    ∃ (m' : M V) (L' : Lay V), clearStacks m = .ok m' ∧ Rel m' L' ∧ L'.state m' = Undo.clearStacks (L.state m) ∧ m'.ch.length = m.ch.length := by
  obtain ⟨m1, L1, e1, e2, e3, e4, -, -⟩ := close_spec h hb
  obtain ⟨m2, L2, f1, f2, f3, f4⟩ := clearUndo_rel e2
  obtain ⟨m3, L3, g1, g2, g3, g4⟩ := clearRedo_rel f2
  refine ⟨m3, L3, ?_, g2, ?_, by omega⟩
  · unfold clearStacks
    rw [e1]; simp only [bind, Except.bind]; rw [f1]; exact g1
  · unfold Undo.clearStacks
    rw [g3, f3, e3]

theorem closeTransaction_rel {m : M V} {L : Lay V} (h : Rel m L) :
    ∃ (m' : M V) (L' : Lay V), closeTransaction m = .ok (m.tstatus, m') ∧ Rel m' L' ∧ Undo.closeTransaction (L.state m) = .ok (m.tstatus, L'.state m') ∧ m'.ch.length = m.ch.length := by
  unfold closeTransaction Undo.closeTransaction
  rw [show (L.state m).tstatus = m.tstatus from rfl]
  by_cases hs : m.tstatus = eOK
  · obtain ⟨m', L', e1, e2, e3, e4⟩ := commit_spec h
    refine ⟨m', L', ?_, e2, ?_, e4⟩
    · simp only [if_pos hs]; rw [e1]; rfl
    · simp only [if_pos hs]; rw [e3]; rfl
  · obtain ⟨m', L', e1, e2, e3, e4⟩ := rollback_spec h
    refine ⟨m', L', ?_, e2, ?_, e4⟩
    · simp only [if_neg hs]; rw [e1]; rfl
    · simp only [if_neg hs]; rw [e3]; rfl

theorem exec_spec {m : M V} {L : Lay V} (e : Ev V) (h : Rel m L) (hb : m.ch.length < 2 ^ 32) :
    ∃ (m' : M V) (L' : Lay V) (o : Out), exec m e = .ok (m', o) ∧ Rel m' L' ∧ execL (L.state m) e = .ok (L'.state m', o) ∧ m'.ch.length ≤ m.ch.length + regs [e] := by
  cases e with
  | setActive b => exact ⟨_, L, .none, rfl, ⟨⟨h.r0.ok, h.r0.cur, h.r0.und, h.r0.red⟩, h.tr, h.lev⟩, rfl, by simp [setActive]⟩
  | act a =>
    cases a with
    | edit e =>
      obtain ⟨m1, L1, e1, e2, e3, e4⟩ := registerAll_spec e.regs h
      obtain ⟨g1, g2, g3⟩ := storeAll_spec e.stores e2
      refine ⟨_, L1, .none, ?_, g1, ?_, ?_⟩
      · simp only [exec]; rw [e1]; rfl
      · simp only [execL, Spec.exec]; rw [e3, g2]; rfl
      · rw [g3, e4]; simp [regs]
    | close =>
      obtain ⟨m1, L1, e1, e2, e3, e4, -, -⟩ := close_spec h hb
      refine ⟨m1, L1, .none, ?_, e2, ?_, by omega⟩
      · simp only [exec]; rw [e1]; rfl
      · simp only [execL, Spec.exec]; rw [e3]
    | undo =>
      obtain ⟨m1, L1, e1, e2, e3, e4⟩ := undo_spec h
      refine ⟨m1, L1, .bool (Undo.undo (L.state m)).1, ?_, e2, ?_, by omega⟩
      · simp only [exec]; rw [e1]; rfl
      · simp only [execL, Spec.exec]; rw [e3]
    | redo =>
      obtain ⟨m1, L1, e1, e2, e3, e4⟩ := redo_spec h
      refine ⟨m1, L1, .bool (Undo.redo (L.state m)).1, ?_, e2, ?_, by omega⟩
      · simp only [exec]; rw [e1]; rfl
      · simp only [execL, Spec.exec]; rw [e3]
    | clearStacks =>
      obtain ⟨m1, L1, e1, e2, e3, e4⟩ := clearStacks_rel h hb
      refine ⟨m1, L1, .none, ?_, e2, ?_, by omega⟩
      · simp only [exec]; rw [e1]; rfl
      · simp only [execL, Spec.exec]; rw [e3]
    | clearUndo =>
      obtain ⟨m1, L1, e1, e2, e3, e4⟩ := clearUndo_rel h
      refine ⟨m1, L1, .none, ?_, e2, ?_, by omega⟩
      · simp only [exec]; rw [e1]; rfl
      · simp only [execL, Spec.exec]; rw [e3]
    | clearRedo =>
      obtain ⟨m1, L1, e1, e2, e3, e4⟩ := clearRedo_rel h
      refine ⟨m1, L1, .none, ?_, e2, ?_, by omega⟩
      · simp only [exec]; rw [e1]; rfl
      · simp only [execL, Spec.exec]; rw [e3]
    | openT =>
      obtain ⟨L1, e2, e3, e4⟩ := openTransaction_spec h
      refine ⟨_, L1, .none, rfl, e2, ?_, by omega⟩
      simp only [execL, Spec.exec]; rw [e3]
    | closeT =>
      obtain ⟨m1, L1, e1, e2, e3, e4⟩ := closeTransaction_rel h
      refine ⟨m1, L1, .status m.tstatus, ?_, e2, ?_, by omega⟩
      · simp only [exec]; rw [e1]; rfl
      · simp only [execL, Spec.exec]; rw [e3]; rfl
    | commit =>
      obtain ⟨m1, L1, e1, e2, e3, e4⟩ := commit_spec h
      refine ⟨m1, L1, .none, ?_, e2, ?_, by omega⟩
      · simp only [exec]; rw [e1]; rfl
      · simp only [execL, Spec.exec]; rw [e3]; rfl
    | rollback =>
      obtain ⟨m1, L1, e1, e2, e3, e4⟩ := rollback_spec h
      refine ⟨m1, L1, .none, ?_, e2, ?_, by omega⟩
      · simp only [exec]; rw [e1]; rfl
      · simp only [execL, Spec.exec]; rw [e3]; rfl
    | status st =>
      refine ⟨_, L, .none, rfl, ?_, ?_, ?_⟩
      · unfold registerTransactionStatus
        split
        · exact ⟨⟨h.r0.ok, h.r0.cur, h.r0.und, h.r0.red⟩, h.tr, h.lev⟩
        · exact h
      · simp only [execL, Spec.exec, registerTransactionStatus, Undo.registerTransactionStatus]
        split <;> rfl
      · unfold registerTransactionStatus
        split <;> simp

theorem execAll_spec : ∀ (es : List (Ev V)) {m : M V} {L : Lay V}, Rel m L → m.ch.length + regs es < 2 ^ 32 →
    ∃ (m' : M V) (L' : Lay V) (os : List Out), execAll es m = .ok (m', os) ∧ Rel m' L' ∧ execAllL es (L.state m) = .ok (L'.state m', os) ∧
      m'.ch.length ≤ m.ch.length + regs es := by
  intro es
  induction es with
  | nil => intro m L h _; exact ⟨m, L, [], rfl, h, rfl, by simp⟩
  | cons e es ih =>
    intro m L h hb
    have hr : regs (e :: es) = regs [e] + regs es := by
      cases e with
      | setActive b => simp [regs]
      | act a => cases a <;> simp [regs]
    obtain ⟨m1, L1, o, e1, e2, e3, e4⟩ := exec_spec e h (by omega)
    obtain ⟨m2, L2, os, g1, g2, g3, g4⟩ := ih e2 (by omega)
    refine ⟨m2, L2, o :: os, ?_, g2, ?_, by omega⟩
    · simp only [execAll]; rw [e1]; simp only [bind, Except.bind]; rw [g1]; rfl
    · simp only [execAllL]; rw [e3]; simp only [bind, Except.bind]; rw [g3]; rfl

/-- the destructor -/
theorem destroy_spec {m : M V} {L : Lay V} (h : Rel m L) (hb : m.ch.length < 2 ^ 32) :
    ∃ m' : M V, destroy m = .ok m' ∧ Ok m'.ch m'.sh L.tr.toList [] [] ∧ m'.mem = m.mem := by
  obtain ⟨m1, L1, e1, e2, e3, e4, e5, -⟩ := close_spec h hb
  obtain ⟨ch2, sh2, f1, f2, -⟩ := clearUndoStack_spec e2.r0
  obtain ⟨ch3, sh3, g1, g2, -, -, -⟩ := clearRedoStack_spec f2
  have hcur : L1.cur = (m1.current, L1.cur.2) := by rw [e2.r0.cur]
  have hok := g2.ok
  simp only [Lay.all, List.nil_append] at hok
  rw [hcur, e5] at hok
  obtain ⟨ch4, k1, k2, -, -⟩ := deleteStep_spec { m1 with ch := ch3, sh := sh3, undoStack := none, undoCount := 0, redoStack := none, redoCount := 0 } hok
  refine ⟨{ m1 with ch := ch4, sh := sh3.set m1.current none, undoStack := none, undoCount := 0, redoStack := none, redoCount := 0 }, ?_, k2, ?_⟩
  · unfold destroy clearStacks
    rw [e1]; simp only [bind, Except.bind]; rw [f1]; simp only; rw [g1]
    exact k1
  · show m1.mem = m.mem
    have := congrArg State.mem e3
    rw [show (L1.state m1).mem = m1.mem from rfl] at this
    rw [this]
    unfold Undo.close
    split <;> rfl

end Verif.UndoMem
