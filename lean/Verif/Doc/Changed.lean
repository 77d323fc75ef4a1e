import Verif.Undo.Props
/-
C113: what `isDocumentChanged` says about the members.  The calls are those of C22 (`Act`: edits that register the
members they assign, closing steps, undo, redo, transactions) and `setDocumentChanged(false)`, which a program calls
when it has saved the document.
-/
namespace Verif.Doc.Changed
open Verif Verif.Undo Verif.Undo.Spec

variable {V : Type}

/-- A call of C22, or `setDocumentChanged(false)` after saving. -/
inductive Call (V : Type) where
  | act (a : Act V)
  | saved

/-- Document.cpp:98-101 with `false`; otherwise the call on the undo manager. -/
def exec (s : State V) : Call V → Res (State V)
  | .act a => do
    let x ← Spec.exec s a
    return x.1
  | .saved => .ok { s with docChanged := false }

def execAll : List (Call V) → State V → Res (State V)
  | [], s => .ok s
  | c :: cs, s => do
    let s ← exec s c
    execAll cs s

/-- the history of snapshots; saving does not touch it -/
def hist (h : Hist V) : Call V → Hist V
  | .act a => (h.step a).1
  | .saved => h

/-- the members when the document was last saved; `m` if never -/
def savedMem : List (Call V) → Hist V → Mem V → Mem V
  | [], _, m => m
  | .act a :: cs, h, m => savedMem cs (h.step a).1 m
  | .saved :: cs, h, _ => savedMem cs h h.cur

def histAll : List (Call V) → Hist V → Hist V
  | [], h => h
  | c :: cs, h => histAll cs (hist h c)

/-- Edits register what they assign; no undo or redo while a transaction is open. -/
def AllowedAct (h : Hist V) (a : Act V) : Prop :=
  match a with
  | .edit e => e.Disciplined
  | .undo | .redo => h.tr = none
  | _ => True

/-- … and no saving while a transaction is open. -/
def Allowed (h : Hist V) : Call V → Prop
  | .act a => AllowedAct h a
  | .saved => h.tr = none

def Legal : List (Call V) → Hist V → Prop
  | [], _ => True
  | c :: cs, h => Allowed h c ∧ Legal cs (hist h c)

/-- what an unmarked document guarantees -/
structure Clean (h : Hist V) (m : Mem V) : Prop where
  closed : h.tr = none → h.cur = m
  opened : ∀ t, h.tr = some t → t.before = m ∧ (t.dirty = false → h.cur = m)

theorem assign_empty (e : Edit V) (hd : e.Disciplined) (hr : e.regs = []) (m : Mem V) : assign m e.stores = m := by
  have : ∀ (st : List (Nat × List V)) (m : Mem V), (∀ s ∈ st, s.2 = []) → assign m st = m := by
    intro st
    induction st with
    | nil => intros; rfl
    | cons x xs ih =>
      intro m h
      obtain ⟨p, v⟩ := x
      have hv : v = [] := h (p, v) (by simp)
      subst hv
      simp only [assign]
      rw [ih _ (fun s hs => h s (by simp [hs]))]
      funext a
      rw [if_neg (by simp only [List.length_nil]; omega)]
  apply this
  intro s hs
  cases hv : s.2 with
  | nil => rfl
  | cons a l =>
    obtain ⟨r, h1, -⟩ := hd s hs 0 (by rw [hv]; simp)
    rw [hr] at h1
    cases h1

theorem registerAll_flag (regs : List (Nat × Nat × Nat)) (s s' : State V) (h : registerAll regs s = .ok s') :
    s'.docChanged = s.docChanged := by
  induction regs generalizing s with
  | nil => simp only [registerAll, Except.ok.injEq] at h; rw [h]
  | cons r regs ih =>
    obtain ⟨o, p, n⟩ := r
    simp only [registerAll, bind, Except.bind] at h
    split at h
    · cases h
    · rename_i s1 e
      rw [ih s1 h]
      exact addChange_flag e
where
  addChange_flag {s s' : State V} {c : Change V} (e : addChange s c = .ok s') : s'.docChanged = s.docChanged := by
    unfold addChange at e
    split at e
    · cases e; rfl
    · split at e
      · split at e
        · cases e
        · cases e; rfl
      · cases e; rfl

theorem storeAll_flag (st : List (Nat × List V)) (s : State V) : (storeAll st s).docChanged = s.docChanged := by
  induction st generalizing s with
  | nil => rfl
  | cons x xs ih => obtain ⟨p, v⟩ := x; simp only [storeAll]; rw [ih]; rfl

theorem addAll_flag (cs : List (Change V)) (s s' : State V) (h : addAll cs s = .ok s') : s'.docChanged = s.docChanged := by
  induction cs generalizing s with
  | nil => simp only [addAll, Except.ok.injEq] at h; rw [h]
  | cons c cs ih =>
    simp only [addAll, bind, Except.bind] at h
    split at h
    · cases h
    · rename_i s1 e
      rw [ih s1 h]
      exact registerAll_flag.addChange_flag e

theorem commit_flag {s s' : State V} (h : commit s = .ok s') : s'.docChanged = s.docChanged := by
  unfold commit at h
  split at h
  · cases h; rfl
  · split at h
    · split at h
      · cases h
      · simp only [bind, Except.bind] at h
        split at h
        · cases h
        · rename_i s1 e
          cases h
          have := addAll_flag _ _ _ e
          exact this
    · cases h; rfl

theorem rollback_flag {s s' : State V} (h : rollback s = .ok s') : s'.docChanged = s.docChanged := by
  unfold rollback at h
  split at h
  · cases h; rfl
  · split at h
    · split at h
      · cases h
      · cases h; rfl
    · cases h; rfl

/-- the flag or an open step tells of a difference -/
def Told (s : State V) (h : Hist V) (m : Mem V) : Prop := s.docChanged = true ∨ h.start.isSome = true ∨ Clean h m

theorem clean_commit {h : Hist V} {m : Mem V} (k : Clean h m) (hs : h.commit.start = none) : Clean h.commit m := by
  unfold Hist.commit at hs ⊢
  cases ht : h.tr with
  | none => simp only [ht] at hs ⊢; exact k
  | some t =>
    simp only [ht] at hs ⊢
    obtain ⟨k1, k2⟩ := k.opened t ht
    split
    · rename_i hl
      rw [if_pos hl] at hs
      split
      · rename_i hd
        rw [if_pos hd] at hs
        cases hs
      · rename_i hd
        exact ⟨fun _ => k2 (by simpa using hd), fun t' ht' => by cases ht'⟩
    · refine ⟨(fun h => by cases h), ?_⟩
      intro t' ht'
      simp only [Option.some.injEq] at ht'
      subst ht'
      exact ⟨k1, k2⟩

theorem clean_rollback {h : Hist V} {m : Mem V} (k : Clean h m) : Clean h.rollback m := by
  unfold Hist.rollback
  cases ht : h.tr with
  | none => exact k
  | some t =>
    obtain ⟨k1, k2⟩ := k.opened t ht
    simp only
    split
    · exact ⟨fun _ => k1, fun t' ht' => by cases ht'⟩
    · refine ⟨(fun h => by cases h), ?_⟩
      intro t' ht'
      simp only [Option.some.injEq] at ht'
      subst ht'
      exact ⟨k1, k2⟩

theorem commit_start (h : Hist V) (hs : h.start.isSome = true) : h.commit.start.isSome = true := by
  unfold Hist.commit
  cases h.tr with
  | none => exact hs
  | some t =>
    simp only
    split
    · split
      · rfl
      · exact hs
    · exact hs

theorem rollback_start (h : Hist V) : h.rollback.start = h.start := by
  unfold Hist.rollback
  cases h.tr with
  | none => rfl
  | some t => simp only; split <;> rfl

/-- closing a step tells -/
theorem close_told {s : State V} {h : Hist V} {m : Mem V} (i : Inv s h) (k : Told s h m) : Told (close s) h.close m := by
  by_cases hc : s.current = []
  · have e1 : close s = s := (Props.close_notifies s).1 hc
    have hn := i.currentNil.1 hc
    have e2 : h.close = h := by unfold Hist.close; rw [hn]
    rw [e1, e2]; exact k
  · exact Or.inl ((Props.close_notifies s).2 hc)

theorem told_commit {s s' : State V} {h : Hist V} {m : Mem V} (e : commit s = .ok s') (k : Told s h m) : Told s' h.commit m := by
  rcases k with k | k | k
  · exact Or.inl (by rw [commit_flag e]; exact k)
  · exact Or.inr (Or.inl (commit_start h k))
  · cases hs : h.commit.start with
    | some x => exact Or.inr (Or.inl (by rw [hs]; rfl))
    | none => exact Or.inr (Or.inr (clean_commit k hs))

theorem told_rollback {s s' : State V} {h : Hist V} {m : Mem V} (e : rollback s = .ok s') (k : Told s h m) : Told s' h.rollback m := by
  rcases k with k | k | k
  · exact Or.inl (by rw [rollback_flag e]; exact k)
  · exact Or.inr (Or.inl (by rw [rollback_start]; exact k))
  · exact Or.inr (Or.inr (clean_rollback k))

theorem act_told {s : State V} {h : Hist V} {m : Mem V} (i : Inv s h) (k : Told s h m) (a : Act V)
    (hl : AllowedAct h a) (s' : State V) (out : Out)
    (he : Spec.exec s a = .ok (s', out)) : Told s' (h.step a).1 m := by
  cases a with
  | edit e =>
    simp only [Spec.exec, bind, Except.bind] at he
    split at he
    · cases he
    · rename_i s1 e1
      cases he
      have hf : (storeAll e.stores s1).docChanged = s.docChanged := by rw [storeAll_flag, registerAll_flag _ _ _ e1]
      rcases k with k | k | k
      · exact Or.inl (by rw [hf]; exact k)
      · refine Or.inr (Or.inl ?_)
        simp only [Hist.step]
        split
        · exact k
        · split
          · exact k
          · rfl
      · simp only [Hist.step]
        by_cases hr : e.regs = []
        · rw [if_pos hr]
          refine Or.inr (Or.inr ?_)
          have := assign_empty e hl hr h.cur
          exact ⟨fun ht => by simp only [this]; exact k.closed ht, fun t ht => by simp only [this]; exact k.opened t ht⟩
        · rw [if_neg hr]
          cases ht : h.tr with
          | some t =>
            refine Or.inr (Or.inr ⟨(fun h => by cases h), ?_⟩)
            intro t' ht'
            simp only [Option.some.injEq] at ht'
            subst ht'
            exact ⟨(k.opened t ht).1, (fun h => by cases h)⟩
          | none => exact Or.inr (Or.inl rfl)
  | close =>
    simp only [Spec.exec, Except.ok.injEq, Prod.mk.injEq] at he
    rw [← he.1]
    exact close_told i k
  | undo =>
    simp only [Spec.exec, Except.ok.injEq, Prod.mk.injEq] at he
    rw [← he.1]
    cases hu : (undo s).1 with
    | true => exact Or.inl (undo_flag hu)
    | false =>
      have e1 : (undo s).2 = s := by
        unfold undo at hu ⊢
        split
        · rfl
        · rename_i ho
          rw [if_neg ho] at hu
          split
          · rfl
          · rename_i hx; rw [hx] at hu; cases hu
      rw [e1]
      obtain ⟨s1, e2, -⟩ := Undo.step_ok i .undo hl
      simp only [Spec.exec, e1, Except.ok.injEq, Prod.mk.injEq, hu] at e2
      have e3 : (h.step .undo).2 = .bool false := e2.2.symm
      have e4 : (h.step (.undo : Act V)).1 = h := by
        simp only [Hist.step] at e3 ⊢
        split at e3
        · cases e3
        · rfl
      rw [e4]; exact k
  | redo =>
    simp only [Spec.exec, Except.ok.injEq, Prod.mk.injEq] at he
    rw [← he.1]
    cases hu : (redo s).1 with
    | true => exact Or.inl (redo_flag hu)
    | false =>
      have e1 : (redo s).2 = s := by
        unfold redo at hu ⊢
        split
        · rfl
        · rename_i ho
          rw [if_neg ho] at hu
          split
          · rfl
          · rename_i hx; rw [hx] at hu; cases hu
      rw [e1]
      obtain ⟨s1, e2, -⟩ := Undo.step_ok i .redo hl
      simp only [Spec.exec, e1, Except.ok.injEq, Prod.mk.injEq, hu] at e2
      have e3 : (h.step .redo).2 = .bool false := e2.2.symm
      have e4 : (h.step (.redo : Act V)).1 = h := by
        simp only [Hist.step] at e3 ⊢
        split at e3
        · cases e3
        · rfl
      rw [e4]; exact k
  | clearStacks =>
    simp only [Spec.exec, Except.ok.injEq, Prod.mk.injEq] at he
    rw [← he.1]
    rcases close_told i k with k | k | k
    · exact Or.inl k
    · exact Or.inr (Or.inl k)
    · exact Or.inr (Or.inr ⟨k.closed, k.opened⟩)
  | clearUndo =>
    simp only [Spec.exec, Except.ok.injEq, Prod.mk.injEq] at he
    rw [← he.1]
    rcases k with k | k | k
    · exact Or.inl k
    · exact Or.inr (Or.inl k)
    · exact Or.inr (Or.inr ⟨k.closed, k.opened⟩)
  | clearRedo =>
    simp only [Spec.exec, Except.ok.injEq, Prod.mk.injEq] at he
    rw [← he.1]
    rcases k with k | k | k
    · exact Or.inl k
    · exact Or.inr (Or.inl k)
    · exact Or.inr (Or.inr ⟨k.closed, k.opened⟩)
  | openT =>
    simp only [Spec.exec, Except.ok.injEq, Prod.mk.injEq] at he
    rw [← he.1]
    have hf : (openTransaction s).docChanged = s.docChanged := by unfold openTransaction; split <;> rfl
    rcases k with k | k | k
    · exact Or.inl (by rw [hf]; exact k)
    · refine Or.inr (Or.inl ?_)
      simp only [Hist.step]
      split <;> exact k
    · refine Or.inr (Or.inr ?_)
      simp only [Hist.step]
      split
      · rename_i ht
        refine ⟨(fun h => by cases h), ?_⟩
        intro t' ht'
        simp only [Option.some.injEq] at ht'
        subst ht'
        exact ⟨k.closed ht, fun _ => k.closed ht⟩
      · rename_i t ht
        refine ⟨(fun h => by cases h), ?_⟩
        intro t' ht'
        simp only [Option.some.injEq] at ht'
        subst ht'
        exact k.opened t ht
  | closeT =>
    simp only [Spec.exec, bind, Except.bind] at he
    split at he
    · cases he
    · rename_i x e1
      cases he
      simp only [closeTransaction] at e1
      simp only [Hist.step, ← i.status]
      by_cases hs : s.tstatus = eOK
      · rw [if_pos hs] at e1 ⊢
        simp only [bind, Except.bind] at e1
        split at e1
        · cases e1
        · rename_i s1 e2
          cases e1
          exact told_commit e2 k
      · rw [if_neg hs] at e1 ⊢
        simp only [bind, Except.bind] at e1
        split at e1
        · cases e1
        · rename_i s1 e2
          cases e1
          exact told_rollback e2 k
  | commit =>
    simp only [Spec.exec, bind, Except.bind] at he
    split at he
    · cases he
    · rename_i s1 e1
      cases he
      exact told_commit e1 k
  | rollback =>
    simp only [Spec.exec, bind, Except.bind] at he
    split at he
    · cases he
    · rename_i s1 e1
      cases he
      exact told_rollback e1 k
  | status st =>
    simp only [Spec.exec, Except.ok.injEq, Prod.mk.injEq] at he
    rw [← he.1]
    have hf : (registerTransactionStatus s st).docChanged = s.docChanged := by unfold registerTransactionStatus; split <;> rfl
    simp only [Hist.step]
    rcases k with k | k | k
    · exact Or.inl (by rw [hf]; exact k)
    · exact Or.inr (Or.inl (by split <;> exact k))
    · exact Or.inr (Or.inr (by split <;> exact ⟨k.closed, k.opened⟩))
where
  undo_flag {s : State V} (h : (undo s).1 = true) : (undo s).2.docChanged = true := by
    unfold undo at h ⊢
    split
    · rename_i ho; rw [if_pos ho] at h; cases h
    · rename_i ho
      rw [if_neg ho] at h
      split
      · rename_i hx; rw [hx] at h; cases h
      · rfl
  redo_flag {s : State V} (h : (redo s).1 = true) : (redo s).2.docChanged = true := by
    unfold redo at h ⊢
    split
    · rename_i ho; rw [if_pos ho] at h; cases h
    · rename_i ho
      rw [if_neg ho] at h
      split
      · rename_i hx; rw [hx] at h; cases h
      · rfl

theorem run_told (cs : List (Call V)) {s : State V} {h : Hist V} {m : Mem V} (i : Inv s h) (k : Told s h m) (hl : Legal cs h) :
    ∃ s', execAll cs s = .ok s' ∧ Inv s' (histAll cs h) ∧ Told s' (histAll cs h) (savedMem cs h m) := by
  induction cs generalizing s h m with
  | nil => exact ⟨s, rfl, i, k⟩
  | cons c cs ih =>
    obtain ⟨hl1, hl2⟩ := hl
    cases c with
    | act a =>
      have hl1' : AllowedAct h a := hl1
      obtain ⟨s1, e1, i1⟩ := Undo.step_ok i a hl1'
      have k1 := act_told i k a hl1' s1 _ e1
      obtain ⟨s', e2, i2, k2⟩ := ih i1 k1 hl2
      refine ⟨s', ?_, i2, k2⟩
      simp only [execAll, exec, e1, bind, Except.bind, pure, Except.pure]
      exact e2
    | saved =>
      have i1 : Inv { s with docChanged := false } h :=
        ⟨i.active, i.mem, i.isOpen, i.currentNil, i.current, i.past, i.future, i.openNoFuture, i.undoCount, i.redoCount, i.tr, i.status⟩
      have k1 : Told { s with docChanged := false } h h.cur :=
        Or.inr (Or.inr ⟨fun _ => rfl, fun t ht => by rw [show h.tr = none from hl1] at ht; cases ht⟩)
      obtain ⟨s', e2, i2, k2⟩ := ih i1 k1 hl2
      exact ⟨s', e2, i2, k2⟩

/-- Whatever edits, steps, undos, redos, transactions and savings a program performs on a new document: if
`isDocumentChanged` is false, no step is open and no transaction is open, then all members have the values of the last
saving (the initial values if there was none). -/
theorem unchanged_means_saved (m : Mem V) (r : Nat → Bool) (cs : List (Call V)) (hl : Legal cs (Hist.new m)) :
    ∃ s, execAll cs (State.new m r false) = .ok s ∧
      (s.docChanged = false → s.isOpen = false → s.level = 0 → s.mem = savedMem cs (Hist.new m) m) := by
  have k0 : Told (State.new m r false) (Hist.new m) m := Or.inr (Or.inr ⟨fun _ => rfl, fun t ht => by cases ht⟩)
  obtain ⟨s, e, i, k⟩ := run_told cs (inv_new m r false) k0 hl
  refine ⟨s, e, ?_⟩
  intro h1 h2 h3
  rcases k with k | k | k
  · rw [h1] at k; cases k
  · rw [← i.isOpen, h2] at k; cases k
  · rw [i.mem]
    apply k.closed
    have ht := i.tr
    unfold TrOk at ht
    cases hx : (histAll cs (Hist.new m)).tr with
    | none => rfl
    | some t => rw [hx] at ht; simp only at ht; omega

/-- edit, close, save, edit in a failed transaction -/
def sample : List (Call Nat) :=
  [.act (.edit ⟨[(1, 0, 1)], [(0, [5])]⟩), .act .close, .saved, .act .openT, .act (.edit ⟨[(1, 0, 1)], [(0, [9])]⟩),
   .act (.status 15), .act .closeT]

theorem sample_legal : Legal sample (Hist.new (fun _ => 0)) := by
  refine ⟨Props.edit_disciplined_of 1 0 1 [5] (by simp), trivial, rfl, trivial, Props.edit_disciplined_of 1 0 1 [9] (by simp), trivial,
    trivial, trivial⟩

example : ∃ s, execAll sample (State.new (fun _ => 0) noFlags false) = .ok s ∧ s.docChanged = false ∧ s.isOpen = false ∧
    s.level = 0 ∧ s.mem 0 = 5 ∧ savedMem sample (Hist.new (fun _ => 0)) (fun _ => 0) 0 = 5 := by
  refine ⟨_, rfl, rfl, rfl, rfl, rfl, rfl⟩

/-- Saving inside a transaction that is rolled back: the document counts as unchanged although it differs from what
was saved. -/
theorem saved_in_transaction :
    ∃ s, execAll [.act .openT, .act (.edit ⟨[(1, 0, 1)], [(0, [9])]⟩), .saved, .act .rollback] (State.new (fun _ => (0 : Nat)) noFlags false)
        = .ok s ∧ s.docChanged = false ∧ s.isOpen = false ∧ s.level = 0 ∧ s.mem 0 = 0 ∧
      savedMem [.act .openT, .act (.edit ⟨[(1, 0, 1)], [(0, [9])]⟩), .saved, .act .rollback] (Hist.new (fun _ => (0 : Nat))) (fun _ => 0) 0 = 9 := by
  refine ⟨_, rfl, rfl, rfl, rfl, rfl, rfl⟩

/-- While the undo manager is inactive edits are not seen at all. -/
theorem inactive_unseen : ∃ s, Spec.exec (setActive (State.new (fun _ => (0 : Nat)) noFlags false) false)
      (.edit ⟨[(1, 0, 1)], [(0, [9])]⟩) = .ok (s, .none) ∧ (close s).docChanged = false ∧ (close s).isOpen = false ∧ s.mem 0 = 9 := by
  refine ⟨_, rfl, rfl, rfl, rfl⟩

end Verif.Doc.Changed
