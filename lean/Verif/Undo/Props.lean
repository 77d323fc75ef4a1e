import Verif.Undo.Refine
/-
C21 (undo restores a step), C22 (history is a cursor), C23 (rollback is all-or-nothing), C24 (a failing status forces
rollback), C48 (setMember), C60 (notification of touched objects).
-/
namespace Verif.Undo.Props
open Verif Verif.Undo Verif.Undo.Spec

variable {V : Type}

/-! ### C21 -/

/-- What a program does inside a step: register a member (owner, address, cells) or assign to memory, in any order. -/
inductive Raw (V : Type) where
  | reg (owner ptr n : Nat)
  | put (ptr : Nat) (v : List V)

def runRaw : List (Raw V) → State V → Res (State V)
  | [], s => .ok s
  | .reg o p n :: rest, s => do
    let s ← register s o p n
    runRaw rest s
  | .put p v :: rest, s => runRaw rest (store s p v)

/-- an assignment to memory -/
def put (m : Mem V) (p : Nat) (v : List V) : Mem V := fun a =>
  if p ≤ a ∧ a < p + v.length then (v[a - p]?).getD (m a) else m a

/-- the value cell `a` had when it was first registered, if it was -/
def firstValue : List (Raw V) → Mem V → Nat → Option V
  | [], _, _ => none
  | .reg _ p n :: rest, m, a => if p ≤ a ∧ a < p + n then some (m a) else firstValue rest m a
  | .put p v :: rest, m, a => firstValue rest (put m p v) a

/-- memory after the assignments -/
def finalMem : List (Raw V) → Mem V → Mem V
  | [], m => m
  | .reg _ _ _ :: rest, m => finalMem rest m
  | .put p v :: rest, m => finalMem rest (put m p v)

/-- every assigned cell was registered before (in `seen` or earlier in the list) -/
def Guarded : List (Raw V) → List (Nat × Nat) → Prop
  | [], _ => True
  | .reg _ p n :: rest, seen => Guarded rest ((p, n) :: seen)
  | .put p v :: rest, seen => (∀ i, i < v.length → ∃ r ∈ seen, r.1 ≤ p + i ∧ p + i < r.1 + r.2) ∧ Guarded rest seen

/-- a state in which a step can begin: recording, no open step, no transaction -/
structure Idle (s : State V) : Prop where
  active : s.active = true
  closed : s.isOpen = false
  empty : s.current = []
  level : s.level = 0

theorem writeMem_eq_put (m : Mem V) (p : Nat) (v : List V) : writeMem m p v = put m p v := by
  funext a
  unfold put
  by_cases h : p ≤ a ∧ a < p + v.length
  · simp only [writeMem, h.1, if_true, h.2, and_self]
  · rw [if_neg h, writeMem_out _ _ _ _ h]

theorem saved_append (cs : List (Change V)) (c : Change V) (a : Nat) :
    saved (cs ++ [c]) a = match saved cs a with
      | some v => some v
      | none => if c.covers a then c.val[a - c.ptr]? else none := by
  induction cs with
  | nil =>
    simp only [List.nil_append, saved, List.find?_cons, List.find?_nil]
    by_cases h : c.covers a <;> simp [h]
  | cons d cs ih =>
    by_cases h : d.covers a
    · have h2 : a - d.ptr < d.val.length := by have := h.1; have := h.2; omega
      simp [saved, h, h2]
    · have e1 : saved (d :: cs ++ [c]) a = saved (cs ++ [c]) a := by
        simp only [saved, List.cons_append, List.find?_cons, h, decide_false]
      have e2 : saved (d :: cs) a = saved cs a := by
        simp only [saved, List.find?_cons, h, decide_false]
      rw [e1, e2, ih]

theorem runRaw_ok (acts : List (Raw V)) (s : State V) (ha : s.active = true) (hl : s.level = 0) :
    ∃ s', runRaw acts s = .ok s' ∧ s'.mem = finalMem acts s.mem ∧ s'.active = true ∧ s'.level = 0 ∧
      s'.undoStack = s.undoStack ∧ s'.regen = s.regen ∧
      (∀ a, saved s'.current a = match saved s.current a with
        | some v => some v
        | none => firstValue acts s.mem a) ∧
      (s'.current.length = s.current.length + (acts.filter (fun x => match x with | .reg .. => true | .put .. => false)).length) ∧
      (s'.current.map Change.owner = s.current.map Change.owner ++ acts.filterMap (fun x => match x with | .reg o _ _ => some o | .put .. => none)) ∧
      (s'.current ≠ s.current → s'.isOpen = true ∧ s'.redoStack = []) ∧ (s'.current = s.current → s'.isOpen = s.isOpen) := by
  induction acts generalizing s with
  | nil =>
    refine ⟨s, rfl, rfl, ha, hl, rfl, rfl, ?_, by simp, by simp, by simp, fun _ => rfl⟩
    intro a; cases saved s.current a <;> rfl
  | cons x rest ih =>
    cases x with
    | reg o p n =>
      have e : register s o p n = .ok { s with current := s.current ++ [⟨o, p, readMem s.mem p n⟩], redoStack := [], redoCount := 0, isOpen := true } := by
        unfold register addChange
        simp only [ha, Bool.not_true, Bool.false_eq_true, if_false, hl, Nat.lt_irrefl, gt_iff_lt, clearRedoStack]
      obtain ⟨s', h1, h2, h3, h4, h5, h6, h7, h8, h9, h10, h11⟩ := ih { s with current := s.current ++ [⟨o, p, readMem s.mem p n⟩], redoStack := [], redoCount := 0, isOpen := true } ha hl
      refine ⟨s', ?_, h2, h3, h4, h5, h6, ?_, ?_, ?_, ?_, ?_⟩
      · simp only [runRaw, e, bind, Except.bind]; exact h1
      · intro a
        rw [h7 a]
        simp only [saved_append, firstValue]
        cases saved s.current a with
        | some v => rfl
        | none =>
          simp only [Change.covers, readMem_length]
          by_cases hc : p ≤ a ∧ a < p + n
          · rw [if_pos hc, readMem_get _ _ _ _ (by omega), if_pos hc, show p + (a - p) = a by omega]
          · rw [if_neg hc, if_neg hc]
      · simp only [h8, List.length_append, List.length_cons, List.length_nil, List.filter_cons, if_true]; omega
      · simp [h9]
      · intro _
        by_cases hc : s'.current = s.current ++ [⟨o, p, readMem s.mem p n⟩]
        · have hh := h11 hc
          have : rest.filter (fun x => match x with | .reg .. => true | .put .. => false) = [] := by
            rw [hc] at h8
            simp only [Nat.left_eq_add] at h8
            exact List.length_eq_zero_iff.1 h8
          refine ⟨hh, ?_⟩
          -- no further registration: the redo stack stays empty
          clear ih h2 h3 h4 h5 h6 h7 h9 h10 h11 hh hc
          exact redo_stays rest _ s' h1 rfl
        · exact h10 hc
      · intro hc
        rw [hc] at h8
        simp only [List.length_append, List.length_cons, List.length_nil] at h8
        omega
    | put p v =>
      obtain ⟨s', h1, h2, h3, h4, h5, h6, h7, h8, h9, h10, h11⟩ := ih (store s p v) ha hl
      refine ⟨s', h1, ?_, h3, h4, h5, h6, ?_, h8, h9, h10, h11⟩
      · rw [h2]; simp only [store, finalMem, writeMem_eq_put]
      · intro a
        rw [h7 a]
        simp only [store, firstValue, writeMem_eq_put]
where
  redo_stays (acts : List (Raw V)) (s s' : State V) (h : runRaw acts s = .ok s') (hr : s.redoStack = []) : s'.redoStack = [] := by
    induction acts generalizing s with
    | nil => simp only [runRaw, Except.ok.injEq] at h; rw [← h]; exact hr
    | cons x rest ih =>
      cases x with
      | reg o p n =>
        simp only [runRaw, bind, Except.bind] at h
        split at h
        · cases h
        · rename_i s1 e
          refine ih s1 h ?_
          unfold register addChange at e
          split at e
          · cases e; exact hr
          · split at e
            · split at e
              · cases e
              · cases e; exact hr
            · cases e; rfl
      | put p v => exact ih (store s p v) h hr

/-- Whatever members are registered and whatever memory is assigned in a step, in any order: after closing it,
undo succeeds and gives every registered cell the value it had when it was first registered in the step, changes no
other cell; redo then succeeds and brings back the memory before the undo. -/
theorem undo_restores (s : State V) (hs : Idle s) (acts : List (Raw V)) (hreg : ∃ o p n, Raw.reg o p n ∈ acts) :
    ∃ s1 s2 s3, runRaw acts s = .ok s1 ∧ s1.mem = finalMem acts s.mem ∧ undo (close s1) = (true, s2) ∧
      (∀ a, s2.mem a = (firstValue acts s.mem a).getD (s1.mem a)) ∧ redo s2 = (true, s3) ∧ s3.mem = s1.mem := by
  obtain ⟨s1, h1, h2, h3, h4, h5, h6, h7, h8, h9, h10, h11⟩ := runRaw_ok acts s hs.active hs.level
  have hne : s1.current ≠ [] := by
    obtain ⟨o, p, n, hm⟩ := hreg
    intro e
    rw [e] at h9
    have : o ∈ acts.filterMap (fun x => match x with | .reg o _ _ => some o | .put .. => none) :=
      List.mem_filterMap.2 ⟨_, hm, rfl⟩
    rw [hs.empty] at h9
    simp only [List.map_nil, List.nil_append] at h9
    rw [← h9] at this; cases this
  have hc : close s1 = { s1 with undoStack := s1.current :: s1.undoStack, current := [], isOpen := false, undoCount := s1.undoCount + 1, docChanged := true } := by
    unfold close
    rw [if_neg (by intro e; exact hne (List.length_eq_zero_iff.1 e))]
  have hu : undo (close s1) = (true, (undo (close s1)).2) := by rw [hc]; rfl
  have hmem : (undo (close s1)).2.mem = (swapBack s1.current s1.mem s1.regen).2.1 := by rw [hc]; rfl
  have hr : redo (undo (close s1)).2 = (true, (redo (undo (close s1)).2).2) := by rw [hc]; rfl
  have hm2 : (redo (undo (close s1)).2).2.mem = s1.mem := by
    rw [hc]
    exact (swapBack_inv s1.current s1.mem s1.regen _).2
  refine ⟨s1, (undo (close s1)).2, (redo (undo (close s1)).2).2, h1, h2, hu, ?_, hr, hm2⟩
  intro a
  rw [hmem, swapBack_mem, h7, hs.empty]
  rfl

/-- If, in addition, every assigned cell was registered before it was assigned, undo restores the whole memory. -/
theorem undo_restores_all (s : State V) (hs : Idle s) (acts : List (Raw V)) (hreg : ∃ o p n, Raw.reg o p n ∈ acts)
    (hg : Guarded acts []) :
    ∃ s1 s2, runRaw acts s = .ok s1 ∧ undo (close s1) = (true, s2) ∧ s2.mem = s.mem := by
  obtain ⟨s1, s2, s3, h1, h2, h3, h4, h5, h6⟩ := undo_restores s hs acts hreg
  refine ⟨s1, s2, h1, h3, ?_⟩
  funext a
  rw [h4, h2]
  have key : ∀ (acts : List (Raw V)) (seen : List (Nat × Nat)) (m : Mem V), Guarded acts seen →
      (∀ r ∈ seen, ¬ (r.1 ≤ a ∧ a < r.1 + r.2)) → (firstValue acts m a).getD (finalMem acts m a) = m a := by
    intro acts
    induction acts with
    | nil => intros; rfl
    | cons x rest ih =>
      intro seen m g hn
      cases x with
      | reg o p n =>
        simp only [firstValue, finalMem]
        by_cases hc : p ≤ a ∧ a < p + n
        · rw [if_pos hc]; rfl
        · rw [if_neg hc]
          refine ih ((p, n) :: seen) m g ?_
          intro r hr
          rcases List.mem_cons.1 hr with rfl | hr
          · exact hc
          · exact hn r hr
      | put p v =>
        simp only [firstValue, finalMem]
        rw [ih seen (put m p v) g.2 hn]
        unfold put
        rw [if_neg]
        intro hc
        obtain ⟨r, hr, h1, h2⟩ := g.1 (a - p) (by omega)
        exact hn r hr (by omega)
  exact key acts [] s.mem hg (by simp)

example : Idle (State.new (fun a => a) (fun _ => false) false : State Nat) ∧
    Guarded [Raw.reg 1 10 4, Raw.put 11 [7, 8], Raw.reg 1 12 3, Raw.put 14 [9], Raw.put 11 [5]] [] := by
  refine ⟨⟨rfl, rfl, rfl, rfl⟩, ?_, ?_, ?_, trivial⟩
  · intro i hi; exact ⟨(10, 4), by simp, by simp at hi ⊢; omega, by simp at hi ⊢; omega⟩
  · intro i hi; exact ⟨(12, 3), by simp, by simp at hi ⊢; omega, by simp at hi ⊢; omega⟩
  · intro i hi; exact ⟨(10, 4), by simp, by simp at hi ⊢; omega, by simp at hi ⊢; omega⟩

/-! ### C22 -/

/-- Any legal sequence of edits, closes, undos, redos, clears and transactions: no undefined behaviour, every call
returns what the history of snapshots returns, the memory is its present snapshot, and the queries agree with it. -/
theorem history (m : Mem V) (r : Nat → Bool) (d : Bool) (as : List (Act V)) (hl : Legal as (Hist.new m)) :
    ∃ s, execAll as (State.new m r d) = .ok (s, (Hist.run as (Hist.new m)).2) ∧
      let h := (Hist.run as (Hist.new m)).1
      s.mem = h.cur ∧ s.isOpen = h.start.isSome ∧ (decide (s.level > 0)) = h.tr.isSome ∧
      s.undoCount = BitVec.ofNat 32 h.past.length ∧ s.redoCount = BitVec.ofNat 32 h.future.length ∧ s.tstatus = h.status := by
  obtain ⟨s, e, i⟩ := run_ok as _ _ (inv_new m r d) hl
  refine ⟨s, e, i.mem, i.isOpen, ?_, ?_, ?_, i.status⟩
  · have := i.tr
    unfold TrOk at this
    cases ht : (Hist.run as (Hist.new m)).1.tr with
    | none => rw [ht] at this; simp [this.1]
    | some t => rw [ht] at this; simp only at this; simp; omega
  · rw [i.undoCount, i.past.len]
  · rw [i.redoCount, i.future.len]

/-- `k` times a call -/
def times (f : State V → Bool × State V) : Nat → State V → Bool × State V
  | 0, s => (true, s)
  | k + 1, s =>
    let x := f s
    let y := times f k x.2
    (x.1 && y.1, y.2)

/-- everything but the notification flags -/
def core (s : State V) : State V := { s with regen := noFlags, docChanged := false }

theorem core_ext {s t : State V} (h : core s = core t) : ∃ r d, t = { s with regen := r, docChanged := d } := by
  refine ⟨t.regen, t.docChanged, ?_⟩
  cases s; cases t
  simp only [core, State.mk.injEq, true_and] at h ⊢
  simp [h]

theorem redo_undo (s : State V) (h : (undo s).1 = true) :
    (redo (undo s).2).1 = true ∧ core (redo (undo s).2).2 = core s := by
  cases ho : s.isOpen with
  | true => simp [undo, ho] at h
  | false =>
    cases hu : s.undoStack with
    | nil => simp [undo, ho, hu] at h
    | cons c cs =>
      obtain ⟨h1, h2⟩ := swapBack_inv c s.mem s.regen (swapBack c s.mem s.regen).2.2
      simp only [undo, redo, ho, hu, Bool.false_eq_true, if_false]
      refine ⟨trivial, ?_⟩
      simp only [core, h1, h2, State.mk.injEq, hu, ho, true_and, and_true]
      exact ⟨BitVec.sub_add_cancel _ _, BitVec.add_sub_cancel _ _⟩

theorem redo_core {s t : State V} (h : core s = core t) : (redo s).1 = (redo t).1 ∧ core (redo s).2 = core (redo t).2 := by
  obtain ⟨r, d, rfl⟩ := core_ext h
  unfold redo
  simp only
  split
  · exact ⟨rfl, h⟩
  · cases hr : s.redoStack with
    | nil => simp only [hr]; exact ⟨trivial, by simp only [core, hr]⟩
    | cons c cs =>
      simp only [hr]
      refine ⟨trivial, ?_⟩
      obtain ⟨h1, h2⟩ := swapAll_regen c s.mem s.regen r
      simp only [core, h1, h2]

theorem undo_core {s t : State V} (h : core s = core t) : (undo s).1 = (undo t).1 ∧ core (undo s).2 = core (undo t).2 := by
  obtain ⟨r, d, rfl⟩ := core_ext h
  unfold undo
  simp only
  split
  · exact ⟨rfl, h⟩
  · cases hr : s.undoStack with
    | nil => simp only [hr]; exact ⟨trivial, by simp only [core, hr]⟩
    | cons c cs =>
      simp only [hr]
      refine ⟨trivial, ?_⟩
      obtain ⟨h1, h2⟩ := swapBack_regen c s.mem s.regen r
      simp only [core, h1, h2]

theorem times_succ (f : State V → Bool × State V) (k : Nat) (s : State V) :
    times f (k + 1) s = ((times f k s).1 && (f (times f k s).2).1, (f (times f k s).2).2) := by
  induction k generalizing s with
  | zero => simp [times]
  | succ k ih =>
    have e : times f (k + 1 + 1) s = ((f s).1 && (times f (k + 1) (f s).2).1, (times f (k + 1) (f s).2).2) := rfl
    have e2 : times f (k + 1) s = ((f s).1 && (times f k (f s).2).1, (times f k (f s).2).2) := rfl
    rw [e, e2, ih]
    simp only [Bool.and_assoc]

/-- Undo `k` times, if that succeeds, then redo `k` times: all redos succeed and memory, stacks and counts are as
before (in every state whatsoever). -/
theorem undo_redo_inverse (k : Nat) (s : State V) (h : (times undo k s).1 = true) :
    (times redo k (times undo k s).2).1 = true ∧ core (times redo k (times undo k s).2).2 = core s := by
  have tr_core : ∀ (k : Nat) (s t : State V), core s = core t →
      (times redo k s).1 = (times redo k t).1 ∧ core (times redo k s).2 = core (times redo k t).2 := by
    intro k
    induction k with
    | zero => intro s t h; exact ⟨rfl, h⟩
    | succ k ih =>
      intro s t h
      obtain ⟨h1, h2⟩ := redo_core h
      obtain ⟨h3, h4⟩ := ih _ _ h2
      simp only [times, h1, h3, h4, and_self]
  induction k generalizing s with
  | zero => exact ⟨rfl, rfl⟩
  | succ k ih =>
    have e : times undo (k + 1) s = ((undo s).1 && (times undo k (undo s).2).1, (times undo k (undo s).2).2) := rfl
    rw [e] at h ⊢
    simp only [Bool.and_eq_true] at h
    obtain ⟨i1, i2⟩ := ih (undo s).2 h.2
    obtain ⟨j1, j2⟩ := redo_undo s h.1
    rw [times_succ]
    obtain ⟨k1, k2⟩ := redo_core i2
    simp only [i1, k1, j1, Bool.and_self, true_and]
    rw [k2, j2]

/-- Undo succeeds exactly when no step is open and a closed step is left, redo exactly when no step is open and an
undone step is left. -/
theorem undo_redo_available (s : State V) :
    ((undo s).1 = true ↔ s.isOpen = false ∧ s.undoStack ≠ []) ∧ ((redo s).1 = true ↔ s.isOpen = false ∧ s.redoStack ≠ []) := by
  constructor
  · unfold undo
    cases s.isOpen <;> cases s.undoStack <;> simp
  · unfold redo
    cases s.isOpen <;> cases s.redoStack <;> simp

/-- A change registered outside a transaction discards the steps that could be redone. -/
theorem change_discards_redo (s : State V) (hs : s.active = true) (hl : s.level = 0) (o p n : Nat) :
    ∃ s', register s o p n = .ok s' ∧ s'.redoStack = [] ∧ s'.redoCount = 0 ∧ s'.isOpen = true ∧ s'.mem = s.mem := by
  refine ⟨{ s with current := s.current ++ [⟨o, p, readMem s.mem p n⟩], redoStack := [], redoCount := 0, isOpen := true }, ?_, rfl, rfl, rfl, rfl⟩
  unfold register addChange
  simp only [hs, Bool.not_true, Bool.false_eq_true, if_false, hl, Nat.lt_irrefl, gt_iff_lt, clearRedoStack]

/-- a legal history with two steps, an undo and a transaction that is rolled back -/
def sample : List (Act Nat) :=
  [.edit ⟨[(1, 0, 2)], [(0, [5, 6])]⟩, .close, .edit ⟨[(1, 1, 1)], [(1, [7])]⟩, .close, .undo, .openT,
   .edit ⟨[(1, 0, 1)], [(0, [9])]⟩, .status 15, .closeT, .redo]

theorem edit_disciplined_of (o p n : Nat) (v : List V) (h : v.length ≤ n) : (Edit.mk [(o, p, n)] [(p, v)]).Disciplined := by
  intro s hs i hi
  simp only [List.mem_singleton] at hs
  subst hs
  exact ⟨(o, p, n), by simp, by simp, by simp at hi ⊢; omega⟩

theorem sample_legal : Legal sample (Hist.new (fun _ => 0)) := by
  refine ⟨edit_disciplined_of 1 0 2 [5, 6] (by simp), trivial, edit_disciplined_of 1 1 1 [7] (by simp), trivial, rfl, trivial,
    edit_disciplined_of 1 0 1 [9] (by simp), trivial, trivial, rfl, trivial⟩

example : (Hist.run sample (Hist.new (fun _ => 0))).2 =
      [.none, .none, .none, .none, .bool true, .none, .none, .none, .status 15, .bool true] ∧
    (Hist.run sample (Hist.new (fun _ => 0))).1.cur 0 = 5 ∧ (Hist.run sample (Hist.new (fun _ => 0))).1.cur 1 = 7 := by
  refine ⟨by decide, by decide, by decide⟩

/-- The code does not refuse undo while a transaction is open; a rollback afterwards does not restore the memory at
the opening of the transaction. -/
theorem undo_in_transaction :
    ∃ (s s' : State Nat) (outs : List Out),
      execAll [.edit ⟨[(1, 0, 1)], [(0, [1])]⟩, .close] (State.new (fun _ => 0) noFlags false) = .ok (s, [.none, .none]) ∧
      execAll [.openT, .edit ⟨[(1, 0, 1)], [(0, [2])]⟩, .undo, .rollback] s = .ok (s', outs) ∧
      outs = [.none, .none, .bool true, .none] ∧ s.mem 0 = 1 ∧ (redo s').1 = true ∧ (redo s').2.mem 0 = 2 := by
  refine ⟨_, _, _, rfl, rfl, rfl, rfl, rfl, rfl⟩

/-! ### C23, C24 -/

/-- Calls inside a transaction that was just opened: edits that register what they assign, statuses, nested
transactions that are closed again; `n` is the present depth, `k` the depth at the end (at least one throughout). -/
inductive Body : List (Act V) → Nat → Nat → Prop
  | nil {n} : Body [] (n + 1) (n + 1)
  | edit {e as n k} : e.Disciplined → Body as n k → Body (.edit e :: as) n k
  | status {st as n k} : Body as n k → Body (.status st :: as) n k
  | openT {as n k} : Body as (n + 2) k → Body (.openT :: as) (n + 1) k
  | closeT {as n k} : Body as (n + 1) k → Body (.closeT :: as) (n + 2) k
  | commit {as n k} : Body as (n + 1) k → Body (.commit :: as) (n + 2) k
  | rollback {as n k} : Body as (n + 1) k → Body (.rollback :: as) (n + 2) k

/-- the last failing status among the calls -/
def lastFailure : List (Act V) → Status → Status
  | [], st => st
  | .status x :: as, st => lastFailure as (if failing x then x else st)
  | _ :: as, st => lastFailure as st

/-- some member is registered among the calls -/
def registers (as : List (Act V)) : Bool := as.any (fun a => match a with | .edit e => !e.regs.isEmpty | _ => false)

theorem body_spec (as : List (Act V)) (n k : Nat) (hb : Body as n k) (h : Hist V) (t : Tr V) (ht : h.tr = some t) (hn : t.level = n) :
    let h' := (Hist.run as h).1
    h'.past = h.past ∧ h'.future = h.future ∧ h'.start = h.start ∧ h'.status = lastFailure as h.status ∧
      h'.tr = some ⟨k, t.before, t.dirty || registers as⟩ ∧ Legal as h := by
  induction hb generalizing h t with
  | nil =>
    refine ⟨rfl, rfl, rfl, rfl, ?_, trivial⟩
    simp only [Hist.run, ht, registers, List.any_nil, Bool.or_false, ← hn]
  | @edit e as n k hd _ ih =>
    simp only [Hist.run, Legal, lastFailure]
    by_cases he : e.regs = []
    · have hstep : h.step (.edit e) = ({ h with cur := assign h.cur e.stores }, .none) := by
        simp only [Hist.step, he, if_true]
      obtain ⟨h1, h2, h3, h4, h5, h6⟩ := ih { h with cur := assign h.cur e.stores } t ht hn
      rw [hstep]
      refine ⟨h1, h2, h3, h4, ?_, hd, h6⟩
      rw [h5]
      simp [registers, he]
    · have hstep : h.step (.edit e) = ({ h with cur := assign h.cur e.stores, tr := some { t with dirty := true } }, .none) := by
        simp only [Hist.step, if_neg he, ht]
      obtain ⟨h1, h2, h3, h4, h5, h6⟩ := ih { h with cur := assign h.cur e.stores, tr := some { t with dirty := true } } { t with dirty := true } rfl hn
      rw [hstep]
      refine ⟨h1, h2, h3, h4, ?_, hd, h6⟩
      rw [h5]
      simp [registers, he]
  | @status st as n k _ ih =>
    simp only [Hist.run, Legal, lastFailure]
    have hstep : h.step (.status st) = ({ h with status := if failing st then st else h.status }, .none) := by
      simp only [Hist.step]; split <;> rfl
    obtain ⟨h1, h2, h3, h4, h5, h6⟩ := ih { h with status := if failing st then st else h.status } t ht hn
    rw [hstep]
    exact ⟨h1, h2, h3, h4, by rw [h5]; simp [registers], trivial, h6⟩
  | @openT as n k _ ih =>
    simp only [Hist.run, Legal, lastFailure]
    have hstep : h.step (.openT : Act V) = ({ h with tr := some { t with level := t.level + 1 } }, .none) := by
      simp only [Hist.step, ht]
    obtain ⟨h1, h2, h3, h4, h5, h6⟩ := ih { h with tr := some { t with level := t.level + 1 } } { t with level := t.level + 1 } rfl (by simp only [hn])
    rw [hstep]
    exact ⟨h1, h2, h3, h4, by rw [h5]; simp [registers], trivial, h6⟩
  | @closeT as n k _ ih =>
    simp only [Hist.run, Legal, lastFailure]
    have hstep : (h.step (.closeT : Act V)).1 = { h with tr := some { t with level := t.level - 1 } } := by
      simp only [Hist.step, Hist.commit, Hist.rollback, ht, if_neg (show ¬ t.level = 1 by omega), ite_self]
    obtain ⟨h1, h2, h3, h4, h5, h6⟩ := ih { h with tr := some { t with level := t.level - 1 } } { t with level := t.level - 1 } rfl (by simp only [hn]; omega)
    rw [hstep]
    exact ⟨h1, h2, h3, h4, by rw [h5]; simp [registers], trivial, h6⟩
  | @commit as n k _ ih =>
    simp only [Hist.run, Legal, lastFailure]
    have hstep : (h.step (.commit : Act V)).1 = { h with tr := some { t with level := t.level - 1 } } := by
      simp only [Hist.step, Hist.commit, ht, if_neg (show ¬ t.level = 1 by omega)]
    obtain ⟨h1, h2, h3, h4, h5, h6⟩ := ih { h with tr := some { t with level := t.level - 1 } } { t with level := t.level - 1 } rfl (by simp only [hn]; omega)
    rw [hstep]
    exact ⟨h1, h2, h3, h4, by rw [h5]; simp [registers], trivial, h6⟩
  | @rollback as n k _ ih =>
    simp only [Hist.run, Legal, lastFailure]
    have hstep : (h.step (.rollback : Act V)).1 = { h with tr := some { t with level := t.level - 1 } } := by
      simp only [Hist.step, Hist.rollback, ht, if_neg (show ¬ t.level = 1 by omega)]
    obtain ⟨h1, h2, h3, h4, h5, h6⟩ := ih { h with tr := some { t with level := t.level - 1 } } { t with level := t.level - 1 } rfl (by simp only [hn]; omega)
    rw [hstep]
    exact ⟨h1, h2, h3, h4, by rw [h5]; simp [registers], trivial, h6⟩

/-- A state a program can reach by legal calls, with no transaction open. -/
def Reached (s : State V) : Prop :=
  ∃ (m : Mem V) (r : Nat → Bool) (d : Bool) (as : List (Act V)) (outs : List Out),
    Legal as (Hist.new m) ∧ execAll as (State.new m r d) = .ok (s, outs) ∧ s.level = 0

theorem Reached.inv {s : State V} (hr : Reached s) : ∃ h, Inv s h ∧ h.tr = none := by
  obtain ⟨m, r, d, as, outs, hl, he, h0⟩ := hr
  obtain ⟨s', e, i⟩ := run_ok as _ _ (inv_new m r d) hl
  rw [e] at he
  simp only [Except.ok.injEq, Prod.mk.injEq] at he
  obtain ⟨rfl, _⟩ := he
  refine ⟨_, i, ?_⟩
  have := i.tr
  unfold TrOk at this
  cases ht : (Hist.run as (Hist.new m)).1.tr with
  | none => rfl
  | some t => rw [ht] at this; simp only at this; omega

theorem execAll_append (as bs : List (Act V)) (s : State V) :
    execAll (as ++ bs) s = (do
      let x ← execAll as s
      let y ← execAll bs x.1
      return (y.1, x.2 ++ y.2)) := by
  induction as generalizing s with
  | nil =>
    simp only [List.nil_append, execAll, bind, Except.bind, pure, Except.pure]
    cases execAll bs s <;> rfl
  | cons a as ih =>
    simp only [List.cons_append, execAll, bind, Except.bind, pure, Except.pure]
    cases exec s a with
    | error e => rfl
    | ok x =>
      simp only [ih, bind, Except.bind, pure, Except.pure]
      cases execAll as x.1 with
      | error e => rfl
      | ok y =>
        simp only
        cases execAll bs y.1 <;> rfl

/-- the state after the opening call and the body -/
theorem in_transaction (s : State V) (h : Hist V) (i : Inv s h) (ht : h.tr = none) (body : List (Act V)) (hb : Body body 1 1) :
    ∃ s1 outs h1, execAll (.openT :: body) s = .ok (s1, outs) ∧ Inv s1 h1 ∧ h1.past = h.past ∧ h1.future = h.future ∧
      h1.start = h.start ∧ h1.status = lastFailure body eOK ∧ h1.tr = some ⟨1, s.mem, registers body⟩ := by
  have hstep : h.step (.openT : Act V) = ({ h with tr := some ⟨1, h.cur, false⟩, status := eOK }, .none) := by
    simp only [Hist.step, ht]
  obtain ⟨b1, b2, b3, b4, b5, b6⟩ := body_spec body 1 1 hb { h with tr := some ⟨1, h.cur, false⟩, status := eOK } ⟨1, h.cur, false⟩ rfl rfl
  have hleg : Legal (.openT :: body) h := ⟨trivial, by rw [hstep]; exact b6⟩
  obtain ⟨s1, e1, i1⟩ := run_ok (.openT :: body) s h i hleg
  refine ⟨s1, _, _, e1, i1, ?_, ?_, ?_, ?_, ?_⟩
  · simp only [Hist.run, hstep]; exact b1
  · simp only [Hist.run, hstep]; exact b2
  · simp only [Hist.run, hstep]; exact b3
  · simp only [Hist.run, hstep]; exact b4
  · simp only [Hist.run, hstep, i.mem]; rw [b5]; simp

/-- what the calls inside a transaction leave alone -/
def Frame (s s' : State V) : Prop :=
  s'.undoStack = s.undoStack ∧ s'.redoStack = s.redoStack ∧ s'.current = s.current ∧ s'.isOpen = s.isOpen ∧
    s'.undoCount = s.undoCount ∧ s'.redoCount = s.redoCount

theorem Frame.trans {s t u : State V} (h : Frame s t) (k : Frame t u) : Frame s u := by
  obtain ⟨a1, a2, a3, a4, a5, a6⟩ := h
  obtain ⟨b1, b2, b3, b4, b5, b6⟩ := k
  exact ⟨b1.trans a1, b2.trans a2, b3.trans a3, b4.trans a4, b5.trans a5, b6.trans a6⟩

theorem Body.pos {as : List (Act V)} {n k : Nat} (hb : Body as n k) : 0 < n := by
  induction hb with
  | nil => omega
  | edit _ _ ih => exact ih
  | status _ ih => exact ih
  | openT _ _ => omega
  | closeT _ _ => omega
  | commit _ _ => omega
  | rollback _ _ => omega

theorem body_frame (as : List (Act V)) (n k : Nat) (hb : Body as n k) : ∀ (s s' : State V) (outs : List Out),
    s.active = true → s.level = n → s.trans.isSome = true → execAll as s = .ok (s', outs) → Frame s s' := by
  induction hb with
  | nil =>
    intro s s' outs _ _ _ he
    simp only [execAll, Except.ok.injEq, Prod.mk.injEq] at he
    obtain ⟨rfl, _⟩ := he
    exact ⟨rfl, rfl, rfl, rfl, rfl, rfl⟩
  | @edit e as n k hd hb' ih =>
    intro s s' outs ha hl htn he
    obtain ⟨cs, hcs⟩ := Option.isSome_iff_exists.1 htn
    have hpos : 0 < s.level := by rw [hl]; exact hb'.pos
    simp only [execAll, exec, registerAll_trans e.regs s cs ha hpos hcs, assign_eq, bind, Except.bind, pure, Except.pure] at he
    split at he
    · cases he
    · rename_i y hy
      simp only [Except.ok.injEq, Prod.mk.injEq] at he
      obtain ⟨rfl, _⟩ := he
      (have f := ih _ _ _ (by exact ha) (by exact hl) (by rfl) hy; exact f)
  | @status st as n k _ ih =>
    intro s s' outs ha hl htn he
    simp only [execAll, exec, bind, Except.bind, pure, Except.pure] at he
    split at he
    · cases he
    · rename_i y hy
      simp only [Except.ok.injEq, Prod.mk.injEq] at he
      obtain ⟨rfl, _⟩ := he
      unfold registerTransactionStatus at hy
      split at hy
      · (have f := ih _ _ _ (by exact ha) (by exact hl) (by exact htn) hy; exact f)
      · exact ih _ _ _ ha hl htn hy
  | @openT as n k _ ih =>
    intro s s' outs ha hl htn he
    simp only [execAll, exec, openTransaction, if_neg (show ¬ s.level = 0 by omega), bind, Except.bind, pure, Except.pure] at he
    split at he
    · cases he
    · rename_i y hy
      simp only [Except.ok.injEq, Prod.mk.injEq] at he
      obtain ⟨rfl, _⟩ := he
      (have f := ih _ _ _ (by exact ha) (by simp only [hl]) (by exact htn) hy; exact f)
  | @closeT as n k _ ih =>
    intro s s' outs ha hl htn he
    simp only [execAll, exec, closeTransaction, commit, rollback, if_neg (show ¬ s.level = 0 by omega),
      if_neg (show ¬ s.level - 1 = 0 by omega), ite_self, bind, Except.bind, pure, Except.pure] at he
    split at he
    · cases he
    · rename_i y hy
      simp only [Except.ok.injEq, Prod.mk.injEq] at he
      obtain ⟨rfl, _⟩ := he
      (have f := ih _ _ _ (by exact ha) (by simp only [hl]; omega) (by exact htn) hy; exact f)
  | @commit as n k _ ih =>
    intro s s' outs ha hl htn he
    simp only [execAll, exec, Undo.commit, if_neg (show ¬ s.level = 0 by omega),
      if_neg (show ¬ s.level - 1 = 0 by omega), bind, Except.bind, pure, Except.pure] at he
    split at he
    · cases he
    · rename_i y hy
      simp only [Except.ok.injEq, Prod.mk.injEq] at he
      obtain ⟨rfl, _⟩ := he
      (have f := ih _ _ _ (by exact ha) (by simp only [hl]; omega) (by exact htn) hy; exact f)
  | @rollback as n k _ ih =>
    intro s s' outs ha hl htn he
    simp only [execAll, exec, Undo.rollback, if_neg (show ¬ s.level = 0 by omega),
      if_neg (show ¬ s.level - 1 = 0 by omega), bind, Except.bind, pure, Except.pure] at he
    split at he
    · cases he
    · rename_i y hy
      simp only [Except.ok.injEq, Prod.mk.injEq] at he
      obtain ⟨rfl, _⟩ := he
      (have f := ih _ _ _ (by exact ha) (by simp only [hl]; omega) (by exact htn) hy; exact f)

/-- the opening call and the body leave steps alone -/
theorem frame_transaction (s s1 : State V) (outs : List Out) (h : Hist V) (i : Inv s h) (ht : h.tr = none) (body : List (Act V))
    (hb : Body body 1 1) (he : execAll (.openT :: body) s = .ok (s1, outs)) : Frame s s1 := by
  have h0 : s.level = 0 := by have := i.tr; simp only [TrOk, ht] at this; exact this.1
  simp only [execAll, exec, openTransaction, h0, if_true, bind, Except.bind, pure, Except.pure] at he
  split at he
  · cases he
  · rename_i y hy
    simp only [Except.ok.injEq, Prod.mk.injEq] at he
    obtain ⟨rfl, _⟩ := he
    have f := body_frame body 1 1 hb _ _ _ (by exact i.active) (by rfl) (by rfl) hy
    exact f

/-- Rolling back a transaction restores the memory at its opening; the open step and the steps that can be undone
and redone are exactly those from before. -/
theorem rollback_restores (s : State V) (hr : Reached s) (body : List (Act V)) (hb : Body body 1 1) :
    ∃ s1 s2 outs, execAll (.openT :: body) s = .ok (s1, outs) ∧ rollback s1 = .ok s2 ∧ s2.mem = s.mem ∧
      s2.undoStack = s.undoStack ∧ s2.redoStack = s.redoStack ∧ s2.current = s.current ∧ s2.isOpen = s.isOpen ∧
      s2.undoCount = s.undoCount ∧ s2.redoCount = s.redoCount ∧ s2.level = 0 := by
  obtain ⟨h, i, ht⟩ := hr.inv
  obtain ⟨s1, outs, h1, e1, i1, p1, p2, p3, p4, p5⟩ := in_transaction s h i ht body hb
  obtain ⟨f1, f2, f3, f4, f5, f6⟩ := frame_transaction s s1 outs h i ht body hb e1
  have htr := i1.tr
  simp only [TrOk, p5] at htr
  obtain ⟨t1, _, cs, t3, t4, _⟩ := htr
  obtain ⟨s2, r1, r2⟩ := rollback_ok i1
  have hm : s2.mem = s.mem := by
    rw [r2.mem]; simp only [Hist.rollback, p5, if_true]
  refine ⟨s1, s2, outs, e1, r1, hm, ?_⟩
  simp only [rollback, t1, t3, if_neg (show ¬ (1 : Nat) = 0 by decide), Nat.sub_self, if_true, Except.ok.injEq] at r1
  rw [← r1]
  exact ⟨f1, f2, f3, f4, f5, f6, rfl⟩

/-- Committing a transaction keeps the memory; what it registered belongs to the open undo step: after closing it,
one undo brings back the memory at the opening of the transaction or, if a step was open then, at its opening. -/
theorem commit_keeps (s : State V) (hr : Reached s) (body : List (Act V)) (hb : Body body 1 1) :
    ∃ s1 s2 outs, execAll (.openT :: body) s = .ok (s1, outs) ∧ commit s1 = .ok s2 ∧ s2.mem = s1.mem ∧ s2.level = 0 ∧
      s2.undoStack = s.undoStack ∧ s2.undoCount = s.undoCount ∧
      (registers body = false → s2.isOpen = s.isOpen ∧ s2.redoStack = s.redoStack) ∧
      (registers body = true → s2.isOpen = true ∧ s2.redoStack = [] ∧
        ∃ s3, undo (close s2) = (true, s3) ∧ s3.undoStack = s.undoStack ∧
          (s.isOpen = false → s3.mem = s.mem) ∧
          (s.isOpen = true → s3.mem = (undo (close s)).2.mem)) := by
  obtain ⟨h, i, ht⟩ := hr.inv
  obtain ⟨s1, outs, h1, e1, i1, p1, p2, p3, p4, p5⟩ := in_transaction s h i ht body hb
  obtain ⟨f1, f2, f3, f4, f5, f6⟩ := frame_transaction s s1 outs h i ht body hb e1
  have htr := i1.tr
  simp only [TrOk, p5] at htr
  obtain ⟨t1, _, cs, t3, t4, t5⟩ := htr
  obtain ⟨s2, r1, r2⟩ := commit_ok i1
  refine ⟨s1, s2, outs, e1, r1, ?_, ?_⟩
  · rw [r2.mem, i1.mem]
    simp only [Hist.commit, p5, if_true]
    split <;> rfl
  simp only [commit, t1, t3, if_neg (show ¬ (1 : Nat) = 0 by decide), Nat.sub_self, if_true] at r1
  have hm1 := i1.mem
  cases hreg : registers body with
  | false =>
    have hcs : cs = [] := by
      apply Classical.byContradiction
      intro e
      have := t5.2 e
      rw [hreg] at this; cases this
    subst hcs
    simp only [addAll, bind, Except.bind, pure, Except.pure, Except.ok.injEq] at r1
    rw [← r1]
    refine ⟨rfl, f1, f5, fun _ => ⟨f4, f2⟩, by simp⟩
  | true =>
    rw [addAll_ok cs _ (by exact i1.active) (by rfl) (t5.1 hreg)] at r1
    simp only [bind, Except.bind, pure, Except.pure, Except.ok.injEq] at r1
    rw [← r1]
    refine ⟨rfl, f1, f5, by simp, fun _ => ⟨rfl, rfl, ?_⟩⟩
    have hne : ¬ (s1.current ++ cs).length = 0 := by
      intro e
      exact t5.1 hreg (List.append_eq_nil_iff.1 (List.length_eq_zero_iff.1 e)).2
    simp only [close, if_neg hne, undo, Bool.false_eq_true, if_false]
    have key : (swapBack (s1.current ++ cs) s1.mem s1.regen).2.1 = unMem s.current s.mem := by
      rw [swapBack_append, (swapBack_regen s1.current _ _ noFlags).2, (swapBack_regen cs _ _ noFlags).2, f3, hm1]
      have : unMem cs h1.cur = s.mem := t4
      unfold unMem at this ⊢
      rw [this]
    refine ⟨_, rfl, f1, ?_, ?_⟩
    · intro ho
      simp only [key]
      have : s.current = [] := i.currentNil.2 (by
        have := i.isOpen
        rw [ho] at this
        cases hst : h.start with
        | none => rfl
        | some m => rw [hst] at this; cases this)
      rw [this]; rfl
    · intro ho
      simp only [key]
      have hne2 : ¬ s.current.length = 0 := by
        intro e
        have := i.currentNil.1 (List.length_eq_zero_iff.1 e)
        have h2 := i.isOpen
        rw [this, ho] at h2; cases h2
      simp only [undo, close, if_neg hne2, Bool.false_eq_true, if_false]
      rw [(swapBack_regen s.current _ _ noFlags).2]
      rfl

/-- Closing the outermost transaction: if a failing status was registered anywhere inside, at any depth, it reports
the last such status and everything is rolled back; otherwise it reports eOK and the changes are kept. -/
theorem close_transaction (s : State V) (hr : Reached s) (body : List (Act V)) (hb : Body body 1 1) :
    ∃ s1 s2 outs, execAll (.openT :: body) s = .ok (s1, outs) ∧ closeTransaction s1 = .ok (lastFailure body eOK, s2) ∧
      s2.level = 0 ∧
      (lastFailure body eOK = eOK → s2.mem = s1.mem ∧ commit s1 = .ok s2) ∧
      (lastFailure body eOK ≠ eOK → s2.mem = s.mem ∧ s2.undoStack = s.undoStack ∧ s2.redoStack = s.redoStack ∧ s2.isOpen = s.isOpen) := by
  obtain ⟨h, i, ht⟩ := hr.inv
  obtain ⟨s1, outs, h1, e1, i1, p1, p2, p3, p4, p5⟩ := in_transaction s h i ht body hb
  have hst : s1.tstatus = lastFailure body eOK := by rw [i1.status, p4]
  by_cases he : lastFailure body eOK = eOK
  · obtain ⟨s1', s2, outs', g1, g2, g3, g4, _⟩ := commit_keeps s hr body hb
    rw [e1] at g1
    simp only [Except.ok.injEq, Prod.mk.injEq] at g1
    obtain ⟨rfl, rfl⟩ := g1
    refine ⟨s1, s2, outs, e1, ?_, g4, fun _ => ⟨g3, g2⟩, fun h => absurd he h⟩
    simp only [closeTransaction, hst, he, if_true, g2, bind, Except.bind, pure, Except.pure]
  · obtain ⟨s1', s2, outs', g1, g2, g3, g4, g5, g6, g7, g8, g9, g10⟩ := rollback_restores s hr body hb
    rw [e1] at g1
    simp only [Except.ok.injEq, Prod.mk.injEq] at g1
    obtain ⟨rfl, rfl⟩ := g1
    refine ⟨s1, s2, outs, e1, ?_, g10, fun h => absurd h he, fun _ => ⟨g3, g4, g5, g7⟩⟩
    simp only [closeTransaction, hst, he, if_false, g2, bind, Except.bind, pure, Except.pure]

/-- `lastFailure` is eOK exactly when no failing status was registered. -/
theorem lastFailure_ok (body : List (Act V)) :
    lastFailure body eOK = eOK ↔ ∀ st, .status st ∈ body → st = eOK ∨ st = eNotChanged := by
  have key : ∀ (body : List (Act V)) (x : Status), (x = eOK ∨ failing x = true) →
      (lastFailure body x = eOK ↔ x = eOK ∧ ∀ st, .status st ∈ body → st = eOK ∨ st = eNotChanged) := by
    intro body
    induction body with
    | nil => intro x _; simp [lastFailure]
    | cons a as ih =>
      intro x hx
      cases a with
      | status st =>
        simp only [lastFailure, List.mem_cons, Act.status.injEq]
        by_cases hf : failing st = true
        · rw [if_pos hf, ih st (Or.inr hf)]
          constructor
          · rintro ⟨rfl, _⟩; exact absurd hf (by decide)
          · rintro ⟨_, h2⟩
            rcases h2 st (Or.inl rfl) with rfl | rfl <;> exact absurd hf (by decide)
        · rw [if_neg hf, ih x hx]
          have hst : st = eOK ∨ st = eNotChanged := by
            simp only [failing, Bool.and_eq_true, bne_iff_ne, ne_eq, not_and, Classical.not_not] at hf
            by_cases h : st = eOK
            · exact Or.inl h
            · exact Or.inr (hf h)
          constructor
          · rintro ⟨h1, h2⟩
            refine ⟨h1, ?_⟩
            intro s hs
            rcases hs with rfl | hs
            · exact hst
            · exact h2 s hs
          · rintro ⟨h1, h2⟩
            exact ⟨h1, fun s hs => h2 s (Or.inr hs)⟩
      | _ =>
        simp only [lastFailure, List.mem_cons, reduceCtorEq, false_or]
        exact ih x hx
  rw [key body eOK (Or.inl rfl)]
  simp

/-- Calling rollback on an inner level does not roll anything back: the outer level commits the changes. -/
theorem inner_rollback_ignored :
    ∃ (s' : State Nat) (outs : List Out),
      execAll [.openT, .openT, .edit ⟨[(1, 0, 1)], [(0, [2])]⟩, .rollback, .closeT] (State.new (fun _ => 0) noFlags false) = .ok (s', outs) ∧
      outs = [.none, .none, .none, .none, .status eOK] ∧ s'.mem 0 = 2 := by
  refine ⟨_, _, rfl, rfl, rfl⟩

/-- If recording is switched off inside a transaction, committing drops the changes made before: they stay in memory
and can never be undone. -/
theorem commit_inactive_loses :
    ∃ (s1 s2 : State Nat) (outs : List Out),
      execAll [.openT, .edit ⟨[(1, 0, 1)], [(0, [2])]⟩] (State.new (fun _ => 0) noFlags false) = .ok (s1, outs) ∧
      commit (setActive s1 false) = .ok s2 ∧ s2.mem 0 = 2 ∧ (undo (close s2)).1 = false := by
  refine ⟨_, _, _, rfl, rfl, rfl, rfl⟩

/-- a body with nesting, failing inside, and a reached state with an open step -/
example : Body ([.edit ⟨[(1, 0, 1)], [(0, [2])]⟩, .openT, .status 7, .edit ⟨[(1, 5, 1)], [(5, [3])]⟩, .closeT] : List (Act Nat)) 1 1 ∧
    lastFailure ([.edit ⟨[(1, 0, 1)], [(0, [2])]⟩, .openT, .status 7, .edit ⟨[(1, 5, 1)], [(5, [3])]⟩, .closeT] : List (Act Nat)) eOK = 7 :=
  ⟨.edit (edit_disciplined_of 1 0 1 [2] (by simp)) (.openT (.status (.edit (edit_disciplined_of 1 5 1 [3] (by simp)) (.closeT .nil)))), rfl⟩

example : ∃ s : State Nat, Reached s ∧ s.isOpen = true ∧ s.undoStack ≠ [] := by
  refine ⟨_, ⟨fun _ => 0, noFlags, false, [.edit ⟨[(1, 0, 1)], [(0, [2])]⟩, .close, .edit ⟨[(1, 0, 1)], [(0, [3])]⟩], _,
    ⟨edit_disciplined_of 1 0 1 [2] (by simp), trivial, edit_disciplined_of 1 0 1 [3] (by simp), trivial⟩, rfl, rfl⟩, rfl, List.cons_ne_nil _ _⟩

/-! ### C48 -/

/-- setMember: equal value – nothing changes and eNotChanged is reported; otherwise the member gets the value, all
other memory stays, and closing and undoing restores the memory. -/
theorem setMember_spec (same : List V → List V → Bool) (s : State V) (hs : Idle s) (this ptr : Nat) (value : List V) :
    (same value (readMem s.mem ptr value.length) = true → setMember same s this ptr value = .ok (eNotChanged, s)) ∧
    (same value (readMem s.mem ptr value.length) = false →
      ∃ s1 s2, setMember same s this ptr value = .ok (eOK, s1) ∧ readMem s1.mem ptr value.length = value ∧
        (∀ a, ¬ (ptr ≤ a ∧ a < ptr + value.length) → s1.mem a = s.mem a) ∧ s1.current.length = 1 ∧
        undo (close s1) = (true, s2) ∧ s2.mem = s.mem) := by
  constructor
  · intro h; simp only [setMember, h, if_true]
  · intro h
    have hrun : runRaw [.reg this ptr value.length, .put ptr value] s = (do
        let s ← register s this ptr value.length
        return store s ptr value) := by
      simp only [runRaw, bind, Except.bind, pure, Except.pure]
    obtain ⟨s1, s2, h1, h2, h3⟩ := undo_restores_all s hs [.reg this ptr value.length, .put ptr value] ⟨_, _, _, List.mem_cons_self ..⟩
      ⟨fun i hi => ⟨(ptr, value.length), by simp, by simp, by simp; exact hi⟩, trivial⟩
    obtain ⟨s1', g1, g2, _, _, _, _, _, g8, _⟩ := runRaw_ok [.reg this ptr value.length, .put ptr value] s hs.active hs.level
    rw [h1] at g1
    simp only [Except.ok.injEq] at g1
    subst g1
    have hm : s1.mem = writeMem s.mem ptr value := by rw [g2, writeMem_eq_put]; rfl
    refine ⟨s1, s2, ?_, ?_, ?_, ?_, h2, h3⟩
    · rw [hrun] at h1
      simp only [setMember, h, Bool.false_eq_true, if_false, bind, Except.bind, pure, Except.pure] at h1 ⊢
      cases hrg : register s this ptr value.length with
      | error e => rw [hrg] at h1; cases h1
      | ok s' => rw [hrg] at h1; simp only [Except.ok.injEq] at h1 ⊢; rw [h1]
    · rw [hm, read_write]
    · intro a ha; rw [hm, writeMem_out _ _ _ _ ha]
    · rw [g8, hs.empty]; rfl

/-- setMember with a range: an equal value reports eNotChanged, a value outside the range reports eInvalidInput; both
leave memory and history alone, but the second makes an enclosing transaction fail.  A value inside is set as above. -/
theorem setMemberRange_spec (same : List V → List V → Bool) (inRange : List V → Bool) (s : State V) (this ptr : Nat) (value : List V) :
    (same value (readMem s.mem ptr value.length) = true → setMemberRange same inRange s this ptr value = .ok (eNotChanged, s)) ∧
    (same value (readMem s.mem ptr value.length) = false → inRange value = false →
      setMemberRange same inRange s this ptr value = .ok (eInvalidInput, { s with tstatus := eInvalidInput })) ∧
    (inRange value = true → setMemberRange same inRange s this ptr value = setMember same s this ptr value) := by
  refine ⟨?_, ?_, ?_⟩
  · intro h; simp only [setMemberRange, h, if_true]
  · intro h1 h2
    simp only [setMemberRange, h1, h2, Bool.false_eq_true, if_false, Bool.not_false, if_true]
    rfl
  · intro h; simp only [setMemberRange, setMember, h, Bool.not_true, Bool.false_eq_true, if_false]

/-- A rejected NaN leaves everything alone, but – unlike a value outside its range – it is not reported to the
transaction, which still commits. -/
theorem setMemberDouble_spec (same : List V → List V → Bool) (isNaN : List V → Bool) (s : State V) (this ptr : Nat) (value : List V) :
    (isNaN value = true → setMemberDouble same isNaN s this ptr value = .ok (eInvalidInput, s)) ∧
    (isNaN value = false → setMemberDouble same isNaN s this ptr value = setMember same s this ptr value) := by
  constructor
  · intro h; simp only [setMemberDouble, h, if_true]
  · intro h; simp only [setMemberDouble, setMember, h, Bool.false_eq_true, if_false]

theorem nan_does_not_fail :
    ∃ (s1 s2 : State Nat), setMemberDouble (· == ·) (· == [99]) (openTransaction (State.new (fun _ => 0) noFlags false)) 1 0 [99] = .ok (eInvalidInput, s1) ∧
      closeTransaction s1 = .ok (eOK, s2) := by
  refine ⟨_, _, rfl, rfl⟩

example : ([5] == readMem (fun _ => 0) 3 1) = false ∧ Idle (State.new (fun _ => 0) noFlags false : State Nat) := ⟨by decide, rfl, rfl, rfl, rfl⟩

/-! ### C60: notification -/

/-- Undo and redo mark exactly the owners of the changes of the step for regeneration, in addition to those marked
already, and mark the document as changed. -/
theorem undo_notifies (s : State V) (step : List (Change V)) (rest : List (List (Change V))) (hu : s.undoStack = step :: rest)
    (ho : s.isOpen = false) (o : Nat) :
    ((undo s).2.regen o = true ↔ s.regen o = true ∨ ∃ c ∈ step, c.owner = o) ∧ (undo s).2.docChanged = true := by
  simp only [undo, ho, hu, Bool.false_eq_true, if_false, swapBack_flags, Bool.or_eq_true, List.any_eq_true, beq_iff_eq, and_true]
  constructor
  · rintro (h | ⟨c, h1, h2⟩)
    · exact Or.inl h
    · exact Or.inr ⟨c, h1, h2.symm⟩
  · rintro (h | ⟨c, h1, h2⟩)
    · exact Or.inl h
    · exact Or.inr ⟨c, h1, h2.symm⟩

theorem redo_notifies (s : State V) (step : List (Change V)) (rest : List (List (Change V))) (hu : s.redoStack = step :: rest)
    (ho : s.isOpen = false) (o : Nat) :
    ((redo s).2.regen o = true ↔ s.regen o = true ∨ ∃ c ∈ step, c.owner = o) ∧ (redo s).2.docChanged = true := by
  simp only [redo, ho, hu, Bool.false_eq_true, if_false, swapAll_flags, Bool.or_eq_true, List.any_eq_true, beq_iff_eq, and_true]
  constructor
  · rintro (h | ⟨c, h1, h2⟩)
    · exact Or.inl h
    · exact Or.inr ⟨c, h1, h2.symm⟩
  · rintro (h | ⟨c, h1, h2⟩)
    · exact Or.inl h
    · exact Or.inr ⟨c, h1, h2.symm⟩

/-- The owners of the changes of a step are the owners passed at registration, in order. -/
theorem step_owners (s : State V) (hs : Idle s) (acts : List (Raw V)) :
    ∃ s1, runRaw acts s = .ok s1 ∧
      s1.current.map Change.owner = acts.filterMap (fun x => match x with | .reg o _ _ => some o | .put .. => none) := by
  obtain ⟨s1, h1, _, _, _, _, _, _, _, h9, _⟩ := runRaw_ok acts s hs.active hs.level
  exact ⟨s1, h1, by rw [h9, hs.empty]; rfl⟩

/-- Closing a step with changes marks the document as changed; closing without changes has no effect at all. -/
theorem close_notifies (s : State V) : (s.current = [] → close s = s) ∧ (s.current ≠ [] → (close s).docChanged = true) := by
  constructor
  · intro h; simp [close, h]
  · intro h
    unfold close
    rw [if_neg (by intro e; exact h (List.length_eq_zero_iff.1 e))]

end Verif.Undo.Props
