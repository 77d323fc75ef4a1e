import Verif.UndoMem.Run
import Verif.Undo.Props
/-
C119: the undo manager with its steps and changes in memory.
-/
namespace Verif.UndoMem.Props
open Verif Verif.Undo Verif.Undo.Spec Verif.UndoMem

variable {V : Type}

/-- the addresses of the objects that have not been deleted -/
def alive {α : Type} (h : Heap α) : List Nat := (List.range h.length).filter fun a => (h[a]?.bind id).isSome

/-- what the queries of the manager and the program's memory show -/
def SameView (m : M V) (s : State V) : Prop :=
  m.mem = s.mem ∧ m.regen = s.regen ∧ m.docChanged = s.docChanged ∧ m.active = s.active ∧ m.isOpen = s.isOpen ∧ m.undoCount = s.undoCount ∧
    m.redoCount = s.redoCount ∧ m.level = s.level ∧ m.tstatus = s.tstatus

theorem alive_eq {α : Type} {h : Heap α} {l : List Nat} (hn : l.Nodup) (h1 : ∀ a ∈ l, ∃ x, h[a]? = some (some x)) (h2 : ∀ a x, h[a]? = some (some x) → a ∈ l) :
    (alive h).Perm l := by
  refine (List.perm_ext_iff_of_nodup ?_ hn).2 ?_
  · exact List.Nodup.sublist List.filter_sublist List.nodup_range
  · intro a
    simp only [alive, List.mem_filter, List.mem_range]
    constructor
    · rintro ⟨hl, hs⟩
      cases e : h[a]? with
      | none => rw [e] at hs; simp at hs
      | some o => cases o with
        | none => rw [e] at hs; simp at hs
        | some x => exact h2 a x e
    · intro ha
      obtain ⟨x, e⟩ := h1 a ha
      exact ⟨Heap.lt_of_live e, by rw [e]; rfl⟩

theorem DL_alive {ch : Heap (CNode V)} : ∀ {l : Chain V} {p n : Option Nat}, DL ch p l n → ∀ a ∈ l.map Prod.fst, ∃ x, ch[a]? = some (some x) := by
  intro l
  induction l with
  | nil => intro p n _ a ha; simp at ha
  | cons y l ih =>
    intro p n hd a ha
    obtain ⟨h1, h2⟩ := hd
    simp only [List.map_cons, List.mem_cons] at ha
    rcases ha with rfl | ha
    · exact ⟨_, h1⟩
    · exact ih h2 a ha

theorem alive_of_ok {ch : Heap (CNode V)} {sh : Heap SNode} {W : List (Own V)} (h : Ok ch sh W [] []) :
    (alive sh).Perm (W.map Prod.fst) ∧ (alive ch).Perm (addrs W) := by
  constructor
  · refine alive_eq (by simpa using h.nodupS) ?_ (fun a n e => by simpa using h.liveS a n e)
    intro a ha
    obtain ⟨o, ho, rfl⟩ := List.mem_map.1 ha
    obtain ⟨pv, e⟩ := h.step o ho
    exact ⟨_, e⟩
  · refine alive_eq (by simpa using h.nodupC) ?_ (fun a n e => by simpa using h.liveC a n e)
    intro a ha
    simp only [addrs, List.mem_flatMap] at ha
    obtain ⟨o, ho, ha⟩ := ha
    exact DL_alive (h.chain o ho) a ha

theorem addrs_length (W : List (Own V)) : (addrs W).length = ((W.map vals).map List.length).sum := by
  induction W with
  | nil => rfl
  | cons o W ih => simp [addrs, vals] at ih ⊢; omega

/-- **C119** Any sequence of calls, legal or not, with fewer than 2^32 registrations: the steps and changes in memory never cause undefined
behaviour, and every call returns, and the program's memory and all queries are, what they are for the manager that works on lists of changes.
Exactly the steps and changes of these lists are allocated: nothing is lost, nothing is shared. -/
theorem memory_refines (mem : Mem V) (r : Nat → Bool) (d : Bool) (es : List (Ev V)) (hb : regs es < 2 ^ 32) :
    ∃ (m : M V) (s : State V) (os : List Out), UndoMem.execAll es (M.new mem r d) = .ok (m, os) ∧ execAllL es (State.new mem r d) = .ok (s, os) ∧ SameView m s ∧
      (alive m.sh).length = 1 + s.undoStack.length + s.redoStack.length + s.trans.toList.length ∧
      (alive m.ch).length = ((s.current :: s.undoStack ++ s.redoStack ++ s.trans.toList).map List.length).sum := by
  obtain ⟨m, L, os, e1, e2, e3, e4⟩ := execAll_spec es (new_rel mem r d) (by simpa [M.new] using hb)
  obtain ⟨a1, a2⟩ := alive_of_ok e2.r0.ok
  refine ⟨m, L.state m, os, e1, e3, ⟨rfl, rfl, rfl, rfl, rfl, rfl, rfl, rfl, rfl⟩, ?_, ?_⟩
  · rw [a1.length_eq]
    cases h : L.tr <;> simp [Lay.all, Lay.state, abs, h] <;> omega
  · rw [a2.length_eq, addrs_length]
    cases h : L.tr <;> simp [Lay.all, Lay.state, abs, h, Function.comp_def] <;> omega

theorem regs_act (as : List (Act V)) : execAllL (as.map Ev.act) = Spec.execAll as := by
  funext s
  induction as generalizing s with
  | nil => rfl
  | cons a as ih =>
    simp only [List.map_cons, execAllL, Spec.execAll, execL]
    simp only [ih]

/-- **C119** With the history of snapshots of C22: any legal sequence of edits, closes, undos, redos, clears and transactions with fewer than
2^32 registrations runs in memory without undefined behaviour, every call returns what the history returns, and the memory is its present
snapshot. -/
theorem memory_history (mem : Mem V) (r : Nat → Bool) (d : Bool) (as : List (Act V)) (hl : Legal as (Hist.new mem)) (hb : regs (as.map Ev.act) < 2 ^ 32) :
    ∃ m : M V, UndoMem.execAll (as.map Ev.act) (M.new mem r d) = .ok (m, (Hist.run as (Hist.new mem)).2) ∧
      let h := (Hist.run as (Hist.new mem)).1
      m.mem = h.cur ∧ m.isOpen = h.start.isSome ∧ (decide (m.level > 0)) = h.tr.isSome ∧
      m.undoCount = BitVec.ofNat 32 h.past.length ∧ m.redoCount = BitVec.ofNat 32 h.future.length ∧ m.tstatus = h.status := by
  obtain ⟨m, s, os, e1, e2, e3, -, -⟩ := memory_refines mem r d (as.map Ev.act) hb
  obtain ⟨s', f1, f2⟩ := Undo.Props.history mem r d as hl
  rw [regs_act] at e2
  rw [e2] at f1
  cases f1
  obtain ⟨v1, -, -, -, v5, v6, v7, v8, v9⟩ := e3
  refine ⟨m, e1, ?_⟩
  rw [v1, v5, v6, v7, v8, v9]
  exact f2

/-- **C119** The destructor after any such sequence: no undefined behaviour, the program's memory is left alone, and without an open transaction
every step and every change is deleted. -/
theorem destroyed_partial (mem : Mem V) (r : Nat → Bool) (d : Bool) (es : List (Ev V)) (hb : regs es < 2 ^ 32) :
    ∃ (m m' : M V) (os : List Out), UndoMem.execAll es (M.new mem r d) = .ok (m, os) ∧ destroy m = .ok m' ∧ m'.mem = m.mem ∧
      (m.level = 0 → m'.sh.AllFreed ∧ m'.ch.AllFreed) := by
  obtain ⟨m, L, os, e1, e2, e3, e4⟩ := execAll_spec es (new_rel mem r d) (by simpa [M.new] using hb)
  have hlt : m.ch.length < 2 ^ 32 := by have : (M.new mem r d).ch.length = 0 := rfl; omega
  obtain ⟨m', g1, g2, g3⟩ := destroy_spec e2 hlt
  refine ⟨m, m', os, e1, g1, g3, ?_⟩
  intro h0
  rw [e2.lev.1 h0] at g2
  constructor
  · intro c hc
    obtain ⟨a, ha⟩ := List.mem_iff_getElem?.1 hc
    cases c with
    | none => rfl
    | some n => have := g2.liveS a n ha; simp at this
  · intro c hc
    obtain ⟨a, ha⟩ := List.mem_iff_getElem?.1 hc
    cases c with
    | none => rfl
    | some n => have := g2.liveC a n ha; simp [addrs] at this

/-- **C119** (violation) The destructor forgets an open transaction: after any sequence of calls that leaves one open, its step and all the
changes registered in it, and nothing else, stay allocated. -/
theorem destroy_leaks_transaction (mem : Mem V) (r : Nat → Bool) (d : Bool) (es : List (Ev V)) (hb : regs es < 2 ^ 32) (s : State V) (os : List Out)
    (t : List (Change V)) (he : execAllL es (State.new mem r d) = .ok (s, os)) (ht : s.trans = some t) :
    ∃ m m' : M V, UndoMem.execAll es (M.new mem r d) = .ok (m, os) ∧ destroy m = .ok m' ∧ (alive m'.sh).length = 1 ∧ (alive m'.ch).length = t.length := by
  obtain ⟨m, L, os', e1, e2, e3, e4⟩ := execAll_spec es (new_rel mem r d) (by simpa [M.new] using hb)
  rw [new_state, he] at e3
  cases e3
  have hlt : m.ch.length < 2 ^ 32 := by have : (M.new mem r d).ch.length = 0 := rfl; omega
  obtain ⟨m', g1, g2, g3⟩ := destroy_spec e2 hlt
  obtain ⟨a1, a2⟩ := alive_of_ok g2
  refine ⟨m, m', e1, g1, ?_, ?_⟩
  · rw [a1.length_eq]
    cases h : L.tr with
    | none => simp [Lay.state, abs, h] at ht
    | some o => simp
  · rw [a2.length_eq, addrs_length]
    cases h : L.tr with
    | none => simp [Lay.state, abs, h] at ht
    | some o =>
      simp [Lay.state, abs, h] at ht
      simp [ht]

theorem registerAll_current : ∀ (k : Nat) (s : State V) (o p n : Nat), s.active = true → s.level = 0 →
    ∃ s', Spec.registerAll (List.replicate k (o, p, n)) s = .ok s' ∧ s'.current.length = s.current.length + k ∧ (0 < k → s'.isOpen = true) ∧ s'.mem = s.mem := by
  intro k
  induction k with
  | zero => intro s o p n _ _; exact ⟨s, rfl, rfl, by simp, rfl⟩
  | succ k ih =>
    intro s o p n ha hl
    let s1 : State V := { s with current := s.current ++ [⟨o, p, readMem s.mem p n⟩], redoStack := [], redoCount := 0, isOpen := true }
    have e : Undo.register s o p n = .ok s1 := by
      unfold Undo.register addChange
      rw [if_neg (by simp [ha]), if_neg (by omega)]
      rfl
    obtain ⟨s', g1, g2, g3, g4⟩ := ih s1 o p n ha hl
    refine ⟨s', ?_, ?_, ?_, g4⟩
    · rw [List.replicate_succ]; simp only [Spec.registerAll]; rw [e]; exact g1
    · rw [g2]; simp [s1]; omega
    · intro _
      cases k with
      | zero => simp only [List.replicate_zero, Spec.registerAll] at g1; cases g1; rfl
      | succ k => exact g3 (by omega)

theorem registerAll_undoCount : ∀ (l : List (Nat × Nat × Nat)) (s s' : State V), Spec.registerAll l s = .ok s' → s'.undoCount = s.undoCount := by
  intro l
  induction l with
  | nil => intro s s' h; cases h; rfl
  | cons x l ih =>
    obtain ⟨o, p, n⟩ := x
    intro s s' h
    simp only [Spec.registerAll, bind, Except.bind] at h
    split at h
    · cases h
    · rename_i s1 e
      rw [ih _ _ h]
      unfold Undo.register addChange at e
      split at e
      · cases e; rfl
      · split at e
        · split at e
          · cases e
          · cases e; rfl
        · cases e; rfl

/-- **C119** (violation) The number of changes of a step is kept in 32 bits: after 2^32 registrations `close` takes the step for an empty one.
Nothing is put on the undo stack, the step stays open, and therefore `undo` refuses. -/
theorem close_wraps (mem : Mem V) (r : Nat → Bool) (d : Bool) (o p n : Nat) (v : List V) :
    ∃ m : M V, UndoMem.execAll [.act (.edit ⟨List.replicate (2 ^ 32) (o, p, n), [(p, v)]⟩), .act .close, .act .undo] (M.new mem r d) =
        .ok (m, [.none, .none, .bool false]) ∧
      m.mem = writeMem mem p v ∧ m.undoCount = 0 ∧ m.isOpen = true ∧ (alive m.ch).length = 2 ^ 32 := by
  obtain ⟨m, L, e1, e2, e3, e4⟩ := registerAll_spec (List.replicate (2 ^ 32) (o, p, n)) (new_rel mem r d)
  obtain ⟨s', g1, g2, g3, g4⟩ := registerAll_current (2 ^ 32) (State.new mem r d) o p n rfl rfl
  rw [new_state, g1] at e3
  cases e3
  have hst : Rel (store m p v) L := ⟨⟨e2.r0.ok, e2.r0.cur, e2.r0.und, e2.r0.red⟩, e2.tr, e2.lev⟩
  rcases hcur : L.cur with ⟨s, l⟩
  have hlen : l.length = 2 ^ 32 := by
    have : (vals L.cur).length = 0 + 2 ^ 32 := g2
    rw [hcur] at this
    simpa [vals] using this
  obtain ⟨pv, hs⟩ := e2.r0.ok.step (s, l) (by rw [← hcur]; simp [Lay.all])
  have hsc : m.current = s := by rw [e2.r0.cur, hcur]
  have hclose : UndoMem.close (store m p v) = .ok (store m p v) := by
    unfold UndoMem.close
    rw [show (store m p v).current = s from hsc, show (store m p v).sh = m.sh from rfl, Heap.load_ok hs]
    simp only [bind, Except.bind]
    rw [if_pos (by rw [hlen]; rfl)]
    rfl
  have hop : m.isOpen = true := g3 (by decide)
  have hcnt : m.undoCount = 0 := by
    have := registerAll_undoCount (List.replicate (2 ^ 32) (o, p, n)) (State.new mem r d) _ g1
    exact this
  have hundo : UndoMem.undo (store m p v) = .ok (false, store m p v) := by
    unfold UndoMem.undo
    rw [if_pos (show (store m p v).isOpen = true from hop)]
  refine ⟨store m p v, ?_, ?_, hcnt, hop, ?_⟩
  · simp only [UndoMem.execAll, UndoMem.exec]
    rw [e1]
    simp only [bind, Except.bind, pure, Except.pure, UndoMem.storeAll]
    rw [hclose]
    simp only
    rw [hundo]
  · show writeMem m.mem p v = _
    rw [show m.mem = mem from g4]
  · show (alive m.ch).length = _
    refine Nat.le_antisymm ?_ ?_
    · refine Nat.le_trans (List.length_filter_le _ _) ?_
      rw [List.length_range, e4, List.length_replicate]
      exact Nat.le_of_eq (Nat.zero_add _)
    · rw [(alive_of_ok e2.r0.ok).2.length_eq, addrs_length]
      simp only [Lay.all, List.map_cons, List.sum_cons]
      rw [hcur]
      simp only [vals, List.length_map, hlen]
      exact Nat.le_add_right _ _

/-! ### concrete cases -/

/-- two members registered, one of them twice, assigned, closed, undone, redone; a second step in a transaction; the redo stack cut off by a new edit -/
def demo : List (Ev Nat) :=
  [.act (.edit ⟨[(1, 10, 2), (1, 20, 1), (1, 10, 2)], [(10, [7, 8]), (20, [9])]⟩), .act .close, .act .undo, .act .redo,
   .act .openT, .act (.edit ⟨[(1, 30, 1)], [(30, [5])]⟩), .act .undo, .act .commit, .act .close, .act .undo, .setActive false,
   .act (.edit ⟨[(2, 40, 1)], [(40, [6])]⟩), .setActive true, .act (.edit ⟨[(1, 30, 1)], [(30, [4])]⟩), .act .openT, .act (.edit ⟨[(3, 50, 1), (3, 50, 1)], []⟩)]

def demoState : M Nat := M.new (fun a => a) (fun _ => false) false

def okOr {α : Type} (d : α) : Res α → α
  | .ok a => a
  | .error _ => d

def demoRun : M Nat × List Out := okOr (demoState, []) (UndoMem.execAll demo demoState)

example : regs demo = 8 := by decide
example := memory_refines (fun a => a) (fun _ => false) false demo (by decide)
example : demoRun.2 = [.none, .none, .bool true, .bool true, .none, .none, .bool true, .none, .none, .bool true, .none, .none, .none, .none, .none, .none] := by decide +kernel
example : alive demoRun.1.sh = [3, 4] ∧ alive demoRun.1.ch = [5, 6, 7] ∧ [10, 11, 20, 30, 40].map demoRun.1.mem = [10, 11, 20, 4, 6] := by decide +kernel

/-- the destructor leaks the transaction with its two changes -/
example : alive (okOr demoState (destroy demoRun.1)).sh = [4] ∧ alive (okOr demoState (destroy demoRun.1)).ch = [6, 7] := by decide +kernel

/-- a legal history with a transaction that is rolled back -/
example := memory_history (fun _ => 0) (fun _ => false) false Undo.Props.sample Undo.Props.sample_legal (by decide)

/-- the hypotheses of `destroy_leaks_transaction` -/
example : ∃ (s : State Nat) (t : List (Change Nat)), execAllL demo (State.new (fun a => a) (fun _ => false) false) = .ok (s, demoRun.2) ∧ s.trans = some t ∧ t.length = 2 := by
  obtain ⟨m, s, os, e1, e2, -⟩ := memory_refines (fun a => a) (fun _ => false) false demo (by decide)
  refine ⟨_, _, rfl, rfl, rfl⟩

example := close_wraps (V := Nat) (fun a => a) (fun _ => false) false 1 10 1 [3]

end Verif.UndoMem.Props
