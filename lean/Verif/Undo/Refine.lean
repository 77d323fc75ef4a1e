import Verif.Undo.Lemmas
import Verif.Undo.Spec
/-
The undo manager refines the history of snapshots.
-/
namespace Verif.Undo
open Verif Verif.Undo.Spec

variable {V : Type}

def noFlags : Nat → Bool := fun _ => false

/-- memory after undoing / redoing the changes -/
def unMem (cs : List (Change V)) (m : Mem V) : Mem V := (swapBack cs m noFlags).2.1
def reMem (cs : List (Change V)) (m : Mem V) : Mem V := (swapAll cs m noFlags).2.1

def Link (cs : List (Change V)) (m0 m1 : Mem V) : Prop := unMem cs m1 = m0
def LinkR (cs : List (Change V)) (m0 m1 : Mem V) : Prop := reMem cs m0 = m1

inductive ChainU : List (List (Change V)) → List (Mem V) → Mem V → Prop
  | nil {m} : ChainU [] [] m
  | cons {c cs m ms cur} : Link c m cur → ChainU cs ms m → ChainU (c :: cs) (m :: ms) cur

inductive ChainR : List (List (Change V)) → List (Mem V) → Mem V → Prop
  | nil {m} : ChainR [] [] m
  | cons {c cs m ms cur} : LinkR c cur m → ChainR cs ms m → ChainR (c :: cs) (m :: ms) cur

theorem ChainU.len {cs : List (List (Change V))} {ms : List (Mem V)} {m : Mem V} (h : ChainU cs ms m) : cs.length = ms.length := by
  induction h with
  | nil => rfl
  | cons _ _ ih => simp [ih]

theorem ChainR.len {cs : List (List (Change V))} {ms : List (Mem V)} {m : Mem V} (h : ChainR cs ms m) : cs.length = ms.length := by
  induction h with
  | nil => rfl
  | cons _ _ ih => simp [ih]

/-- the memory at the end of the open step -/
def stepEnd (h : Hist V) : Mem V :=
  match h.tr with
  | some t => t.before
  | none => h.cur

/-- the memory at the end of the last closed step -/
def anchor (h : Hist V) : Mem V := h.start.getD (stepEnd h)

/-- the transaction -/
def TrOk (s : State V) (h : Hist V) : Prop :=
  match h.tr with
  | none => s.level = 0 ∧ s.trans = none
  | some t => s.level = t.level ∧ 0 < t.level ∧ ∃ cs, s.trans = some cs ∧ Link cs t.before h.cur ∧ (t.dirty = true ↔ cs ≠ [])

structure Inv (s : State V) (h : Hist V) : Prop where
  active : s.active = true
  mem : s.mem = h.cur
  isOpen : s.isOpen = h.start.isSome
  currentNil : s.current = [] ↔ h.start = none
  current : Link s.current (anchor h) (stepEnd h)
  past : ChainU s.undoStack h.past (anchor h)
  future : ChainR s.redoStack h.future (stepEnd h)
  openNoFuture : h.start.isSome = true → h.future = []
  undoCount : s.undoCount = BitVec.ofNat 32 s.undoStack.length
  redoCount : s.redoCount = BitVec.ofNat 32 s.redoStack.length
  tr : TrOk s h
  status : s.tstatus = h.status

theorem unMem_nil (m : Mem V) : unMem [] m = m := rfl

theorem unMem_append (cs ds : List (Change V)) (m : Mem V) : unMem (cs ++ ds) m = unMem cs (unMem ds m) := by
  unfold unMem
  rw [swapBack_append, (swapBack_regen cs _ _ noFlags).2]

theorem link_append {cs ds : List (Change V)} {m0 m1 m2 : Mem V} (h1 : Link cs m0 m1) (h2 : Link ds m1 m2) : Link (cs ++ ds) m0 m2 := by
  unfold Link at *
  rw [unMem_append, h2, h1]

theorem inv_new (m : Mem V) (r : Nat → Bool) (d : Bool) : Inv (State.new m r d) (Hist.new m) := by
  constructor <;> first | rfl | exact .nil | simp [State.new, Hist.new] | skip
  exact ⟨rfl, rfl⟩

theorem assign_eq (stores : List (Nat × List V)) (s : State V) :
    storeAll stores s = { s with mem := assign s.mem stores } := by
  induction stores generalizing s with
  | nil => rfl
  | cons x rest ih =>
    obtain ⟨p, v⟩ := x
    simp only [storeAll, ih, store, assign]
    congr 2
    funext a
    by_cases h : p ≤ a ∧ a < p + v.length
    · simp only [writeMem, h.1, if_true, h.2, and_self]
    · rw [if_neg h, writeMem_out _ _ _ _ h]

theorem assign_out (stores : List (Nat × List V)) (m : Mem V) (a : Nat)
    (h : ∀ s ∈ stores, ¬ (s.1 ≤ a ∧ a < s.1 + s.2.length)) : assign m stores a = m a := by
  induction stores generalizing m with
  | nil => rfl
  | cons x rest ih =>
    obtain ⟨p, v⟩ := x
    rw [assign, ih _ (fun s hs => h s (List.mem_cons_of_mem _ hs))]
    rw [if_neg (h (p, v) (List.mem_cons_self ..))]

/-- the changes an edit registers -/
def changesOf (m : Mem V) (regs : List (Nat × Nat × Nat)) : List (Change V) :=
  regs.map (fun r => ⟨r.1, r.2.1, readMem m r.2.1 r.2.2⟩)

theorem registerAll_trans (regs : List (Nat × Nat × Nat)) (s : State V) (cs : List (Change V)) (ha : s.active = true)
    (hl : 0 < s.level) (ht : s.trans = some cs) :
    registerAll regs s = .ok { s with trans := some (cs ++ changesOf s.mem regs) } := by
  induction regs generalizing s cs with
  | nil =>
    simp only [registerAll, changesOf, List.map_nil, List.append_nil]
    rw [← ht]
  | cons x rest ih =>
    obtain ⟨o, p, n⟩ := x
    have e : register s o p n = .ok { s with trans := some (cs ++ [⟨o, p, readMem s.mem p n⟩]) } := by
      unfold register addChange
      simp only [ha, Bool.not_true, Bool.false_eq_true, if_false, if_pos hl, ht]
    simp only [registerAll, e, bind, Except.bind]
    rw [ih _ (cs ++ [⟨o, p, readMem s.mem p n⟩]) (by exact ha) (by exact hl) (by rfl)]
    simp [changesOf]

theorem registerAll_open (regs : List (Nat × Nat × Nat)) (s : State V) (ha : s.active = true)
    (hl : s.level = 0) (hn : regs ≠ []) :
    registerAll regs s = .ok { s with current := s.current ++ changesOf s.mem regs, redoStack := [], redoCount := 0, isOpen := true } := by
  induction regs generalizing s with
  | nil => exact absurd rfl hn
  | cons x rest ih =>
    obtain ⟨o, p, n⟩ := x
    have e : register s o p n = .ok { s with current := s.current ++ [⟨o, p, readMem s.mem p n⟩], redoStack := [], redoCount := 0, isOpen := true } := by
      unfold register addChange
      simp only [ha, Bool.not_true, Bool.false_eq_true, if_false, hl, Nat.lt_irrefl, gt_iff_lt, clearRedoStack]
    simp only [registerAll, e, bind, Except.bind]
    cases rest with
    | nil => simp [registerAll, changesOf]
    | cons y rest =>
      rw [ih]
      · simp [changesOf]
      · exact ha
      · exact hl
      · simp

theorem link_edit (m : Mem V) (e : Edit V) (hd : e.Disciplined) : Link (changesOf m e.regs) m (assign m e.stores) := by
  unfold Link unMem
  funext a
  rw [swapBack_mem]
  cases hs : saved (changesOf m e.regs) a with
  | some v =>
    simp only [saved] at hs
    split at hs
    · rename_i c hc
      have hm := List.mem_of_find?_eq_some hc
      have hcov : c.covers a := by simpa using List.find?_some hc
      simp only [changesOf, List.mem_map] at hm
      obtain ⟨r, hr, rfl⟩ := hm
      simp only [Change.covers, readMem_length] at hcov
      simp only at hs
      rw [readMem_get _ _ _ _ (by omega)] at hs
      simp only [Option.some.injEq] at hs
      rw [← hs, show r.2.1 + (a - r.2.1) = a by omega]
      rfl
    · cases hs
  | none =>
    have hn := saved_some (changesOf m e.regs) a
    rw [hs] at hn
    simp only [Option.isSome_none, Bool.false_eq, List.any_eq_false, decide_eq_true_eq] at hn
    simp only [Option.getD_none]
    apply assign_out
    intro st hst hc
    obtain ⟨r, hr, h1, h2⟩ := hd st hst (a - st.1) (by omega)
    apply hn ⟨r.1, r.2.1, readMem m r.2.1 r.2.2⟩ (by simp only [changesOf, List.mem_map]; exact ⟨r, hr, rfl⟩)
    simp only [Change.covers, readMem_length]
    omega

theorem addAll_ok (cs : List (Change V)) (s : State V) (ha : s.active = true) (hl : s.level = 0) (hn : cs ≠ []) :
    addAll cs s = .ok { s with current := s.current ++ cs, redoStack := [], redoCount := 0, isOpen := true } := by
  induction cs generalizing s with
  | nil => exact absurd rfl hn
  | cons c rest ih =>
    have e : addChange s c = .ok { s with current := s.current ++ [c], redoStack := [], redoCount := 0, isOpen := true } := by
      unfold addChange
      simp only [ha, Bool.not_true, Bool.false_eq_true, if_false, hl, Nat.lt_irrefl, gt_iff_lt, clearRedoStack]
    simp only [addAll, e, bind, Except.bind]
    cases rest with
    | nil => simp [addAll]
    | cons y rest =>
      rw [ih]
      · simp
      · exact ha
      · exact hl
      · simp

theorem close_ok {s : State V} {h : Hist V} (i : Inv s h) : Inv (close s) h.close := by
  unfold close Hist.close
  cases hs : h.start with
  | none =>
    rw [if_pos (by rw [i.currentNil.2 hs]; rfl)]
    exact i
  | some m =>
    have hc : s.current.length ≠ 0 := by
      intro e
      have := i.currentNil.1 (List.length_eq_zero_iff.1 e)
      rw [hs] at this; cases this
    rw [if_neg hc]
    have hcur := i.current
    have ha : anchor h = m := by simp [anchor, hs]
    have hp := i.past
    rw [ha] at hcur hp
    refine ⟨i.active, i.mem, rfl, ⟨fun _ => rfl, fun _ => rfl⟩, rfl, .cons hcur hp, i.future, by simp, ?_, i.redoCount, i.tr, i.status⟩
    simp only [i.undoCount, List.length_cons, BitVec.ofNat_add]; rfl

theorem commit_ok {s : State V} {h : Hist V} (i : Inv s h) : ∃ s', commit s = .ok s' ∧ Inv s' h.commit := by
  unfold commit Hist.commit
  cases ht : h.tr with
  | none =>
    have := i.tr
    simp only [TrOk, ht] at this
    rw [if_pos this.1]
    exact ⟨s, rfl, i⟩
  | some t =>
    have htr := i.tr
    simp only [TrOk, ht] at htr
    obtain ⟨h1, h2, cs, h3, h4, h5⟩ := htr
    rw [if_neg (by omega)]
    by_cases hl : t.level = 1
    · have hse : stepEnd h = t.before := by simp only [stepEnd, ht]
      simp only [h1, hl, Nat.sub_self, if_true, h3]
      by_cases hd : t.dirty = true
      · rw [addAll_ok cs _ (by exact i.active) (by rfl) (h5.1 hd)]
        simp only [hd, if_true, bind, Except.bind, pure, Except.pure]
        refine ⟨_, rfl, i.active, i.mem, rfl, ?_, ?_, ?_, .nil, by simp, i.undoCount, rfl, ⟨rfl, rfl⟩, rfl⟩
        · constructor
          · intro e
            simp only [List.append_eq_nil_iff] at e
            exact absurd e.2 (h5.1 hd)
          · intro e; cases e
        · have hc := i.current
          rw [hse] at hc
          have := link_append hc h4
          simpa [anchor, stepEnd, ht] using this
        · simpa [anchor, stepEnd, ht] using i.past
      · have hcs : cs = [] := by
          apply Classical.byContradiction
          intro e
          exact hd (h5.2 e)
        subst hcs
        have hcur : t.before = h.cur := h4.symm
        simp only [hd, addAll, bind, Except.bind, pure, Except.pure, if_false]
        refine ⟨_, rfl, i.active, i.mem, i.isOpen, i.currentNil, ?_, ?_, ?_, i.openNoFuture, i.undoCount, i.redoCount, ⟨rfl, rfl⟩, rfl⟩
        · simpa [anchor, stepEnd, ht, hcur] using i.current
        · simpa [anchor, stepEnd, ht, hcur] using i.past
        · simpa [anchor, stepEnd, ht, hcur] using i.future
    · rw [if_neg (by omega)]
      simp only [if_neg hl]
      refine ⟨_, rfl, i.active, i.mem, i.isOpen, i.currentNil, ?_, ?_, ?_, i.openNoFuture, i.undoCount, i.redoCount, ?_, i.status⟩
      · simpa [anchor, stepEnd, ht] using i.current
      · simpa [anchor, stepEnd, ht] using i.past
      · simpa [anchor, stepEnd, ht] using i.future
      · exact ⟨by simp only [h1], by simp only; omega, cs, h3, h4, h5⟩

theorem rollback_ok {s : State V} {h : Hist V} (i : Inv s h) : ∃ s', rollback s = .ok s' ∧ Inv s' h.rollback := by
  unfold rollback Hist.rollback
  cases ht : h.tr with
  | none =>
    have := i.tr
    simp only [TrOk, ht] at this
    rw [if_pos this.1]
    exact ⟨s, rfl, i⟩
  | some t =>
    have htr := i.tr
    simp only [TrOk, ht] at htr
    obtain ⟨h1, h2, cs, h3, h4, h5⟩ := htr
    rw [if_neg (by omega)]
    by_cases hl : t.level = 1
    · simp only [h1, hl, Nat.sub_self, if_true, h3]
      refine ⟨_, rfl, i.active, ?_, i.isOpen, i.currentNil, ?_, ?_, ?_, i.openNoFuture, i.undoCount, i.redoCount, ⟨rfl, rfl⟩, rfl⟩
      · simp only
        rw [(swapBack_regen cs _ _ noFlags).2, i.mem]
        exact h4
      · simpa [anchor, stepEnd, ht] using i.current
      · simpa [anchor, stepEnd, ht] using i.past
      · simpa [anchor, stepEnd, ht] using i.future
    · rw [if_neg (by omega)]
      simp only [if_neg hl]
      refine ⟨_, rfl, i.active, i.mem, i.isOpen, i.currentNil, ?_, ?_, ?_, i.openNoFuture, i.undoCount, i.redoCount, ?_, i.status⟩
      · simpa [anchor, stepEnd, ht] using i.current
      · simpa [anchor, stepEnd, ht] using i.past
      · simpa [anchor, stepEnd, ht] using i.future
      · exact ⟨by simp only [h1], by simp only; omega, cs, h3, h4, h5⟩

theorem edit_ok {s : State V} {h : Hist V} (i : Inv s h) (e : Edit V) (hd : e.Disciplined) :
    ∃ s', exec s (.edit e) = .ok (s', .none) ∧ Inv s' (h.step (.edit e)).1 := by
  by_cases hn : e.regs = []
  · have hcur : assign h.cur e.stores = h.cur := by
      funext a
      apply assign_out
      intro st hst hc
      obtain ⟨r, hr, _⟩ := hd st hst (a - st.1) (by omega)
      rw [hn] at hr; cases hr
    simp only [exec, Hist.step, hn, registerAll, bind, Except.bind, pure, Except.pure, if_true, assign_eq, hcur, i.mem]
    refine ⟨_, rfl, ?_⟩
    exact ⟨i.active, rfl, i.isOpen, i.currentNil, i.current, i.past, i.future, i.openNoFuture, i.undoCount, i.redoCount, i.tr, i.status⟩
  · have hlk := link_edit h.cur e hd
    simp only [exec, Hist.step, if_neg hn]
    cases ht : h.tr with
    | none =>
      have htr := i.tr
      simp only [TrOk, ht] at htr
      simp only [registerAll_open e.regs s i.active htr.1 hn, bind, Except.bind, pure, Except.pure, assign_eq]
      refine ⟨_, rfl, i.active, ?_, rfl, ?_, ?_, ?_, .nil, by simp, i.undoCount, rfl, ?_, i.status⟩
      · simp only [i.mem]
      · constructor
        · intro he
          simp only [List.append_eq_nil_iff, changesOf, List.map_eq_nil_iff] at he
          exact absurd he.2 hn
        · intro he; cases he
      · have hc := i.current
        have hse : stepEnd h = h.cur := by simp only [stepEnd, ht]
        have := link_append (by rw [hse] at hc; exact hc) hlk
        simpa [anchor, stepEnd, ht, i.mem] using this
      · simpa [anchor, stepEnd, ht] using i.past
      · simp only [TrOk]; exact htr
    | some t =>
      have htr := i.tr
      simp only [TrOk, ht] at htr
      obtain ⟨h1, h2, cs, h3, h4, h5⟩ := htr
      simp only [registerAll_trans e.regs s cs i.active (by omega) h3, bind, Except.bind, pure, Except.pure, assign_eq]
      refine ⟨_, rfl, i.active, ?_, i.isOpen, i.currentNil, ?_, ?_, ?_, i.openNoFuture, i.undoCount, i.redoCount, ?_, i.status⟩
      · simp only [i.mem]
      · simpa [anchor, stepEnd, ht] using i.current
      · simpa [anchor, stepEnd, ht] using i.past
      · simpa [anchor, stepEnd, ht] using i.future
      · refine ⟨h1, h2, _, rfl, ?_, ?_⟩
        · simp only [i.mem]; exact link_append h4 hlk
        · simp [changesOf, hn]

theorem step_ok {s : State V} {h : Hist V} (i : Inv s h) (a : Act V)
    (hl : match a with
      | .edit e => e.Disciplined
      | .undo | .redo => h.tr = none
      | _ => True) :
    ∃ s', exec s a = .ok (s', (h.step a).2) ∧ Inv s' (h.step a).1 := by
  cases a with
  | edit e =>
    obtain ⟨s', h1, h2⟩ := edit_ok i e hl
    refine ⟨s', ?_, h2⟩
    rw [h1]
    simp only [Hist.step]
    split
    · rfl
    · split <;> rfl
  | close => exact ⟨_, rfl, close_ok i⟩
  | undo =>
    simp only at hl
    simp only [exec, Hist.step, undo]
    have htr := i.tr
    cases hs : h.start with
    | some m =>
      have : s.isOpen = true := by rw [i.isOpen, hs]; rfl
      simp only [this, if_true]
      exact ⟨_, rfl, i⟩
    | none =>
      have ho : s.isOpen = false := by rw [i.isOpen, hs]; rfl
      have hse : stepEnd h = h.cur := by simp only [stepEnd, hl]
      have ha : anchor h = h.cur := by simp [anchor, hs, hse]
      have hp := i.past
      have hf := i.future
      rw [ha] at hp
      rw [hse] at hf
      simp only [ho, Bool.false_eq_true, if_false]
      cases hh : h.past with
      | nil =>
        have : s.undoStack = [] := by
          rw [hh] at hp; exact List.length_eq_zero_iff.1 hp.len
        simp only [this]
        exact ⟨_, rfl, i⟩
      | cons m p =>
        rw [hh] at hp
        cases hu : s.undoStack with
        | nil => rw [hu] at hp; cases hp
        | cons c cs =>
          rw [hu] at hp
          cases hp with
          | cons hlk hrest =>
            simp only
            have hinv := swapBack_inv c s.mem s.regen noFlags
            have hmem : (swapBack c s.mem s.regen).2.1 = m := by
              rw [(swapBack_regen c _ _ noFlags).2, i.mem]; exact hlk
            refine ⟨_, rfl, i.active, hmem, ?_, ?_, ?_, ?_, ?_, by simp [hs], ?_, ?_, ?_, i.status⟩
            · simp only [ho, hs, Option.isSome_none]
            · simp only [hs, iff_true]; exact i.currentNil.2 hs
            · have : s.current = [] := i.currentNil.2 hs
              simp only [this, anchor, stepEnd, hs, hl, Option.getD_none]
              rfl
            · simpa [anchor, stepEnd, hs, hl] using hrest
            · simp only [stepEnd, hl]
              refine .cons ?_ hf
              unfold LinkR reMem
              rw [← hmem, hinv.2, i.mem]
            · have h1 := i.undoCount
              rw [hu] at h1
              simp only [h1, List.length_cons, BitVec.ofNat_add]
              exact BitVec.add_sub_cancel _ _
            · simp only [i.redoCount, List.length_cons, BitVec.ofNat_add]; rfl
            · simp only [TrOk, hl] at htr ⊢; exact htr
  | redo =>
    simp only at hl
    simp only [exec, Hist.step, redo]
    have htr := i.tr
    cases hs : h.start with
    | some m =>
      have : s.isOpen = true := by rw [i.isOpen, hs]; rfl
      simp only [this, if_true]
      exact ⟨_, rfl, i⟩
    | none =>
      have ho : s.isOpen = false := by rw [i.isOpen, hs]; rfl
      have hse : stepEnd h = h.cur := by simp only [stepEnd, hl]
      have ha : anchor h = h.cur := by simp [anchor, hs, hse]
      have hp := i.past
      have hf := i.future
      rw [ha] at hp
      rw [hse] at hf
      simp only [ho, Bool.false_eq_true, if_false]
      cases hh : h.future with
      | nil =>
        have : s.redoStack = [] := by
          rw [hh] at hf; exact List.length_eq_zero_iff.1 hf.len
        simp only [this]
        exact ⟨_, rfl, i⟩
      | cons m p =>
        rw [hh] at hf
        cases hu : s.redoStack with
        | nil => rw [hu] at hf; cases hf
        | cons c cs =>
          rw [hu] at hf
          cases hf with
          | cons hlk hrest =>
            simp only
            have hinv := swapAll_inv c s.mem s.regen noFlags
            have hmem : (swapAll c s.mem s.regen).2.1 = m := by
              rw [(swapAll_regen c _ _ noFlags).2, i.mem]; exact hlk
            refine ⟨_, rfl, i.active, hmem, ?_, ?_, ?_, ?_, ?_, by simp [hs], ?_, ?_, ?_, i.status⟩
            · simp only [ho, hs, Option.isSome_none]
            · simp only [hs, iff_true]; exact i.currentNil.2 hs
            · have : s.current = [] := i.currentNil.2 hs
              simp only [this, anchor, stepEnd, hs, hl, Option.getD_none]
              rfl
            · simp only [anchor, stepEnd, hs, hl, Option.getD_none]
              refine .cons ?_ hp
              unfold Link unMem
              rw [← hmem, hinv.2, i.mem]
            · simpa [stepEnd, hl] using hrest
            · simp only [i.undoCount, List.length_cons, BitVec.ofNat_add]; rfl
            · have h1 := i.redoCount
              rw [hu] at h1
              simp only [h1, List.length_cons, BitVec.ofNat_add]
              exact BitVec.add_sub_cancel _ _
            · simp only [TrOk, hl] at htr ⊢; exact htr
  | clearStacks =>
    have j := close_ok i
    exact ⟨_, rfl, j.active, j.mem, j.isOpen, j.currentNil, j.current, .nil, .nil, fun _ => rfl, rfl, rfl, j.tr, j.status⟩
  | clearUndo =>
    exact ⟨_, rfl, i.active, i.mem, i.isOpen, i.currentNil, i.current, .nil, i.future, i.openNoFuture, rfl, i.redoCount, i.tr, i.status⟩
  | clearRedo =>
    exact ⟨_, rfl, i.active, i.mem, i.isOpen, i.currentNil, i.current, i.past, .nil, fun _ => rfl, i.undoCount, rfl, i.tr, i.status⟩
  | openT =>
    simp only [exec, Hist.step, openTransaction]
    have htr := i.tr
    cases ht : h.tr with
    | none =>
      simp only [TrOk, ht] at htr
      simp only [htr.1, if_true]
      refine ⟨_, rfl, i.active, i.mem, i.isOpen, i.currentNil, ?_, ?_, ?_, i.openNoFuture, i.undoCount, i.redoCount, ?_, rfl⟩
      · simpa [anchor, stepEnd, ht] using i.current
      · simpa [anchor, stepEnd, ht] using i.past
      · simpa [anchor, stepEnd, ht] using i.future
      · exact ⟨rfl, by simp, [], rfl, rfl, by simp⟩
    | some t =>
      simp only [TrOk, ht] at htr
      obtain ⟨h1, h2, cs, h3, h4, h5⟩ := htr
      rw [if_neg (by omega)]
      refine ⟨_, rfl, i.active, i.mem, i.isOpen, i.currentNil, ?_, ?_, ?_, i.openNoFuture, i.undoCount, i.redoCount, ?_, i.status⟩
      · simpa [anchor, stepEnd, ht] using i.current
      · simpa [anchor, stepEnd, ht] using i.past
      · simpa [anchor, stepEnd, ht] using i.future
      · exact ⟨by simp only [h1], by simp, cs, h3, h4, h5⟩
  | closeT =>
    simp only [exec, closeTransaction, Hist.step, i.status]
    by_cases he : h.status = eOK
    · obtain ⟨s', h1, h2⟩ := commit_ok i
      simp only [he, if_true, h1, bind, Except.bind, pure, Except.pure]
      exact ⟨s', rfl, h2⟩
    · obtain ⟨s', h1, h2⟩ := rollback_ok i
      simp only [he, if_false, h1, bind, Except.bind, pure, Except.pure]
      exact ⟨s', rfl, h2⟩
  | commit =>
    obtain ⟨s', h1, h2⟩ := commit_ok i
    simp only [exec, h1, bind, Except.bind, pure, Except.pure]
    exact ⟨s', rfl, h2⟩
  | rollback =>
    obtain ⟨s', h1, h2⟩ := rollback_ok i
    simp only [exec, h1, bind, Except.bind, pure, Except.pure]
    exact ⟨s', rfl, h2⟩
  | status st =>
    simp only [exec, Hist.step, registerTransactionStatus, failing]
    by_cases h1 : st = eOK
    · simp only [h1]; exact ⟨s, rfl, i⟩
    · by_cases h2 : st = eNotChanged
      · subst h2; exact ⟨s, rfl, i⟩
      · have : (st != eOK && st != eNotChanged) = true := by simp [h1, h2]
        simp only [this, if_true, ne_eq, h1, h2, not_false_eq_true, and_self]
        exact ⟨_, rfl, i.active, i.mem, i.isOpen, i.currentNil, i.current, i.past, i.future, i.openNoFuture, i.undoCount, i.redoCount, i.tr, rfl⟩

theorem run_ok (as : List (Act V)) (s : State V) (h : Hist V) (i : Inv s h) (hl : Legal as h) :
    ∃ s', execAll as s = .ok (s', (Hist.run as h).2) ∧ Inv s' (Hist.run as h).1 := by
  induction as generalizing s h with
  | nil => exact ⟨s, rfl, i⟩
  | cons a as ih =>
    obtain ⟨s1, e1, i1⟩ := step_ok i a hl.1
    obtain ⟨s2, e2, i2⟩ := ih s1 _ i1 hl.2
    refine ⟨s2, ?_, i2⟩
    simp only [execAll, e1, e2, bind, Except.bind, pure, Except.pure, Hist.run]

end Verif.Undo
