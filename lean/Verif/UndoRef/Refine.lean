import Verif.UndoRef.Lemmas
/-
Every allowed action succeeds and preserves the invariant.
-/
namespace Verif.UndoRef
open Verif Verif.UndoRef.Spec

theorem Inv.held_le {s : State} {h : Hist} (i : Inv s h) (o : Obj) : (heldBy (changes s) o : Int) ≤ s.cnt o := by
  have h1 := i.bal o
  have h2 := i.valid o
  (try simp only at h1)
  omega

theorem Bal.pos {cnt : Counts} {base : Obj → Nat} {refs H : Obj → Int} (b : Bal cnt base refs H) {o : Obj} (h : 1 ≤ (base o : Int) + refs o) (hH : 0 ≤ H o) :
    (0 : Int) < cnt o := by have := b o; omega

/-- registering a change, and performing it -/
theorem edit_ok {s : State} {h : Hist} (i : Inv s h) {c : Change} {a : App} (l : Link c a h.now) {cnt1 : Counts} (z1 : Zeros s.cnt cnt1)
    (b1 : Bal cnt1 h.base h.now.refs (fun o => heldBy (changes s) o + refsOf c o)) :
    ∃ s2, addChange { s with cnt := cnt1 } c = .ok s2 ∧ s2.cells = s.cells ∧ Zeros cnt1 s2.cnt ∧
      Bal s2.cnt h.base h.now.refs (fun o => heldBy (changes s2) o) ∧
      ∀ cnt3, Zeros s2.cnt cnt3 → Bal cnt3 h.base a.refs (fun o => heldBy (changes s2) o) → Inv { s2 with cnt := cnt3, cells := a.cells } (h.edit a) := by
  obtain ⟨fresh, base, now, past, future, start, tr⟩ := h
  cases tr with
  | none =>
    obtain ⟨t1, t2⟩ := i.tr
    have hle : ∀ o, (heldBy s.redoStack.flatten o : Int) ≤ cnt1 o := fun o => by
      have h1 := b1 o
      have h2 := i.valid o
      simp only [held_changes] at h1 h2
      omega
    obtain ⟨c2, d1, d2, d3⟩ := destroySteps_ok s.redoStack cnt1 hle
    refine ⟨{ s with cnt := c2, current := s.current ++ [c], redoStack := [], isOpen := true }, ?_, rfl, d2, ?_, ?_⟩
    · simp only [addChange, t2, gt_iff_lt, Nat.lt_irrefl, if_false, clearRedoStack, d1, bind, Except.bind, pure, Except.pure]
    · intro o
      have h1 := b1 o
      simp only [held_changes, heldBy_append, heldBy_cons, heldBy_nil, List.flatten_nil] at h1 ⊢
      rw [d3 o, h1]; ring
    · intro cnt3 z3 b3
      refine ⟨l.vx, rfl, b3, fun o ho => z3 _ (d2 _ (z1 _ (i.low o ho))), ⟨t1, t2⟩, ?_, rfl, ?_, i.und, .nil _⟩
      · rw [List.reverse_append]
        exact .cons l i.cur
      · exact iff_of_false (by simp) (by simp [Hist.edit])
  | some t =>
    obtain ⟨cs, t1, t2, t3, t4, t5⟩ := i.tr
    refine ⟨{ s with cnt := cnt1, trans := some (cs ++ [c]) }, ?_, rfl, Zeros.refl _, ?_, ?_⟩
    · simp only [addChange]
      rw [if_pos (by (try simp only at t2); omega)]
      simp only [t1]
    · intro o
      have h1 := b1 o
      simp only [held_changes, heldBy_append, heldBy_cons, heldBy_nil, t1, Option.getD_some] at h1 ⊢
      rw [h1]; ring
    · intro cnt3 z3 b3
      refine ⟨l.vx, rfl, b3, fun o ho => z3 _ (z1 _ (i.low o ho)), ⟨cs ++ [c], rfl, t2, t3, ?_, ?_⟩, i.cur, i.opn, i.emp, i.und, i.red⟩
      · rw [List.reverse_append]
        exact .cons l t4
      · exact iff_of_true rfl (by simp)

/-- the invariant speaks of the fields only -/
theorem setRef_ok {s : State} {h : Hist} (i : Inv s h) (n : Nat) (owner : Obj) (cell : Cell) (v : Option Obj) (ha : h.allowed (.setRef owner cell v)) :
    ∃ s', exec n s (.setRef owner cell v) = .ok (n, s', true) ∧ Inv s' (h.step (.setRef owner cell v)).1 := by
  obtain ⟨a1, a3, a4, a2⟩ := ha
  obtain ⟨c1, r1, r2, r3⟩ := retain_ok s.cnt owner (i.bal.pos a1 (by (try simp only); omega))
  have r4 : touch c1 cell.1 = .ok () := touch_ok _ _ (by
    have h3 := one_nonneg (owner = cell.1)
    rw [r3 cell.1]
    rcases a3 with e | e
    · have := i.bal.pos a1 (by (try simp only); omega)
      rw [e]; rw [e] at h3; omega
    · have h1 := i.bal cell.1
      (try simp only at h1)
      omega)
  obtain ⟨c2, q1, q2, q3⟩ := retainOpt_ok c1 (s.cells cell) (fun o e => by
    have h1 := i.bal o
    rw [i.cells] at e
    have h2 := a4 _ e
    have h3 := one_nonneg (owner = o)
    rw [r3 o, h1]
    (try simp only)
    omega)
  have l : Link ⟨owner, .ref cell (s.cells cell) (s.cells cell) none false⟩ { h.now with cells := upd h.now.cells cell v } h.now := by
    refine ⟨i.valid, i.valid, rfl, ?_, fun _ => rfl, a3, fun w hw => ?_, fun w hw => ?_⟩
    · simp only [upd_upd, i.cells, upd_self]
    · simp only [upd_same] at hw
      exact a2 w hw
    · rw [i.cells] at hw
      exact a4 w hw
  obtain ⟨s2, e1, e2, e3, e4, e5⟩ := edit_ok i l (r2.trans q2) (fun o => by
    have h1 := i.bal o
    rw [q3, r3, h1]
    simp only [refsOf_ref]
    rw [one_false (show ¬ (none = some o) by simp)]; ring)
  refine ⟨{ s2 with cells := upd s2.cells cell v }, ?_, ?_⟩
  · simp only [exec, registerRef, mkRef, r1, r4, q1, bind, Except.bind, pure, Except.pure, e1]
  · have := e5 s2.cnt (Zeros.refl _) e4
    rw [e2, i.cells]
    exact this

theorem retain_act_ok {s : State} {h : Hist} (i : Inv s h) (n : Nat) (o : Obj) (ha : h.allowed (.retain o)) :
    ∃ s', exec n s (.retain o) = .ok (n, s', true) ∧ Inv s' (h.step (.retain o)).1 := by
  have ha1 : 1 ≤ (h.base o : Int) + h.now.refs o := ha
  obtain ⟨c1, r1, r2, r3⟩ := retain_ok s.cnt o (i.bal.pos ha1 (by (try simp only); omega))
  have l : Link ⟨o, .rel false⟩ { h.now with refs := upd h.now.refs o (h.now.refs o + 1) } h.now := by
    have hn : ∀ x, h.now.refs x ≤ upd h.now.refs o (h.now.refs o + 1) x := fun x => by
      by_cases e : x = o
      · rw [e, upd_same]; omega
      · rw [upd_other _ _ _ e]
    refine ⟨fun x => le_trans (i.valid x) (hn x), i.valid, rfl, ?_⟩
    simp only [upd_same, upd_upd, Bool.false_eq_true, if_false]
    rw [show h.now.refs o + 1 + -1 = h.now.refs o by ring, upd_self]
  obtain ⟨s2, e1, e2, e3, e4, e5⟩ := edit_ok i l r2 (fun x => by
    have h1 := i.bal x
    rw [r3, h1]
    simp only [refsOf_rel]; ring)
  obtain ⟨c3, q1, q2, q3⟩ := retain_ok s2.cnt o (e4.pos ha1 (by (try simp only); omega))
  refine ⟨{ s2 with cnt := c3 }, ?_, ?_⟩
  · simp only [exec, registerRel, mkRel, r1, bind, Except.bind, pure, Except.pure, e1, q1]
  · have := e5 c3 q2 (fun x => by
      have h1 := e4 x
      rw [q3, h1]
      (try simp only)
      by_cases e : o = x
      · rw [← e, one_true rfl, upd_same]; ring
      · rw [one_false e, upd_other _ _ _ (fun h => e h.symm)]; ring)
    rw [show s2 = { s2 with cells := h.now.cells } by rw [← i.cells, ← e2]]
    exact this

theorem release_act_ok {s : State} {h : Hist} (i : Inv s h) (n : Nat) (o : Obj) (ha : h.allowed (.release o)) :
    ∃ s', exec n s (.release o) = .ok (n, s', true) ∧ Inv s' (h.step (.release o)).1 := by
  have a1 : 1 ≤ h.now.refs o := ha
  have ha1 : 1 ≤ (h.base o : Int) + h.now.refs o := by omega
  obtain ⟨c1, r1, r2, r3⟩ := retain_ok s.cnt o (i.bal.pos ha1 (by (try simp only); omega))
  have l : Link ⟨o, .rel true⟩ { h.now with refs := upd h.now.refs o (h.now.refs o - 1) } h.now := by
    refine ⟨fun x => ?_, i.valid, rfl, ?_⟩
    · by_cases e : x = o
      · subst e; simp only [upd_same]; omega
      · simp only [upd_other _ _ _ e]; exact i.valid x
    · simp only [upd_same, upd_upd, if_true]
      rw [show h.now.refs o - 1 + 1 = h.now.refs o by ring, upd_self]
  obtain ⟨s2, e1, e2, e3, e4, e5⟩ := edit_ok i l r2 (fun x => by
    have h1 := i.bal x
    rw [r3, h1]
    simp only [refsOf_rel]; ring)
  obtain ⟨c3, q1, q2, q3⟩ := release_ok s2.cnt o (e4.pos ha1 (by (try simp only); omega))
  refine ⟨{ s2 with cnt := c3 }, ?_, ?_⟩
  · simp only [exec, registerRel, mkRel, r1, bind, Except.bind, pure, Except.pure, e1, q1]
  · have := e5 c3 q2 (fun x => by
      have h1 := e4 x
      rw [q3, h1]
      (try simp only)
      by_cases e : o = x
      · rw [← e, one_true rfl, upd_same]; ring
      · rw [one_false e, upd_other _ _ _ (fun h => e h.symm)]; ring)
    rw [show s2 = { s2 with cells := h.now.cells } by rw [← i.cells, ← e2]]
    exact this

theorem other_act_ok {s : State} {h : Hist} (i : Inv s h) (n : Nat) (o : Obj) (ha : h.allowed (.other o)) :
    ∃ s', exec n s (.other o) = .ok (n, s', true) ∧ Inv s' (h.step (.other o)).1 := by
  have ha1 : 1 ≤ (h.base o : Int) + h.now.refs o := ha
  obtain ⟨c1, r1, r2, r3⟩ := retain_ok s.cnt o (i.bal.pos ha1 (by (try simp only); omega))
  have l : Link ⟨o, .other⟩ h.now h.now := ⟨i.valid, i.valid, rfl⟩
  obtain ⟨s2, e1, e2, e3, e4, e5⟩ := edit_ok i l r2 (fun x => by
    have h1 := i.bal x
    rw [r3, h1]
    simp only [refsOf_other]; ring)
  refine ⟨s2, ?_, ?_⟩
  · simp only [exec, registerOther, mkOther, r1, bind, Except.bind, pure, Except.pure, e1]
  · have := e5 s2.cnt (Zeros.refl _) e4
    rw [← i.cells, ← e2] at this
    exact this

/-! ### The application's own references -/

theorem create_ok {s : State} {h : Hist} (i : Inv s h) :
    ∃ s', exec h.fresh s .create = .ok (h.fresh + 1, s', true) ∧ Inv s' (h.step .create).1 := by
  refine ⟨{ s with cnt := upd s.cnt h.fresh 1 }, rfl, ⟨i.valid, i.cells, fun o => ?_, fun o ho => ?_, i.tr, i.cur, i.opn, i.emp, i.und, i.red⟩⟩
  · have h1 := i.bal o
    show ((upd s.cnt h.fresh 1 o : Nat) : Int) = (upd h.base h.fresh 1 o : Nat) + h.now.refs o + heldBy (changes s) o
    by_cases e : o = h.fresh
    · have h2 := i.low o (le_of_eq e.symm)
      have h3 := i.valid o
      (try simp only at h1)
      rw [e, upd_same, upd_same, ← e]
      omega
    · rw [upd_other _ _ _ e, upd_other _ _ _ e]; exact h1
  · have h1 : h.fresh + 1 ≤ o := ho
    show upd s.cnt h.fresh 1 o = 0
    rw [upd_other _ _ _ (show o ≠ h.fresh by omega)]
    exact i.low o (by omega)

theorem keep_ok {s : State} {h : Hist} (i : Inv s h) (n : Nat) (o : Obj) (ha : h.allowed (.keep o)) :
    ∃ s', exec n s (.keep o) = .ok (n, s', true) ∧ Inv s' (h.step (.keep o)).1 := by
  have ha1 : 1 ≤ (h.base o : Int) + h.now.refs o := ha
  obtain ⟨c1, r1, r2, r3⟩ := retain_ok s.cnt o (i.bal.pos ha1 (by (try simp only); omega))
  refine ⟨{ s with cnt := c1 }, ?_, ⟨i.valid, i.cells, fun x => ?_, fun x hx => r2 _ (i.low x hx), i.tr, i.cur, i.opn, i.emp, i.und, i.red⟩⟩
  · simp only [exec, r1, bind, Except.bind, pure, Except.pure]
  · have h1 := i.bal x
    show (c1 x : Int) = (upd h.base o (h.base o + 1) x : Nat) + h.now.refs x + heldBy (changes s) x
    rw [r3, h1]
    by_cases e : o = x
    · rw [← e, one_true rfl, upd_same]; push_cast; ring
    · rw [one_false e, upd_other _ _ _ (fun h => e h.symm)]; ring

theorem drop_ok {s : State} {h : Hist} (i : Inv s h) (n : Nat) (o : Obj) (ha : h.allowed (.drop o)) :
    ∃ s', exec n s (.drop o) = .ok (n, s', true) ∧ Inv s' (h.step (.drop o)).1 := by
  have ha0 : 1 ≤ h.base o := ha
  have ha1 : 1 ≤ (h.base o : Int) + h.now.refs o := by have := i.valid o; omega
  obtain ⟨c1, r1, r2, r3⟩ := release_ok s.cnt o (i.bal.pos ha1 (by (try simp only); omega))
  refine ⟨{ s with cnt := c1 }, ?_, ⟨i.valid, i.cells, fun x => ?_, fun x hx => r2 _ (i.low x hx), i.tr, i.cur, i.opn, i.emp, i.und, i.red⟩⟩
  · simp only [exec, r1, bind, Except.bind, pure, Except.pure]
  · have h1 := i.bal x
    show (c1 x : Int) = (upd h.base o (h.base o - 1) x : Nat) + h.now.refs x + heldBy (changes s) x
    rw [r3, h1]
    by_cases e : o = x
    · rw [← e, one_true rfl, upd_same, Nat.cast_sub ha0]; push_cast; ring
    · rw [one_false e, upd_other _ _ _ (fun h => e h.symm)]; ring

/-! ### Adopting a reference -/

theorem valid_shift {a : App} (v : a.Valid) (o : Obj) : (a.shift o).Valid := fun x => by
  have := v x
  unfold App.shift
  by_cases e : x = o
  · subst e; simp only [upd_same]; omega
  · simp only [upd_other _ _ _ e]; exact this

theorem refs_le_shift (a : App) (o x : Obj) : a.refs x ≤ (a.shift o).refs x := by
  unfold App.shift
  by_cases e : x = o
  · subst e; simp only [upd_same]; omega
  · simp only [upd_other _ _ _ e]; exact le_refl _

theorem Link.shift {c : Change} {x y : App} (l : Link c x y) (o : Obj) : Link c (x.shift o) (y.shift o) := by
  refine ⟨valid_shift l.vx o, valid_shift l.vy o, ?_⟩
  obtain ⟨owner, kind⟩ := c
  have e := l.eff
  cases kind with
  | other => simp only at e ⊢; rw [e]
  | rel r =>
    obtain ⟨e1, e2⟩ := e
    refine ⟨e1, ?_⟩
    funext z
    simp only [App.shift, e2]
    by_cases h1 : z = o
    · by_cases h2 : z = owner
      · subst h1; subst h2; simp only [upd_same]; ring
      · subst h1; simp only [upd_same, upd_other _ _ _ h2]
    · by_cases h2 : z = owner
      · subst h2; simp only [upd_same, upd_other _ _ _ h1]
      · simp only [upd_other _ _ _ h1, upd_other _ _ _ h2]
  | ref cell value v1 v2 sw =>
    obtain ⟨e1, e2, e3, e4, e5, e6⟩ := e
    refine ⟨?_, e2, e3, e4.imp id (fun h => le_trans h (refs_le_shift x o _)), fun w hw => le_trans (e5 w hw) (refs_le_shift x o _),
      fun w hw => le_trans (e6 w hw) (refs_le_shift x o _)⟩
    simp only [App.shift, e1]

theorem Path.shift {cs : List Change} {x y : App} (p : Path cs x y) (o : Obj) : Path cs (x.shift o) (y.shift o) := by
  induction p with
  | nil x v => exact .nil _ (valid_shift v o)
  | cons l _ ih => exact .cons (l.shift o) ih

theorem ChainU.shift {ss : List (List Change)} {ps : List App} {a : App} (c : ChainU ss ps a) (o : Obj) : ChainU ss (ps.map (App.shift o)) (a.shift o) := by
  induction c with
  | nil a => exact .nil _
  | cons p _ ih => exact .cons (p.shift o) ih

theorem ChainR.shift {ss : List (List Change)} {ps : List App} {a : App} (c : ChainR ss ps a) (o : Obj) : ChainR ss (ps.map (App.shift o)) (a.shift o) := by
  induction c with
  | nil a => exact .nil _
  | cons p _ ih => exact .cons (p.shift o) ih

theorem adopt_inv {s : State} {h : Hist} (i : Inv s h) (o : Obj) (ha : h.allowed (.adopt o)) : Inv s (h.adopt o) := by
  have ha1 : 1 ≤ h.base o := ha
  have e1 : anchor (h.adopt o) = (anchor h).shift o := by
    obtain ⟨fresh, base, now, past, future, start, tr⟩ := h
    cases tr <;> rfl
  have e2 : stepStart (h.adopt o) = (stepStart h).shift o := by
    unfold stepStart
    rw [e1]
    obtain ⟨fresh, base, now, past, future, start, tr⟩ := h
    cases start <;> rfl
  refine ⟨valid_shift i.valid o, i.cells, fun x => ?_, i.low, ?_, ?_, ?_, ?_, ?_, ?_⟩
  · have := i.bal x
    rw [this]
    simp only [Hist.adopt, App.shift]
    by_cases e : x = o
    · subst e
      simp only [upd_same, Nat.cast_sub ha1]
      push_cast
      ring
    · simp only [upd_other _ _ _ e]
  · have := i.tr
    obtain ⟨fresh, base, now, past, future, start, tr⟩ := h
    cases tr with
    | none => exact this
    | some t =>
      obtain ⟨cs, t1, t2, t3, t4, t5⟩ := this
      exact ⟨cs, t1, t2, t3, t4.shift o, t5⟩
  · rw [e1, e2]; exact i.cur.shift o
  · have := i.opn
    simp only [Hist.adopt, Option.isSome_map]
    exact this
  · have := i.emp
    simp only [Hist.adopt, Option.map_eq_none_iff]
    exact this
  · rw [e2]; exact i.und.shift o
  · rw [e1]; exact i.red.shift o

/-! ### The history -/

theorem undo_ok {s : State} {h : Hist} (i : Inv s h) (n : Nat) (ha : h.tr = none) :
    ∃ s', exec n s .undo = .ok (n, s', (h.step .undo).2) ∧ Inv s' (h.step .undo).1 := by
  obtain ⟨fresh, base, now, past, future, start, tr⟩ := h
  (try simp only at ha)
  subst ha
  obtain ⟨cnt, cells, isOpen, current, undoStack, redoStack, level, trans⟩ := s
  have hcells := i.cells
  (try simp only at hcells)
  subst hcells
  cases start with
  | some a =>
    have ho := i.opn
    simp only [Option.isSome_some] at ho
    subst ho
    exact ⟨_, rfl, i⟩
  | none =>
    have ho := i.opn
    simp only [Option.isSome_none] at ho
    subst ho
    have hu := i.und
    cases hu with
    | nil => exact ⟨_, rfl, i⟩
    | @cons step rest p ps _ hp hc =>
      have b := i.bal
      obtain ⟨step', cnt', h1, h2, h3, h4, h5⟩ := swapBack_ok (cnt := cnt) (base := base)
        (H := fun o => heldBy current o + heldBy rest.flatten o + heldBy redoStack.flatten o + heldBy (trans.getD []) o) hp
        (fun o => by (try simp only); omega)
        (fun o => by
          have := b o
          simp only [held_changes, List.flatten_cons, heldBy_append] at this
          rw [this]; simp only [stepStart, anchor, Option.getD_none]; ring)
      have hcur : current = [] := i.emp.2 rfl
      refine ⟨⟨cnt', p.cells, false, current, rest, step' :: redoStack, level, trans⟩, ?_, ?_⟩
      · simp only [exec, UndoRef.undo, Bool.false_eq_true, if_false, h1, bind, Except.bind, pure, Except.pure, Hist.step, stepStart, anchor, Option.getD_none] at h1 ⊢
      · refine ⟨hp.vy, rfl, ?_, fun o ho => h3 _ (i.low o ho), i.tr, ?_, rfl, i.emp, hc, .cons h2 i.red⟩
        · intro o
          have := h4 o
          simp only [held_changes, List.flatten_cons, heldBy_append] at this ⊢
          rw [this]; simp only [Hist.step]; ring
        · simp only [hcur]; exact .nil _ hp.vy

theorem redo_ok {s : State} {h : Hist} (i : Inv s h) (n : Nat) (ha : h.tr = none) :
    ∃ s', exec n s .redo = .ok (n, s', (h.step .redo).2) ∧ Inv s' (h.step .redo).1 := by
  obtain ⟨fresh, base, now, past, future, start, tr⟩ := h
  (try simp only at ha)
  subst ha
  obtain ⟨cnt, cells, isOpen, current, undoStack, redoStack, level, trans⟩ := s
  have hcells := i.cells
  (try simp only at hcells)
  subst hcells
  cases start with
  | some a =>
    have ho := i.opn
    simp only [Option.isSome_some] at ho
    subst ho
    exact ⟨_, rfl, i⟩
  | none =>
    have ho := i.opn
    simp only [Option.isSome_none] at ho
    subst ho
    have hu := i.red
    cases hu with
    | nil => exact ⟨_, rfl, i⟩
    | @cons step rest f fs _ hp hc =>
      have b := i.bal
      obtain ⟨step', cnt', h1, h2, h3, h4, h5⟩ := swapAll_ok hp (cnt := cnt) (base := base)
        (H := fun o => heldBy current o + heldBy undoStack.flatten o + heldBy rest.flatten o + heldBy (trans.getD []) o)
        (fun o => by (try simp only); omega)
        (fun o => by
          have := b o
          simp only [held_changes, List.flatten_cons, heldBy_append] at this
          rw [this]; simp only [anchor]; ring)
      have hcur : current = [] := i.emp.2 rfl
      refine ⟨⟨cnt', f.cells, false, current, step' :: undoStack, rest, level, trans⟩, ?_, ?_⟩
      · simp only [exec, UndoRef.redo, Bool.false_eq_true, if_false, bind, Except.bind, pure, Except.pure, Hist.step, anchor] at h1 ⊢
        rw [h1]
      · refine ⟨hp.vy, rfl, ?_, fun o ho => h3 _ (i.low o ho), i.tr, ?_, rfl, i.emp, .cons h2 i.und, hc⟩
        · intro o
          have := h4 o
          simp only [held_changes, List.flatten_cons, heldBy_append] at this ⊢
          rw [this]; simp only [Hist.step]; ring
        · simp only [hcur]; exact .nil _ hp.vy

theorem close_inv {s : State} {h : Hist} (i : Inv s h) : Inv (close s) (h.step .close).1 := by
  obtain ⟨fresh, base, now, past, future, start, tr⟩ := h
  obtain ⟨cnt, cells, isOpen, current, undoStack, redoStack, level, trans⟩ := s
  cases start with
  | none =>
    have hcur : current = [] := i.emp.2 rfl
    subst hcur
    exact i
  | some a =>
    have hcur : current ≠ [] := fun e => by have := i.emp.1 e; simp at this
    have e : close (⟨cnt, cells, isOpen, current, undoStack, redoStack, level, trans⟩ : State) =
        ⟨cnt, cells, false, [], current :: undoStack, redoStack, level, trans⟩ := if_neg (fun h => hcur (List.length_eq_zero_iff.1 h))
    rw [e]
    refine ⟨i.valid, i.cells, ?_, i.low, i.tr, .nil _ i.cur.vx, rfl, iff_of_true rfl rfl, .cons i.cur i.und, i.red⟩
    intro o
    have := i.bal o
    simp only [held_changes, List.flatten_cons, heldBy_append, heldBy_nil] at this ⊢
    rw [this]; simp only [Hist.step]; ring

theorem clearUndo_ok {s : State} {h : Hist} (i : Inv s h) : ∃ s', clearUndoStack s = .ok s' ∧ Inv s' (h.step .clearUndo).1 ∧ s'.undoStack = [] ∧
    s' = { s with cnt := s'.cnt, undoStack := [] } := by
  obtain ⟨c, h1, h2, h3⟩ := destroySteps_ok s.undoStack s.cnt (fun o => by
    have := i.held_le o
    rw [held_changes] at this
    omega)
  refine ⟨{ s with cnt := c, undoStack := [] }, by simp only [clearUndoStack, h1, bind, Except.bind, pure, Except.pure], ?_, rfl, rfl⟩
  refine ⟨i.valid, i.cells, fun o => ?_, fun o ho => h2 _ (i.low o ho), i.tr, i.cur, i.opn, i.emp, .nil _, i.red⟩
  have := i.bal o
  simp only [held_changes, List.flatten_nil, heldBy_nil] at this ⊢
  rw [h3, this]; simp only [Hist.step]; ring

theorem clearRedo_ok {s : State} {h : Hist} (i : Inv s h) : ∃ s', clearRedoStack s = .ok s' ∧ Inv s' (h.step .clearRedo).1 ∧ s'.redoStack = [] ∧
    s' = { s with cnt := s'.cnt, redoStack := [] } := by
  obtain ⟨c, h1, h2, h3⟩ := destroySteps_ok s.redoStack s.cnt (fun o => by
    have := i.held_le o
    rw [held_changes] at this
    omega)
  refine ⟨{ s with cnt := c, redoStack := [] }, by simp only [clearRedoStack, h1, bind, Except.bind, pure, Except.pure], ?_, rfl, rfl⟩
  refine ⟨i.valid, i.cells, fun o => ?_, fun o ho => h2 _ (i.low o ho), i.tr, i.cur, i.opn, i.emp, i.und, .nil _⟩
  have := i.bal o
  simp only [held_changes, List.flatten_nil, heldBy_nil] at this ⊢
  rw [h3, this]; simp only [Hist.step]; ring

theorem begin_inv {s : State} {h : Hist} (i : Inv s h) : Inv (openTransaction s) (h.step .begin).1 := by
  obtain ⟨fresh, base, now, past, future, start, tr⟩ := h
  cases tr with
  | none =>
    obtain ⟨t1, t2⟩ := i.tr
    have e : openTransaction s = { s with trans := some [], level := s.level + 1 } := if_pos t2
    rw [e]
    refine ⟨i.valid, i.cells, fun o => ?_, i.low, ⟨[], rfl, by simp only [t2], le_refl _, .nil _ i.valid, by simp⟩, i.cur, i.opn, i.emp, i.und, i.red⟩
    have := i.bal o
    simp only [held_changes, t1, Option.getD_none, Option.getD_some] at this ⊢
    rw [this]; rfl
  | some t =>
    obtain ⟨cs, t1, t2, t3, t4, t5⟩ := i.tr
    have e : openTransaction s = { s with level := s.level + 1 } := if_neg (by (try simp only at t2); omega)
    rw [e]
    exact ⟨i.valid, i.cells, i.bal, i.low, ⟨cs, t1, by simp only [t2], by (try simp only at t3 ⊢); omega, t4, t5⟩, i.cur, i.opn, i.emp, i.und, i.red⟩

theorem addAll_ok (cs : List Change) : ∀ (s : State), s.level = 0 → (∀ o, (heldBy s.redoStack.flatten o : Int) ≤ s.cnt o) → cs ≠ [] →
    ∃ cnt, addAll s cs = .ok { s with cnt := cnt, current := s.current ++ cs, redoStack := [], isOpen := true } ∧ Zeros s.cnt cnt ∧
      ∀ x, (cnt x : Int) = s.cnt x - heldBy s.redoStack.flatten x := by
  induction cs with
  | nil => intro s _ _ h; exact absurd rfl h
  | cons c cs ih =>
    intro s hl hh _
    obtain ⟨c2, d1, d2, d3⟩ := destroySteps_ok s.redoStack s.cnt hh
    have h1 : addChange s c = .ok { s with cnt := c2, current := s.current ++ [c], redoStack := [], isOpen := true } := by
      simp only [addChange, hl, gt_iff_lt, Nat.lt_irrefl, if_false, clearRedoStack, d1, bind, Except.bind, pure, Except.pure]
    by_cases hn : cs = []
    · subst hn
      refine ⟨c2, ?_, d2, d3⟩
      simp only [addAll, h1, bind, Except.bind]
    · obtain ⟨c3, g1, g2, g3⟩ := ih { s with cnt := c2, current := s.current ++ [c], redoStack := [], isOpen := true } hl
        (fun o => by simp only [List.flatten_nil, heldBy_nil]; omega) hn
      refine ⟨c3, ?_, d2.trans g2, fun x => by rw [g3]; simp only [List.flatten_nil, heldBy_nil]; rw [d3]; ring⟩
      simp only [addAll, h1, bind, Except.bind, g1, List.append_assoc, List.singleton_append]

theorem commit_ok {s : State} {h : Hist} (i : Inv s h) : ∃ s', commit s = .ok s' ∧ Inv s' h.commit := by
  obtain ⟨fresh, base, now, past, future, start, tr⟩ := h
  cases tr with
  | none =>
    obtain ⟨t1, t2⟩ := i.tr
    exact ⟨s, if_pos t2, i⟩
  | some t =>
    obtain ⟨cs, t1, t2, t3, t4, t5⟩ := i.tr
    (try simp only at t2 t3)
    unfold commit
    rw [if_neg (by omega)]
    by_cases hl : t.level = 1
    · rw [if_pos (by omega)]
      simp only [t1]
      by_cases hc : cs = []
      · subst hc
        have he : t.edited = false := by
          cases h : t.edited with
          | false => rfl
          | true => exact absurd rfl (t5.1 h)
        have hns : now = t.start := by cases t4; rfl
        refine ⟨{ s with level := s.level - 1, trans := none }, by simp only [addAll, bind, Except.bind, pure, Except.pure], ?_⟩
        have hh : Hist.commit ⟨fresh, base, now, past, future, start, some t⟩ = ⟨fresh, base, now, past, future, start, none⟩ := by
          simp only [Hist.commit, hl, if_true, he, Bool.false_eq_true, if_false]
        rw [hh]
        refine ⟨i.valid, i.cells, fun o => ?_, i.low, ⟨rfl, by (try simp only); omega⟩, ?_, i.opn, i.emp, ?_, ?_⟩
        · have := i.bal o
          simp only [held_changes, t1, Option.getD_some, Option.getD_none] at this ⊢
          exact this
        · have := i.cur; simp only [anchor, stepStart, ← hns] at this ⊢; exact this
        · have := i.und; simp only [anchor, stepStart, ← hns] at this ⊢; exact this
        · have := i.red; simp only [anchor, ← hns] at this ⊢; exact this
      · have he : t.edited = true := t5.2 hc
        obtain ⟨c2, g1, g2, g3⟩ := addAll_ok cs { s with level := s.level - 1 } (by (try simp only); omega) (fun o => by
          have := i.held_le o
          rw [held_changes] at this
          (try simp only)
          omega) hc
        refine ⟨{ s with cnt := c2, current := s.current ++ cs, redoStack := [], isOpen := true, level := s.level - 1, trans := none }, ?_, ?_⟩
        · simp only [t1] at g1
          simp only [g1, bind, Except.bind, pure, Except.pure]
        · have hh : Hist.commit ⟨fresh, base, now, past, future, start, some t⟩ = ⟨fresh, base, now, past, [], some (start.getD t.start), none⟩ := by
            simp only [Hist.commit, hl, if_true, he]
          rw [hh]
          refine ⟨i.valid, i.cells, fun o => ?_, fun o ho => g2 _ (i.low o ho), ⟨rfl, by (try simp only); omega⟩, ?_, rfl, iff_of_false (by simp [hc]) (by simp), i.und, .nil _⟩
          · have := i.bal o
            simp only [held_changes, t1, Option.getD_some, Option.getD_none, heldBy_append, List.flatten_nil, heldBy_nil] at this ⊢
            rw [g3 o, this]; ring
          · simp only [List.reverse_append]
            exact t4.append i.cur
    · rw [if_neg (by omega)]
      refine ⟨{ s with level := s.level - 1 }, rfl, ?_⟩
      have hh : Hist.commit ⟨fresh, base, now, past, future, start, some t⟩ = ⟨fresh, base, now, past, future, start, some { t with level := t.level - 1 }⟩ := by
        simp only [Hist.commit, hl, if_false]
      rw [hh]
      exact ⟨i.valid, i.cells, i.bal, i.low, ⟨cs, t1, by (try simp only); omega, by (try simp only); omega, t4, t5⟩, i.cur, i.opn, i.emp, i.und, i.red⟩

theorem rollback_ok {s : State} {h : Hist} (i : Inv s h) : ∃ s', rollback s = .ok s' ∧ Inv s' h.rollback := by
  obtain ⟨fresh, base, now, past, future, start, tr⟩ := h
  obtain ⟨cnt, cells, isOpen, current, undoStack, redoStack, level, trans⟩ := s
  cases tr with
  | none =>
    obtain ⟨t1, t2⟩ := i.tr
    exact ⟨_, if_pos t2, i⟩
  | some t =>
    obtain ⟨cs, t1, t2, t3, t4, t5⟩ := i.tr
    have hcells := i.cells
    (try simp only at t1 t2 t3 hcells)
    subst hcells t1
    unfold rollback
    rw [if_neg (by (try simp only); omega)]
    by_cases hl : t.level = 1
    · rw [if_pos (by (try simp only); omega)]
      have b := i.bal
      obtain ⟨cs', cnt', h1, h2, h3, h4, h5⟩ := swapBack_ok (cnt := cnt) (base := base)
        (H := fun o => heldBy current o + heldBy undoStack.flatten o + heldBy redoStack.flatten o) t4
        (fun o => by (try simp only); omega)
        (fun o => by
          have := b o
          simp only [held_changes, Option.getD_some] at this
          rw [this])
      obtain ⟨c3, d1, d2, d3⟩ := destroyStep_ok cs' cnt' (fun o => by
        have k1 := h4 o
        have k2 := t4.vy o
        (try simp only at k1)
        omega)
      refine ⟨⟨c3, t.start.cells, isOpen, current, undoStack, redoStack, level - 1, none⟩, ?_, ?_⟩
      · simp only [h1, d1, bind, Except.bind, pure, Except.pure]
      · have hh : Hist.rollback ⟨fresh, base, now, past, future, start, some t⟩ = ⟨fresh, base, t.start, past, future, start, none⟩ := by
          simp only [Hist.rollback, hl, if_true]
        rw [hh]
        refine ⟨t4.vy, rfl, fun o => ?_, fun o ho => d2 _ (h3 _ (i.low o ho)), ⟨rfl, by (try simp only); omega⟩, i.cur, i.opn, i.emp, i.und, i.red⟩
        have := h4 o
        simp only [held_changes, Option.getD_none, heldBy_nil] at this ⊢
        rw [d3, this]; ring
    · rw [if_neg (by (try simp only); omega)]
      refine ⟨_, rfl, ?_⟩
      have hh : Hist.rollback ⟨fresh, base, now, past, future, start, some t⟩ = ⟨fresh, base, now, past, future, start, some { t with level := t.level - 1 }⟩ := by
        simp only [Hist.rollback, hl, if_false]
      rw [hh]
      exact ⟨i.valid, rfl, i.bal, i.low, ⟨cs, rfl, by (try simp only); omega, by (try simp only); omega, t4, t5⟩, i.cur, i.opn, i.emp, i.und, i.red⟩

/-- one action -/
theorem step_ok {s : State} {h : Hist} (i : Inv s h) (a : Act) (ha : h.allowed a) :
    ∃ s', exec h.fresh s a = .ok ((h.step a).1.fresh, s', (h.step a).2) ∧ Inv s' (h.step a).1 := by
  have hf : ∀ b, (h.edit b).fresh = h.fresh := fun b => by unfold Hist.edit; split <;> rfl
  cases a with
  | create => exact create_ok i
  | keep o => exact keep_ok i _ o ha
  | drop o => exact drop_ok i _ o ha
  | adopt o => exact ⟨s, rfl, adopt_inv i o ha⟩
  | setRef w c v => have := setRef_ok i h.fresh w c v ha; simp only [Hist.step, hf] at this ⊢; exact this
  | retain o => have := retain_act_ok i h.fresh o ha; simp only [Hist.step, hf] at this ⊢; exact this
  | release o => have := release_act_ok i h.fresh o ha; simp only [Hist.step, hf] at this ⊢; exact this
  | other o => have := other_act_ok i h.fresh o ha; simp only [Hist.step, hf] at this ⊢; exact this
  | undo =>
    have := undo_ok i h.fresh ha
    have e : (h.step .undo).1.fresh = h.fresh := by simp only [Hist.step]; split <;> rfl
    rw [e]; exact this
  | redo =>
    have := redo_ok i h.fresh ha
    have e : (h.step .redo).1.fresh = h.fresh := by simp only [Hist.step]; split <;> rfl
    rw [e]; exact this
  | close =>
    refine ⟨close s, ?_, close_inv i⟩
    have e : (h.step .close).1.fresh = h.fresh ∧ (h.step .close).2 = true := by
      simp only [Hist.step]; cases h.start <;> exact ⟨rfl, rfl⟩
    rw [e.1, e.2]; rfl
  | clearUndo =>
    obtain ⟨s', h1, h2, _⟩ := clearUndo_ok i
    exact ⟨s', by simp only [exec, h1, bind, Except.bind, pure, Except.pure, Hist.step], h2⟩
  | clearRedo =>
    obtain ⟨s', h1, h2, _⟩ := clearRedo_ok i
    exact ⟨s', by simp only [exec, h1, bind, Except.bind, pure, Except.pure, Hist.step], h2⟩
  | «begin» =>
    refine ⟨openTransaction s, ?_, begin_inv i⟩
    have e : (h.step .begin).1.fresh = h.fresh ∧ (h.step .begin).2 = true := by
      simp only [Hist.step]; cases h.tr <;> exact ⟨rfl, rfl⟩
    rw [e.1, e.2]; rfl
  | commit =>
    obtain ⟨s', h1, h2⟩ := commit_ok i
    refine ⟨s', ?_, h2⟩
    have e : (h.step .commit).1.fresh = h.fresh := by
      simp only [Hist.step, Hist.commit]
      cases h.tr with
      | none => rfl
      | some t => (try simp only); split <;> first | rfl | (split <;> rfl)
    rw [e]
    simp only [exec, h1, bind, Except.bind, pure, Except.pure, Hist.step]
  | rollback =>
    obtain ⟨s', h1, h2⟩ := rollback_ok i
    refine ⟨s', ?_, h2⟩
    have e : (h.step .rollback).1.fresh = h.fresh := by
      simp only [Hist.step, Hist.rollback]
      cases h.tr with
      | none => rfl
      | some t => (try simp only); split <;> rfl
    rw [e]
    simp only [exec, h1, bind, Except.bind, pure, Except.pure, Hist.step]

theorem run_ok (as : List Act) : ∀ {s : State} {h : Hist}, Inv s h → Legal h as →
    ∃ s', execAll h.fresh s as = .ok ((h.run as).1.fresh, s', (h.run as).2) ∧ Inv s' (h.run as).1 := by
  induction as with
  | nil => intro s h i _; exact ⟨s, rfl, i⟩
  | cons a as ih =>
    intro s h i hl
    obtain ⟨s1, h1, i1⟩ := step_ok i a hl.1
    obtain ⟨s2, h2, i2⟩ := ih i1 hl.2
    refine ⟨s2, ?_, i2⟩
    simp only [execAll, h1, h2, bind, Except.bind, pure, Except.pure, Hist.run]

end Verif.UndoRef
