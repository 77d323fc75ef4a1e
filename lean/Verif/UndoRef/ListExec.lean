import Verif.UndoRef.ListSeg
/-
Registering several changes first and assigning afterwards is the same as registering and assigning one by one.
-/
namespace Verif.UndoRef
open Verif Verif.UndoRef.Spec

def withCells (s : State) (f : Cells) : State := { s with cells := f }

theorem destroySteps_withCells (s : State) (f : Cells) : clearRedoStack (withCells s f) = (clearRedoStack s).map (withCells · f) := by
  simp only [clearRedoStack, withCells, bind, Except.bind, pure, Except.pure]
  cases destroySteps s.cnt s.redoStack <;> rfl

theorem addChange_withCells (s : State) (f : Cells) (c : Change) : addChange (withCells s f) c = (addChange s c).map (withCells · f) := by
  unfold addChange
  rw [show (withCells s f).level = s.level from rfl, show (withCells s f).trans = s.trans from rfl]
  by_cases h : s.level > 0
  · rw [if_pos h, if_pos h]
    cases s.trans <;> rfl
  · rw [if_neg h, if_neg h]
    have h1 := destroySteps_withCells { s with current := s.current ++ [c] } f
    change (clearRedoStack (withCells { s with current := s.current ++ [c] } f)).bind _ = _
    rw [h1]
    cases clearRedoStack { s with current := s.current ++ [c] } <;> rfl

theorem addChange_cells {s t : State} {c : Change} (h : addChange s c = .ok t) : t.cells = s.cells := by
  have h1 := addChange_withCells s s.cells c
  rw [show withCells s s.cells = s from rfl, h] at h1
  simp only [Except.map, Except.ok.injEq] at h1
  rw [h1]; rfl

theorem registerRef_withCells (s : State) {f : Cells} (o : Obj) {c : Cell} (hf : f c = s.cells c) :
    registerRef (withCells s f) o c = (registerRef s o c).map (withCells · f) := by
  simp only [registerRef, mkRef, bind, Except.bind, pure, Except.pure]
  rw [show (withCells s f).cnt = s.cnt from rfl, show (withCells s f).cells c = s.cells c from hf]
  cases retain s.cnt o with
  | error e => rfl
  | ok c1 =>
    simp only
    cases touch c1 c.1 with
    | error e => rfl
    | ok u =>
      simp only
      cases retainOpt c1 (s.cells c) with
      | error e => rfl
      | ok c2 => exact addChange_withCells { s with cnt := c2 } f _

theorem registerOther_withCells (s : State) (f : Cells) (o : Obj) : registerOther (withCells s f) o = (registerOther s o).map (withCells · f) := by
  simp only [registerOther, mkOther, bind, Except.bind, pure, Except.pure]
  rw [show (withCells s f).cnt = s.cnt from rfl]
  cases retain s.cnt o with
  | error e => rfl
  | ok c1 => exact addChange_withCells { s with cnt := c1 } f _

theorem registerRel_withCells (s : State) (f : Cells) (o : Obj) (b : Bool) : registerRel (withCells s f) o b = (registerRel s o b).map (withCells · f) := by
  simp only [registerRel, mkRel, bind, Except.bind, pure, Except.pure]
  rw [show (withCells s f).cnt = s.cnt from rfl]
  cases retain s.cnt o with
  | error e => rfl
  | ok c1 => exact addChange_withCells { s with cnt := c1 } f _

theorem registerRef_cells {s t : State} {o : Obj} {c : Cell} (h : registerRef s o c = .ok t) : t.cells = s.cells := by
  have h1 := registerRef_withCells s (f := s.cells) o (c := c) rfl
  rw [show withCells s s.cells = s from rfl, h] at h1
  simp only [Except.map, Except.ok.injEq] at h1
  rw [h1]; rfl

theorem registerOther_cells {s t : State} {o : Obj} (h : registerOther s o = .ok t) : t.cells = s.cells := by
  have h1 := registerOther_withCells s s.cells o
  rw [show withCells s s.cells = s from rfl, h] at h1
  simp only [Except.map, Except.ok.injEq] at h1
  rw [h1]; rfl

theorem registerRel_cells {s t : State} {o : Obj} {b : Bool} (h : registerRel s o b = .ok t) : t.cells = s.cells := by
  have h1 := registerRel_withCells s s.cells o b
  rw [show withCells s s.cells = s from rfl, h] at h1
  simp only [Except.map, Except.ok.injEq] at h1
  rw [h1]; rfl

/-- a change of a pointer: for whom it is registered, which member, the new value -/
abbrev Write := Obj × Cell × Option Obj

/-- register all of them -/
def regs (s : State) : List Write → Res State
  | [] => .ok s
  | w :: ws => do
    let s ← registerRef s w.1 w.2.1
    regs s ws

/-- the pointers afterwards -/
def writes (f : Cells) : List Write → Cells
  | [] => f
  | w :: ws => writes (upd f w.2.1 w.2.2) ws

def acts (ws : List Write) : List Act := ws.map (fun w => .setRef w.1 w.2.1 w.2.2)

theorem regs_cells : ∀ {ws : List Write} {s t : State}, regs s ws = .ok t → t.cells = s.cells
  | [], s, t, h => by cases h; rfl
  | w :: ws, s, t, h => by
    simp only [regs, bind, Except.bind] at h
    cases h1 : registerRef s w.1 w.2.1 with
    | error e => rw [h1] at h; cases h
    | ok s1 =>
      rw [h1] at h
      rw [regs_cells h, registerRef_cells h1]

theorem regs_withCells (f : Cells) : ∀ {ws : List Write} {s : State}, (∀ w ∈ ws, f w.2.1 = s.cells w.2.1) →
    regs (withCells s f) ws = (regs s ws).map (withCells · f)
  | [], s, _ => rfl
  | w :: ws, s, h => by
    simp only [regs, bind, Except.bind]
    rw [registerRef_withCells s w.1 (h w (.head _))]
    cases h1 : registerRef s w.1 w.2.1 with
    | error e => rfl
    | ok s1 =>
      simp only [Except.map]
      exact regs_withCells f (fun x hx => by rw [registerRef_cells h1]; exact h x (.tail _ hx))

/-- the cells are different -/
abbrev Distinct (ws : List Write) : Prop := (ws.map (·.2.1)).Nodup

theorem exec_acts (n : Nat) : ∀ {ws : List Write} {s : State}, Distinct ws →
    execAll n s (acts ws) = (regs s ws).map (fun t => (n, withCells t (writes s.cells ws), List.replicate ws.length true))
  | [], s, _ => rfl
  | w :: ws, s, hd => by
    have hd := List.nodup_cons.1 hd
    simp only [acts, List.map_cons, execAll, exec, regs, bind, Except.bind, pure, Except.pure]
    cases h1 : registerRef s w.1 w.2.1 with
    | error e => rfl
    | ok s1 =>
      have hc := registerRef_cells h1
      simp only
      have ih := exec_acts n (ws := ws) (s := withCells s1 (upd s1.cells w.2.1 w.2.2)) hd.2
      rw [regs_withCells _ (fun x hx => upd_other _ _ _ (fun e => hd.1 (List.mem_map.2 ⟨x, hx, e⟩)))] at ih
      simp only [withCells, acts] at ih
      rw [ih]
      cases regs s1 ws with
      | error e => rfl
      | ok s2 =>
        simp only [Except.map, withCells, writes, hc, List.length_cons, List.replicate_succ]

theorem execAll_append (n : Nat) : ∀ (as bs : List Act) (s : State),
    execAll n s (as ++ bs) = (execAll n s as).bind (fun r => (execAll r.1 r.2.1 bs).map (fun q => (q.1, q.2.1, r.2.2 ++ q.2.2)))
  | [], bs, s => by
    simp only [List.nil_append, execAll, Except.bind]
    cases execAll n s bs <;> rfl
  | a :: as, bs, s => by
    simp only [List.cons_append, execAll, bind, Except.bind, pure, Except.pure]
    cases exec n s a with
    | error e => rfl
    | ok r =>
      simp only
      rw [execAll_append r.1 as bs r.2.1]
      cases execAll r.1 r.2.1 as with
      | error e => rfl
      | ok q =>
        simp only [Except.bind]
        cases execAll q.1 q.2.1 bs <;> rfl

/-! ### The history -/

theorem edit_edit (h : Hist) (a b : App) : (h.edit a).edit b = h.edit b := by
  obtain ⟨fresh, base, now, past, future, start, tr⟩ := h
  cases tr with
  | some t => rfl
  | none => cases start <;> rfl

theorem edit_now (h : Hist) (a : App) : (h.edit a).now = a := by
  obtain ⟨fresh, base, now, past, future, start, tr⟩ := h
  cases tr <;> rfl

theorem edit_base (h : Hist) (a : App) : (h.edit a).base = h.base ∧ (h.edit a).fresh = h.fresh := by
  obtain ⟨fresh, base, now, past, future, start, tr⟩ := h
  cases tr <;> exact ⟨rfl, rfl⟩

/-- all objects involved are backed by registered references -/
def Fine (refs : Obj → Int) (f : Cells) (w : Write) : Prop :=
  1 ≤ refs w.1 ∧ 1 ≤ refs w.2.1.1 ∧ (∀ v, f w.2.1 = some v → 1 ≤ refs v) ∧ ∀ v, w.2.2 = some v → 1 ≤ refs v

theorem legal_acts : ∀ {ws : List Write} {h : Hist} {as : List Act}, Distinct ws → (∀ w ∈ ws, Fine h.now.refs h.now.cells w) → ws ≠ [] →
    Legal (h.edit ⟨writes h.now.cells ws, h.now.refs⟩) as →
    Legal h (acts ws ++ as) ∧ (h.run (acts ws ++ as)).1 = ((h.edit ⟨writes h.now.cells ws, h.now.refs⟩).run as).1
  | [], _, _, _, _, h, _ => absurd rfl h
  | [w], h, as, _, hf, _, hl => by
    obtain ⟨f1, f2, f3, f4⟩ := hf w (.head _)
    exact ⟨⟨⟨by unfold Hist.own; omega, .inr f2, f3, f4⟩, hl⟩, rfl⟩
  | w :: w2 :: ws, h, as, hd, hf, _, hl => by
    have hd := List.nodup_cons.1 hd
    obtain ⟨f1, f2, f3, f4⟩ := hf w (.head _)
    have hn : (h.edit { h.now with cells := upd h.now.cells w.2.1 w.2.2 }).now = { h.now with cells := upd h.now.cells w.2.1 w.2.2 } := edit_now _ _
    have ih := legal_acts (ws := w2 :: ws) (h := h.edit { h.now with cells := upd h.now.cells w.2.1 w.2.2 }) (as := as) hd.2 (fun x hx => by
      obtain ⟨x1, x2, x3, x4⟩ := hf x (.tail _ hx)
      rw [hn]
      exact ⟨x1, x2, fun v hv => x3 v (by
        rw [← hv]
        exact (upd_other _ _ _ (fun e => hd.1 (List.mem_map.2 ⟨x, hx, e⟩))).symm), x4⟩) (List.cons_ne_nil _ _)
      (by rw [hn, edit_edit]; exact hl)
    rw [hn, edit_edit] at ih
    exact ⟨⟨⟨by unfold Hist.own; omega, .inr f2, f3, f4⟩, ih.1⟩, ih.2⟩

end Verif.UndoRef
