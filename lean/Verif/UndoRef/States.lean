import Verif.UndoRef.Refine
/-
What holds in every state of a history.
-/
namespace Verif.UndoRef
open Verif Verif.UndoRef.Spec

/-- the property holds in the present state and in all states undo, redo or rollback can lead to -/
structure All (P : App → Prop) (h : Hist) : Prop where
  now : P h.now
  past : ∀ a ∈ h.past, P a
  future : ∀ a ∈ h.future, P a
  start : ∀ a, h.start = some a → P a
  tr : ∀ t, h.tr = some t → P t.start

theorem All.edit {P : App → Prop} {h : Hist} (i : All P h) {a : App} (ha : P a) : All P (h.edit a) := by
  obtain ⟨fresh, base, now, past, future, start, tr⟩ := h
  cases tr with
  | some t => exact ⟨ha, i.past, i.future, i.start, fun t' e => (by cases e; exact i.tr t rfl)⟩
  | none =>
    refine ⟨ha, i.past, fun a e => (by cases e), fun b e => ?_, fun t e => (by cases e)⟩
    cases start with
    | none => cases e; exact i.now
    | some c => cases e; exact i.start c rfl

theorem All.adopt {P Q : App → Prop} {h : Hist} (i : All P h) (o : Obj) (hq : ∀ a, P a → Q (a.shift o)) : All Q (h.adopt o) := by
  obtain ⟨fresh, base, now, past, future, start, tr⟩ := h
  refine ⟨hq _ i.now, fun a e => ?_, fun a e => ?_, fun a e => ?_, fun t e => ?_⟩
  · obtain ⟨b, hb, rfl⟩ := List.mem_map.1 e; exact hq _ (i.past b hb)
  · obtain ⟨b, hb, rfl⟩ := List.mem_map.1 e; exact hq _ (i.future b hb)
  · cases start with
    | none => cases e
    | some b => cases e; exact hq _ (i.start b rfl)
  · cases tr with
    | none => cases e
    | some b => cases e; exact hq _ (i.tr b rfl)

theorem All.imp {P Q : App → Prop} {h : Hist} (i : All P h) (f : ∀ a, P a → Q a) : All Q h :=
  ⟨f _ i.now, fun a e => f a (i.past a e), fun a e => f a (i.future a e), fun a e => f a (i.start a e), fun t e => f _ (i.tr t e)⟩

theorem All.base {P : App → Prop} {h : Hist} (i : All P h) (n : Nat) (b : Obj → Nat) : All P { h with fresh := n, base := b } :=
  ⟨i.now, i.past, i.future, i.start, i.tr⟩

/-- the actions that only move through the history -/
def moves : Act → Bool
  | .undo | .redo | .close | .clearUndo | .clearRedo | .begin | .commit | .rollback => true
  | _ => false

theorem All.move {P : App → Prop} {h : Hist} (i : All P h) (a : Act) (ha : moves a = true) : All P (h.step a).1 := by
  obtain ⟨fresh, base, now, past, future, start, tr⟩ := h
  cases a with
  | undo =>
    cases start with
    | some _ => exact i
    | none =>
      cases past with
      | nil => exact i
      | cons p ps =>
        refine ⟨i.past p (.head _), fun a e => i.past a (.tail _ e), fun a e => ?_, fun a e => (by cases e), i.tr⟩
        rcases List.mem_cons.1 e with rfl | e
        · exact i.now
        · exact i.future a e
  | redo =>
    cases start with
    | some _ => exact i
    | none =>
      cases future with
      | nil => exact i
      | cons p ps =>
        refine ⟨i.future p (.head _), fun a e => ?_, fun a e => i.future a (.tail _ e), fun a e => (by cases e), i.tr⟩
        rcases List.mem_cons.1 e with rfl | e
        · exact i.now
        · exact i.past a e
  | close =>
    cases start with
    | none => exact i
    | some b =>
      refine ⟨i.now, fun a e => ?_, i.future, fun a e => (by cases e), i.tr⟩
      rcases List.mem_cons.1 e with rfl | e
      · exact i.start a rfl
      · exact i.past a e
  | clearUndo => exact ⟨i.now, fun a e => (by cases e), i.future, i.start, i.tr⟩
  | clearRedo => exact ⟨i.now, i.past, fun a e => (by cases e), i.start, i.tr⟩
  | «begin» =>
    cases tr with
    | none => exact ⟨i.now, i.past, i.future, i.start, fun t e => by cases e; exact i.now⟩
    | some t => exact ⟨i.now, i.past, i.future, i.start, fun t' e => (by cases e; exact i.tr t rfl)⟩
  | commit =>
    cases tr with
    | none => exact i
    | some t =>
      simp only [Hist.step, Hist.commit]
      split
      · split
        · refine ⟨i.now, i.past, fun a e => (by cases e), fun a e => ?_, fun t e => (by cases e)⟩
          cases start with
          | none => cases e; exact i.tr t rfl
          | some c => cases e; exact i.start c rfl
        · exact ⟨i.now, i.past, i.future, i.start, fun t e => (by cases e)⟩
      · exact ⟨i.now, i.past, i.future, i.start, fun t' e => (by cases e; exact i.tr t rfl)⟩
  | rollback =>
    cases tr with
    | none => exact i
    | some t =>
      simp only [Hist.step, Hist.rollback]
      split
      · exact ⟨i.tr t rfl, i.past, i.future, i.start, fun t e => (by cases e)⟩
      · exact ⟨i.now, i.past, i.future, i.start, fun t' e => (by cases e; exact i.tr t rfl)⟩
  | _ => cases ha

theorem shift_backed (o : Obj) (a : App) (b : a.Backed) : (a.shift o).Backed := fun c v e => le_trans (b c v e) (refs_le_shift a o v)

theorem backed_step {h : Hist} (i : All App.Backed h) (a : Act) (ha : h.allowed a) (hc : h.careful a) : All App.Backed (h.step a).1 := by
  cases a with
  | create => exact i.base _ _
  | keep o => exact i.base _ _
  | drop o => exact i.base _ _
  | adopt o => exact i.adopt o (shift_backed o)
  | setRef w c v =>
    obtain ⟨_, _, _, a4⟩ := ha
    refine i.edit (fun c' w e => ?_)
    by_cases ec : c' = c
    · subst ec
      simp only [upd_same] at e
      exact a4 w e
    · simp only [upd_other _ _ _ ec] at e
      exact i.now _ _ e
  | retain o => exact i.edit (shift_backed o _ i.now)
  | release o =>
    refine i.edit (fun c' w e => ?_)
    have h0 := i.now c' w e
    by_cases ew : w = o
    · subst ew
      simp only [upd_same]
      have h1 : ¬ h.now.refs w = 1 := fun h1 => hc h1 c' e
      omega
    · simp only [upd_other _ _ _ ew]; exact h0
  | other o => exact i.edit i.now
  | _ => exact i.move _ rfl

theorem backed_run (as : List Act) : ∀ {h : Hist}, All App.Backed h → Legal h as → Careful h as → All App.Backed (h.run as).1 := by
  induction as with
  | nil => intro h i _ _; exact i
  | cons a as ih => intro h i hl hc; exact ih (backed_step i a hl.1 hc.1) hl.2 hc.2

theorem backed_new : All App.Backed .new :=
  ⟨(fun _ _ e => by cases e), fun _ e => (by cases e), fun _ e => (by cases e), fun _ e => (by cases e), fun _ e => (by cases e)⟩

end Verif.UndoRef
