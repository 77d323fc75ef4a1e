import Verif.LinkedList.History
namespace Verif.LinkedList
open Verif Verif.Undo

theorem rel_close {brk : Nat} {h : Undo.Spec.Hist Nat} {h' : Spec.Hist} (r : RelH brk h h') : RelH brk h.close h'.close := by
  obtain ⟨p, c, f, st, tr, x⟩ := h
  obtain ⟨p', c', f', st', tr', x'⟩ := h'
  obtain ⟨r1, r2, r3, r4, r5, r6⟩ := r
  cases r4 with
  | none => exact ⟨r1, r2, r3, .none, r5, r6⟩
  | some r4 => exact ⟨r1, .cons r4 r2, r3, .none, r5, r6⟩

theorem rel_commit {brk : Nat} {h : Undo.Spec.Hist Nat} {h' : Spec.Hist} (r : RelH brk h h') : RelH brk h.commit h'.commit := by
  obtain ⟨p, c, f, st, tr, x⟩ := h
  obtain ⟨p', c', f', st', tr', x'⟩ := h'
  obtain ⟨r1, r2, r3, r4, r5, r6⟩ := r
  simp only at r1 r2 r3 r4 r5 r6
  cases r5 with
  | none => exact ⟨r1, r2, r3, r4, .none, r6⟩
  | @some t t' rt =>
    obtain ⟨l, b, d⟩ := t
    obtain ⟨l', b', d'⟩ := t'
    obtain ⟨k1, k2, k3⟩ := rt
    simp only at k1 k2 k3
    subst k1 k3
    simp only [Undo.Spec.Hist.commit, Spec.Hist.commit]
    by_cases hl : l = 1
    · rw [if_pos hl, if_pos hl]
      cases d with
      | false => exact ⟨r1, r2, r3, r4, .none, rfl⟩
      | true =>
        refine ⟨r1, r2, .nil, .some ?_, .none, rfl⟩
        cases r4 with
        | none => exact k2
        | some r4 => exact r4
    · rw [if_neg hl, if_neg hl]
      exact ⟨r1, r2, r3, r4, .some ⟨rfl, k2, rfl⟩, r6⟩

theorem rel_rollback {brk : Nat} {h : Undo.Spec.Hist Nat} {h' : Spec.Hist} (r : RelH brk h h') : RelH brk h.rollback h'.rollback := by
  obtain ⟨p, c, f, st, tr, x⟩ := h
  obtain ⟨p', c', f', st', tr', x'⟩ := h'
  obtain ⟨r1, r2, r3, r4, r5, r6⟩ := r
  simp only at r1 r2 r3 r4 r5 r6
  cases r5 with
  | none => exact ⟨r1, r2, r3, r4, .none, r6⟩
  | @some t t' rt =>
    obtain ⟨l, b, d⟩ := t
    obtain ⟨l', b', d'⟩ := t'
    obtain ⟨k1, k2, k3⟩ := rt
    simp only at k1 k2 k3
    subst k1 k3
    simp only [Undo.Spec.Hist.rollback, Spec.Hist.rollback]
    by_cases hl : l = 1
    · rw [if_pos hl, if_pos hl]
      exact ⟨k2, r2, r3, r4, .none, rfl⟩
    · rw [if_neg hl, if_neg hl]
      exact ⟨r1, r2, r3, r4, .some ⟨rfl, k2, rfl⟩, r6⟩

/-- the call of the undo manager behind a call of the program -/
def mgr : Spec.Act → Option (Undo.Spec.Act Nat)
  | .op _ => none
  | .close => some .close
  | .undo => some .undo
  | .redo => some .redo
  | .clearStacks => some .clearStacks
  | .clearUndo => some .clearUndo
  | .clearRedo => some .clearRedo
  | .openT => some .openT
  | .closeT => some .closeT
  | .commit => some .commit
  | .rollback => some .rollback
  | .status st => some (.status st)

theorem rel_step {brk : Nat} {h : Undo.Spec.Hist Nat} {h' : Spec.Hist} (r : RelH brk h h') (a : Spec.Act) (b : Undo.Spec.Act Nat) (hb : mgr a = some b) :
    RelH brk (h.step b).1 (h'.step a).1 ∧ Spec.outOf (h.step b).2 = (h'.step a).2 := by
  cases a <;> simp only [mgr, Option.some.injEq, reduceCtorEq] at hb <;> subst hb
  case close => exact ⟨rel_close r, rfl⟩
  case undo =>
    obtain ⟨p, c, f, st, tr, x⟩ := h
    obtain ⟨p', c', f', st', tr', x'⟩ := h'
    obtain ⟨r1, r2, r3, r4, r5, r6⟩ := r
    simp only at r1 r2 r3 r4 r5 r6
    cases r4 with
    | some r4 => exact ⟨⟨r1, r2, r3, .some r4, r5, r6⟩, rfl⟩
    | none =>
      cases r2 with
      | nil => exact ⟨⟨r1, .nil, r3, .none, r5, r6⟩, rfl⟩
      | cons q r2 => exact ⟨⟨q, r2, .cons r1 r3, .none, r5, r6⟩, rfl⟩
  case redo =>
    obtain ⟨p, c, f, st, tr, x⟩ := h
    obtain ⟨p', c', f', st', tr', x'⟩ := h'
    obtain ⟨r1, r2, r3, r4, r5, r6⟩ := r
    simp only at r1 r2 r3 r4 r5 r6
    cases r4 with
    | some r4 => exact ⟨⟨r1, r2, r3, .some r4, r5, r6⟩, rfl⟩
    | none =>
      cases r3 with
      | nil => exact ⟨⟨r1, r2, .nil, .none, r5, r6⟩, rfl⟩
      | cons q r3 => exact ⟨⟨q, .cons r1 r2, r3, .none, r5, r6⟩, rfl⟩
  case clearStacks =>
    have q := rel_close r
    exact ⟨⟨q.cur, .nil, .nil, q.start, q.tr, q.status⟩, rfl⟩
  case clearUndo => exact ⟨⟨r.cur, .nil, r.future, r.start, r.tr, r.status⟩, rfl⟩
  case clearRedo => exact ⟨⟨r.cur, r.past, .nil, r.start, r.tr, r.status⟩, rfl⟩
  case openT =>
    obtain ⟨p, c, f, st, tr, x⟩ := h
    obtain ⟨p', c', f', st', tr', x'⟩ := h'
    obtain ⟨r1, r2, r3, r4, r5, r6⟩ := r
    simp only at r1 r2 r3 r4 r5 r6
    cases r5 with
    | none => exact ⟨⟨r1, r2, r3, r4, .some ⟨rfl, r1, rfl⟩, rfl⟩, rfl⟩
    | some rt => exact ⟨⟨r1, r2, r3, r4, .some ⟨congrArg (· + 1) rt.level, rt.before, rt.dirty⟩, r6⟩, rfl⟩
  case closeT =>
    simp only [Undo.Spec.Hist.step, Spec.Hist.step, Spec.outOf, r.status, and_true]
    split
    · exact rel_commit r
    · exact rel_rollback r
  case commit => exact ⟨rel_commit r, rfl⟩
  case rollback => exact ⟨rel_rollback r, rfl⟩
  case status st =>
    simp only [Undo.Spec.Hist.step, Spec.Hist.step, Spec.outOf, and_true]
    split
    · exact ⟨r.cur, r.past, r.future, r.start, r.tr, rfl⟩
    · exact r

theorem exec_ok {s : S} {hm : Undo.Spec.Hist Nat} {hl : Spec.Hist} (i : HInv s hm hl) (a : Spec.Act)
    (hlg : match a with
      | .undo | .redo => hl.tr = none
      | _ => True) (hlen : hl.cur.length < 2 ^ 32) :
    ∃ s' hm', Spec.exec s a = .ok (s', (hl.step a).2) ∧ HInv s' hm' (hl.step a).1 := by
  cases hb : mgr a with
  | none =>
    cases a <;> simp only [mgr, reduceCtorEq] at hb
    rename_i o
    exact op_ok i o hlen
  | some b =>
    have ht : hl.tr = none → hm.tr = none := by
      intro h
      have := i.rel.tr
      rw [h] at this
      cases h2 : hm.tr with
      | none => rfl
      | some t => rw [h2] at this; cases this
    obtain ⟨u', k1, k2⟩ := step_ok i.inv b (by
      cases a <;> simp only [mgr, Option.some.injEq, reduceCtorEq] at hb <;> subst hb <;> first | trivial | exact ht hlg)
    obtain ⟨q1, q2⟩ := rel_step i.rel a b hb
    have hx : Spec.exec s a = Spec.execU s b := by
      cases a <;> simp only [mgr, Option.some.injEq, reduceCtorEq] at hb <;> subst hb <;> rfl
    refine ⟨{ s with u := u' }, _, ?_, k2, q1, i.um, i.dead⟩
    rw [hx]
    simp only [Spec.execU, k1, bind, Except.bind, pure, Except.pure, q2]

theorem execAll_ok (as : List Spec.Act) : ∀ (s : S) (hm : Undo.Spec.Hist Nat) (hl : Spec.Hist), HInv s hm hl → Spec.Legal as hl →
    ∃ s' hm', Spec.execAll as s = .ok (s', (Spec.Hist.run as hl).2) ∧ HInv s' hm' (Spec.Hist.run as hl).1 := by
  induction as with
  | nil => intro s hm hl i _; exact ⟨s, hm, rfl, i⟩
  | cons a as ih =>
    intro s hm hl i hlg
    obtain ⟨l1, l2, l3⟩ := hlg
    obtain ⟨s1, hm1, e1, e2⟩ := exec_ok i a (by cases a <;> first | trivial | exact l1) l2
    obtain ⟨s2, hm2, f1, f2⟩ := ih s1 hm1 _ e2 l3
    refine ⟨s2, hm2, ?_, f2⟩
    simp only [Spec.execAll, e1, f1, bind, Except.bind, pure, Except.pure, Spec.Hist.run]

theorem hinv_new : HInv (S.new true) (Undo.Spec.Hist.new (fun _ => 0)) Spec.Hist.new :=
  ⟨inv_new _ _ _, ⟨⟨[], repM_empty, rfl⟩, .nil, .nil, .none, .none, rfl⟩, rfl, fun _ => rfl⟩

end Verif.LinkedList
