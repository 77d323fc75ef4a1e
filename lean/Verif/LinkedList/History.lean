import Verif.LinkedList.Ops4
import Verif.Undo.Refine
/-
Histories: without an undo manager, and with an undo manager.
-/
namespace Verif.LinkedList
open Verif Verif.Undo
open Verif.Undo.Spec (Edit registerAll storeAll)

theorem sinv_new (um : Bool) : SInv (S.new um) [] :=
  ⟨repM_empty, fun _ => ⟨rfl, fun h => absurd (show 0 < 0 from h) (by decide)⟩, fun _ _ => rfl, fun _ e h8 h3 he => absurd (show e < 8 from he) (by omega), fun _ _ => rfl⟩

theorem step_len (um : Bool) (xs : List Nat) (o : Spec.Op) : (Spec.step um xs o).1.length ≤ xs.length + 1 := by
  have hi : ∀ t d (xs : List Nat), (Spec.insertBefore t d xs).length ≤ xs.length + 1 := by
    intro t d xs
    induction xs with
    | nil => simp [Spec.insertBefore]
    | cons x xs ih => simp only [Spec.insertBefore]; split <;> simp <;> omega
  cases o with
  | addBefore t d => exact hi t d xs
  | remove d =>
    simp only [Spec.step]
    split
    · have := List.length_erase_le (a := d) (l := xs); simp only; omega
    · simp
  | swap a b =>
    simp only [Spec.step, Spec.swapped]
    split
    · split <;> simp
    · simp
  | _ => simp [Spec.step]

theorem execOps_ok (os : List Spec.Op) : ∀ (s : S) (ns : List (Nat × Nat)), SInv s ns → ns.length + os.length < 2 ^ 32 + 1 →
    ∃ s' ns', Spec.execOps os s = .ok (s', (Spec.run s.um os (ns.map Prod.snd)).2) ∧ SInv s' ns' ∧
      ns'.map Prod.snd = (Spec.run s.um os (ns.map Prod.snd)).1 ∧ s'.um = s.um := by
  induction os with
  | nil => intro s ns i _; exact ⟨s, ns, rfl, i, rfl, rfl⟩
  | cons o os ih =>
    intro s ns i hl
    simp only [List.length_cons] at hl
    obtain ⟨s1, ns1, e1, e2, e3, e4, _, _⟩ := execOp_ok i (by omega) o
    have hlen : ns1.length ≤ ns.length + 1 := by
      have := step_len s.um (ns.map Prod.snd) o
      rw [← e3] at this
      simpa using this
    obtain ⟨s2, ns2, f1, f2, f3, f4⟩ := ih s1 ns1 e2 (by omega)
    rw [e4, e3] at f1 f3
    refine ⟨s2, ns2, ?_, f2, ?_, f4.trans e4⟩
    · simp only [Spec.execOps, e1, f1, bind, Except.bind, pure, Except.pure, Spec.run]
    · simp only [Spec.run]; exact f3

/-! ### With an undo manager -/

/-- in this memory, the list holds these objects -/
def Repr (brk : Nat) (m : Mem Nat) (xs : List Nat) : Prop := ∃ ns, RepM brk m ns ∧ ns.map Prod.snd = xs

theorem Repr.mono {brk brk' : Nat} {m : Mem Nat} {xs : List Nat} (h : Repr brk m xs) (hb : brk ≤ brk') (hk : brk' % 3 = 2) : Repr brk' m xs := by
  obtain ⟨ns, h1, h2⟩ := h
  exact ⟨ns, h1.mono hb hk, h2⟩

inductive All2 {α β : Type} (R : α → β → Prop) : List α → List β → Prop
  | nil : All2 R [] []
  | cons {a b as bs} : R a b → All2 R as bs → All2 R (a :: as) (b :: bs)

theorem All2.imp {α β : Type} {R S : α → β → Prop} (f : ∀ a b, R a b → S a b) {as : List α} {bs : List β} (h : All2 R as bs) : All2 S as bs := by
  induction h with
  | nil => exact .nil
  | cons h _ ih => exact .cons (f _ _ h) ih

inductive Opt2 {α β : Type} (R : α → β → Prop) : Option α → Option β → Prop
  | none : Opt2 R none none
  | some {a b} : R a b → Opt2 R (some a) (some b)

theorem Opt2.imp {α β : Type} {R S : α → β → Prop} (f : ∀ a b, R a b → S a b) {as : Option α} {bs : Option β} (h : Opt2 R as bs) : Opt2 S as bs := by
  cases h with
  | none => exact .none
  | some h => exact .some (f _ _ h)

structure RelTr (brk : Nat) (t : Undo.Spec.Tr Nat) (t' : Spec.Tr) : Prop where
  level : t.level = t'.level
  before : Repr brk t.before t'.before
  dirty : t.dirty = t'.dirty

structure RelH (brk : Nat) (h : Undo.Spec.Hist Nat) (h' : Spec.Hist) : Prop where
  cur : Repr brk h.cur h'.cur
  past : All2 (Repr brk) h.past h'.past
  future : All2 (Repr brk) h.future h'.future
  start : Opt2 (Repr brk) h.start h'.start
  tr : Opt2 (RelTr brk) h.tr h'.tr
  status : h.status = h'.status

theorem RelH.mono {brk brk' : Nat} {h : Undo.Spec.Hist Nat} {h' : Spec.Hist} (r : RelH brk h h') (hb : brk ≤ brk') (hk : brk' % 3 = 2) : RelH brk' h h' :=
  ⟨r.cur.mono hb hk, r.past.imp (fun _ _ x => x.mono hb hk), r.future.imp (fun _ _ x => x.mono hb hk), r.start.imp (fun _ _ x => x.mono hb hk),
    r.tr.imp (fun _ _ x => ⟨x.level, x.before.mono hb hk, x.dirty⟩), r.status⟩

/-- several edits seen as one -/
def editTo (h : Undo.Spec.Hist Nat) (m : Mem Nat) : Undo.Spec.Hist Nat :=
  match h.tr with
  | some t => { h with cur := m, tr := some { t with dirty := true } }
  | none => { h with cur := m, start := some (h.start.getD h.cur), future := [] }

theorem editTo_editTo (h : Undo.Spec.Hist Nat) (m m' : Mem Nat) : editTo (editTo h m) m' = editTo h m' := by
  obtain ⟨p, c, f, st, tr, x⟩ := h
  cases tr <;> simp [editTo]

theorem editTo_cur (h : Undo.Spec.Hist Nat) (m : Mem Nat) : (editTo h m).cur = m := by
  obtain ⟨p, c, f, st, tr, x⟩ := h
  cases tr <;> simp [editTo]

theorem run_edits (es : List (Edit Nat)) : ∀ (s s' : State Nat) (h : Undo.Spec.Hist Nat) (outs : List Undo.Spec.Out), Inv s h →
    (∀ e ∈ es, e.Disciplined ∧ e.regs ≠ []) → Undo.Spec.execAll (es.map .edit) s = .ok (s', outs) →
    Inv s' (if es.any (fun _ => true) then editTo h s'.mem else h) ∧ (es = [] → s' = s) := by
  induction es with
  | nil =>
    intro s s' h outs i _ he
    simp only [List.map_nil, Undo.Spec.execAll, Except.ok.injEq, Prod.mk.injEq] at he
    obtain ⟨rfl, _⟩ := he
    exact ⟨i, fun _ => rfl⟩
  | cons e es ih =>
    intro s s' h outs i hd he
    obtain ⟨d1, d2⟩ := hd e (List.mem_cons_self ..)
    obtain ⟨s1, e1, e2⟩ := edit_ok i e d1
    have hstep : (h.step (.edit e)).1 = editTo h (Undo.Spec.assign h.cur e.stores) := by
      simp only [Undo.Spec.Hist.step, if_neg d2, editTo]
      cases h.tr <;> rfl
    rw [hstep] at e2
    simp only [List.map_cons, Undo.Spec.execAll, e1, bind, Except.bind, pure, Except.pure] at he
    cases hr : Undo.Spec.execAll (es.map .edit) s1 with
    | error err => rw [hr] at he; cases he
    | ok z =>
      rw [hr] at he
      simp only [Except.ok.injEq, Prod.mk.injEq] at he
      obtain ⟨rfl, _⟩ := he
      obtain ⟨k1, k2⟩ := ih s1 z.1 _ z.2 e2 (fun x hx => hd x (List.mem_cons_of_mem _ hx)) hr
      refine ⟨?_, by simp⟩
      simp only [List.any_cons, Bool.true_or, if_true]
      rw [editTo_editTo] at k1
      cases es with
      | nil =>
        simp only [List.any_nil, Bool.false_eq_true, if_false] at k1
        have hm := k1.mem
        rw [editTo_cur] at hm
        rw [hm]; exact k1
      | cons y ys => simpa using k1

structure HInv (s : S) (hm : Undo.Spec.Hist Nat) (hl : Spec.Hist) : Prop where
  inv : Inv s.u hm
  rel : RelH s.brk hm hl
  um : s.um = true
  dead : ∀ a, s.dead a = false

theorem HInv.sinv {s : S} {hm : Undo.Spec.Hist Nat} {hl : Spec.Hist} (i : HInv s hm hl) : ∃ ns, SInv s ns ∧ ns.map Prod.snd = hl.cur := by
  obtain ⟨ns, h1, h2⟩ := i.rel.cur
  refine ⟨ns, ⟨by rw [i.inv.mem]; exact h1, ?_, fun _ => i.dead, (fun h => absurd (i.um.symm.trans h) (by decide)), fun e _ => i.dead e⟩, h2⟩
  intro _
  refine ⟨i.inv.active, ?_⟩
  intro hlv
  have ht := i.inv.tr
  unfold TrOk at ht
  cases htr : hm.tr with
  | none => rw [htr] at ht; simp only at ht; omega
  | some t =>
    rw [htr] at ht
    obtain ⟨_, _, cs, h3, _⟩ := ht
    rw [h3]; rfl

theorem op_ok {s : S} {hm : Undo.Spec.Hist Nat} {hl : Spec.Hist} (i : HInv s hm hl) (o : Spec.Op) (hlen : hl.cur.length < 2 ^ 32) :
    ∃ s' hm', Spec.execOp s o = .ok (s', (hl.step (.op o)).2) ∧ HInv s' hm' (hl.step (.op o)).1 := by
  obtain ⟨ns, si, hns⟩ := i.sinv
  obtain ⟨s', ns', e1, e2, e3, e4, e5, e6⟩ := execOp_ok si (by rw [← hns] at hlen; simpa using hlen) o
  rw [i.um, hns] at e1 e3
  rw [hns] at e6
  obtain ⟨es, t1, t2, t3⟩ := e6 i.um
  obtain ⟨k1, k2⟩ := run_edits es s.u s'.u hm _ i.inv t1 t3
  rw [← t2] at k1
  refine ⟨s', _, e1, k1, ?_, e4.trans i.um, e2.deadUm (e4.trans i.um)⟩
  have r := i.rel.mono e5 e2.rep.brkOk.2
  simp only [Spec.Hist.step]
  cases Spec.touches hl.cur o with
  | false => exact r
  | true =>
    simp only [if_true]
    have hc : Repr s'.brk s'.u.mem (Spec.step true hl.cur o).1 := ⟨ns', e2.rep, e3⟩
    unfold editTo Spec.Hist.edit
    have rt := r.tr
    cases h1 : hm.tr with
    | none =>
      rw [h1] at rt
      cases h2 : hl.tr with
      | some t => rw [h2] at rt; cases rt
      | none =>
        refine ⟨hc, r.past, .nil, ?_, by rw [h1, h2] at *; exact .none, r.status⟩
        refine .some ?_
        have rs := r.start
        cases h3 : hm.start <;> cases h4 : hl.start <;> rw [h3, h4] at rs <;> cases rs
        · exact r.cur
        · assumption
    | some t =>
      rw [h1] at rt
      cases h2 : hl.tr with
      | none => rw [h2] at rt; cases rt
      | some t' =>
        rw [h2] at rt
        cases rt with
        | some rt => exact ⟨hc, r.past, r.future, r.start, .some ⟨rt.level, rt.before, rfl⟩, r.status⟩

end Verif.LinkedList
