import Verif.UndoRef.ListSwap
/-
Every action on lists follows the specification: all actions.
-/
namespace Verif.UndoRef
open Verif Verif.UndoRef.Spec

variable {w : ListSpec.World} {s : State} {h : Hist}

theorem hedit_now {α : Type} (h : ListSpec.History α) (a : α) : (h.edit a).now = a := by
  unfold ListSpec.History.edit; split <;> rfl

theorem hedit_edit {α : Type} (h : ListSpec.History α) (a b : α) : (h.edit a).edit b = h.edit b := by
  obtain ⟨n, p, f, s, t⟩ := h
  cases t with
  | some t => rfl
  | none => cases s <;> rfl

/-! ### Other references to objects -/

/-- more or fewer references to an object that is neither a list nor an element -/
theorem R.setRefs {r : Roles} {p : ListSpec.Lists} {a : App} (i : R r p a) {o : Obj} {k : Int} (hr : o < r.n)
    (hk : p.refs o ≤ k ∨ (1 ≤ k ∨ ∀ l, ∀ x ∈ p.seq l, x.2 ≠ some o) ∧ r.isList o = false ∧ r.isElem o = false) :
    R r { p with refs := upd p.refs o k } { a with refs := upd a.refs o k } := by
  have hge : ∀ x, x ≠ o → upd p.refs o k x = p.refs x := fun x hx => upd_other _ _ _ hx
  refine ⟨by simp only [i.refs], i.start, i.last, i.seg, i.data, fun l x hx => ⟨?_, (i.alive l x hx).2⟩, fun l x hx d hd => ⟨?_, (i.backed l x hx d hd).2⟩, i.nodup, i.disj,
    fun l hl => ?_, i.none_, i.fresh, fun x hx => ?_⟩
  · have h1 := i.alive l x hx
    by_cases e : x.1 = o
    · simp only [e, upd_same]
      rcases hk with hk | ⟨_, _, hk⟩
      · rw [e] at h1; omega
      · rw [e, hk] at h1; cases h1.2
    · show 1 ≤ upd p.refs o k x.1; rw [hge _ e]; exact h1.1
  · have h1 := (i.backed l x hx d hd).1
    by_cases e : d = o
    · simp only [e, upd_same]
      rcases hk with hk | ⟨hk | hk, _⟩
      · rw [e] at h1; omega
      · exact hk
      · exact absurd (e ▸ hd) (hk l x hx)
    · show 1 ≤ upd p.refs o k _; rw [hge _ e]; exact h1
  · have h1 := i.lists l hl
    by_cases e : l = o
    · simp only [e, upd_same]
      rcases hk with hk | ⟨_, hk, _⟩
      · rw [e] at h1; omega
      · rw [e, hk] at hl; cases hl
    · show 1 ≤ upd p.refs o k _; rw [hge _ e]; exact h1
  · show upd p.refs o k x = 0; rw [hge _ (Nat.ne_of_gt (Nat.lt_of_lt_of_le hr hx))]
    exact i.low x hx

/-! ### clear -/

/-- a list without its elements -/
def cleared (w : ListSpec.World) (l : Obj) : List Item → ListSpec.World
  | [] => w
  | x :: xs => { w with hist := w.hist.edit ⟨upd w.hist.now.seq l [], ListSpec.dropRefs w.hist.now.refs (ids (x :: xs))⟩ }

theorem cleared_step (w : ListSpec.World) (l : Obj) (x : Item) (xs : List Item) : cleared (w.removeOne l x.1 xs) l xs = cleared w l (x :: xs) := by
  cases xs with
  | nil => rfl
  | cons y ys => simp only [cleared, ListSpec.World.removeOne, hedit_now, hedit_edit, upd_upd, ids, List.map_cons, ListSpec.dropRefs]

theorem removeAll_sim {l : Obj} : ∀ {xs : List Item} {w : ListSpec.World} {s : State} {h : Hist} {fuel : Nat}, Sim w s h → w.isList l = true → w.hist.now.seq l = xs →
    xs.length ≤ fuel → ∃ s' h', removeAll l fuel s = .ok s' ∧ Sim (cleared w l xs) s' h'
  | [], w, s, h, fuel, i, hl, hs, _ => by
    have h1 : s.cells (startCell l) = none := by rw [i.inv.cells, i.rels.now.start l hl, hs]; rfl
    refine ⟨s, h, ?_, i⟩
    cases fuel <;> simp only [removeAll, h1]
  | x :: xs, w, s, h, fuel, i, hl, hs, hf => by
    obtain ⟨k, rfl⟩ : ∃ k, fuel = k + 1 := ⟨fuel - 1, by simp only [List.length_cons] at hf; omega⟩
    have h1 : s.cells (startCell l) = some x.1 := by rw [i.inv.cells, i.rels.now.start l hl, hs]; rfl
    obtain ⟨s1, h1', e1, i1⟩ := remove_sim i hl (as := []) (bs := xs) (y := x) hs
    rw [List.nil_append] at i1
    obtain ⟨s2, h2, e2, i2⟩ := removeAll_sim (xs := xs) (fuel := k) i1 hl (by simp only [ListSpec.World.removeOne, hedit_now, upd_same])
      (by simp only [List.length_cons] at hf; omega)
    rw [cleared_step] at i2
    exact ⟨s2, h2, by simp only [removeAll, h1, e1, bind, Except.bind, e2], i2⟩

theorem clear_sim (i : Sim w s h) {l : Obj} (hl : w.isList l = true) :
    ∃ s' h', listClear s l w.n = .ok s' ∧ Sim (cleared w l (w.hist.now.seq l)) s' h' := by
  obtain ⟨s1, h1, e1, i1⟩ := removeAll_sim i hl rfl (i.length l)
  have hseq : (cleared w l (w.hist.now.seq l)).hist.now.seq l = [] := by
    cases e : w.hist.now.seq l with
    | nil => exact e
    | cons x xs => simp only [cleared, hedit_now, upd_same]
  have hl1 : (cleared w l (w.hist.now.seq l)).isList l = true := by
    cases w.hist.now.seq l <;> exact hl
  have h2 : s1.cells (startCell l) = none := by rw [i1.inv.cells, i1.rels.now.start l hl1, hseq]; rfl
  have h3 : s1.cells (endCell l) = none := by rw [i1.inv.cells, i1.rels.now.last l hl1, hseq]; rfl
  refine ⟨s1, h1, ?_, i1⟩
  have e2 : setCell (setCell s1 (startCell l) none) (endCell l) none = s1 := by
    have e3 : upd s1.cells (startCell l) none = s1.cells := by rw [← h2]; exact upd_self _ _
    have e4 : upd s1.cells (endCell l) none = s1.cells := by rw [← h3]; exact upd_self _ _
    simp only [setCell, e3, e4]
  simp only [listClear, i.touch (i.rels.now.lists l hl), bind, Except.bind, e1, pure, Except.pure, e2]

/-! ### All actions -/

theorem Sim.own (i : Sim w s h) (o : Obj) : h.own o = w.own o := by
  simp only [Hist.own, ListSpec.World.own, i.base, i.rels.now.refs]

/-- an object the application holds exists already -/
theorem Sim.lt_of_own (i : Sim w s h) {o : Obj} (ho : 1 ≤ w.own o) : o < w.n := by
  by_contra hn
  have h1 := i.inv.low o (by rw [i.n]; exact Nat.not_lt.1 hn)
  have h2 := i.inv.bal o
  have h3 := i.own o
  simp only [Hist.own] at h3
  simp only [h1] at h2
  omega

theorem Sim.valid (i : Sim w s h) (o : Obj) : 0 ≤ w.hist.now.refs o := by
  have := i.inv.valid o
  rw [i.rels.now.refs] at this
  exact this

theorem exec_move (n : Nat) (s : State) (m : ListSpec.Move) : ListSpec.exec n s (.move m) = exec n s (moveAct m) := by
  cases m with
  | undo => simp only [ListSpec.exec, ListSpec.execMove, exec, moveAct, bind, Except.bind]; cases UndoRef.undo s <;> rfl
  | redo => simp only [ListSpec.exec, ListSpec.execMove, exec, moveAct, bind, Except.bind]; cases UndoRef.redo s <;> rfl
  | close => rfl
  | clearUndo => simp only [ListSpec.exec, ListSpec.execMove, exec, moveAct, bind, Except.bind]; cases clearUndoStack s <;> rfl
  | clearRedo => simp only [ListSpec.exec, ListSpec.execMove, exec, moveAct, bind, Except.bind]; cases clearRedoStack s <;> rfl
  | «begin» => rfl
  | commit => simp only [ListSpec.exec, ListSpec.execMove, exec, moveAct, bind, Except.bind]; cases UndoRef.commit s <;> rfl
  | rollback => simp only [ListSpec.exec, ListSpec.execMove, exec, moveAct, bind, Except.bind]; cases UndoRef.rollback s <;> rfl

theorem move_base (h : Hist) (m : ListSpec.Move) : (h.step (moveAct m)).1.fresh = h.fresh ∧ (h.step (moveAct m)).1.base = h.base := by
  obtain ⟨fresh, base, now, past, future, start, tr⟩ := h
  cases m with
  | undo => cases start <;> cases past <;> exact ⟨rfl, rfl⟩
  | redo => cases start <;> cases future <;> exact ⟨rfl, rfl⟩
  | close => cases start <;> exact ⟨rfl, rfl⟩
  | clearUndo => exact ⟨rfl, rfl⟩
  | clearRedo => exact ⟨rfl, rfl⟩
  | «begin» => cases tr <;> exact ⟨rfl, rfl⟩
  | commit =>
    simp only [moveAct, Hist.step, Hist.commit]
    cases tr with
    | none => exact ⟨rfl, rfl⟩
    | some t => (try simp only); split <;> first | exact ⟨rfl, rfl⟩ | (split <;> exact ⟨rfl, rfl⟩)
  | rollback =>
    simp only [moveAct, Hist.step, Hist.rollback]
    cases tr with
    | none => exact ⟨rfl, rfl⟩
    | some t => (try simp only); split <;> exact ⟨rfl, rfl⟩

theorem move_sim (i : Sim w s h) (m : ListSpec.Move) (ha : w.allowed (.move m)) :
    ∃ s' h', ListSpec.exec w.n s (.move m) = .ok (w.n, s', (w.hist.move m).2) ∧ Sim { w with hist := (w.hist.move m).1 } s' h' := by
  have ht : w.hist.tr = none → h.tr = none := fun e => by
    have := i.rels.tr
    rw [e] at this
    generalize h.tr = x at this ⊢
    cases this
    rfl
  have hal : h.allowed (moveAct m) := by
    cases m with
    | undo => exact ht ha
    | redo => exact ht ha
    | _ => trivial
  obtain ⟨s', e1, i1⟩ := step_ok i.inv _ hal
  obtain ⟨b1, b2⟩ := move_base h m
  obtain ⟨r1, r2⟩ := i.rels.move m
  refine ⟨s', (h.step (moveAct m)).1, ?_, i1, b1.trans i.n, b2.trans i.base, i.ok, r1⟩
  rw [exec_move, r2, ← i.n, e1, b1]

theorem create_sim (i : Sim w s h) : ∃ s' h', ListSpec.exec w.n s .create = .ok (w.n + 1, s', true) ∧ Sim (w.step .create).1 s' h' := by
  obtain ⟨s', e1, i1⟩ := step_ok i.inv .create trivial
  refine ⟨s', (h.step .create).1, ?_, i1, ?_, ?_, ?_, ?_⟩
  · rw [← i.n]; exact e1
  · exact congrArg (· + 1) i.n
  · show upd h.base h.fresh 1 = upd w.base w.n 1
    rw [i.base, i.n]
  · exact ⟨fun o ho => Nat.lt_succ_of_lt (i.ok.listLt o ho), fun o ho => Nat.lt_succ_of_lt (i.ok.elemLt o ho), i.ok.apart⟩
  · exact (i.rels.imp (fun _ _ q => q.grow)).base _ _

theorem newList_sim (i : Sim w s h) : ∃ s' h', ListSpec.exec w.n s .newList = .ok (w.n + 1, s', true) ∧ Sim (w.step .newList).1 s' h' := by
  obtain ⟨s', e1, i1⟩ := run_ok [.create, .adopt h.fresh] i.inv ⟨trivial, (by show 1 ≤ upd h.base h.fresh 1 h.fresh; rw [upd_same]), trivial⟩
  have e2 : s' = fresh1 s h.fresh := by
    rw [exec_new] at e1
    simp only [execAll, Except.map, Except.ok.injEq, Prod.mk.injEq] at e1
    exact e1.2.1.symm
  refine ⟨s', _, ?_, i1, ?_, ?_, ?_, ?_⟩
  · rw [e2, i.n]; rfl
  · exact congrArg (· + 1) i.n
  · show upd (upd h.base h.fresh 1) h.fresh (upd h.base h.fresh 1 h.fresh - 1) = upd w.base w.n 0
    rw [upd_same, upd_upd, i.base, i.n]
  · refine ⟨fun o ho => ?_, fun o ho => Nat.lt_succ_of_lt (i.ok.elemLt o ho), fun o ho => ?_⟩
    · by_cases e : o = w.n
      · rw [e]; exact Nat.lt_succ_self _
      · have ho' : upd w.isList w.n true o = true := ho
        rw [upd_other _ _ _ e] at ho'
        exact Nat.lt_succ_of_lt (i.ok.listLt o ho')
    · by_cases e : o = w.n
      · show w.isElem o = false
        cases e2 : w.isElem o with
        | false => rfl
        | true => exact absurd (e ▸ i.ok.elemLt o e2) (Nat.lt_irrefl _)
      · have ho' : upd w.isList w.n true o = true := ho
        rw [upd_other _ _ _ e] at ho'
        exact i.ok.apart o ho'
  · show Rels _ (w.hist.map (ListSpec.Lists.shift w.n)) (Hist.adopt { h with fresh := h.fresh + 1, base := upd h.base h.fresh 1 } h.fresh)
    have hn := i.n
    rw [hn]
    exact (i.rels.base (w.n + 1) (upd h.base w.n 1)).adopt (fun b a q => q.newList i.ok)

/-- an action that only changes references -/
theorem simple_sim (i : Sim w s h) {a : Act} {b : ListSpec.Act} (ha : h.allowed a) (he : ∀ n s, ListSpec.exec n s b = exec n s a)
    (hf : (h.step a).1.fresh = h.fresh ∧ (w.step b).1.n = w.n) (hr : (w.step b).2 = (h.step a).2) (hb : (h.step a).1.base = (w.step b).1.base)
    (hw : roles (w.step b).1 = roles w) (hq : Rels (R (roles w)) (w.step b).1.hist (h.step a).1) :
    ∃ s' h', ListSpec.exec w.n s b = .ok ((w.step b).1.n, s', (w.step b).2) ∧ Sim (w.step b).1 s' h' := by
  obtain ⟨s', e1, i1⟩ := step_ok i.inv a ha
  refine ⟨s', _, ?_, i1, ?_, hb, ?_, ?_⟩
  · rw [he, hr, hf.2, ← i.n, e1, hf.1]
  · rw [hf.1, hf.2, i.n]
  · rw [hw]; exact i.ok
  · rw [hw]; exact hq

theorem step_sim (i : Sim w s h) (a : ListSpec.Act) (ha : w.allowed a) :
    ∃ s' h', ListSpec.exec w.n s a = .ok ((w.step a).1.n, s', (w.step a).2) ∧ Sim (w.step a).1 s' h' := by
  have hbase := i.base
  cases a with
  | create => exact create_sim i
  | newList => exact newList_sim i
  | keep o =>
    exact simple_sim i (a := .keep o) (by show 1 ≤ h.own o; rw [i.own]; exact ha) (fun _ _ => rfl) ⟨rfl, rfl⟩ rfl (by simp only [Hist.step, ListSpec.World.step, hbase]) rfl
      (i.rels.base _ _)
  | drop o =>
    exact simple_sim i (a := .drop o) (by show 1 ≤ h.base o; rw [hbase]; exact ha) (fun _ _ => rfl) ⟨rfl, rfl⟩ rfl (by simp only [Hist.step, ListSpec.World.step, hbase]) rfl
      (i.rels.base _ _)
  | adopt o =>
    have ho : o < w.n := i.lt_of_own (by
      have h1 : 1 ≤ w.base o := ha
      have := i.valid o
      unfold ListSpec.World.own
      omega)
    exact simple_sim i (a := .adopt o) (by show 1 ≤ h.base o; rw [hbase]; exact ha) (fun _ _ => rfl) ⟨rfl, rfl⟩ rfl
      (by simp only [Hist.step, Hist.adopt, ListSpec.World.step, hbase]) rfl (i.rels.adopt (fun b a q => q.shift ho))
  | retain o =>
    refine simple_sim i (a := .retain o) (by show 1 ≤ h.own o; rw [i.own]; exact ha) (fun _ _ => rfl) ⟨(edit_base _ _).2, rfl⟩ rfl ?_ rfl
      (i.rels.edit ?_)
    · simp only [Hist.step, ListSpec.World.step]; rw [(edit_base _ _).1, hbase]
    · have := i.rels.now.setRefs (o := o) (k := w.hist.now.refs o + 1) (i.lt_of_own ha) (.inl (by omega))
      rw [i.rels.now.refs] at this ⊢
      exact this
  | release o =>
    obtain ⟨a1, a2, a3, a4⟩ := ha
    refine simple_sim i (a := .release o) (by show 1 ≤ h.now.refs o; rw [i.rels.now.refs]; exact a1) (fun _ _ => rfl) ⟨(edit_base _ _).2, rfl⟩ rfl ?_ rfl
      (i.rels.edit ?_)
    · simp only [Hist.step, ListSpec.World.step]; rw [(edit_base _ _).1, hbase]
    · have := i.rels.now.setRefs (o := o) (k := w.hist.now.refs o - 1) (i.rels.now.lt a1) (.inr ⟨(by
        by_cases e : w.hist.now.refs o = 1
        · exact .inr (a4 e)
        · left; omega), a2, a3⟩)
      rw [i.rels.now.refs] at this ⊢
      exact this
  | other o =>
    refine simple_sim i (a := .other o) (by show 1 ≤ h.own o; rw [i.own]; exact ha) (fun _ _ => rfl) ⟨(edit_base _ _).2, rfl⟩ rfl ?_ rfl
      (i.rels.edit i.rels.now)
    simp only [Hist.step, ListSpec.World.step]; rw [(edit_base _ _).1, hbase]
  | add l d =>
    obtain ⟨s', h', e1, i1⟩ := add_sim i ha.1 ha.2
    exact ⟨s', h', by simp only [ListSpec.exec, e1, bind, Except.bind, pure, Except.pure]; rfl, i1⟩
  | addBefore l b d =>
    have ht := i.touch (i.rels.now.lists l ha.1)
    have hf := i.find ha.1 b
    cases hx : (w.hist.now.seq l).find? (fun x => decide (x.2 = b)) with
    | none =>
      have e2 : w.step (.addBefore l b d) = (w, false) := by simp only [ListSpec.World.step, (find_none hx).1]
      rw [e2]
      refine ⟨s, h, ?_, i⟩
      simp only [ListSpec.exec, listAddBefore, ht, hf, hx, bind, Except.bind, pure, Except.pure, Option.map_none, if_false]
      rfl
    | some y =>
      obtain ⟨as, bs, h1, _, h3⟩ := find_split hx
      obtain ⟨s', h', e1, i1⟩ := addBefore_sim i ha.1 ha.2 h1
      have e2 : w.step (.addBefore l b d) = (w.insert l (as ++ (w.n, d) :: y :: bs), true) := by simp only [ListSpec.World.step, (h3 (w.n, d)).1]
      rw [e2]
      refine ⟨s', h', ?_, i1⟩
      simp only [ListSpec.exec, listAddBefore, ht, hf, hx, bind, Except.bind, pure, Except.pure, Option.map_some]
      rw [new_cells (fun k => by rw [i.inv.cells]; exact i.rels.now.fresh _ (Nat.le_refl _))]
      simp only [bind, Except.bind] at e1
      revert e1
      cases registerRef (fresh1 s w.n) w.n (dataCell w.n) with
      | error e => intro e1; cases e1
      | ok s1 =>
        simp only
        cases registerAddBefore (setCell s1 (dataCell w.n) d) l y.1 w.n with
        | error e => intro e1; cases e1
        | ok s2 => intro e1; cases e1; rfl
  | remove l d =>
    have ht := i.touch (i.rels.now.lists l ha)
    have hf := i.find ha d
    cases hx : (w.hist.now.seq l).find? (fun x => decide (x.2 = d)) with
    | none =>
      have e2 : w.step (.remove l d) = (w, false) := by simp only [ListSpec.World.step, (find_none hx).2]
      rw [e2]
      refine ⟨s, h, ?_, i⟩
      simp only [ListSpec.exec, listRemoveData, ht, hf, hx, bind, Except.bind, pure, Except.pure, Option.map_none]
    | some y =>
      obtain ⟨as, bs, h1, _, h3⟩ := find_split hx
      obtain ⟨s', h', e1, i1⟩ := remove_sim i ha h1
      have e2 : w.step (.remove l d) = (w.removeOne l y.1 (as ++ bs), true) := by simp only [ListSpec.World.step, (h3 (w.n, d)).2]
      rw [e2]
      refine ⟨s', h', ?_, i1⟩
      simp only [ListSpec.exec, listRemoveData, ht, hf, hx, bind, Except.bind, pure, Except.pure, Option.map_some, e1]
      rfl
  | clear l =>
    obtain ⟨s', h', e1, i1⟩ := clear_sim i ha
    have e2 : w.step (.clear l) = (cleared w l (w.hist.now.seq l), true) := by
      simp only [ListSpec.World.step]
      cases w.hist.now.seq l <;> rfl
    rw [e2]
    refine ⟨s', h', ?_, i1⟩
    simp only [ListSpec.exec, e1, bind, Except.bind, pure, Except.pure]
    cases w.hist.now.seq l <;> rfl
  | swap l d1 d2 =>
    have ht := i.touch (i.rels.now.lists l ha)
    have hc := i.inv.cells
    have hloop : swapLoop s d1 d2 w.n (s.cells (startCell l)) none none = .ok (ListSpec.seen d1 d2 (w.hist.now.seq l) none none) := by
      rw [hc, i.rels.now.start l ha]
      exact swapLoop_ok d1 d2 (by rw [hc]; exact i.rels.now.seg l)
        (fun x hx => ⟨by rw [hc]; exact i.rels.now.data l x hx, i.touch (i.rels.now.alive l x hx).1⟩) (i.length l)
    have hno : ∀ r, ListSpec.seen d1 d2 (w.hist.now.seq l) none none = r → (r.1 = none ∨ r.2 = none) →
        ∃ s' h', ListSpec.exec w.n s (.swap l d1 d2) = .ok ((w.step (.swap l d1 d2)).1.n, s', (w.step (.swap l d1 d2)).2) ∧ Sim (w.step (.swap l d1 d2)).1 s' h' := by
      intro r hx hr
      obtain ⟨a, b⟩ := r
      have e2 : w.step (.swap l d1 d2) = (w, true) := by
        simp only [ListSpec.World.step, hx]
        rcases hr with rfl | rfl
        · rfl
        · cases a <;> rfl
      rw [e2]
      refine ⟨s, h, ?_, i⟩
      simp only [ListSpec.exec, listSwap, ht, hloop, hx, bind, Except.bind, pure, Except.pure]
      rcases hr with rfl | rfl
      · rfl
      · cases a <;> rfl
    cases hx : ListSpec.seen d1 d2 (w.hist.now.seq l) none none with
    | mk a b =>
      cases a with
      | none => exact hno _ hx (.inl rfl)
      | some e1 =>
        cases b with
        | none => exact hno _ hx (.inr rfl)
        | some e2 =>
          obtain ⟨m1, m2⟩ := seen_mem d1 d2 hx
          obtain ⟨s', h', g1, g2⟩ := swap_sim i ha (m1.resolve_left (by simp)) (m2.resolve_left (by simp))
          have e3 : w.step (.swap l d1 d2) =
              ({ w with hist := w.hist.edit { w.hist.now with seq := upd w.hist.now.seq l (ListSpec.setData e2 d1 (ListSpec.setData e1 d2 (w.hist.now.seq l))) } }, true) := by
            simp only [ListSpec.World.step, hx]
          rw [e3]
          refine ⟨s', h', ?_, g2⟩
          simp only [ListSpec.exec, listSwap, ht, hloop, hx, bind, Except.bind, pure, Except.pure, g1]
  | move m => exact move_sim i m ha

theorem sim_new : Sim .new .new .new where
  inv := inv_new
  n := rfl
  base := rfl
  ok := ⟨fun _ h => (by cases h), fun _ h => (by cases h), fun _ _ => rfl⟩
  rels :=
    { now := ⟨rfl, fun _ h => (by cases h), fun _ h => (by cases h), fun _ => trivial, fun _ _ h => (by cases h), fun _ _ h => (by cases h), fun _ _ h => (by cases h),
        fun _ => .nil, fun _ _ _ _ h => (by cases h), fun _ h => (by cases h), fun _ _ => rfl, fun _ _ => rfl, fun _ _ => rfl⟩
      past := .nil
      future := .nil
      start := .none
      tr := .none }

theorem run_sim : ∀ (as : List ListSpec.Act) {w : ListSpec.World} {s : State} {h : Hist}, Sim w s h → ListSpec.Legal w as →
    ∃ s' h', ListSpec.execAll w.n s as = .ok ((w.run as).1.n, s', (w.run as).2) ∧ Sim (w.run as).1 s' h'
  | [], _, s, h, i, _ => ⟨s, h, rfl, i⟩
  | a :: as, w, s, h, i, hl => by
    obtain ⟨s1, h1, e1, i1⟩ := step_sim i a hl.1
    obtain ⟨s2, h2, e2, i2⟩ := run_sim as i1 hl.2
    refine ⟨s2, h2, ?_, i2⟩
    simp only [ListSpec.execAll, e1, bind, Except.bind, e2, pure, Except.pure, ListSpec.World.run]

end Verif.UndoRef
