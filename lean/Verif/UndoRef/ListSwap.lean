import Verif.UndoRef.ListSim2
/-
`swapData` follows the specification.
-/
namespace Verif.UndoRef
open Verif Verif.UndoRef.Spec

variable {w : ListSpec.World} {s : State} {h : Hist}

theorem swapLoop_ok {s : State} (d1 d2 : Option Obj) : ∀ {xs : List Item} {p : Option Obj} {fuel : Nat} {e1 e2 : Option Obj}, Seg s.cells p (ids xs) none →
    (∀ x ∈ xs, s.cells (dataCell x.1) = x.2 ∧ touch s.cnt x.1 = .ok ()) → xs.length ≤ fuel →
    swapLoop s d1 d2 fuel (ids xs).head? e1 e2 = .ok (ListSpec.seen d1 d2 xs e1 e2)
  | [], _, fuel, _, _, _, _, _ => by cases fuel <;> rfl
  | x :: xs, p, fuel, e1, e2, ⟨_, h2, h3⟩, hx, hl => by
    obtain ⟨k, rfl⟩ : ∃ k, fuel = k + 1 := ⟨fuel - 1, by simp only [List.length_cons] at hl; omega⟩
    obtain ⟨g1, g2⟩ := hx x (.head _)
    simp only [Option.or_none] at h2
    simp only [ids, List.map_cons, List.head?_cons, swapLoop, g2, bind, Except.bind, g1, pure, Except.pure, ListSpec.seen]
    rw [h2]
    generalize (if x.2 = d1 then some x.1 else e1) = a
    generalize (if x.2 = d2 then some x.1 else e2) = b
    by_cases hab : (a.isSome && b.isSome) = true
    · rw [if_pos hab, if_pos hab]
    · rw [if_neg hab, if_neg hab]
      exact swapLoop_ok d1 d2 h3 (fun y hy => hx y (.tail _ hy)) (by simp only [List.length_cons] at hl; omega)

theorem seen_mem (d1 d2 : Option Obj) : ∀ {xs : List Item} {e1 e2 : Option Obj} {e f : Obj}, ListSpec.seen d1 d2 xs e1 e2 = (some e, some f) →
    (e1 = some e ∨ (e, d1) ∈ xs) ∧ (e2 = some f ∨ (f, d2) ∈ xs)
  | [], e1, e2, e, f, h => by
    simp only [ListSpec.seen, Prod.mk.injEq] at h
    exact ⟨.inl h.1, .inl h.2⟩
  | x :: xs, e1, e2, e, f, h => by
    have one : ∀ (d : Option Obj) (c : Option Obj) (g : Obj), ((if x.2 = d then some x.1 else c) = some g ∨ (g, d) ∈ xs) → c = some g ∨ (g, d) ∈ x :: xs := fun d c g hg => by
      rcases hg with hg | hg
      · split at hg
        · next e => cases hg; exact .inr (by rw [← e]; exact .head _)
        · exact .inl hg
      · exact .inr (.tail _ hg)
    have h1 := one d1 e1 e
    have h2 := one d2 e2 f
    simp only [ListSpec.seen] at h
    generalize (if x.2 = d1 then some x.1 else e1) = a at h h1
    generalize (if x.2 = d2 then some x.1 else e2) = b at h h2
    by_cases hab : (a.isSome && b.isSome) = true
    · rw [if_pos hab] at h
      simp only [Prod.mk.injEq] at h
      exact ⟨h1 (.inl h.1), h2 (.inl h.2)⟩
    · rw [if_neg hab] at h
      have := seen_mem d1 d2 h
      exact ⟨h1 this.1, h2 this.2⟩

theorem setData_ids (e : Obj) (d : Option Obj) (xs : List Item) : ids (ListSpec.setData e d xs) = ids xs := by
  simp only [ids, ListSpec.setData, List.map_map]
  refine List.map_congr_left (fun x _ => ?_)
  simp only [Function.comp_apply]
  split <;> rfl

theorem setData_mem {e : Obj} {d : Option Obj} {xs : List Item} {x : Item} (h : x ∈ ListSpec.setData e d xs) : (x.1 = e ∧ x.2 = d) ∨ (x.1 ≠ e ∧ x ∈ xs) := by
  obtain ⟨y, hy, rfl⟩ := List.mem_map.1 h
  by_cases g : y.1 = e
  · rw [if_pos g]; exact .inl ⟨g, rfl⟩
  · rw [if_neg g]; exact .inr ⟨g, hy⟩

/-- registering a change of a pointer and assigning, twice -/
theorem swap_exec (n : Nat) {s : State} {e1 e2 : Obj} {d1 d2 : Option Obj} (hv : e1 = e2 → s.cells (dataCell e1) = d1 ∧ d1 = d2) : ∃ bs,
    execAll n s (acts [(e1, dataCell e1, d2), (e2, dataCell e2, d1)]) = (swapElems s e1 e2 d1 d2).map (fun t => (n, t, bs)) := by
  by_cases he : e1 = e2
  · obtain ⟨g1, rfl⟩ := hv he
    subst he
    refine ⟨[true, true], ?_⟩
    simp only [acts, List.map_cons, List.map_nil, execAll, exec, swapElems, bind, Except.bind, pure, Except.pure]
    cases a1 : registerRef s e1 (dataCell e1) with
    | error e => rfl
    | ok s1 =>
      have c1 := registerRef_cells a1
      have c2 : upd s1.cells (dataCell e1) d1 = s1.cells := by rw [c1, ← g1]; exact upd_self _ _
      simp only [c2]
      cases a2 : registerRef s1 e1 (dataCell e1) with
      | error e => rfl
      | ok s2 =>
        have c3 : upd s2.cells (dataCell e1) d1 = s2.cells := by rw [registerRef_cells a2, c2]
        simp only [Except.map, setCell, c3]
  · have hd : Distinct [(e1, dataCell e1, d2), (e2, dataCell e2, d1)] := by simp [Distinct, dataCell, he]
    refine ⟨[true, true], ?_⟩
    rw [exec_acts n hd]
    simp only [regs, swapElems, bind, Except.bind, pure, Except.pure]
    cases a1 : registerRef s e1 (dataCell e1) with
    | error e => rfl
    | ok s1 =>
      simp only
      cases a2 : registerRef s1 e2 (dataCell e2) with
      | error e => rfl
      | ok s2 =>
        simp only [Except.map, writes, withCells, setCell, registerRef_cells a2, registerRef_cells a1]; rfl

theorem swap_sim (i : Sim w s h) {l : Obj} (hl : w.isList l = true) {e1 e2 : Obj} {d1 d2 : Option Obj} (m1 : (e1, d1) ∈ w.hist.now.seq l) (m2 : (e2, d2) ∈ w.hist.now.seq l) :
    ∃ s' h', swapElems s e1 e2 d1 d2 = .ok s' ∧
      Sim { w with hist := w.hist.edit { w.hist.now with seq := upd w.hist.now.seq l (ListSpec.setData e2 d1 (ListSpec.setData e1 d2 (w.hist.now.seq l))) } } s' h' := by
  have hc := i.inv.cells
  have hr := i.rels.now.refs
  have hd1 := i.rels.now.data l _ m1
  have hd2 := i.rels.now.data l _ m2
  simp only at hd1 hd2
  have hv : e1 = e2 → h.now.cells (dataCell e1) = d1 ∧ d1 = d2 := fun e => ⟨hd1, hd1.symm.trans (by rw [e]; exact hd2)⟩
  have r1 : 1 ≤ h.now.refs e1 := by rw [hr]; exact (i.rels.now.alive l _ m1).1
  have r2 : 1 ≤ h.now.refs e2 := by rw [hr]; exact (i.rels.now.alive l _ m2).1
  have b1 : ∀ v, d1 = some v → 1 ≤ h.now.refs v := fun v e => by rw [hr]; exact (i.rels.now.backed l _ m1 v e).1
  have b2 : ∀ v, d2 = some v → 1 ≤ h.now.refs v := fun v e => by rw [hr]; exact (i.rels.now.backed l _ m2 v e).1
  let f := upd (upd h.now.cells (dataCell e1) d2) (dataCell e2) d1
  have own : ∀ {g : Hist} {o : Obj}, 1 ≤ g.now.refs o → 1 ≤ g.own o := fun {g o} ho => by unfold Hist.own; omega
  have hleg : Legal h (acts [(e1, dataCell e1, d2), (e2, dataCell e2, d1)]) := by
    refine ⟨⟨own r1, .inl rfl, fun v hv' => b1 v (hd1.symm.trans hv'), b2⟩, ?_, trivial⟩
    show (h.edit _).allowed (.setRef e2 (dataCell e2) d1)
    refine ⟨own (by rw [edit_now]; exact r2), .inl rfl, ?_, ?_⟩
    · rw [edit_now]
      intro v hv'
      refine b2 v ?_
      rw [← hv']
      show d2 = upd h.now.cells (dataCell e1) d2 (dataCell e2)
      unfold upd
      split
      · rfl
      · exact hd2.symm
    · rw [edit_now]; exact b1
  obtain ⟨s', e3, i1⟩ := run_ok _ i.inv hleg
  have hrun : (h.run (acts [(e1, dataCell e1, d2), (e2, dataCell e2, d1)])).1 = h.edit ⟨f, h.now.refs⟩ := by
    simp only [acts, List.map_cons, List.map_nil, Hist.run, Hist.step, edit_edit, edit_now]
    rfl
  rw [hrun] at e3 i1
  rw [i.n, (edit_base _ _).2, i.n] at e3
  obtain ⟨bs, hexec⟩ := swap_exec w.n (s := s) (e1 := e1) (e2 := e2) (d1 := d1) (d2 := d2) (by rw [hc]; exact hv)
  have hnl : ∀ e ∈ ids (w.hist.now.seq l), e ≠ l := fun e he => i.notList hl he
  have n1 : e1 ∈ ids (w.hist.now.seq l) := List.mem_map.2 ⟨_, m1, rfl⟩
  have n2 : e2 ∈ ids (w.hist.now.seq l) := List.mem_map.2 ⟨_, m2, rfl⟩
  have hids : ids (ListSpec.setData e2 d1 (ListSpec.setData e1 d2 (w.hist.now.seq l))) = ids (w.hist.now.seq l) := by rw [setData_ids, setData_ids]
  have hoth : ∀ c : Cell, c ≠ dataCell e1 → c ≠ dataCell e2 → f c = h.now.cells c := fun c g1 g2 => by
    show upd _ _ _ c = _
    rw [upd_other _ _ _ g2, upd_other _ _ _ g1]
  have hmem : ∀ x ∈ ListSpec.setData e2 d1 (ListSpec.setData e1 d2 (w.hist.now.seq l)), x = (e2, d1) ∨ (x.1 ≠ e2 ∧ x = (e1, d2)) ∨ (x.1 ≠ e2 ∧ x.1 ≠ e1 ∧ x ∈ w.hist.now.seq l) := fun x hx => by
    rcases setData_mem hx with ⟨g1, g2⟩ | ⟨g1, g2⟩
    · exact .inl (Prod.ext g1 g2)
    · rcases setData_mem g2 with ⟨g3, g4⟩ | ⟨g3, g4⟩
      · exact .inr (.inl ⟨g1, Prod.ext g3 g4⟩)
      · exact .inr (.inr ⟨g1, g3, g4⟩)
  have hR : R (roles w) ⟨upd w.hist.now.seq l (ListSpec.setData e2 d1 (ListSpec.setData e1 d2 (w.hist.now.seq l))), h.now.refs⟩ ⟨f, h.now.refs⟩ := by
    refine i.rels.now.relist i.ok hl ?_ ?_ ?_ ?_ ?_ ?_ ?_ ?_ ?_ ?_
    · rw [hids, hoth _ (by simp [startCell, dataCell, Ne.symm (hnl _ n1)]) (by simp [startCell, dataCell, Ne.symm (hnl _ n2)])]
      exact i.rels.now.start l hl
    · rw [hids, hoth _ (by simp [endCell, dataCell]) (by simp [endCell, dataCell])]
      exact i.rels.now.last l hl
    · rw [hids]
      exact (i.rels.now.seg l).congr (fun e _ => ⟨hoth _ (by simp [prevCell, dataCell]) (by simp [prevCell, dataCell]), hoth _ (by simp [nextCell, dataCell]) (by simp [nextCell, dataCell])⟩)
    · intro x hx
      rcases hmem x hx with rfl | ⟨g1, rfl⟩ | ⟨g1, g2, g3⟩
      · exact upd_same _ _ _
      · show upd _ _ _ _ = _
        rw [upd_other _ _ _ (by simpa [dataCell] using g1), upd_same]
      · rw [hoth _ (by simpa [dataCell] using g2) (by simpa [dataCell] using g1)]
        exact i.rels.now.data l x g3
    · intro x hx
      rw [hr]
      rcases hmem x hx with rfl | ⟨g1, rfl⟩ | ⟨g1, g2, g3⟩
      · exact i.rels.now.alive l (e2, d2) m2
      · exact i.rels.now.alive l (e1, d1) m1
      · exact i.rels.now.alive l x g3
    · intro x hx
      rcases hmem x hx with rfl | ⟨g1, rfl⟩ | ⟨g1, g2, g3⟩
      · exact i.rels.now.backed l (e1, d1) m1
      · exact i.rels.now.backed l (e2, d2) m2
      · exact i.rels.now.backed l x g3
    · rw [hids]; exact i.rels.now.nodup l
    · rw [hids]; exact fun e he l' hne => i.rels.now.disj l l' (Ne.symm hne) e he
    · exact fun c _ g2 _ => hoth c (fun e => g2 (by rw [e]; exact n1)) (fun e => g2 (by rw [e]; exact n2))
    · exact fun o _ => by rw [hr]
  rw [hexec] at e3
  cases h6 : swapElems s e1 e2 d1 d2 with
  | error e => rw [h6] at e3; cases e3
  | ok t =>
    rw [h6] at e3
    simp only [Except.map, Except.ok.injEq, Prod.mk.injEq] at e3
    refine ⟨s', _, by rw [e3.2.1], i1, ?_, ?_, i.ok, ?_⟩
    · rw [(edit_base _ _).2]; exact i.n
    · rw [(edit_base _ _).1]; exact i.base
    · rw [hr] at hR ⊢
      exact i.rels.edit hR

end Verif.UndoRef
