import Verif.LinkedList.Rep
import Verif.LinkedList.Spec
/-
Every operation keeps the representation and performs, with an undo manager, disciplined edits.
-/
namespace Verif.LinkedList
open Verif Verif.Undo
open Verif.Undo.Spec (Edit registerAll storeAll)

structure SInv (s : S) (ns : List (Nat × Nat)) : Prop where
  rep : RepM s.brk s.u.mem ns
  good : Good s
  deadUm : s.um = true → ∀ a, s.dead a = false
  deadNo : s.um = false → ∀ e, 8 ≤ e → e % 3 = 2 → e < s.brk → (s.dead e = false ↔ e ∈ ns.map Prod.fst)
  fresh : ∀ e, s.brk ≤ e → s.dead e = false

theorem SInv.alive {s : S} {ns : List (Nat × Nat)} (i : SInv s ns) {x : Nat × Nat} (h : x ∈ ns) : Alive s x.1 := by
  have := i.rep.addr x h
  refine ⟨by omega, by omega, ?_⟩
  cases hu : s.um with
  | true => exact i.deadUm hu _
  | false => exact (i.deadNo hu x.1 this.1 this.2.1 (by omega)).2 (mem_addr h)

/-- with an undo manager, the state of the undo manager changes by disciplined edits -/
def Trace (u u' : State Nat) (t : Bool) : Prop :=
  ∃ es : List (Edit Nat), (∀ e ∈ es, e.Disciplined ∧ e.regs ≠ []) ∧ (t = es.any (fun _ => true)) ∧
    Undo.Spec.execAll (es.map .edit) u = .ok (u', es.map (fun _ => .none))

theorem Trace.nil (u : State Nat) : Trace u u false := ⟨[], by simp, rfl, rfl⟩

theorem Trace.trans {u v w : State Nat} {a b : Bool} (h : Trace u v a) (k : Trace v w b) : Trace u w (a || b) := by
  obtain ⟨es, e1, e2, e3⟩ := h
  obtain ⟨fs, f1, f2, f3⟩ := k
  refine ⟨es ++ fs, ?_, by simp [e2, f2], ?_⟩
  · intro e he
    rcases List.mem_append.1 he with he | he
    · exact e1 e he
    · exact f1 e he
  · have key : ∀ (xs : List (Edit Nat)) (u v : State Nat), Undo.Spec.execAll (xs.map .edit) u = .ok (v, xs.map (fun _ => .none)) →
        Undo.Spec.execAll (fs.map .edit) v = .ok (w, fs.map (fun _ => .none)) →
        Undo.Spec.execAll ((xs ++ fs).map .edit) u = .ok (w, (xs ++ fs).map (fun _ => .none)) := by
      intro xs
      induction xs with
      | nil =>
        intro u v h1 h2
        simp only [List.map_nil, Undo.Spec.execAll, Except.ok.injEq, Prod.mk.injEq] at h1
        obtain ⟨rfl, _⟩ := h1
        exact h2
      | cons x xs ih =>
        intro u v h1 h2
        simp only [List.map_cons, List.cons_append, Undo.Spec.execAll, bind, Except.bind, pure, Except.pure] at h1 ⊢
        cases hx : Undo.Spec.exec u (.edit x) with
        | error err => rw [hx] at h1; cases h1
        | ok y =>
          rw [hx] at h1
          simp only at h1 ⊢
          cases hy : Undo.Spec.execAll (xs.map .edit) y.1 with
          | error err => rw [hy] at h1; cases h1
          | ok z =>
            rw [hy] at h1
            simp only [Except.ok.injEq, Prod.mk.injEq, List.cons.injEq] at h1
            obtain ⟨h3, h4, h5⟩ := h1
            obtain ⟨z1, z2⟩ := z
            simp only at h3 h5
            subst h3 h5
            rw [ih y.1 z1 hy h2]
            simp [h4]
    exact key es u v e3 f3

theorem registerAll_Rl (s : S) (l : List (Nat × Nat)) (hg : Good s) (hu : s.um = true) :
    registerAll (l.map (fun r => (r.1, r.2, 1))) s.u = .ok (Rl s l).u := by
  induction l generalizing s with
  | nil => rfl
  | cons r l ih =>
    obtain ⟨h1, h2⟩ := hg hu
    obtain ⟨_, _, _, k4, _, k6⟩ := R_spec s r hg
    have e : (R s r).u = reg1 s.u r.1 r.2 := by unfold R; rw [if_pos hu]
    simp only [List.map_cons, registerAll, (register_ok s.u r.1 r.2 h1 h2).1, bind, Except.bind]
    rw [← e]
    exact ih (R s r) k6 (k4.trans hu)

theorem storeAll_W (u : State Nat) (l : List (Nat × Nat)) : storeAll (l.map (fun w => (w.1, [w.2]))) u = { u with mem := W u.mem l } := by
  induction l generalizing u with
  | nil => rfl
  | cons w l ih =>
    simp only [List.map_cons, storeAll, store_upd, ih]
    rfl

theorem trace_edit (s : S) (regs stores : List (Nat × Nat)) (hg : Good s) (hu : s.um = true) (hn : regs ≠ [])
    (hd : ∀ w ∈ stores, ∃ r ∈ regs, r.2 = w.1) : Trace s.u (Wl (Rl s regs) stores).u true := by
  refine ⟨[⟨regs.map (fun r => (r.1, r.2, 1)), stores.map (fun w => (w.1, [w.2]))⟩], ?_, rfl, ?_⟩
  · intro e he
    simp only [List.mem_singleton] at he
    subst he
    refine ⟨?_, by simpa using hn⟩
    intro st hst i hi
    obtain ⟨w, hw, rfl⟩ := List.mem_map.1 hst
    obtain ⟨r, hr, e⟩ := hd w hw
    refine ⟨_, List.mem_map.2 ⟨r, hr, rfl⟩, ?_, ?_⟩ <;> simp at hi ⊢ <;> omega
  · simp only [List.map_cons, List.map_nil, Undo.Spec.execAll, Undo.Spec.exec, registerAll_Rl s regs hg hu, bind, Except.bind, pure, Except.pure,
      storeAll_W]
    rfl

theorem good_Wl {s : S} {l : List (Nat × Nat)} (h : Good s) : Good (Wl s l) := h

theorem lastA_mem {ns : List (Nat × Nat)} (h : lastA 0 ns ≠ 0) : ∃ x ∈ ns, x.1 = lastA 0 ns := by
  have key : ∀ (ns : List (Nat × Nat)) (p : Nat), ns ≠ [] → ∃ x ∈ ns, x.1 = lastA p ns := by
    intro ns
    induction ns with
    | nil => intro p h; exact absurd rfl h
    | cons x ns ih =>
      intro p _
      cases ns with
      | nil => exact ⟨x, by simp, rfl⟩
      | cons y ns =>
        obtain ⟨z, hz, e⟩ := ih x.1 (by simp)
        exact ⟨z, List.mem_cons_of_mem _ hz, e⟩
  cases ns with
  | nil => exact absurd rfl h
  | cons x ns => exact key _ 0 (by simp)

theorem add_ok {s : S} {ns : List (Nat × Nat)} (i : SInv s ns) (d : Nat) :
    ∃ s', add s d = .ok s' ∧ SInv s' (ns ++ [(s.brk, d)]) ∧ s'.um = s.um ∧ s'.brk = s.brk + 3 ∧ (s.um = true → Trace s.u s'.u true) := by
  have hb := i.rep.brkOk
  have hend : s.u.mem aEnd ≠ 0 → Alive s (s.u.mem aEnd) ∧ s.u.mem aEnd + 1 ≠ s.brk + 2 := by
    intro h
    have e : s.u.mem aEnd = lastA 0 ns := i.rep.lend
    rw [e] at h ⊢
    obtain ⟨x, hx, ex⟩ := lastA_mem h
    have := i.rep.addr x hx
    rw [← ex]
    exact ⟨i.alive hx, by omega⟩
  have hg' : Good { s with brk := s.brk + 3 } := i.good
  obtain ⟨q1, q2, q3, q4, q5, q6⟩ := Rl_spec { s with brk := s.brk + 3 } (addRegs (s.u.mem aEnd) (s.u.mem aStart) s.brk) hg'
  refine ⟨_, add_nf s i.good d hb.1 (i.fresh _ (Nat.le_refl _)) i.rep.zero hend, ⟨?_, ?_, ?_, ?_, ?_⟩, q4, q2, ?_⟩
  · have := rep_add i.rep d
    show RepM (Rl _ _).brk (W (Rl _ _).u.mem _) _
    rw [q1, q2]
    exact this
  · exact good_Wl q6
  · intro hu a
    show (Rl _ _).dead a = false
    rw [q3]
    exact i.deadUm (q4.symm.trans hu) a
  · intro hu e h8 h3 he
    have he' : e < s.brk + 3 := by have := q2 ▸ he; exact this
    show (Rl _ _).dead e = false ↔ _
    rw [q3]
    simp only [List.map_append, List.mem_append, List.map_cons, List.map_nil, List.mem_singleton]
    by_cases hlt : e < s.brk
    · rw [show (({ s with brk := s.brk + 3 } : S).dead e = false ↔ e ∈ ns.map Prod.fst) from i.deadNo (q4.symm.trans hu) e h8 h3 hlt]
      constructor
      · exact Or.inl
      · rintro (h | h)
        · exact h
        · omega
    · have : e = s.brk := by omega
      subst this
      exact ⟨fun _ => Or.inr rfl, fun _ => i.fresh _ (Nat.le_refl _)⟩
  · intro e he
    show (Rl _ _).dead e = false
    rw [q3]
    have he' : s.brk + 3 ≤ e := by have := q2 ▸ he; exact this
    exact i.fresh e (by omega)
  · intro hu
    refine trace_edit { s with brk := s.brk + 3 } _ _ hg' hu (by simp [addRegs]) ?_
    intro w hw
    simp only [addStores, endStores, List.mem_cons, List.mem_append, List.mem_singleton, List.not_mem_nil, or_false] at hw
    have mk : ∀ r, r ∈ addRegs (s.u.mem aEnd) (s.u.mem aStart) s.brk → r.2 = w.1 → ∃ r ∈ addRegs (s.u.mem aEnd) (s.u.mem aStart) s.brk, r.2 = w.1 :=
      fun r h e => ⟨r, h, e⟩
    rcases hw with rfl | ((((rfl | hw) | hw) | rfl) | hw) | rfl
    · exact mk (s.brk, s.brk + 2) (by simp [addRegs]) rfl
    · exact mk (s.brk, s.brk + 0) (by simp [addRegs, endRegs]) rfl
    · split at hw
      · rename_i c
        simp only [List.mem_singleton] at hw
        subst hw
        exact mk (s.u.mem aEnd, s.u.mem aEnd + 1) (by simp [addRegs, endRegs, c]) rfl
      · cases hw
    · split at hw
      · simp only [List.mem_singleton] at hw
        subst hw
        exact mk (s.brk, s.brk + 0) (by simp [addRegs, endRegs]) rfl
      · cases hw
    · exact mk (this, aEnd) (by simp [addRegs, endRegs]) rfl
    · split at hw
      · rename_i c
        simp only [List.mem_singleton] at hw
        subst hw
        exact mk (this, aStart) (by simp [addRegs, endRegs, c]) rfl
      · cases hw
    · exact mk (this, aCount) (by simp [addRegs, endRegs]) rfl

end Verif.LinkedList
