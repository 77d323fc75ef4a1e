import Verif.LinkedList.Ops3
namespace Verif.LinkedList
open Verif Verif.Undo
open Verif.Undo.Spec (Edit registerAll storeAll)

/-! ### clear -/

theorem upd_same (m : Mem Nat) (p v : Nat) (h : m p = v) : upd m p v = m := by
  funext a
  unfold upd
  split
  · rename_i e; rw [e, h]
  · rfl

theorem stL_same (s : S) (f v : Nat) (h : s.u.mem f = v) : stL s f v = s := by
  unfold stL
  rw [store_upd, upd_same _ _ _ h]

theorem clearLoopUm_ok : ∀ (fuel : Nat) (s : S) (ns : List (Nat × Nat)), SInv s ns → s.um = true → ns.length < fuel →
    ∃ s', clearLoopUm fuel s = .ok s' ∧ SInv s' [] ∧ s'.um = s.um ∧ s'.brk = s.brk ∧ Trace s.u s'.u (!ns.isEmpty) := by
  intro fuel
  induction fuel with
  | zero => intro s ns _ _ h; omega
  | succ fuel ih =>
    intro s ns i hu hf
    have hst : s.u.mem aStart = headA ns 0 := i.rep.start
    cases ns with
    | nil =>
      refine ⟨s, ?_, i, rfl, rfl, Trace.nil _⟩
      simp only [clearLoopUm, hst, headA, bne_self_eq_false, Bool.false_eq_true, if_false]
    | cons x ns =>
      obtain ⟨e, d⟩ := x
      have hne : (e != 0) = true := by
        have := (i.alive (List.mem_cons_self ..)).1
        simpa using this
      obtain ⟨s1, e1, e2, e3, e4, e5⟩ := removeElem_ok (A := []) i
      obtain ⟨s2, f1, f2, f3, f4, f5⟩ := ih s1 ns e2 (e3.trans hu) (by simp at hf; omega)
      refine ⟨s2, ?_, f2, f3.trans e3, f4.trans e4, ?_⟩
      · simp only [clearLoopUm, hst, headA, hne, if_true, e1, bind, Except.bind]
        exact f1
      · have := (e5 hu).trans f5
        simpa using this

theorem clearLoop_ok : ∀ (fuel : Nat) (s : S) (rest : List (Nat × Nat)) (p : Nat), Seg s.u.mem p rest 0 → (∀ x ∈ rest, Alive s x.1) →
    (rest.map Prod.fst).Nodup → rest.length < fuel → s.cur = headA rest 0 → s.um = false →
    ∃ dd, clearLoop fuel s = .ok { s with cur := 0, dead := dd } ∧ (∀ a, dd a = true ↔ (s.dead a = true ∨ a ∈ rest.map Prod.fst)) := by
  intro fuel
  induction fuel with
  | zero => intro s rest p _ _ _ h; omega
  | succ fuel ih =>
    intro s rest p hs ha hn hf hc hu
    cases rest with
    | nil =>
      refine ⟨s.dead, ?_, by simp⟩
      simp only [clearLoop, hasNext, hc, headA, bne_self_eq_false, Bool.false_eq_true, if_false]
      rw [show (0 : Nat) = s.cur from hc.symm]
    | cons x r =>
      obtain ⟨e, d⟩ := x
      have hal := ha (e, d) (List.mem_cons_self ..)
      have hne : hasNext s = true := by
        unfold hasNext; rw [hc]; simp only [headA]; simpa using hal.1
      simp only [List.map_cons, List.nodup_cons] at hn
      obtain ⟨dd, h1, h2⟩ := ih { s with cur := headA r 0, dead := fun a => if a = e then true else s.dead a } r e hs.2.2.2 (by
        intro y hy
        have h := ha y (List.mem_cons_of_mem _ hy)
        refine ⟨h.1, h.2.1, ?_⟩
        show (if y.1 = e then true else s.dead y.1) = false
        rw [if_neg (by rintro rfl; exact hn.1 (mem_addr hy))]
        exact h.2.2) hn.2 (by simp at hf; omega) rfl hu
      refine ⟨dd, ?_, ?_⟩
      · have hrel : release { s with cur := headA r 0 } e = .ok { s with cur := headA r 0, dead := fun a => if a = e then true else s.dead a } := by
          unfold release
          rw [chk_ok (show Alive { s with cur := headA r 0 } e from hal)]
          simp only [bind, Except.bind, pure, Except.pure]
          rw [if_neg (show ¬ s.um = true by rw [hu]; decide)]
        simp only [clearLoop, hne, if_true, nextElement_ok hs hal hc, bind, Except.bind, hrel]
        exact h1
      · intro a
        rw [h2]
        simp only [List.map_cons, List.mem_cons]
        by_cases h : a = e
        · simp [h]
        · simp [h]

theorem clear_ok {s : S} {ns : List (Nat × Nat)} (i : SInv s ns) :
    ∃ s', clear s = .ok s' ∧ SInv s' [] ∧ s'.um = s.um ∧ s.brk ≤ s'.brk ∧ (s.um = true → Trace s.u s'.u (!ns.isEmpty)) ∧ s'.brk = s.brk := by
  unfold clear
  by_cases hu : s.um = true
  · obtain ⟨s1, h1, h2, h3, h4, h5⟩ := clearLoopUm_ok s.brk s ns i hu i.len
    simp only [if_pos hu, h1, bind, Except.bind, pure, Except.pure]
    rw [stL_same s1 aStart 0 h2.rep.start, stL_same s1 aEnd 0 h2.rep.lend, stL_same s1 aCount 0 h2.rep.cnt]
    exact ⟨_, rfl, h2.cursor 0, h3, Nat.le_of_eq h4.symm, fun _ => h5, h4⟩
  · have hu' : s.um = false := by simpa using hu
    obtain ⟨dd, h1, h2⟩ := clearLoop_ok s.brk (rewind s) ns 0 i.rep.seg (fun x hx => i.alive hx) i.rep.nodup i.len i.rep.start hu'
    simp only [if_neg hu, h1, bind, Except.bind, pure, Except.pure]
    simp only [stL, store_upd, rewind]
    have hb := i.rep.brkOk
    refine ⟨_, rfl, ⟨⟨?_, ?_, ?_, trivial, by simp, by simp, ?_, hb⟩, fun h => absurd h hu, fun h => absurd h hu, ?_, ?_⟩, rfl, Nat.le_refl _, fun h => absurd h hu, rfl⟩
    · simp [upd, aStart, aEnd, aCount, headA]
    · simp [upd, aStart, aEnd, aCount, lastA]
    · simp [upd, aStart, aEnd, aCount]
    · intro a ha
      have ha' : s.brk ≤ a := ha
      show upd (upd (upd s.u.mem 1 0) 2 0) 4 0 a = 0
      rw [upd_ne _ _ _ _ (by omega), upd_ne _ _ _ _ (by omega), upd_ne _ _ _ _ (by omega)]
      exact i.rep.zero a ha'
    · intro _ e h8 h3 he
      have := h2 e
      have hd := i.deadNo hu' e h8 h3 he
      simp only [List.map_nil, List.not_mem_nil, iff_false, Bool.not_eq_false]
      rw [this]
      by_cases hm : e ∈ ns.map Prod.fst
      · exact Or.inr hm
      · refine Or.inl ?_
        show s.dead e = true
        cases hde : s.dead e with
        | true => rfl
        | false => exact absurd (hd.1 hde) hm
    · intro e he
      have he' : s.brk ≤ e := he
      show dd e = false
      cases hd : dd e with
      | false => rfl
      | true =>
        rcases (h2 e).1 hd with h | h
        · have : s.dead e = true := h
          rw [i.fresh e he'] at this; cases this
        · obtain ⟨x, hx, rfl⟩ := List.mem_map.1 h
          have := i.rep.addr x hx
          omega

/-! ### Observers -/

theorem itAll_ok : ∀ (fuel : Nat) (s : S) (rest : List (Nat × Nat)) (p : Nat), Seg s.u.mem p rest 0 → (∀ x ∈ rest, Alive s x.1) → rest.length < fuel →
    itAll fuel s (headA rest 0) = .ok (rest.map Prod.snd) := by
  intro fuel
  induction fuel with
  | zero => intro s rest p _ _ h; omega
  | succ fuel ih =>
    intro s rest p hs ha hf
    cases rest with
    | nil => simp [itAll, itHasNext, headA]
    | cons x r =>
      obtain ⟨e, d⟩ := x
      have hal := ha (e, d) (List.mem_cons_self ..)
      have hne : itHasNext e = true := by simpa [itHasNext] using hal.1
      have hd : s.u.mem (e + 2) = d := hs.2.2.1
      have hn : s.u.mem (e + 1) = headA r 0 := hs.2.1
      have hi := ih s r e hs.2.2.2 (fun x hx => ha x (List.mem_cons_of_mem _ hx)) (by simp at hf; omega)
      have hnx : itNext s e = .ok (d, headA r 0) := by
        unfold itNext
        rw [if_neg hal.1, ldE_ok s e 2 hal, ldE_ok s e 1 hal, hd, hn]
        rfl
      show itAll (fuel + 1) s e = _
      simp only [itAll, hne, if_true, hnx, bind, Except.bind, pure, Except.pure, hi, List.map_cons]

theorem nextAll_ok : ∀ (fuel : Nat) (s : S) (rest : List (Nat × Nat)) (p : Nat), Seg s.u.mem p rest 0 → (∀ x ∈ rest, Alive s x.1) → rest.length < fuel →
    s.cur = headA rest 0 → nextAll fuel s = .ok (rest.map Prod.snd, { s with cur := 0 }) := by
  intro fuel
  induction fuel with
  | zero => intro s rest p _ _ h; omega
  | succ fuel ih =>
    intro s rest p hs ha hf hc
    cases rest with
    | nil =>
      simp only [nextAll, hasNext, hc, headA, bne_self_eq_false, Bool.false_eq_true, if_false, List.map_nil]
      rw [show (0 : Nat) = s.cur from hc.symm]
    | cons x r =>
      obtain ⟨e, d⟩ := x
      have hal := ha (e, d) (List.mem_cons_self ..)
      have hne : hasNext s = true := by
        unfold hasNext; rw [hc]; simp only [headA]; simpa using hal.1
      have hd : s.u.mem (e + 2) = d := hs.2.2.1
      have hn : s.u.mem (e + 1) = headA r 0 := hs.2.1
      have he : s.cur = e := hc
      simp only [nextAll, hne, if_true, next, he, ldE_ok s e 2 hal, ldE_ok s e 1 hal, hd, hn, bind, Except.bind, pure, Except.pure,
        ih { s with cur := headA r 0 } r e hs.2.2.2 (fun x hx => ha x (List.mem_cons_of_mem _ hx)) (by simp at hf; omega) rfl, List.map_cons]

theorem first_ok {s : S} {ns : List (Nat × Nat)} (i : SInv s ns) (hl : ns.length < 2 ^ 32) : first s = .ok ((ns.map Prod.snd).headD 0) := by
  have hc : s.u.mem aCount = ns.length := by
    have := i.rep.cnt; rw [Nat.mod_eq_of_lt hl] at this; exact this
  have hst : s.u.mem aStart = headA ns 0 := i.rep.start
  unfold first
  rw [hc, hst]
  cases ns with
  | nil => rfl
  | cons x ns =>
    rw [if_neg (by simp)]
    have hd : s.u.mem (x.1 + 2) = x.2 := i.rep.seg.2.2.1
    simp only [headA]
    rw [ldE_ok s x.1 2 (i.alive (List.mem_cons_self ..)), hd]
    rfl

theorem last_ok {s : S} {ns : List (Nat × Nat)} (i : SInv s ns) (hl : ns.length < 2 ^ 32) : last s = .ok ((ns.map Prod.snd).getLastD 0) := by
  have hc : s.u.mem aCount = ns.length := by
    have := i.rep.cnt; rw [Nat.mod_eq_of_lt hl] at this; exact this
  have hst : s.u.mem aEnd = lastA 0 ns := i.rep.lend
  unfold last
  rw [hc, hst]
  rcases List.eq_nil_or_concat ns with rfl | ⟨A, x, rfl⟩
  · rfl
  · obtain ⟨e, d⟩ := x
    rw [List.concat_eq_append] at *
    rw [if_neg (by simp)]
    have hseg := (seg_append _ _ _ _ _).1 i.rep.seg
    have hd : s.u.mem (e + 2) = d := hseg.2.2.2.1
    rw [lastA_append]
    simp only [lastA]
    rw [ldE_ok s e 2 (i.alive (x := (e, d)) (by simp)), hd]
    simp

/-! ### All calls -/

theorem execOp_ok {s : S} {ns : List (Nat × Nat)} (i : SInv s ns) (hl : ns.length < 2 ^ 32) (o : Spec.Op) :
    ∃ s' ns', Spec.execOp s o = .ok (s', (Spec.step s.um (ns.map Prod.snd) o).2) ∧ SInv s' ns' ∧
      ns'.map Prod.snd = (Spec.step s.um (ns.map Prod.snd) o).1 ∧ s'.um = s.um ∧ s.brk ≤ s'.brk ∧
      (s.um = true → Trace s.u s'.u (Spec.touches (ns.map Prod.snd) o)) := by
  cases o with
  | add d =>
    obtain ⟨s', h1, h2, h3, h4, h5⟩ := add_ok i d
    simp only [Spec.execOp, h1, bind, Except.bind, pure, Except.pure]
    exact ⟨s', _, rfl, h2, by simp [Spec.step], h3, by omega, h5⟩
  | addBefore t d =>
    obtain ⟨s', ns', h1, h2, h3, h4, h5, h6⟩ := addBefore_ok i t d
    simp only [Spec.execOp, h1, bind, Except.bind, pure, Except.pure]
    exact ⟨s', ns', rfl, h2, h3, h4, h5, h6⟩
  | remove d =>
    obtain ⟨s', ns', h1, h2, h3, h4, h5, h6⟩ := remove_ok i d
    simp only [Spec.execOp, h1, bind, Except.bind, pure, Except.pure]
    refine ⟨s', ns', ?_, h2, ?_, h4, h5, h6⟩
    · simp only [Spec.step]; split <;> rfl
    · rw [h3]; simp only [Spec.step]; split
      · rfl
      · rename_i h; exact List.erase_of_not_mem h
  | swap a b =>
    obtain ⟨s', ns', h1, h2, h3, h4, h5, h6⟩ := swapData_ok i a b
    simp only [Spec.execOp, h1, bind, Except.bind, pure, Except.pure]
    refine ⟨s', ns', ?_, h2, ?_, h4, h5, h6⟩
    · simp only [Spec.step]; split <;> rfl
    · rw [h3]; simp only [Spec.step]; split <;> rfl
  | clear =>
    obtain ⟨s', h1, h2, h3, h4, h5, _⟩ := clear_ok i
    simp only [Spec.execOp, h1, bind, Except.bind, pure, Except.pure]
    exact ⟨s', [], rfl, h2, rfl, h3, h4, by simpa [Spec.touches] using h5⟩
  | first =>
    simp only [Spec.execOp, first_ok i hl, bind, Except.bind, pure, Except.pure]
    exact ⟨s, ns, rfl, i, rfl, rfl, Nat.le_refl _, fun _ => Trace.nil _⟩
  | last =>
    simp only [Spec.execOp, last_ok i hl, bind, Except.bind, pure, Except.pure]
    exact ⟨s, ns, rfl, i, rfl, rfl, Nat.le_refl _, fun _ => Trace.nil _⟩
  | size =>
    refine ⟨s, ns, ?_, i, rfl, rfl, Nat.le_refl _, fun _ => Trace.nil _⟩
    have hc : s.u.mem aCount = ns.length := by
      have := i.rep.cnt; rw [Nat.mod_eq_of_lt hl] at this; exact this
    simp [Spec.execOp, Spec.step, size, hc]
  | items =>
    have hst : s.u.mem aStart = headA ns 0 := i.rep.start
    have h := itAll_ok s.brk s ns 0 i.rep.seg (fun x hx => i.alive hx) i.len
    simp only [Spec.execOp, iterator, hst, h, bind, Except.bind, pure, Except.pure]
    exact ⟨s, ns, rfl, i, rfl, rfl, Nat.le_refl _, fun _ => Trace.nil _⟩
  | nexts =>
    have h := nextAll_ok s.brk (rewind s) ns 0 i.rep.seg (fun x hx => i.alive hx) i.len i.rep.start
    simp only [Spec.execOp, h, bind, Except.bind, pure, Except.pure]
    exact ⟨_, ns, rfl, i.cursor 0, rfl, rfl, Nat.le_refl _, fun _ => Trace.nil _⟩

end Verif.LinkedList
