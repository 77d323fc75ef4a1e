import Verif.LinkedList.Ops
namespace Verif.LinkedList
open Verif Verif.Undo
open Verif.Undo.Spec (Edit registerAll storeAll)

theorem nodup_len {n : Nat} {ps : List Nat} (hn : ps.Nodup) (hp : ∀ p ∈ ps, p < n) : ps.length ≤ n := by
  have := hn.length_le_of_subset (l₂ := List.range n) (fun p h => List.mem_range.2 (hp p h))
  simpa using this

theorem SInv.len {s : S} {ns : List (Nat × Nat)} (i : SInv s ns) : ns.length < s.brk := by
  have hb := i.rep.brkOk
  have := nodup_len (n := s.brk) (ps := 0 :: (ns.map Prod.fst)) (by
    refine List.nodup_cons.2 ⟨?_, i.rep.nodup⟩
    intro h
    obtain ⟨x, hx, e⟩ := List.mem_map.1 h
    have := i.rep.addr x hx
    omega) (by
    intro p hp
    rcases List.mem_cons.1 hp with rfl | hp
    · omega
    · obtain ⟨x, hx, rfl⟩ := List.mem_map.1 hp
      have := i.rep.addr x hx
      omega)
  simp at this
  omega

theorem nextElement_ok {s : S} {p : Nat} {e d : Nat} {r : List (Nat × Nat)} (hs : Seg s.u.mem p ((e, d) :: r) 0) (ha : Alive s e) (hc : s.cur = e) :
    nextElement s = .ok (e, { s with cur := headA r 0 }) := by
  unfold nextElement
  rw [hc, ldE_ok s e 1 ha]
  simp only [bind, Except.bind, pure, Except.pure]
  rw [hs.2.1]

theorem find_ok {s : S} {rest : List (Nat × Nat)} {p : Nat} (hs : Seg s.u.mem p rest 0) (ha : ∀ x ∈ rest, Alive s x.1) (data fuel : Nat)
    (hf : rest.length < fuel) (hc : s.cur = headA rest 0) :
    ∃ c, findLoop fuel s data = .ok ((rest.find? (fun x => x.2 == data)).map Prod.fst, { s with cur := c }) := by
  induction fuel generalizing s rest p with
  | zero => omega
  | succ fuel ih =>
    cases rest with
    | nil =>
      refine ⟨s.cur, ?_⟩
      simp only [findLoop, hasNext, hc, headA, bne_self_eq_false, Bool.false_eq_true, if_false, List.find?_nil, Option.map_none]
      rw [show (0 : Nat) = s.cur from hc.symm]
    | cons x r =>
      obtain ⟨e, d⟩ := x
      have hal := ha (e, d) (List.mem_cons_self ..)
      have hne : hasNext s = true := by
        unfold hasNext; rw [hc]; simp only [headA]; simpa using hal.1
      simp only [findLoop, hne, if_true, nextElement_ok hs hal hc, bind, Except.bind, pure, Except.pure]
      rw [ldE_ok _ e 2 (show Alive { s with cur := headA r 0 } e from hal)]
      have hd : s.u.mem (e + 2) = d := hs.2.2.1
      simp only [hd]
      by_cases hdd : d = data
      · subst hdd
        refine ⟨headA r 0, ?_⟩
        simp
      · rw [if_neg hdd]
        obtain ⟨c, hc'⟩ := ih (s := { s with cur := headA r 0 }) (rest := r) (p := e) hs.2.2.2 (fun x hx => ha x (List.mem_cons_of_mem _ hx))
          (by simp at hf; omega) rfl
        refine ⟨c, ?_⟩
        rw [hc']
        simp [hdd]

theorem SInv.cursor {s : S} {ns : List (Nat × Nat)} (i : SInv s ns) (c : Nat) : SInv { s with cur := c } ns :=
  ⟨i.rep, i.good, i.deadUm, i.deadNo, i.fresh⟩

theorem find_all {s : S} {ns : List (Nat × Nat)} (i : SInv s ns) (data : Nat) :
    ∃ c, findLoop s.brk (rewind s) data = .ok ((ns.find? (fun x => x.2 == data)).map Prod.fst, { s with cur := c }) :=
  find_ok (s := rewind s) i.rep.seg (fun x hx => i.alive hx) data s.brk i.len i.rep.start

/-- what `find?` finds -/
theorem find_split (ns : List (Nat × Nat)) (data : Nat) :
    (ns.find? (fun x => x.2 == data) = none ∧ data ∉ ns.map Prod.snd) ∨
    (∃ A t B, ns = A ++ (t, data) :: B ∧ ns.find? (fun x => x.2 == data) = some (t, data) ∧ data ∉ A.map Prod.snd) := by
  induction ns with
  | nil => exact Or.inl ⟨rfl, by simp⟩
  | cons x ns ih =>
    obtain ⟨e, d⟩ := x
    by_cases h : d = data
    · subst h
      exact Or.inr ⟨[], e, ns, rfl, by simp, by simp⟩
    · rcases ih with ⟨h1, h2⟩ | ⟨A, t, B, rfl, h2, h3⟩
      · refine Or.inl ⟨by simp [h, h1], ?_⟩
        simp only [List.map_cons, List.mem_cons, not_or]
        exact ⟨fun e => h e.symm, h2⟩
      · refine Or.inr ⟨(e, d) :: A, t, B, rfl, ?_, ?_⟩
        · simp only [List.cons_append, List.find?_cons, h, beq_iff_eq]
          have : (d == data) = false := by simpa using h
          rw [this]; exact h2
        · simp only [List.map_cons, List.mem_cons, not_or]
          exact ⟨fun e => h e.symm, h3⟩

theorem seg_prev {m : Mem Nat} {p n t dt : Nat} {A B : List (Nat × Nat)} (h : Seg m p (A ++ (t, dt) :: B) n) :
    m t = lastA p A ∧ m (t + 1) = headA B n := by
  rw [seg_append] at h
  exact ⟨h.2.1, h.2.2.1⟩

theorem addBeforeElem_ok {s : S} {A B : List (Nat × Nat)} {t dt : Nat} (i : SInv s (A ++ (t, dt) :: B)) (d : Nat) :
    ∃ s', (do
        let x := newElem s
        let s ← regE x.1 x.2 x.2 2
        let s ← stE s x.2 2 d
        addBeforeElem s t x.2) = .ok s' ∧ SInv s' (A ++ (s.brk, d) :: (t, dt) :: B) ∧ s'.um = s.um ∧ s.brk ≤ s'.brk ∧ (s.um = true → Trace s.u s'.u true) := by
  have hb := i.rep.brkOk
  have ht := i.rep.addr (t, dt) (by simp)
  simp only at ht
  obtain ⟨sp, _⟩ := seg_prev i.rep.seg
  rw [newElem_nf s i.rep.zero]
  simp only
  generalize hs0 : ({ s with brk := s.brk + 3 } : S) = s0
  have hmem : s0.u = s.u := by rw [← hs0]
  have hum : s0.um = s.um := by rw [← hs0]
  have hg0 : Good s0 := by rw [← hs0]; exact i.good
  have al0 : ∀ e, Alive s e → Alive s0 e := by
    intro e h
    rw [← hs0]; exact ⟨h.1, by have := h.2.1; simp; omega, h.2.2⟩
  have hit : Alive s0 s.brk := by rw [← hs0]; exact ⟨by omega, by simp, i.fresh _ (Nat.le_refl _)⟩
  have e0 : regE s0 s.brk s.brk 2 = .ok (Rl s0 [(s.brk, s.brk + 2)]) := regE_ok s0 [] hg0 s.brk s.brk 2 hit hit
  simp only [bind, Except.bind, e0]
  generalize hs1 : Rl s0 [(s.brk, s.brk + 2)] = s1
  obtain ⟨m1, _, _, _, _, hg1⟩ := Rl_spec s0 [(s.brk, s.brk + 2)] hg0
  rw [hs1] at m1 hg1
  have al1 : ∀ e, Alive s0 e → Alive s1 e := fun e h => hs1 ▸ alive_Rl hg0 h
  have e1 : stE s1 s.brk 2 d = .ok (Wl s1 [(s.brk + 2, d)]) := stE_ok s1 [] s.brk 2 d (al1 _ hit)
  simp only [e1]
  have hmw : ∀ a, a < s.brk → (Wl s1 [(s.brk + 2, d)]).u.mem a = s.u.mem a := by
    intro a ha
    simp only [Wl, W, List.foldl_cons, List.foldl_nil, upd]
    rw [if_neg (by omega), m1, hmem]
  have q1 := hmw aStart (by simp only [aStart]; omega)
  have q2 := hmw aCount (by simp only [aCount]; omega)
  have q3 := hmw (t + 0) (by omega)
  have hafter : s.u.mem (t + 0) ≠ 0 → Alive s (s.u.mem (t + 0)) ∧ 8 ≤ s.u.mem (t + 0) ∧ s.u.mem (t + 0) % 3 = 2 ∧ s.u.mem (t + 0) + 3 ≤ s.brk := by
    intro h
    have e : s.u.mem (t + 0) = lastA 0 A := sp
    rw [e] at h ⊢
    obtain ⟨x, hx, ex⟩ := lastA_mem h
    rw [← ex]
    exact ⟨i.alive (List.mem_append_left _ hx), i.rep.addr x (List.mem_append_left _ hx)⟩
  have nf := addBeforeElem_nf (Wl s1 [(s.brk + 2, d)]) hg1 t s.brk (al1 _ hit) (al1 _ (al0 _ (i.alive (x := (t, dt)) (by simp)))) (by
    rw [q3]; intro h
    exact al1 _ (al0 _ (hafter h).1))
  rw [q1, q2, q3] at nf
  have hcomm : ∀ r ∈ befRegs (s.u.mem (t + 0)) (s.u.mem aStart) t s.brk, s.brk + 2 ≠ r.2 := by
    intro r hr
    simp only [befRegs, List.mem_append, List.mem_singleton] at hr
    rcases hr with ((((rfl | rfl) | hr) | rfl) | hr) | rfl
    · simp
    · simp
    · split at hr
      · simp only [List.mem_singleton] at hr
        subst hr
        show s.brk + 2 ≠ 1; omega
      · cases hr
    · simp; omega
    · split at hr
      · rename_i h
        simp only [List.mem_singleton] at hr
        subst hr
        have := hafter (by simpa using h)
        simp only; omega
      · cases hr
    · show s.brk + 2 ≠ 4; omega
  rw [Rl_Wl_comm s1 hg1 _ _ _ hcomm, Wl_Wl, ← hs1, ← Rl_append] at nf
  obtain ⟨w1, w2, w3, w4, w5, w6⟩ := Rl_spec s0 ([(s.brk, s.brk + 2)] ++ befRegs (s.u.mem (t + 0)) (s.u.mem aStart) t s.brk) hg0
  have wbrk : s0.brk = s.brk + 3 := by rw [← hs0]
  have wdead : s0.dead = s.dead := by rw [← hs0]
  refine ⟨_, hs1 ▸ nf, ⟨?_, good_Wl w6, ?_, ?_, ?_⟩, w4.trans hum, by show s.brk ≤ (Rl _ _).brk; rw [w2, wbrk]; omega, ?_⟩
  · show RepM (Rl _ _).brk (W (Rl _ _).u.mem _) _
    rw [w1, w2, wbrk, hmem]
    exact rep_bef i.rep d
  · intro hu a
    show (Rl _ _).dead a = false
    rw [w3, wdead]
    exact i.deadUm ((w4.trans hum).symm.trans hu) a
  · intro hu e h8 h3 he
    have he' : e < s.brk + 3 := by have := (w2.trans wbrk) ▸ he; exact this
    show (Rl _ _).dead e = false ↔ _
    rw [w3, wdead]
    simp only [List.map_append, List.mem_append, List.map_cons, List.mem_cons]
    by_cases hlt : e < s.brk
    · have := i.deadNo ((w4.trans hum).symm.trans hu) e h8 h3 hlt
      simp only [List.map_append, List.mem_append, List.map_cons, List.mem_cons] at this
      rw [this]
      constructor
      · rintro (h | h | h)
        · exact Or.inl h
        · exact Or.inr (Or.inr (Or.inl h))
        · exact Or.inr (Or.inr (Or.inr h))
      · rintro (h | h | h | h)
        · exact Or.inl h
        · omega
        · exact Or.inr (Or.inl h)
        · exact Or.inr (Or.inr h)
    · have : e = s.brk := by omega
      subst this
      exact ⟨fun _ => Or.inr (Or.inl rfl), fun _ => i.fresh _ (Nat.le_refl _)⟩
  · intro e he
    show (Rl _ _).dead e = false
    rw [w3, wdead]
    have he' : s.brk + 3 ≤ e := by have := (w2.trans wbrk) ▸ he; exact this
    exact i.fresh e (by omega)
  · intro hu
    suffices h : Trace s0.u (Wl (Rl s0 ([(s.brk, s.brk + 2)] ++ befRegs (s.u.mem (t + 0)) (s.u.mem aStart) t s.brk))
        ([(s.brk + 2, d)] ++ befStores (s.u.mem (t + 0)) (s.u.mem aStart) (s.u.mem aCount) t s.brk)).u true by
      rw [hmem] at h; exact h
    refine trace_edit s0 _ _ hg0 (hum.trans hu) (by simp) ?_
    intro w hw
    generalize hregs : [(s.brk, s.brk + 2)] ++ befRegs (s.u.mem (t + 0)) (s.u.mem aStart) t s.brk = regs
    have mk : ∀ r, r ∈ regs → r.2 = w.1 → ∃ r ∈ regs, r.2 = w.1 := fun r h e => ⟨r, h, e⟩
    simp only [befStores, List.mem_cons, List.mem_append, List.mem_singleton, List.not_mem_nil, or_false] at hw
    rcases hw with rfl | (((((hw | rfl) | rfl) | hw) | rfl) | rfl)
    · exact mk (s.brk, s.brk + 2) (by simp [← hregs]) rfl
    · split at hw
      · rename_i c
        simp only [List.mem_singleton] at hw
        subst hw
        exact mk (this, aStart) (by simp only [← hregs, befRegs, c, if_true]; simp) rfl
      · cases hw
    · exact mk (s.brk, s.brk + 0) (by simp [← hregs, befRegs]) rfl
    · exact mk (s.brk, s.brk + 1) (by simp [← hregs, befRegs]) rfl
    · split at hw
      · rename_i c
        simp only [List.mem_singleton] at hw
        subst hw
        exact mk (t, s.u.mem (t + 0) + 1) (by simp only [← hregs, befRegs, c, if_true]; simp) rfl
      · cases hw
    · exact mk (t, t + 0) (by simp [← hregs, befRegs]) rfl
    · exact mk (this, aCount) (by simp [← hregs, befRegs]) rfl

theorem insertBefore_none {t d : Nat} {xs : List Nat} (h : t ∉ xs) : Spec.insertBefore t d xs = xs := by
  induction xs with
  | nil => rfl
  | cons x xs ih =>
    simp only [List.mem_cons, not_or] at h
    simp only [Spec.insertBefore, if_neg (fun e : x = t => h.1 e.symm), ih h.2]

theorem insertBefore_mid {t d : Nat} {xs ys : List Nat} (h : t ∉ xs) : Spec.insertBefore t d (xs ++ t :: ys) = xs ++ d :: t :: ys := by
  induction xs with
  | nil => simp [Spec.insertBefore]
  | cons x xs ih =>
    simp only [List.mem_cons, not_or] at h
    simp only [List.cons_append, Spec.insertBefore, if_neg (fun e : x = t => h.1 e.symm), ih h.2]

theorem addBefore_ok {s : S} {ns : List (Nat × Nat)} (i : SInv s ns) (t d : Nat) :
    ∃ s' ns', addBefore s t d = .ok s' ∧ SInv s' ns' ∧ ns'.map Prod.snd = Spec.insertBefore t d (ns.map Prod.snd) ∧ s'.um = s.um ∧ s.brk ≤ s'.brk ∧
      (s.um = true → Trace s.u s'.u (decide (t ∈ ns.map Prod.snd))) := by
  obtain ⟨c, hf⟩ := find_all i t
  unfold addBefore
  rw [hf]
  simp only [bind, Except.bind]
  rcases find_split ns t with ⟨h1, h2⟩ | ⟨A, e, B, rfl, h2, h3⟩
  · rw [h1]
    refine ⟨_, ns, rfl, i.cursor c, (insertBefore_none h2).symm, rfl, Nat.le_refl _, ?_⟩
    intro _
    rw [decide_eq_false h2]
    exact Trace.nil _
  · rw [h2]
    simp only [Option.map_some]
    obtain ⟨s', e1, e2, e3, e5, e4⟩ := addBeforeElem_ok (i.cursor c) d
    refine ⟨s', _, e1, e2, ?_, e3, e5, ?_⟩
    · simp only [List.map_append, List.map_cons, insertBefore_mid h3]
    · intro hu
      rw [decide_eq_true (by simp)]
      exact e4 hu

end Verif.LinkedList
