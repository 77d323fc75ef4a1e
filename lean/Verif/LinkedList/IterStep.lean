import Verif.LinkedList.IterOps
/-
Every call on the list moves the cursor and the iterators as the specification says.
-/
namespace Verif.LinkedList.Iter
open Verif Verif.Undo Verif.LinkedList
open Verif.LinkedList.Spec (Op Out)

/-- what one call does -/
structure Did (s : S) (ns : List (Nat × Nat)) (o : Op) (s' : S) (ns' : List (Nat × Nat)) : Prop where
  inv : SInv s' ns'
  xs : ns'.map Prod.snd = (Spec.step s.um (ns.map Prod.snd) o).1
  um : s'.um = s.um
  cur : ∀ c, CurOk ns c s.cur → CurOk ns' (moveCur (ns.map Prod.snd) o c) s'.cur
  its : ∀ p a, PosOk s ns p a → PosOk s' ns' (moveIt (ns.map Prod.snd) o p) a

theorem lend_out {s : S} {ns : List (Nat × Nat)} (i : SInv s ns) (h : s.u.mem aEnd ≠ 0) : ¬ Out3 s ns (s.u.mem aEnd + 1) := by
  have e : s.u.mem aEnd = lastA 0 ns := i.rep.lend
  rw [e] at h ⊢
  obtain ⟨x, hx, ex⟩ := lastA_mem h
  rw [← ex]
  exact out_mem hx 1 (by omega)

theorem did_add {s : S} {ns : List (Nat × Nat)} (i : SInv s ns) (d : Nat) : ∃ s' ns', add s d = .ok s' ∧ Did s ns (.add d) s' ns' := by
  obtain ⟨s', h1, h2, h3, h4, _⟩ := add_ok i d
  have hk : Keep (Out3 s ns) s s' := add_keep h1 (out_low (by decide)) (out_low (by decide)) (out_low (by decide))
    (fun f _ => out_new f) (lend_out i) i.rep.brkOk.1
  refine ⟨s', _, h1, ⟨h2, by simp [Spec.step], h3, ?_, ?_⟩⟩
  · intro c hc
    rw [hk.1]
    cases c with
    | none => exact hc
    | some k =>
      obtain ⟨d', e⟩ := hc
      refine ⟨d', ?_⟩
      rw [List.getElem?_append_left (List.getElem?_eq_some_iff.1 e).1]
      exact e
  · intro p a h
    cases p with
    | fin => exact h
    | before k =>
      obtain ⟨d', e⟩ := h
      refine ⟨d', ?_⟩
      rw [List.getElem?_append_left (List.getElem?_eq_some_iff.1 e).1]
      exact e
    | gone d' =>
      refine gone_keep i h h3 (by omega) (fun _ => hk.2) ?_
      intro x hx
      simp only [List.map_append, List.mem_append, List.map_cons, List.map_nil, List.mem_singleton] at hx
      rcases hx with h | h
      · exact Or.inl h
      · exact Or.inr (by omega)

theorem did_addBefore {s : S} {ns : List (Nat × Nat)} (i : SInv s ns) (t d : Nat) :
    ∃ s' ns', addBefore s t d = .ok s' ∧ Did s ns (.addBefore t d) s' ns' := by
  unfold addBefore
  rcases find_cur i t with ⟨h1, h2⟩ | ⟨A, e, B, rfl, h2, h3⟩
  · rw [h2]
    refine ⟨_, ns, rfl, ⟨i.cursor 0, (insertBefore_none h1).symm, rfl, ?_, ?_⟩⟩
    · intro c _
      simp only [moveCur, if_neg h1]
      rfl
    · intro p a h
      cases p with
      | fin => exact h
      | before k => simp only [moveIt, if_neg (fun q : _ ∧ _ => h1 q.1)]; exact h
      | gone d' => exact h
  · rw [h3]
    simp only [bind, Except.bind]
    obtain ⟨s', e1, e2, e3, e5, _⟩ := addBeforeElem_ok (i.cursor (headA B 0)) d
    have hk : Keep (Out3 s (A ++ (e, t) :: B)) { s with cur := headA B 0 } s' := by
      have h := e1
      simp only at h
      obtain ⟨s1, k1, h⟩ := bind_ok h
      obtain ⟨s2, k2, h⟩ := bind_ok h
      have ie := i.rep.addr (e, t) (by simp)
      simp only at ie
      have hb := i.rep.brkOk.1
      have pre : ∀ P : Nat → Prop, (∀ f, f < 3 → ¬ P (s.brk + f)) → Keep P { s with cur := headA B 0 } s2 := fun P hP =>
        ((newElem_keep { s with cur := headA B 0 } hP).trans (regE_keep k1)).trans (stE_keep k2 (hP 2 (by omega)))
      have eq : s2.u.mem (e + 0) = s.u.mem (e + 0) := (pre (fun a => a = e + 0) (fun f _ q => by omega)).2 (e + 0) rfl
      refine (pre _ (fun f _ => out_new f)).trans (addBeforeElem_keep h (out_low (by decide)) (out_low (by decide)) (fun f _ => out_new f)
        (out_mem (x := (e, t)) (by simp) 0 (by omega)) ?_)
      rw [eq]
      intro hz
      obtain ⟨sp, _⟩ := seg_prev i.rep.seg
      have sp' : s.u.mem (e + 0) = lastA 0 A := sp
      rw [sp'] at hz ⊢
      obtain ⟨x, hx, ex⟩ := lastA_mem hz
      rw [← ex]
      exact out_mem (List.mem_append_left _ hx) 1 (by omega)
    have ht : t ∈ (A ++ (e, t) :: B).map Prod.snd := by simp
    refine ⟨s', _, e1, ⟨e2, ?_, e3, ?_, ?_⟩⟩
    · simp only [Spec.step, List.map_append, List.map_cons, insertBefore_mid h2]
    · intro c _
      rw [hk.1]
      simp only [moveCur, if_pos ht, idx_mid h2]
      have := curOk_head (A ++ [(s.brk, d), (e, t)]) B
      simpa [Nat.add_assoc, Nat.add_comm, Nat.add_left_comm] using this
    · intro p a h
      cases p with
      | fin => exact h
      | before k =>
        obtain ⟨d', h⟩ := h
        simp only [moveIt, ht, true_and, idx_mid h2]
        split
        · rename_i hle
          refine ⟨d', ?_⟩
          rw [get_app, if_neg (by omega), show k + 1 - A.length = (k - A.length) + 1 by omega, List.getElem?_cons_succ]
          rw [get_app, if_neg (by omega)] at h
          exact h
        · rename_i hle
          refine ⟨d', ?_⟩
          rw [get_app, if_pos (by omega)] at h ⊢
          exact h
      | gone d' =>
        refine gone_keep i h e3 e5 (fun _ => hk.2) ?_
        intro x hx
        simp only [List.map_append, List.map_cons, List.mem_append, List.mem_cons] at hx ⊢
        rcases hx with h | h | h | h
        · exact Or.inl (Or.inl h)
        · exact Or.inr (Nat.le_of_eq h.symm)
        · exact Or.inl (Or.inr (Or.inl h))
        · exact Or.inl (Or.inr (Or.inr h))

theorem removeElem_out {s s' : S} {A B : List (Nat × Nat)} {e t : Nat} (i : SInv s (A ++ (e, t) :: B)) (h : removeElem s e = .ok s') (P : Nat → Prop)
    (h1 : ∀ a, a < 8 → ¬ P a) (h2 : ∀ x ∈ A ++ (e, t) :: B, ∀ f, f < 2 → ¬ P (x.1 + f)) : Keep P s s' := by
  obtain ⟨sp, sn⟩ := seg_prev i.rep.seg
  refine removeElem_keep h (h1 _ (by decide)) (h1 _ (by decide)) (h1 _ (by decide)) (h2 (e, t) (by simp) 0 (by omega)) (h2 (e, t) (by simp) 1 (by omega)) ?_ ?_
  · intro hz
    have sp' : s.u.mem (e + 0) = lastA 0 A := sp
    rw [sp'] at hz ⊢
    obtain ⟨x, hx, ex⟩ := lastA_mem hz
    rw [← ex]
    exact h2 x (List.mem_append_left _ hx) 1 (by omega)
  · intro hz
    rw [sn] at hz ⊢
    obtain ⟨x, hx, ex⟩ := headA_mem hz
    rw [← ex]
    exact h2 x (List.mem_append_right _ (List.mem_cons_of_mem _ hx)) 0 (by omega)

/-- what an iterator before the removed element finds there afterwards -/
theorem removed_gone {s s' : S} {A B : List (Nat × Nat)} {e t : Nat} (i : SInv s (A ++ (e, t) :: B)) (h : removeElem s e = .ok s')
    (hum : s'.um = s.um) (hb : s'.brk = s.brk) : PosOk s' (A ++ B) (.gone t) e := by
  have ie := i.rep.addr (e, t) (by simp)
  simp only at ie
  obtain ⟨nd1, nd2, _⟩ := nodup_mid i.rep.nodup
  refine ⟨ie.1, ie.2.1, by omega, ?_, fun _ => ⟨removeElem_next h ie.1, ?_⟩⟩
  · intro hm
    obtain ⟨x, hx, ex⟩ := List.mem_map.1 hm
    rcases List.mem_append.1 hx with hx | hx
    · exact nd1 x hx ex
    · exact nd2 x hx ex
  · have hk : Keep (fun a => a = e + 2) s s' := removeElem_out i h _ (fun a ha q => by omega) (by
      intro x hx f hf q
      have := i.rep.addr x hx
      omega)
    rw [hk.2 _ rfl]
    exact (((seg_append _ _ _ _ _).1 i.rep.seg).2.2.2.1)

theorem did_remove {s : S} {ns : List (Nat × Nat)} (i : SInv s ns) (d : Nat) :
    ∃ s' ns', remove s d = .ok (if d ∈ ns.map Prod.snd then eOK else eNotFound, s') ∧ Did s ns (.remove d) s' ns' := by
  unfold remove
  rcases find_cur i d with ⟨h1, h2⟩ | ⟨A, e, B, rfl, h2, h3⟩
  · rw [h2]
    refine ⟨_, ns, by rw [if_neg h1]; rfl, ⟨i.cursor 0, ?_, rfl, ?_, ?_⟩⟩
    · simp only [Spec.step, if_neg h1]
    · intro c _
      simp only [moveCur, if_neg h1]
      rfl
    · intro p a h
      cases p with
      | fin => exact h
      | before k => simp only [moveIt, if_neg (fun q : _ ∧ _ => h1 q.1)]; exact h
      | gone d' => exact h
  · rw [h3]
    simp only [bind, Except.bind]
    obtain ⟨s', e1, e2, e3, e5, _⟩ := removeElem_ok (i.cursor (headA B 0))
    have hk : Keep (Out3 s (A ++ (e, d) :: B)) { s with cur := headA B 0 } s' :=
      removeElem_out (i.cursor _) e1 _ (fun a ha => out_low ha) (fun x hx f hf => out_mem hx f (by omega))
    have ht : d ∈ (A ++ (e, d) :: B).map Prod.snd := by simp
    rw [e1]
    refine ⟨s', _, by rw [if_pos ht]; rfl, ⟨e2, ?_, e3, ?_, ?_⟩⟩
    · simp only [Spec.step, if_pos ht]
      simp only [List.map_append, List.map_cons, erase_mid h2]
    · intro c _
      rw [hk.1]
      simp only [moveCur, if_pos ht, idx_mid h2]
      have := curOk_head A B
      simpa using this
    · intro p a h
      cases p with
      | fin => exact h
      | before k =>
        obtain ⟨d', h⟩ := h
        simp only [moveIt, ht, true_and, idx_mid h2]
        rw [get_mid] at h
        split
        · rename_i hk
          subst hk
          rw [if_neg (Nat.lt_irrefl _), if_pos rfl] at h
          simp only [Option.some.injEq, Prod.mk.injEq] at h
          rw [← h.1]
          exact removed_gone (i.cursor _) e1 e3 e5
        · rename_i hk
          split
          · rename_i hlt
            rw [if_neg (by omega), if_neg (by omega)] at h
            refine ⟨d', ?_⟩
            rw [get_app, if_neg (by omega), show k - 1 - A.length = k - (A.length + 1) by omega]
            exact h
          · rename_i hlt
            rw [if_pos (by omega)] at h
            refine ⟨d', ?_⟩
            rw [get_app, if_pos (by omega)]
            exact h
      | gone d' =>
        refine gone_keep i h e3 (Nat.le_of_eq e5.symm) (fun _ => hk.2) ?_
        intro x hx
        simp only [List.map_append, List.map_cons, List.mem_append, List.mem_cons] at hx ⊢
        rcases hx with h | h
        · exact Or.inl (Or.inl h)
        · exact Or.inl (Or.inr (Or.inr h))

theorem get_fst {ns ns' : List (Nat × Nat)} (h : ns'.map Prod.fst = ns.map Prod.fst) {k a d : Nat} (e : ns[k]? = some (a, d)) :
    ∃ d', ns'[k]? = some (a, d') := by
  have h1 : (ns'.map Prod.fst)[k]? = some a := by rw [h, List.getElem?_map, e]; rfl
  rw [List.getElem?_map] at h1
  cases h2 : ns'[k]? with
  | none => rw [h2] at h1; cases h1
  | some x =>
    rw [h2] at h1
    simp only [Option.map_some, Option.some.injEq] at h1
    exact ⟨x.2, by rw [← h1]⟩

theorem head_fst {ns ns' : List (Nat × Nat)} (h : ns'.map Prod.fst = ns.map Prod.fst) (m : Nat) : headA (ns'.drop m) 0 = headA (ns.drop m) 0 := by
  have h1 : (ns'.drop m).map Prod.fst = (ns.drop m).map Prod.fst := by rw [List.map_drop, List.map_drop, h]
  generalize ns'.drop m = u at *
  generalize ns.drop m = v at *
  cases u <;> cases v <;> simp_all [headA]

theorem did_swap {s : S} {ns : List (Nat × Nat)} (i : SInv s ns) (a b : Nat) : ∃ s' ns', swapData s a b = .ok s' ∧ Did s ns (.swap a b) s' ns' := by
  obtain ⟨s', ns', h1, h2, h3, h4, h5, _, h7⟩ := swapData_ok' i a b
  have hlen : ns'.length = ns.length := by simpa using congrArg List.length h7
  -- the loop and what follows
  have hr : ∃ r, swapLoop s.brk (rewind s) a b 0 0 = .ok r ∧
      ((r.1 ≠ 0 ∧ r.2.1 ≠ 0 ∧ s.um = true ∧ swapElems r.2.2 r.1 r.2.1 a b = .ok s') ∨ s' = r.2.2) ∧ ∃ c, r.2.2 = { s with cur := c } := by
    have h := h1
    unfold swapData at h
    obtain ⟨r, hr, h⟩ := bind_ok h
    obtain ⟨c, e1, e2, hl, hm⟩ := swapLoop_ok ns (fun x hx => by have := i.rep.addr x hx; omega) a b s.brk (rewind s) ns 0 0 none none rfl
      i.rep.seg (fun x hx => i.alive hx) i.len i.rep.start (by simp) (by simp) (Or.inl rfl)
    have hl' : swapLoop s.brk (rewind s) a b 0 0 = .ok (e1, e2, { s with cur := c }) := hl
    have he := hr.symm.trans hl'
    cases he
    refine ⟨_, hr, ?_, c, rfl⟩
    split at h
    · rename_i hc
      split at h
      · rename_i hu
        exact Or.inl ⟨hc.1, hc.2, hu, h⟩
      · cases h; exact Or.inr rfl
    · cases h; exact Or.inr rfl
  obtain ⟨r, hr, hs', c, hc⟩ := hr
  have hcur := swapLoop_cur 0 a b s.brk (rewind s) ns ns 0 0 none none 0 0 rfl i.rep.seg (fun x hx => i.alive hx) i.rep.start (by simp) (by simp)
    (Or.inl rfl) (by simp) (by simp) r hr
  have hk : (s'.cur = r.2.2.cur) ∧ (s.um = true → ∀ x, Out3 s ns x → s'.u.mem x = s.u.mem x) := by
    rcases hs' with ⟨n1, n2, hu, h⟩ | h
    · obtain ⟨c', e1, e2, hl, hm⟩ := swapLoop_ok ns (fun x hx => by have := i.rep.addr x hx; omega) a b s.brk (rewind s) ns 0 0 none none rfl
        i.rep.seg (fun x hx => i.alive hx) i.len i.rep.start (by simp) (by simp) (Or.inl rfl)
      have hl' : swapLoop s.brk (rewind s) a b 0 0 = .ok (e1, e2, { s with cur := c' }) := hl
      have he := hr.symm.trans hl'
      cases he
      cases hsc : Spec.scan a b (ns.map Prod.snd) 0 none none with
      | none => rw [hsc] at hm; rcases hm with h | h <;> contradiction
      | some ij =>
        obtain ⟨m1, m2⟩ := ij
        rw [hsc] at hm
        obtain ⟨l1, l2, rfl, rfl⟩ := hm
        have a1 : addrAt ns (some m1) = ns[m1].1 := by simp [addrAt, l1]
        have a2 : addrAt ns (some m2) = ns[m2].1 := by simp [addrAt, l2]
        unfold swapElems at h
        obtain ⟨s1, k1, h⟩ := bind_ok h
        obtain ⟨s2, k2, h⟩ := bind_ok h
        obtain ⟨s3, k3, h⟩ := bind_ok h
        have hk : Keep (Out3 s ns) { s with cur := c' } s' :=
          (((regE_keep k1).trans (regE_keep k2)).trans (stE_keep k3 (by
            simp only; rw [a1]; exact out_mem (List.getElem_mem l1) 2 (by omega)))).trans (stE_keep h (by
            simp only; rw [a2]; exact out_mem (List.getElem_mem l2) 2 (by omega)))
        exact ⟨hk.1, fun _ => hk.2⟩
    · rw [h]
      exact ⟨rfl, fun _ x _ => by rw [hc]⟩
  refine ⟨s', ns', h1, ⟨h2, ?_, h4, ?_, ?_⟩⟩
  · rw [h3]; simp only [Spec.step]; split <;> rfl
  · intro c0 _
    rw [hk.1, hcur]
    simp only [moveCur]
    cases hsc : Spec.scan a b (ns.map Prod.snd) 0 none none with
    | none => rfl
    | some ij =>
      obtain ⟨m1, m2⟩ := ij
      simp only
      rw [← head_fst h7, List.length_map]
      generalize hmm : max m1 m2 + 1 = m
      by_cases hlt : m < ns.length
      · have hlt' : m < ns'.length := by omega
        rw [norm, if_pos hlt]
        refine ⟨ns'[m].2, ?_⟩
        rw [List.getElem?_eq_getElem hlt', List.drop_eq_getElem_cons hlt']
        rfl
      · rw [norm, if_neg hlt, List.drop_eq_nil_of_le (by omega)]
        rfl
  · intro p x h
    cases p with
    | fin => exact h
    | before k =>
      obtain ⟨d', h⟩ := h
      exact get_fst h7 h
    | gone d' =>
      refine gone_keep i h h4 h5 hk.2 ?_
      intro y hy
      rw [h7] at hy
      exact Or.inl hy

theorem clearUm_gone : ∀ (fuel : Nat) (s s' : S) (ns : List (Nat × Nat)), SInv s ns → s.um = true → ns.length < fuel → clearLoopUm fuel s = .ok s' →
    ∀ x d, (PosOk s ns (.gone d) x ∨ (x, d) ∈ ns) → PosOk s' [] (.gone d) x := by
  intro fuel
  induction fuel with
  | zero => intro s s' ns _ _ h; omega
  | succ fuel ih =>
    intro s s' ns i hu hf h
    have hst : s.u.mem aStart = headA ns 0 := i.rep.start
    cases ns with
    | nil =>
      simp only [clearLoopUm, hst, headA, bne_self_eq_false, Bool.false_eq_true, if_false] at h
      cases h
      intro x d hx
      rcases hx with hx | hx
      · exact hx
      · cases hx
    | cons y ns =>
      obtain ⟨e, dt⟩ := y
      have hne : (e != 0) = true := by
        have := (i.alive (List.mem_cons_self ..)).1
        simpa using this
      obtain ⟨s1, e1, e2, e3, e4, e5⟩ := removeElem_ok (A := []) i
      simp only [clearLoopUm, hst, headA, hne, if_true, e1, bind, Except.bind] at h
      have next := ih s1 s' ns e2 (e3.trans hu) (by simp at hf; omega) h
      have hk : Keep (Out3 s ([] ++ (e, dt) :: ns)) s s1 := removeElem_out (A := []) i e1 _ (fun a ha => out_low ha) (fun x hx f hf => out_mem hx f (by omega))
      intro x d hx
      refine next x d ?_
      rcases hx with hx | hx
      · exact Or.inl (gone_keep i hx e3 (Nat.le_of_eq e4.symm) (fun _ => hk.2) (fun z hz => Or.inl (List.mem_cons_of_mem _ hz)))
      · rcases List.mem_cons.1 hx with hx | hx
        · cases hx
          exact Or.inl (removed_gone (A := []) i e1 e3 e4)
        · exact Or.inr hx

theorem did_clear {s : S} {ns : List (Nat × Nat)} (i : SInv s ns) : ∃ s' ns', clear s = .ok s' ∧ Did s ns .clear s' ns' := by
  obtain ⟨s', h1, h2, h3, h4, _, h6⟩ := clear_ok i
  refine ⟨s', [], h1, ⟨h2, rfl, h3, ?_, ?_⟩⟩
  · intro c _
    unfold clear at h1
    simp only at h1
    split at h1
    · obtain ⟨s1, _, h1⟩ := bind_ok h1
      cases h1
      rfl
    · obtain ⟨s1, _, h1⟩ := bind_ok h1
      cases h1
      rfl
  · have key : ∀ x d, (PosOk s ns (.gone d) x ∨ (x, d) ∈ ns) → PosOk s' [] (.gone d) x := by
      intro x d hx
      by_cases hu : s.um = true
      · have h := h1
        unfold clear at h
        simp only [if_pos hu] at h
        obtain ⟨s1, k1, h⟩ := bind_ok h
        obtain ⟨s1', g1, g2, _⟩ := clearLoopUm_ok s.brk s ns i hu i.len
        have := g1.symm.trans k1
        cases this
        have hp := clearUm_gone s.brk s s1 ns i hu i.len k1 x d hx
        rw [stL_same s1 aStart 0 g2.rep.start, stL_same s1 aEnd 0 g2.rep.lend, stL_same s1 aCount 0 g2.rep.cnt] at h
        cases h
        exact hp
      · have h8 : 8 ≤ x ∧ x % 3 = 2 ∧ x + 3 ≤ s.brk := by
          rcases hx with hx | hx
          · exact ⟨hx.1, hx.2.1, hx.2.2.1⟩
          · exact i.rep.addr _ hx
        exact ⟨h8.1, h8.2.1, by omega, by simp, fun q => absurd (h3 ▸ q) hu⟩
    intro p x h
    cases p with
    | fin => exact h
    | before k =>
      obtain ⟨d, h⟩ := h
      have hd : (ns.map Prod.snd).getD k 0 = d := by rw [List.getD_eq_getElem?_getD, List.getElem?_map, h]; rfl
      simp only [moveIt, hd]
      exact key x d (Or.inr (List.mem_of_getElem? h))
    | gone d => exact key x d (Or.inl h)

/-- every call -/
theorem did {s : S} {ns : List (Nat × Nat)} (i : SInv s ns) (hl : ns.length < 2 ^ 32) (o : Op) :
    ∃ s' ns', Spec.execOp s o = .ok (s', (Spec.step s.um (ns.map Prod.snd) o).2) ∧ Did s ns o s' ns' := by
  have same : ∀ p a, PosOk s ns p a → (∀ k, moveIt (ns.map Prod.snd) o (.before k) = .before k) → PosOk s ns (moveIt (ns.map Prod.snd) o p) a := by
    intro p a h hm
    cases p with
    | fin => exact h
    | before k => rw [hm]; exact h
    | gone d => exact h
  cases o with
  | add d =>
    obtain ⟨s', ns', h1, h2⟩ := did_add i d
    exact ⟨s', ns', by simp only [Spec.execOp, h1]; rfl, h2⟩
  | addBefore t d =>
    obtain ⟨s', ns', h1, h2⟩ := did_addBefore i t d
    exact ⟨s', ns', by simp only [Spec.execOp, h1]; rfl, h2⟩
  | remove d =>
    obtain ⟨s', ns', h1, h2⟩ := did_remove i d
    refine ⟨s', ns', ?_, h2⟩
    simp only [Spec.execOp, h1, bind, Except.bind, pure, Except.pure, Spec.step]
    split <;> rfl
  | swap a b =>
    obtain ⟨s', ns', h1, h2⟩ := did_swap i a b
    refine ⟨s', ns', ?_, h2⟩
    simp only [Spec.execOp, h1, bind, Except.bind, pure, Except.pure, Spec.step]
    split <;> rfl
  | clear =>
    obtain ⟨s', ns', h1, h2⟩ := did_clear i
    exact ⟨s', ns', by simp only [Spec.execOp, h1]; rfl, h2⟩
  | first =>
    simp only [Spec.execOp, first_ok i hl, bind, Except.bind, pure, Except.pure]
    exact ⟨s, ns, rfl, ⟨i, rfl, rfl, fun _ h => h, fun p a h => same p a h (fun _ => rfl)⟩⟩
  | last =>
    simp only [Spec.execOp, last_ok i hl, bind, Except.bind, pure, Except.pure]
    exact ⟨s, ns, rfl, ⟨i, rfl, rfl, fun _ h => h, fun p a h => same p a h (fun _ => rfl)⟩⟩
  | size =>
    have hc : s.u.mem aCount = ns.length := by
      have := i.rep.cnt; rw [Nat.mod_eq_of_lt hl] at this; exact this
    exact ⟨s, ns, by simp [Spec.execOp, Spec.step, size, hc], ⟨i, rfl, rfl, fun _ h => h, fun p a h => same p a h (fun _ => rfl)⟩⟩
  | items =>
    have hst : s.u.mem aStart = headA ns 0 := i.rep.start
    have h := itAll_ok s.brk s ns 0 i.rep.seg (fun x hx => i.alive hx) i.len
    simp only [Spec.execOp, iterator, hst, h, bind, Except.bind, pure, Except.pure]
    exact ⟨s, ns, rfl, ⟨i, rfl, rfl, fun _ h => h, fun p a h => same p a h (fun _ => rfl)⟩⟩
  | nexts =>
    have h := nextAll_ok s.brk (LinkedList.rewind s) ns 0 i.rep.seg (fun x hx => i.alive hx) i.len i.rep.start
    simp only [Spec.execOp, h, bind, Except.bind, pure, Except.pure]
    exact ⟨_, ns, rfl, ⟨i.cursor 0, rfl, rfl, fun _ _ => rfl, fun p a h => same p a h (fun _ => rfl)⟩⟩

end Verif.LinkedList.Iter
