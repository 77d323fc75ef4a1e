import Verif.LinkedList.Ops2
namespace Verif.LinkedList
open Verif Verif.Undo
open Verif.Undo.Spec (Edit registerAll storeAll)

theorem headA_mem {ns : List (Nat × Nat)} (h : headA ns 0 ≠ 0) : ∃ x ∈ ns, x.1 = headA ns 0 := by
  cases ns with
  | nil => exact absurd rfl h
  | cons x ns => exact ⟨x, by simp, rfl⟩

theorem removeElem_ok {s : S} {A B : List (Nat × Nat)} {t dt : Nat} (i : SInv s (A ++ (t, dt) :: B)) :
    ∃ s', removeElem s t = .ok s' ∧ SInv s' (A ++ B) ∧ s'.um = s.um ∧ s'.brk = s.brk ∧ (s.um = true → Trace s.u s'.u true) := by
  have ht := i.rep.addr (t, dt) (by simp)
  simp only at ht
  obtain ⟨nd1, nd2, nd3, nd4, nd5⟩ := nodup_mid i.rep.nodup
  simp only at nd1 nd2
  obtain ⟨sp, sn⟩ := seg_prev i.rep.seg
  have hp : s.u.mem (t + 0) ≠ 0 → Alive s (s.u.mem (t + 0)) ∧ s.u.mem (t + 0) ≠ t ∧ s.u.mem (t + 0) + 1 ≠ t := by
    intro h
    have e : s.u.mem (t + 0) = lastA 0 A := sp
    rw [e] at h ⊢
    obtain ⟨x, hx, ex⟩ := lastA_mem h
    rw [← ex]
    have h1 := nd1 x hx
    have h2 := i.rep.addr x (List.mem_append_left _ hx)
    exact ⟨i.alive (List.mem_append_left _ hx), h1, by omega⟩
  have hn : s.u.mem (t + 1) ≠ 0 → Alive s (s.u.mem (t + 1)) ∧ s.u.mem (t + 1) ≠ t ∧ s.u.mem (t + 1) ≠ t + 1 := by
    intro h
    rw [sn] at h ⊢
    obtain ⟨x, hx, ex⟩ := headA_mem h
    rw [← ex]
    have hx' : x ∈ A ++ (t, dt) :: B := List.mem_append_right _ (List.mem_cons_of_mem _ hx)
    have h1 := nd2 x hx
    have h2 := i.rep.addr x hx'
    exact ⟨i.alive hx', h1, by omega⟩
  have nf := removeElem_nf s i.good t (i.alive (x := (t, dt)) (by simp)) hp hn ht.1
  generalize hregs : remRegs (s.u.mem (t + 0)) (s.u.mem (t + 1)) (s.u.mem aStart) (s.u.mem aEnd) t = regs at nf
  obtain ⟨q1, q2, q3, q4, q5, q6⟩ := Rl_spec s regs i.good
  have hum : (kill (Rl s regs) t).um = s.um := (kill_um _ _).trans q4
  have hbrk : (kill (Rl s regs) t).brk = s.brk := (kill_brk _ _).trans q2
  have hmem : (kill (Rl s regs) t).u.mem = s.u.mem := by rw [kill_u, q1]
  refine ⟨_, nf, ⟨?_, ?_, ?_, ?_, ?_⟩, hum, hbrk, ?_⟩
  · show RepM (kill _ _).brk (W (kill _ _).u.mem _) _
    rw [hmem, hbrk]
    exact rep_rem i.rep
  · refine good_Wl ?_
    intro hu
    have := q6 ((kill_um _ _).symm.trans hu)
    rw [kill_u]
    exact this
  · intro hu a
    have hu' : (Rl s regs).um = true := (kill_um _ _).symm.trans hu
    show (kill _ _).dead a = false
    unfold kill
    rw [if_pos hu', q3]
    exact i.deadUm (q4.symm.trans hu') a
  · intro hu e h8 h3 he
    have hu' : (Rl s regs).um = false := (kill_um _ _).symm.trans hu
    have he' : e < s.brk := by have := hbrk ▸ he; exact this
    show (kill _ _).dead e = false ↔ _
    unfold kill
    rw [if_neg (by rw [hu']; decide)]
    simp only
    have := i.deadNo (q4.symm.trans hu') e h8 h3 he'
    simp only [List.map_append, List.mem_append, List.map_cons, List.mem_cons] at this ⊢
    by_cases het : e = t
    · subst het
      simp only [if_true, Bool.true_eq_false, false_iff, not_or]
      constructor
      · intro h
        obtain ⟨x, hx, e⟩ := List.mem_map.1 h
        exact nd1 x hx e
      · intro h
        obtain ⟨x, hx, e⟩ := List.mem_map.1 h
        exact nd2 x hx e
    · rw [if_neg het, q3, this]
      constructor
      · rintro (h | h | h)
        · exact Or.inl h
        · exact absurd h het
        · exact Or.inr h
      · rintro (h | h)
        · exact Or.inl h
        · exact Or.inr (Or.inr h)
  · intro e he
    have he' : s.brk ≤ e := by have := hbrk ▸ he; exact this
    show (kill _ _).dead e = false
    unfold kill
    split
    · rw [q3]; exact i.fresh e he'
    · simp only
      rw [if_neg (by omega), q3]; exact i.fresh e he'
  · intro hu
    have hk : kill (Rl s regs) t = Rl s regs := by unfold kill; rw [if_pos (q4.trans hu)]
    rw [hk]
    refine trace_edit s _ _ i.good hu (by rw [← hregs]; simp [remRegs]) ?_
    intro w hw
    have mk : ∀ r, r ∈ regs → r.2 = w.1 → ∃ r ∈ regs, r.2 = w.1 := fun r h e => ⟨r, h, e⟩
    simp only [remStores, List.mem_append, List.mem_singleton] at hw
    rcases hw with (((((hw | hw) | hw) | hw) | rfl) | rfl) | rfl
    · split at hw
      · rename_i c
        simp only [List.mem_singleton] at hw
        subst hw
        exact mk (s.u.mem (t + 0), s.u.mem (t + 0) + 1) (by simp only [← hregs, remRegs, c, if_true]; simp) rfl
      · cases hw
    · split at hw
      · rename_i c
        simp only [List.mem_singleton] at hw
        subst hw
        exact mk (s.u.mem (t + 1), s.u.mem (t + 1) + 0) (by simp only [← hregs, remRegs, c, if_true]; simp) rfl
      · cases hw
    · split at hw
      · rename_i c
        simp only [List.mem_singleton] at hw
        subst hw
        exact mk (this, aStart) (by simp only [← hregs, remRegs, c, if_true]; simp) rfl
      · cases hw
    · split at hw
      · rename_i c
        simp only [List.mem_singleton] at hw
        subst hw
        exact mk (this, aEnd) (by simp only [← hregs, remRegs, c, if_true]; simp) rfl
      · cases hw
    · exact mk (t, t + 0) (by simp [← hregs, remRegs]) rfl
    · exact mk (t, t + 1) (by simp [← hregs, remRegs]) rfl
    · exact mk (this, aCount) (by simp [← hregs, remRegs]) rfl

theorem erase_mid {d : Nat} {xs ys : List Nat} (h : d ∉ xs) : (xs ++ d :: ys).erase d = xs ++ ys := by
  rw [List.erase_append_right _ h]; simp

theorem remove_ok {s : S} {ns : List (Nat × Nat)} (i : SInv s ns) (d : Nat) :
    ∃ s' ns', remove s d = .ok (if d ∈ ns.map Prod.snd then eOK else eNotFound, s') ∧ SInv s' ns' ∧
      ns'.map Prod.snd = (ns.map Prod.snd).erase d ∧ s'.um = s.um ∧ s.brk ≤ s'.brk ∧ (s.um = true → Trace s.u s'.u (decide (d ∈ ns.map Prod.snd))) := by
  obtain ⟨c, hf⟩ := find_all i d
  unfold remove
  rw [hf]
  simp only [bind, Except.bind, pure, Except.pure]
  rcases find_split ns d with ⟨h1, h2⟩ | ⟨A, e, B, rfl, h2, h3⟩
  · rw [h1]
    refine ⟨_, ns, by rw [if_neg h2]; rfl, i.cursor c, (List.erase_of_not_mem h2).symm, rfl, Nat.le_refl _, ?_⟩
    intro _
    rw [decide_eq_false h2]
    exact Trace.nil _
  · rw [h2]
    simp only [Option.map_some]
    obtain ⟨s', e1, e2, e3, e5, e4⟩ := removeElem_ok (i.cursor c)
    rw [e1]
    refine ⟨s', A ++ B, by rw [if_pos (by simp)], e2, ?_, e3, Nat.le_of_eq e5.symm, ?_⟩
    · simp only [List.map_append, List.map_cons, erase_mid h3]
    · intro hu
      rw [decide_eq_true (by simp)]
      exact e4 hu

/-! ### swapData -/

/-- the address of the node at a position, 0 for none -/
def addrAt (ns : List (Nat × Nat)) : Option Nat → Nat
  | none => 0
  | some i => ((ns[i]?).map Prod.fst).getD 0

theorem swapLoop_ok (ns : List (Nat × Nat)) (hns : ∀ x ∈ ns, x.1 ≠ 0) (a b : Nat) : ∀ (fuel : Nat) (s : S) (rest : List (Nat × Nat)) (p k : Nat) (i j : Option Nat),
    ns.drop k = rest → Seg s.u.mem p rest 0 → (∀ x ∈ rest, Alive s x.1) → rest.length < fuel → s.cur = headA rest 0 →
    (∀ n, i = some n → n < ns.length) → (∀ n, j = some n → n < ns.length) → (i = none ∨ j = none) →
    ∃ c e1 e2, swapLoop fuel s a b (addrAt ns i) (addrAt ns j) = .ok (e1, e2, { s with cur := c }) ∧
      match Spec.scan a b (rest.map Prod.snd) k i j with
      | some (i, j) => i < ns.length ∧ j < ns.length ∧ e1 = addrAt ns (some i) ∧ e2 = addrAt ns (some j)
      | none => e1 = 0 ∨ e2 = 0 := by
  have hz : ∀ (o : Option Nat), (∀ n, o = some n → n < ns.length) → (addrAt ns o = 0 ↔ o = none) := by
    intro o ho
    cases o with
    | none => simp [addrAt]
    | some n =>
      have hlt := ho n rfl
      simp only [addrAt, List.getElem?_eq_getElem hlt, Option.map_some, Option.getD_some, reduceCtorEq, iff_false]
      exact hns _ (List.getElem_mem hlt)
  intro fuel
  induction fuel with
  | zero => intros; omega
  | succ fuel ih =>
    intro s rest p k i j hdrop hs ha hf hc hi hj hij
    cases rest with
    | nil =>
      refine ⟨s.cur, addrAt ns i, addrAt ns j, ?_, ?_⟩
      · simp only [swapLoop, hasNext, hc, headA, bne_self_eq_false, Bool.false_eq_true, if_false]
        rw [show (0 : Nat) = s.cur from hc.symm]
      · simp only [List.map_nil, Spec.scan]
        rcases hij with rfl | rfl
        · exact Or.inl rfl
        · exact Or.inr rfl
    | cons x r =>
      obtain ⟨e, d⟩ := x
      have hal := ha (e, d) (List.mem_cons_self ..)
      have hne : hasNext s = true := by
        unfold hasNext; rw [hc]; simp only [headA]; simpa using hal.1
      have hk : ns[k]? = some (e, d) := by
        have := congrArg (fun l => l[0]?) hdrop
        simpa using this
      have hklt : k < ns.length := by
        rcases Nat.lt_or_ge k ns.length with h | h
        · exact h
        · rw [List.getElem?_eq_none h] at hk; cases hk
      have hdrop' : ns.drop (k + 1) = r := by
        have := congrArg (List.drop 1) hdrop
        rw [List.drop_drop] at this
        simpa [Nat.add_comm] using this
      have hak : addrAt ns (some k) = e := by simp [addrAt, hk]
      simp only [swapLoop, hne, if_true, nextElement_ok hs hal hc, bind, Except.bind, pure, Except.pure]
      rw [ldE_ok _ e 2 (show Alive { s with cur := headA r 0 } e from hal)]
      have hd : s.u.mem (e + 2) = d := hs.2.2.1
      simp only [hd, List.map_cons, Spec.scan]
      generalize hi' : (if d = a then some k else i) = i'
      generalize hj' : (if d = b then some k else j) = j'
      have ei : (if d = a then e else addrAt ns i) = addrAt ns i' := by
        rw [← hi']; split
        · exact hak.symm
        · rfl
      have ej : (if d = b then e else addrAt ns j) = addrAt ns j' := by
        rw [← hj']; split
        · exact hak.symm
        · rfl
      have bi : ∀ n, i' = some n → n < ns.length := by
        intro n hn
        rw [← hi'] at hn
        split at hn
        · simp only [Option.some.injEq] at hn; omega
        · exact hi n hn
      have bj : ∀ n, j' = some n → n < ns.length := by
        intro n hn
        rw [← hj'] at hn
        split at hn
        · simp only [Option.some.injEq] at hn; omega
        · exact hj n hn
      rw [ei, ej]
      have recu := fun (hij : i' = none ∨ j' = none) => ih { s with cur := headA r 0 } r e (k + 1) i' j' hdrop' hs.2.2.2
        (fun x hx => ha x (List.mem_cons_of_mem _ hx)) (by simp at hf; omega) rfl bi bj hij
      cases hi2 : i' with
      | none =>
        subst hi2
        rw [if_neg (by simp [addrAt])]
        exact recu (Or.inl rfl)
      | some n1 =>
        cases hj2 : j' with
        | none =>
          subst hj2
          rw [if_neg (by simp [addrAt])]
          rw [hi2] at recu
          exact recu (Or.inr rfl)
        | some n2 =>
          have h1 : addrAt ns (some n1) ≠ 0 := fun h => by have := (hz (some n1) (fun n h => bi n (hi2.trans h))).1 h; cases this
          have h2 : addrAt ns (some n2) ≠ 0 := fun h => by have := (hz (some n2) (fun n h => bj n (hj2.trans h))).1 h; cases this
          rw [if_pos ⟨h1, h2⟩]
          exact ⟨_, _, _, rfl, bi n1 hi2, bj n2 hj2, rfl, rfl⟩

theorem scan_none (a b : Nat) (xs : List Nat) (k : Nat) (i j : Option Nat) (hij : i = none ∨ j = none) :
    (Spec.scan a b xs k i j).isSome = ((i.isSome || decide (a ∈ xs)) && (j.isSome || decide (b ∈ xs))) := by
  induction xs generalizing k i j with
  | nil => rcases hij with rfl | rfl <;> simp [Spec.scan]
  | cons x xs ih =>
    simp only [Spec.scan]
    generalize hi' : (if x = a then some k else i) = i'
    generalize hj' : (if x = b then some k else j) = j'
    have e1 : (i.isSome || decide (a ∈ x :: xs)) = (i'.isSome || decide (a ∈ xs)) := by
      rw [← hi']
      by_cases h : x = a
      · subst h; simp
      · have h' : ¬ a = x := fun e => h e.symm
        simp [h, h']
    have e2 : (j.isSome || decide (b ∈ x :: xs)) = (j'.isSome || decide (b ∈ xs)) := by
      rw [← hj']
      by_cases h : x = b
      · subst h; simp
      · have h' : ¬ b = x := fun e => h e.symm
        simp [h, h']
    rw [e1, e2]
    cases i' with
    | none => rw [← ih (k + 1) none j' (Or.inl rfl)]
    | some n1 =>
      cases j' with
      | none => rw [← ih (k + 1) (some n1) none (Or.inr rfl)]
      | some n2 => simp

theorem rep_data_at {brk : Nat} {m : Mem Nat} {ns : List (Nat × Nat)} (h : RepM brk m ns) (k : Nat) (hk : k < ns.length) (d : Nat) :
    RepM brk (upd m (addrAt ns (some k) + 2) d) (ns.set k (addrAt ns (some k), d)) := by
  have e : ns = ns.take k ++ (ns[k].1, ns[k].2) :: ns.drop (k + 1) := by rw [show (ns[k].1, ns[k].2) = ns[k] from rfl, ← List.drop_eq_getElem_cons hk, List.take_append_drop]
  have ea : addrAt ns (some k) = ns[k].1 := by simp [addrAt, hk]
  have hs : ns.set k (ns[k].1, d) = ns.take k ++ (ns[k].1, d) :: ns.drop (k + 1) := by
    rw [List.set_eq_take_append_cons_drop, if_pos hk]
  rw [ea, hs]
  rw [e] at h
  exact rep_data h d

theorem addrAt_set (ns : List (Nat × Nat)) (k j : Nat) (d : Nat) (hj : j < ns.length) : addrAt (ns.set k (addrAt ns (some k), d)) (some j) = addrAt ns (some j) := by
  simp only [addrAt, List.getElem?_set]
  split
  · rename_i h; subst h; rw [if_pos hj]; rfl
  · rfl

theorem map_set_addr (ns : List (Nat × Nat)) (k d : Nat) : (ns.set k (addrAt ns (some k), d)).map Prod.fst = ns.map Prod.fst := by
  apply List.ext_getElem?
  intro n
  simp only [List.map_set, List.getElem?_set, List.length_map, List.getElem?_map, addrAt]
  split
  · rename_i h; subst h
    split
    · rename_i h; simp [h]
    · rename_i h; simp [List.getElem?_eq_none (Nat.not_lt.1 h)]
  · rfl

theorem SInv.Rl {s : S} {ns : List (Nat × Nat)} (i : SInv s ns) (regs : List (Nat × Nat)) : SInv (Rl s regs) ns := by
  obtain ⟨q1, q2, q3, q4, q5, q6⟩ := Rl_spec s regs i.good
  refine ⟨by rw [q1, q2]; exact i.rep, q6, ?_, ?_, ?_⟩
  · intro h a; rw [q3]; exact i.deadUm (q4.symm.trans h) a
  · intro h; rw [q2, q3]; exact i.deadNo (q4.symm.trans h)
  · intro e he; rw [q3]; exact i.fresh e (by rw [q2] at he; exact he)

theorem swapData_ok' {s : S} {ns : List (Nat × Nat)} (i : SInv s ns) (a b : Nat) :
    ∃ s' ns', swapData s a b = .ok s' ∧ SInv s' ns' ∧
      ns'.map Prod.snd = (if s.um = true then Spec.swapped a b (ns.map Prod.snd) else ns.map Prod.snd) ∧ s'.um = s.um ∧ s.brk ≤ s'.brk ∧
      (s.um = true → Trace s.u s'.u (decide (a ∈ ns.map Prod.snd) && decide (b ∈ ns.map Prod.snd))) ∧ ns'.map Prod.fst = ns.map Prod.fst := by
  obtain ⟨c, e1, e2, hl, hm⟩ := swapLoop_ok ns (fun x hx => by have := i.rep.addr x hx; omega) a b s.brk (rewind s) ns 0 0 none none rfl
    i.rep.seg (fun x hx => i.alive hx) i.len i.rep.start (by simp) (by simp) (Or.inl rfl)
  have hl' : swapLoop s.brk (rewind s) a b 0 0 = .ok (e1, e2, { s with cur := c }) := hl
  unfold swapData
  rw [hl']
  simp only [bind, Except.bind, pure, Except.pure]
  have hsome := scan_none a b (ns.map Prod.snd) 0 none none (Or.inl rfl)
  simp only [Option.isSome_none, Bool.false_or] at hsome
  cases hsc : Spec.scan a b (ns.map Prod.snd) 0 none none with
  | none =>
    rw [hsc] at hm hsome
    rw [if_neg (by rintro ⟨h1, h2⟩; rcases hm with h | h <;> contradiction)]
    refine ⟨_, ns, rfl, i.cursor c, ?_, rfl, Nat.le_refl _, ?_, rfl⟩
    · simp only [Spec.swapped, hsc, ite_self]
    · intro _; rw [← hsome]; exact Trace.nil _
  | some ij =>
    obtain ⟨n1, n2⟩ := ij
    rw [hsc] at hm hsome
    obtain ⟨l1, l2, rfl, rfl⟩ := hm
    have a1 : addrAt ns (some n1) = ns[n1].1 := by simp [addrAt, l1]
    have a2 : addrAt ns (some n2) = ns[n2].1 := by simp [addrAt, l2]
    have al1 : Alive { s with cur := c } (addrAt ns (some n1)) := by rw [a1]; exact i.alive (List.getElem_mem l1)
    have al2 : Alive { s with cur := c } (addrAt ns (some n2)) := by rw [a2]; exact i.alive (List.getElem_mem l2)
    rw [if_pos ⟨al1.1, al2.1⟩]
    by_cases hu : s.um = true
    · have nf := swap_nf { s with cur := c } i.good (addrAt ns (some n1)) (addrAt ns (some n2)) a b al1 al2
      rw [if_pos hu, if_pos hu, nf]
      have ic := (i.cursor c).Rl [(addrAt ns (some n1), addrAt ns (some n1) + 2), (addrAt ns (some n2), addrAt ns (some n2) + 2)]
      obtain ⟨q1, q2, q3, q4, q5, q6⟩ := Rl_spec { s with cur := c } [(addrAt ns (some n1), addrAt ns (some n1) + 2), (addrAt ns (some n2), addrAt ns (some n2) + 2)] i.good
      generalize hst : Rl { s with cur := c } [(addrAt ns (some n1), addrAt ns (some n1) + 2), (addrAt ns (some n2), addrAt ns (some n2) + 2)] = st at *
      have r1 := rep_data_at ic.rep n1 l1 b
      have l2' : n2 < (ns.set n1 (addrAt ns (some n1), b)).length := by simpa using l2
      have r2 := rep_data_at r1 n2 l2' a
      have rep2 : RepM st.brk (W st.u.mem [(addrAt ns (some n1) + 2, b), (addrAt ns (some n2) + 2, a)])
          ((ns.set n1 (addrAt ns (some n1), b)).set n2 (addrAt (ns.set n1 (addrAt ns (some n1), b)) (some n2), a)) := by
        rw [addrAt_set ns n1 n2 b l2] at r2 ⊢
        exact r2
      refine ⟨_, _, rfl, ⟨rep2, ic.good, ic.deadUm, ?_, ic.fresh⟩, ?_, q4, Nat.le_of_eq q2.symm, ?_, by rw [map_set_addr, map_set_addr]⟩
      · intro h; rw [map_set_addr, map_set_addr]; exact ic.deadNo h
      · simp only [Spec.swapped, hsc, List.map_set]
      · intro _
        rw [← hsome]
        have := trace_edit { s with cur := c } [(addrAt ns (some n1), addrAt ns (some n1) + 2), (addrAt ns (some n2), addrAt ns (some n2) + 2)]
          [(addrAt ns (some n1) + 2, b), (addrAt ns (some n2) + 2, a)] i.good hu (by simp) (by
            intro w hw
            simp only [List.mem_cons, List.not_mem_nil, or_false] at hw
            rcases hw with rfl | rfl
            · exact ⟨_, List.mem_cons_self .., rfl⟩
            · exact ⟨_, List.mem_cons_of_mem _ (List.mem_cons_self ..), rfl⟩)
        rw [hst] at this
        exact this
    · rw [if_neg hu, if_neg hu]
      exact ⟨_, ns, rfl, i.cursor c, rfl, rfl, Nat.le_refl _, fun h => absurd h hu, rfl⟩

theorem swapData_ok {s : S} {ns : List (Nat × Nat)} (i : SInv s ns) (a b : Nat) :
    ∃ s' ns', swapData s a b = .ok s' ∧ SInv s' ns' ∧
      ns'.map Prod.snd = (if s.um = true then Spec.swapped a b (ns.map Prod.snd) else ns.map Prod.snd) ∧ s'.um = s.um ∧ s.brk ≤ s'.brk ∧
      (s.um = true → Trace s.u s'.u (decide (a ∈ ns.map Prod.snd) && decide (b ∈ ns.map Prod.snd))) := by
  obtain ⟨s', ns', h1, h2, h3, h4, h5, h6, _⟩ := swapData_ok' i a b
  exact ⟨s', ns', h1, h2, h3, h4, h5, h6⟩

end Verif.LinkedList
