import Verif.LinkedList.History2
/-
C25: LinkedList is a sequence.   C26: undo and redo restore the list.
-/
namespace Verif.LinkedList.Props
open Verif Verif.Undo Verif.LinkedList
open Verif.LinkedList.Spec (Op Out Act Hist)

/-! ### C25 -/

/-- Every history of calls on a new list without undo manager (shorter than 2³² calls, as sizes are counted in 32 bits) runs
without undefined behaviour and returns what the sequence returns.  (`Spec.step false` lets `swapData` do nothing, see
`swap_ignored`.) -/
theorem history_partial (os : List Op) (hl : os.length < 2 ^ 32) :
    ∃ s, Spec.execOps os (S.new false) = .ok (s, (Spec.run false os []).2) := by
  obtain ⟨s, ns, h, _⟩ := execOps_ok os (S.new false) [] (sinv_new false) (by simp; omega)
  exact ⟨s, h⟩

example : ∃ s, Spec.execOps [.add 5, .add 7, .addBefore 7 6, .items, .remove 5, .first, .remove 9, .size, .last, .clear, .nexts, .first] (S.new false) =
    .ok (s, [.none, .none, .none, .objs [5, 6, 7], .status eOK, .obj 6, .status eNotFound, .num 2, .obj 7, .none, .objs [], .obj 0]) :=
  history_partial _ (by decide)

/-- Elements: after any history, those not freed are exactly as many as the sequence has objects; nothing in the list is freed and
nothing removed is kept. -/
def live (s : S) : List Nat := (List.range s.brk).filter (fun e => decide (8 ≤ e) && decide (e % 3 = 2) && !s.dead e)

theorem no_leak (os : List Op) (hl : os.length < 2 ^ 32) (s : S) (outs : List Out) (h : Spec.execOps os (S.new false) = .ok (s, outs)) :
    (live s).length = (Spec.run false os []).1.length := by
  obtain ⟨s', ns, h1, h2, h3, h4⟩ := execOps_ok os (S.new false) [] (sinv_new false) (by simp; omega)
  have e := h.symm.trans h1
  simp only [Except.ok.injEq, Prod.mk.injEq] at e
  obtain ⟨rfl, _⟩ := e
  have hum : s.um = false := h4
  have hrun : (Spec.run false os []).1 = ns.map Prod.snd := h3.symm
  rw [hrun, List.length_map, ← List.length_map (f := Prod.fst)]
  have hnd : (live s).Nodup := List.nodup_range.filter _
  have hmem : ∀ e, e ∈ live s ↔ e ∈ ns.map Prod.fst := by
    intro e
    simp only [live, List.mem_filter, List.mem_range, Bool.and_eq_true, decide_eq_true_eq, Bool.not_eq_true']
    constructor
    · rintro ⟨a, ⟨b, c⟩, d⟩
      exact (h2.deadNo hum e b c a).1 d
    · intro hm
      obtain ⟨x, hx, rfl⟩ := List.mem_map.1 hm
      have := h2.rep.addr x hx
      exact ⟨by omega, ⟨this.1, this.2.1⟩, (h2.alive hx).2.2⟩
  exact Nat.le_antisymm (hnd.length_le_of_subset (fun e h => (hmem e).1 h)) (h2.rep.nodup.length_le_of_subset (fun e h => (hmem e).2 h))

example : ∃ s outs, Spec.execOps [.add 5, .add 7, .add 7, .remove 7] (S.new false) = .ok (s, outs) ∧ (live s).length = 2 := by
  obtain ⟨s, h⟩ := history_partial [.add 5, .add 7, .add 7, .remove 7] (by decide)
  exact ⟨s, _, h, no_leak _ (by decide) s _ h⟩

/-- the calls that read do not change the list, with or without undo manager -/
theorem reads_pure (um : Bool) (os os' : List Op) (hr : ∀ o ∈ os', o = .first ∨ o = .last ∨ o = .size ∨ o = .items ∨ o = .nexts) (xs : List Nat) :
    (Spec.run um (os ++ os') xs).1 = (Spec.run um os xs).1 := by
  induction os generalizing xs with
  | nil =>
    simp only [List.nil_append, Spec.run]
    induction os' generalizing xs with
    | nil => rfl
    | cons o os' ih =>
      simp only [Spec.run]
      rw [ih (fun o ho => hr o (List.mem_cons_of_mem _ ho))]
      rcases hr o (List.mem_cons_self ..) with rfl | rfl | rfl | rfl | rfl <;> rfl
  | cons o os ih => simp only [List.cons_append, Spec.run, ih]

/-- what swapData should do: with two different objects that both occur once -/
def Swaps (um : Bool) : Prop := ∀ xs : List Nat, xs.Nodup → xs.length < 2 ^ 31 → ∀ a b, a ∈ xs → b ∈ xs → ∀ s outs,
  Spec.execOps (xs.map .add ++ [.swap a b, .items]) (S.new um) = .ok (s, outs) →
    outs.getLast? = some (.objs (xs.map (fun x => if x = a then b else if x = b then a else x)))

theorem scan_found (a b : Nat) : ∀ (xs : List Nat) (k : Nat) (i j : Option Nat), (i = none ∨ j = none) →
    ∀ p q, Spec.scan a b xs k i j = some (p, q) →
      ((k ≤ p ∧ xs[p - k]? = some a) ∨ i = some p) ∧ ((k ≤ q ∧ xs[q - k]? = some b) ∨ j = some q) := by
  intro xs
  induction xs with
  | nil => intro k i j _ p q h; cases h
  | cons x xs ih =>
    intro k i j hij p q h
    simp only [Spec.scan] at h
    have one : ∀ (c : Nat) (r : Nat) (o : Option Nat), ((k + 1 ≤ r ∧ xs[r - (k + 1)]? = some c) ∨ (if x = c then some k else o) = some r) →
        (k ≤ r ∧ (x :: xs)[r - k]? = some c) ∨ o = some r := by
      intro c r o h
      rcases h with ⟨h1, h2⟩ | h
      · refine Or.inl ⟨by omega, ?_⟩
        rw [show r - k = (r - (k + 1)) + 1 by omega, List.getElem?_cons_succ]
        exact h2
      · split at h
        · rename_i hc
          simp only [Option.some.injEq] at h
          subst h hc
          exact Or.inl ⟨Nat.le_refl _, by simp⟩
        · exact Or.inr h
    have fin : ∀ (i' j' : Option Nat), (if x = a then some k else i) = i' → (if x = b then some k else j) = j' → (i' = none ∨ j' = none) →
        Spec.scan a b xs (k + 1) i' j' = some (p, q) →
        ((k ≤ p ∧ (x :: xs)[p - k]? = some a) ∨ i = some p) ∧ ((k ≤ q ∧ (x :: xs)[q - k]? = some b) ∨ j = some q) := by
      intro i' j' e1 e2 hn h
      obtain ⟨h1, h2⟩ := ih (k + 1) i' j' hn p q h
      rw [← e1] at h1
      rw [← e2] at h2
      exact ⟨one a p i h1, one b q j h2⟩
    cases e1 : (if x = a then some k else i) with
    | none => rw [e1] at h; exact fin none _ e1 rfl (Or.inl rfl) h
    | some i' =>
      cases e2 : (if x = b then some k else j) with
      | none => rw [e1, e2] at h; exact fin _ none e1 e2 (Or.inr rfl) h
      | some j' =>
        rw [e1, e2] at h
        simp only [Option.some.injEq, Prod.mk.injEq] at h
        obtain ⟨rfl, rfl⟩ := h
        exact ⟨one a _ i (Or.inr e1), one b _ j (Or.inr e2)⟩

theorem swapped_once (xs : List Nat) (hn : xs.Nodup) (a b : Nat) (ha : a ∈ xs) (hb : b ∈ xs) :
    Spec.swapped a b xs = xs.map (fun x => if x = a then b else if x = b then a else x) := by
  have hs := scan_none a b xs 0 none none (Or.inl rfl)
  simp only [ha, hb, decide_true, Bool.or_true, Bool.and_true] at hs
  unfold Spec.swapped
  cases h : Spec.scan a b xs 0 none none with
  | none => rw [h] at hs; cases hs
  | some pq =>
    obtain ⟨p, q⟩ := pq
    obtain ⟨h1, h2⟩ := scan_found a b xs 0 none none (Or.inl rfl) p q h
    simp only [Nat.zero_le, true_and, Nat.sub_zero, reduceCtorEq, or_false] at h1 h2
    obtain ⟨p1, p2⟩ := List.getElem?_eq_some_iff.1 h1
    obtain ⟨q1, q2⟩ := List.getElem?_eq_some_iff.1 h2
    simp only
    apply List.ext_getElem
    · simp
    · intro n n1 n2
      have hn' : n < xs.length := by simpa using n1
      simp only [List.getElem_set, List.getElem_map]
      have inj : ∀ r (hr : r < xs.length), xs[n] = xs[r] → n = r := fun r hr e => (List.getElem_inj hn).1 e
      by_cases hq : q = n
      · subst hq
        rw [if_pos rfl, q2]
        by_cases hab : b = a
        · rw [if_pos hab, hab]
        · rw [if_neg hab, if_pos rfl]
      · rw [if_neg hq]
        have hxb : xs[n] ≠ b := fun e => hq (inj q q1 (e.trans q2.symm)).symm
        by_cases hp : p = n
        · subst hp
          rw [if_pos rfl, p2, if_pos rfl]
        · have hxa : xs[n] ≠ a := fun e => hp (inj p p1 (e.trans p2.symm)).symm
          rw [if_neg hp, if_neg hxa, if_neg hxb]

theorem run_append (um : Bool) (os os' : List Op) : ∀ xs, Spec.run um (os ++ os') xs =
    ((Spec.run um os' (Spec.run um os xs).1).1, (Spec.run um os xs).2 ++ (Spec.run um os' (Spec.run um os xs).1).2) := by
  induction os with
  | nil => intro xs; simp [Spec.run]
  | cons o os ih => intro xs; simp only [List.cons_append, Spec.run, ih, List.cons_append]

theorem run_adds (um : Bool) (xs : List Nat) : ∀ ys, (Spec.run um (xs.map .add) ys).1 = ys ++ xs := by
  induction xs with
  | nil => intro ys; simp [Spec.run]
  | cons x xs ih => intro ys; simp only [List.map_cons, Spec.run, ih, Spec.step, List.append_assoc, List.cons_append, List.nil_append]

/-- With an undo manager swapData swaps two objects that occur once in the list. -/
theorem swap_swaps : Swaps true := by
  intro xs hn hlen a b ha hb s outs h
  obtain ⟨s', ns, h1, _⟩ := execOps_ok (xs.map .add ++ [.swap a b, .items]) (S.new true) [] (sinv_new true) (by simp; omega)
  have e := h.symm.trans h1
  simp only [Except.ok.injEq, Prod.mk.injEq] at e
  rw [e.2]
  show (Spec.run true _ []).2.getLast? = _
  rw [run_append, run_adds]
  simp only [Spec.run, Spec.step, List.nil_append, if_true, swapped_once xs hn a b ha hb]
  simp

/-- Without undo manager it does nothing: swapping is not performed at all. -/
theorem swap_ignored : ¬ Swaps false := by
  intro h
  have h1 := h [1, 2] (by decide) (by decide) 1 2 (by decide) (by decide)
  obtain ⟨s, e⟩ := history_partial ([1, 2].map .add ++ [.swap 1 2, .items]) (by decide)
  have := h1 s _ e
  exact absurd this (by decide)

/-! ### C26 -/

/-- Every history of list calls made with an undo manager and of calls of this undo manager runs without undefined
behaviour, and all results are those of the history of sequences: undo brings back the sequence before the last closed step, redo the
one after it, rollback the one before the transaction.  (Undo and redo are not called within a transaction, sizes below 2³².) -/
theorem undo_history (as : List Act) (hl : Spec.Legal as Hist.new) :
    ∃ s, Spec.execAll as (S.new true) = .ok (s, (Hist.run as Hist.new).2) := by
  obtain ⟨s, hm, h, _⟩ := execAll_ok as _ _ _ hinv_new hl
  exact ⟨s, h⟩

example : ∃ s, Spec.execAll [.op (.add 5), .op (.add 7), .close, .op (.remove 5), .op (.addBefore 7 6), .op (.swap 6 7), .close, .op .items, .undo, .op .items,
      .undo, .op .items, .redo, .redo, .op .items, .openT, .op .clear, .op .size, .rollback, .op .items, .op .last] (S.new true) =
    .ok (s, [.none, .none, .none, .status eOK, .none, .none, .none, .objs [7, 6], .bool true, .objs [5, 7], .bool true, .objs [], .bool true, .bool true,
      .objs [7, 6], .none, .none, .num 0, .none, .objs [7, 6], .obj 6]) :=
  undo_history _ (by simp [Spec.Legal, Hist.new, Hist.step, Hist.edit, Hist.close, Hist.rollback, Spec.step, Spec.touches, Spec.insertBefore, Spec.swapped, Spec.scan])

/-- In words: after any legal history with no step and no transaction open, list calls as one step and then undo: the objects the
list returns afterwards are those it returned before, and redo brings back those it returned in between. -/
theorem undo_redo (as : List Act) (os : List Op) (hl : Spec.Legal (as ++ [.op .items] ++ os.map .op ++ [.op .items, .close, .undo, .op .items, .redo, .op .items]) Hist.new)
    (ht : (Hist.run as Hist.new).1.tr = none) (hs : (Hist.run as Hist.new).1.start = none)
    (hd : ∃ pre o post, os = pre ++ o :: post ∧ Spec.touches (Spec.run true pre (Hist.run as Hist.new).1.cur).1 o = true) :
    ∃ s xs ys outs outs', outs.length = as.length ∧ outs'.length = os.length ∧
      Spec.execAll (as ++ [.op .items] ++ os.map .op ++ [.op .items, .close, .undo, .op .items, .redo, .op .items]) (S.new true) =
        .ok (s, outs ++ [.objs xs] ++ outs' ++ [.objs ys, .none, .bool true, .objs xs, .bool true, .objs ys]) ∧
      outs = (Hist.run as Hist.new).2 ∧ xs = (Hist.run as Hist.new).1.cur ∧ ys = (Spec.run true os xs).1 := by
  have happ : ∀ (as bs : List Act) (h : Hist), Hist.run (as ++ bs) h =
      ((Hist.run bs (Hist.run as h).1).1, (Hist.run as h).2 ++ (Hist.run bs (Hist.run as h).1).2) := by
    intro as bs
    induction as with
    | nil => intro h; simp [Hist.run]
    | cons a as ih => intro h; simp only [List.cons_append, Hist.run, ih]
  have hlen : ∀ (as : List Act) (h : Hist), (Hist.run as h).2.length = as.length := by
    intro as
    induction as with
    | nil => intro h; rfl
    | cons a as ih => intro h; simp only [Hist.run, List.length_cons, ih]
  have nt : ∀ xs o, Spec.touches xs o = false → (Spec.step true xs o).1 = xs := by
    intro xs o h
    cases o with
    | add d => cases h
    | addBefore t d => exact insertBefore_none (by simpa [Spec.touches] using h)
    | remove d => simp only [Spec.step]; rw [if_neg (by simpa [Spec.touches] using h)]
    | swap a b =>
      simp only [Spec.step, if_true, Spec.swapped]
      have := scan_none a b xs 0 none none (Or.inl rfl)
      simp only [Option.isSome_none, Bool.false_or] at this
      rw [show (decide (a ∈ xs) && decide (b ∈ xs)) = false from h] at this
      cases hsc : Spec.scan a b xs 0 none none with
      | none => rfl
      | some _ => rw [hsc] at this; cases this
    | clear => simp only [Spec.touches, Bool.not_eq_false', List.isEmpty_iff] at h; subst h; rfl
    | _ => rfl
  -- what the calls of the step do to a history with no transaction
  have hops : ∀ (os : List Op) (h : Hist), h.tr = none →
      (h.start ≠ none → (Hist.run (os.map .op) h).1.start = h.start) ∧
      ((∃ pre o post, os = pre ++ o :: post ∧ Spec.touches (Spec.run true pre h.cur).1 o = true) → (Hist.run (os.map .op) h).1.start = some (h.start.getD h.cur)) ∧
      (Hist.run (os.map .op) h).1.cur = (Spec.run true os h.cur).1 ∧ (Hist.run (os.map .op) h).1.tr = none ∧ (Hist.run (os.map .op) h).1.past = h.past := by
    intro os
    induction os with
    | nil =>
      intro h ht
      refine ⟨fun _ => rfl, ?_, rfl, ht, rfl⟩
      rintro ⟨pre, o, post, e, _⟩; simp at e
    | cons o os ih =>
      intro h ht
      have hst : (h.step (.op o)).1 = if Spec.touches h.cur o then { h with cur := (Spec.step true h.cur o).1, start := some (h.start.getD h.cur), future := [] } else h := by
        simp only [Hist.step, Hist.edit, ht]
      have hcur : (h.step (.op o)).1.cur = (Spec.step true h.cur o).1 := by
        rw [hst]
        cases htc : Spec.touches h.cur o with
        | true => rfl
        | false => exact (nt _ _ htc).symm
      have htr : (h.step (.op o)).1.tr = none := by rw [hst]; split <;> exact ht
      have hpast : (h.step (.op o)).1.past = h.past := by rw [hst]; split <;> rfl
      obtain ⟨i2, i3, i4, i5, i6⟩ := ih _ htr
      have step2 : (h.start ≠ none → (Hist.run ((o :: os).map .op) h).1.start = h.start) := by
        intro hne
        obtain ⟨m, hm⟩ := Option.ne_none_iff_exists'.1 hne
        have : (h.step (.op o)).1.start = h.start := by rw [hst]; split <;> simp [hm]
        simp only [List.map_cons, Hist.run]
        rw [i2 (by rw [this]; exact hne), this]
      have hp : (Hist.run ((o :: os).map .op) h).1.past = h.past := by
        simp only [List.map_cons, Hist.run]; rw [i6, hpast]
      have hc : (Hist.run ((o :: os).map .op) h).1.cur = (Spec.run true (o :: os) h.cur).1 := by
        simp only [List.map_cons, Hist.run, Spec.run]; rw [i4, hcur]
      have htn : (Hist.run ((o :: os).map .op) h).1.tr = none := by
        simp only [List.map_cons, Hist.run]; exact i5
      have hdirty : (∃ pre o' post, o :: os = pre ++ o' :: post ∧ Spec.touches (Spec.run true pre h.cur).1 o' = true) →
          (Hist.run ((o :: os).map .op) h).1.start = some (h.start.getD h.cur) := by
        rintro ⟨pre, o', post, e, htc⟩
        cases pre with
        | nil =>
          simp only [List.nil_append, List.cons.injEq] at e
          obtain ⟨rfl, rfl⟩ := e
          have hs1 : (h.step (.op o)).1.start = some (h.start.getD h.cur) := by
            rw [hst]; exact congrArg Hist.start (if_pos htc)
          simp only [List.map_cons, Hist.run]
          rw [i2 (by rw [hs1]; simp), hs1]
        | cons y pre =>
          simp only [List.cons_append, List.cons.injEq] at e
          obtain ⟨rfl, e⟩ := e
          have := i3 ⟨pre, o', post, e, by rw [hcur]; exact htc⟩
          simp only [List.map_cons, Hist.run]
          rw [this, hst]
          cases htc2 : Spec.touches h.cur o <;> simp
      exact ⟨step2, hdirty, hc, htn, hp⟩
  obtain ⟨s, e⟩ := undo_history _ hl
  have e0 := hops os (Hist.run as Hist.new).1 ht
  obtain ⟨_, j3, j4, j5, j6⟩ := e0
  have j3 := j3 hd
  rw [hs] at j3
  simp only [Option.getD_none] at j3
  refine ⟨s, (Hist.run as Hist.new).1.cur, (Spec.run true os (Hist.run as Hist.new).1.cur).1, (Hist.run as Hist.new).2,
    (Hist.run (os.map .op) (Hist.run as Hist.new).1).2, hlen _ _, by rw [hlen, List.length_map], ?_, rfl, rfl, rfl⟩
  rw [e]
  congr 2
  rw [happ, happ, happ]
  simp only
  generalize hh : (Hist.run as Hist.new).1 = h at *
  have hit : Hist.run [.op .items] h = (h, [.objs h.cur]) := by simp [Hist.run, Hist.step, Spec.step, Spec.touches]
  rw [hit]
  simp only
  congr 1
  generalize hk : (Hist.run (os.map .op) h).1 = k at *
  obtain ⟨p, c, f, st, tr, x⟩ := k
  simp only at j3 j4 j5 j6
  subst j3 j4 j5 j6
  simp [Hist.run, Hist.step, Spec.step, Spec.touches, Hist.close]

example : Spec.Legal ([.op (.add 5), .close] ++ [.op .items] ++ [Op.add 7, .remove 5].map .op ++ [.op .items, .close, .undo, .op .items, .redo, .op .items]) Hist.new ∧
    (Hist.run [.op (.add 5), .close] Hist.new).1.tr = none ∧ (Hist.run [.op (.add 5), .close] Hist.new).1.start = none ∧
    (∃ pre o post, [Op.add 7, .remove 5] = pre ++ o :: post ∧ Spec.touches (Spec.run true pre (Hist.run [.op (.add 5), .close] Hist.new).1.cur).1 o = true) := by
  refine ⟨?_, rfl, rfl, [], .add 7, [.remove 5], rfl, rfl⟩
  simp [Spec.Legal, Hist.new, Hist.step, Hist.edit, Hist.close, Spec.step, Spec.touches]

end Verif.LinkedList.Props
