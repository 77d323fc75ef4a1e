import Verif.DiffMem.Spec
/-
The diagonals in memory behave like the table of `Verif.Diff`: `Rep` says that the diagonals created by one `solve` are linked as
`above` and `below` say, hold the rows of the table, and that nothing else in the heap has been touched.
-/
namespace Verif.DiffMem
open Verif Verif.Diff

variable {α : Type}

def su (k : Int) : Which := if k ≥ 0 then .u else .v
def sv (k : Int) : Which := if k ≥ 0 then .v else .u

structure Rep (H0 H : Heap Diag) (a : Int → Option Nat) (t : Tab) : Prop where
  live : ∀ k p, a k = some p → H[p]? = some (some ⟨su k, sv k, a (below k), a (above k), k, t k⟩)
  inj : ∀ k k' p, a k = some p → a k' = some p → k = k'
  fresh : ∀ k, a k = none → t k = [k.natAbs]
  down : ∀ k p, k ≠ 0 → a k = some p → ∃ q, a (below k) = some q
  ge : ∀ k p, a k = some p → H0.length ≤ p
  old : ∀ p, p < H0.length → H[p]? = H0[p]?
  len : H0.length ≤ H.length

def Le (a a' : Int → Option Nat) : Prop := ∀ k p, a k = some p → a' k = some p
theorem Le.refl (a : Int → Option Nat) : Le a a := fun _ _ h => h
theorem Le.trans {a b c : Int → Option Nat} (h : Le a b) (h' : Le b c) : Le a c := fun k p e => h' k p (h k p e)

theorem below_above (k : Int) : below (above k) = k := by unfold below above; split <;> split <;> (try split) <;> omega
theorem su_above (k : Int) : su (above k) = su k := by unfold su above; split <;> (try split) <;> (first | rfl | omega)
theorem sv_above (k : Int) : sv (above k) = sv k := by unfold sv above; split <;> (try split) <;> (first | rfl | omega)
theorem above_ne (k : Int) : above k ≠ k ∧ above k ≠ below k ∧ above k ≠ 0 ∧ above (above k) ≠ above k := by
  unfold below above; split <;> (try split) <;> (try split) <;> omega
theorem above_inj {k k' : Int} (h : above k = above k') : k = k' := by
  unfold above at h; split at h <;> split at h <;> omega
theorem below_eq {k k' : Int} (h : below k' = above k) : k' = above (above k) := by
  unfold below above at *; split at h <;> (try split at h) <;> (try split at h) <;> (try split) <;> (try split) <;> omega

/-- adding a diagonal -/
theorem Rep.grow {H0 H : Heap Diag} {a : Int → Option Nat} {t : Tab} (h : Rep H0 H a t) {k m : Int} {p : Nat} (hk : a k = some p)
    (hm : a m = none) (hm0 : m ≠ 0) (hb : below m = k) (hbk : m = above k ∨ m = below k) :
    Rep H0 (((H ++ [some (newDiag (su m) (sv m) m)]).set p
        (some ⟨su k, sv k, if m = below k then some H.length else a (below k), if m = above k then some H.length else a (above k), k, t k⟩)).set H.length
        (some ⟨su m, sv m, some p, none, m, [m.natAbs]⟩)) (fun j => if j = m then some H.length else a j) t := by
  have hp : p < H.length := Heap.lt_of_live (h.live k p hk)
  have hkm : k ≠ m := by intro e; rw [e, hm] at hk; cases hk
  have hup : a (above m) = none := by
    cases e : a (above m) with
    | none => rfl
    | some q =>
      have hne := (above_ne m).2.2.1
      obtain ⟨q', e'⟩ := h.down _ _ hne e
      rw [below_above, hm] at e'
      cases e'
  have ham := above_ne m
  have getp : ∀ j p', a j = some p' → p' < H.length := fun j p' e => Heap.lt_of_live (h.live j p' e)
  refine ⟨?_, ?_, ?_, ?_, ?_, ?_, ?_⟩
  · intro j p' e
    split at e
    · rename_i ej
      subst ej
      simp only [Option.some.injEq] at e
      subst e
      rw [List.getElem?_set_self (by simp)]
      have h1 : (if below j = j then some H.length else a (below j)) = some p := by rw [hb, if_neg hkm, hk]
      have h2 : (if above j = j then some H.length else a (above j)) = none := by rw [if_neg ham.1, hup]
      simp only [h1, h2, h.fresh j hm]
    · rename_i ej
      have hp' := getp j p' e
      rw [List.getElem?_set_ne (by omega)]
      by_cases hjk : j = k
      · subst hjk
        rw [hk] at e
        cases e
        rw [List.getElem?_set_self (by simp; omega)]
        have h1 : (if below j = m then some H.length else a (below j)) = if m = below j then some H.length else a (below j) := by
          simp only [eq_comm]
        have h2 : (if above j = m then some H.length else a (above j)) = if m = above j then some H.length else a (above j) := by
          simp only [eq_comm]
        simp only [h1, h2]
      · have hpp : p ≠ p' := by intro ep; subst ep; exact hjk (h.inj _ _ _ e hk)
        rw [List.getElem?_set_ne hpp, List.getElem?_append_left hp', h.live j p' e]
        have h1 : below j ≠ m := by
          intro e1
          -- `j` would be the diagonal beyond `m`
          by_cases hj0 : j = 0
          · subst hj0
            have : m = -1 := by rw [← e1]; rfl
            rw [this] at hb
            exact hjk (by rw [← hb]; rfl)
          · obtain ⟨q, eq⟩ := h.down j p' hj0 e
            rw [e1, hm] at eq
            cases eq
        have h2 : above j ≠ m := by
          intro e1
          have := below_above j
          rw [e1, hb] at this
          exact hjk this.symm
        simp only [if_neg h1, if_neg h2]
  · intro j j' p' e e'
    split at e <;> split at e'
    · omega
    · cases e; exact absurd (getp _ _ e') (by omega)
    · cases e'; exact absurd (getp _ _ e) (by omega)
    · exact h.inj _ _ _ e e'
  · intro j e
    split at e
    · cases e
    · exact h.fresh j e
  · intro j p' hj e
    split at e
    · rename_i ej
      subst ej
      exact ⟨p, by rw [hb, if_neg hkm, hk]⟩
    · obtain ⟨q, eq⟩ := h.down j p' hj e
      split
      · exact ⟨_, rfl⟩
      · exact ⟨q, eq⟩
  · intro j p' e
    split at e
    · cases e; exact h.len
    · exact h.ge _ _ e
  · intro q hq
    have h1 := h.ge _ _ hk
    have h2 := h.len
    rw [List.getElem?_set_ne (by omega), List.getElem?_set_ne (by omega), List.getElem?_append_left (by omega), h.old q hq]
  · have := h.len
    simp; omega

theorem aboveH_ok {H0 H : Heap Diag} {a : Int → Option Nat} {t : Tab} (h : Rep H0 H a t) {k : Int} {p : Nat} (hk : a k = some p) :
    ∃ H' a' q, aboveH H p = .ok (q, H') ∧ Rep H0 H' a' t ∧ a' (above k) = some q ∧ Le a a' := by
  have hl := h.live k p hk
  unfold aboveH
  rw [Heap.load_ok hl]
  simp only [bind, Except.bind, pure, Except.pure]
  cases e : a (above k) with
  | some q => exact ⟨H, a, q, rfl, h, e, Le.refl a⟩
  | none =>
    have hp := Heap.lt_of_live hl
    have hg := h.grow hk e (above_ne k).2.2.1 (below_above k) (Or.inl rfl)
    have off : (if k ≥ 0 then k + 1 else k - 1) = above k := rfl
    simp only [off, Heap.alloc]
    rw [if_neg (above_ne k).2.1, if_pos rfl, su_above, sv_above] at hg
    refine ⟨_, _, H.length, ?_, hg, by simp, ?_⟩
    · have e1 : (H ++ [some (newDiag (su k) (sv k) (above k))])[p]? = some (some ⟨su k, sv k, a (below k), a (above k), k, t k⟩) := by
        rw [List.getElem?_append_left hp, hl]
      rw [Heap.store_ok e1]
      simp only
      have e2 : ((H ++ [some (newDiag (su k) (sv k) (above k))]).set p
          (some ⟨su k, sv k, a (below k), some H.length, k, t k⟩))[H.length]? = some (some (newDiag (su k) (sv k) (above k))) := by
        rw [List.getElem?_set_ne (by omega)]; simp
      rw [Heap.load_ok e2]
      simp only
      rw [Heap.store_ok e2]
      rfl
    · intro j q ej
      simp only
      split
      · rename_i e'; rw [e', e] at ej; cases ej
      · exact ej

theorem belowH_ok {H0 H : Heap Diag} {a : Int → Option Nat} {t : Tab} (h : Rep H0 H a t) {k : Int} {p : Nat} (hk : a k = some p) :
    ∃ H' a' q, belowH H p = .ok (q, H') ∧ Rep H0 H' a' t ∧ a' (below k) = some q ∧ Le a a' := by
  have hl := h.live k p hk
  unfold belowH
  rw [Heap.load_ok hl]
  simp only [bind, Except.bind, pure, Except.pure]
  cases e : a (below k) with
  | some q => exact ⟨H, a, q, rfl, h, e, Le.refl a⟩
  | none =>
    have hk0 : k = 0 := by
      refine Decidable.byContradiction fun hne => ?_
      obtain ⟨q, eq⟩ := h.down k p hne hk
      rw [e] at eq; cases eq
    subst hk0
    have hp := Heap.lt_of_live hl
    have hg := h.grow (m := -1) hk e (by decide) rfl (Or.inr rfl)
    rw [if_pos (show (-1 : Int) = below 0 from rfl), if_neg (show (-1 : Int) ≠ above 0 by decide)] at hg
    have s1 : su (-1) = sv 0 := rfl
    have s2 : sv (-1) = su 0 := rfl
    rw [s1, s2] at hg
    simp only [Heap.alloc]
    refine ⟨_, _, H.length, ?_, hg, by simp [below], ?_⟩
    · have e1 : (H ++ [some (newDiag (sv 0) (su 0) (-1))])[p]? = some (some ⟨su 0, sv 0, a (below 0), a (above 0), 0, t 0⟩) := by
        rw [List.getElem?_append_left hp, hl]
      rw [Heap.store_ok e1]
      simp only
      have e2 : ((H ++ [some (newDiag (sv 0) (su 0) (-1))]).set p
          (some ⟨su 0, sv 0, some H.length, a (above 0), 0, t 0⟩))[H.length]? = some (some (newDiag (sv 0) (su 0) (-1))) := by
        rw [List.getElem?_set_ne (by omega)]; simp
      rw [Heap.load_ok e2]
      simp only
      rw [Heap.store_ok e2]
      rfl
    · intro j q ej
      simp only
      split
      · rename_i e'; rw [e'] at ej; rw [show (-1 : Int) = below 0 from rfl, e] at ej; cases ej
      · exact ej

theorem pick_su (c : Ctx α) (k : Int) : pick c (su k) = if k ≥ 0 then c.u else c.v := by unfold su; split <;> rfl
theorem pick_sv (c : Ctx α) (k : Int) : pick c (sv k) = if k ≥ 0 then c.v else c.u := by unfold sv; split <;> rfl

theorem objU_ok {H0 H : Heap Diag} {a : Int → Option Nat} {t : Tab} (h : Rep H0 H a t) {k : Int} {p : Nat} (hk : a k = some p)
    (c : Ctx α) (i : Nat) : objU c H p i = objectU c k i := by
  unfold objU objectU
  rw [Heap.load_ok (h.live k p hk)]
  simp only [bind, Except.bind, pick_su]
theorem objV_ok {H0 H : Heap Diag} {a : Int → Option Nat} {t : Tab} (h : Rep H0 H a t) {k : Int} {p : Nat} (hk : a k = some p)
    (c : Ctx α) (i : Nat) : objV c H p i = objectV c k i := by
  unfold objV objectV
  rw [Heap.load_ok (h.live k p hk)]
  simp only [bind, Except.bind, pick_sv]

/-- `entH` does in memory what `ent` does with the table -/
def Sim (H0 : Heap Diag) (ent : Tab → Int → Nat → Res (Nat × Tab)) (entH : Heap Diag → Nat → Nat → Res (Nat × Heap Diag)) : Prop :=
  ∀ H a t k p j x t', Rep H0 H a t → a k = some p → ent t k j = .ok (x, t') →
    ∃ H' a', entH H p j = .ok (x, H') ∧ Rep H0 H' a' t' ∧ Le a a'

theorem leftH_ok {H0 : Heap Diag} {ent : Tab → Int → Nat → Res (Nat × Tab)} {entH : Heap Diag → Nat → Nat → Res (Nat × Heap Diag)}
    (hs : Sim H0 ent entH) {H : Heap Diag} {a : Int → Option Nat} {t : Tab} (h : Rep H0 H a t) {k : Int} {p : Nat} (hk : a k = some p)
    {i x : Nat} {t' : Tab} (he : ent t (below k) (leftIdx k i) = .ok (x, t')) :
    ∃ H' a', leftH entH H p i = .ok (x, H') ∧ Rep H0 H' a' t' ∧ Le a a' := by
  obtain ⟨H1, a1, q, e1, r1, b1, l1⟩ := belowH_ok h hk
  obtain ⟨H2, a2, e2, r2, l2⟩ := hs H1 a1 t (below k) q _ x t' r1 b1 he
  refine ⟨H2, a2, ?_, r2, l1.trans l2⟩
  unfold leftH
  rw [e1]
  simp only [bind, Except.bind]
  rw [Heap.load_ok (r1.live k p (l1 _ _ hk))]
  exact e2

theorem upperH_ok {H0 : Heap Diag} {ent : Tab → Int → Nat → Res (Nat × Tab)} {entH : Heap Diag → Nat → Nat → Res (Nat × Heap Diag)}
    (hs : Sim H0 ent entH) {H : Heap Diag} {a : Int → Option Nat} {t : Tab} (h : Rep H0 H a t) {k : Int} {p : Nat} (hk : a k = some p)
    {i x : Nat} {t' : Tab} (he : ent t (above k) (i - 1) = .ok (x, t')) :
    ∃ H' a', upperH entH H p i = .ok (x, H') ∧ Rep H0 H' a' t' ∧ Le a a' := by
  obtain ⟨H1, a1, q, e1, r1, b1, l1⟩ := aboveH_ok h hk
  obtain ⟨H2, a2, e2, r2, l2⟩ := hs H1 a1 t (above k) q _ x t' r1 b1 he
  refine ⟨H2, a2, ?_, r2, l1.trans l2⟩
  unfold upperH
  rw [e1]
  exact e2

theorem cellStepH_ok {H0 : Heap Diag} {ent : Tab → Int → Nat → Res (Nat × Tab)} {entH : Heap Diag → Nat → Nat → Res (Nat × Heap Diag)}
    (hs : Sim H0 ent entH) (c : Ctx α) {H : Heap Diag} {a : Int → Option Nat} {t : Tab} (h : Rep H0 H a t) {k : Int} {p : Nat} (hk : a k = some p)
    {i lu x : Nat} {t' : Tab} (he : cellStep ent c t k i lu = .ok (x, t')) :
    ∃ H' a', cellStepH entH c H p i lu = .ok (x, H') ∧ Rep H0 H' a' t' ∧ Le a a' := by
  unfold cellStep at he
  unfold cellStepH
  rw [objU_ok h hk, objV_ok h hk]
  cases e1 : objectU c k i with
  | error f => rw [e1] at he; cases he
  | ok o1 =>
  cases e2 : objectV c k i with
  | error f => rw [e1, e2] at he; cases he
  | ok o2 =>
  rw [e1, e2] at he
  simp only [bind, Except.bind, pure, Except.pure] at he ⊢
  cases eq : c.eqv o1 o2 with
  | true =>
    rw [eq] at he
    simp only [if_true, Except.ok.injEq, Prod.mk.injEq] at he ⊢
    obtain ⟨rfl, rfl⟩ := he
    exact ⟨H, a, ⟨rfl, rfl⟩, h, Le.refl a⟩
  | false =>
    rw [eq] at he
    simp only [Bool.false_eq_true, if_false] at he ⊢
    cases el : ent t (below k) (leftIdx k i) with
    | error f => rw [el] at he; cases he
    | ok l =>
      obtain ⟨l, t1⟩ := l
      rw [el] at he
      simp only at he
      obtain ⟨H1, a1, g1, r1, l1⟩ := leftH_ok hs h hk el
      rw [g1]
      simp only
      by_cases hlt : l < lu
      · rw [if_pos hlt] at he ⊢
        simp only [Except.ok.injEq, Prod.mk.injEq] at he ⊢
        obtain ⟨rfl, rfl⟩ := he
        exact ⟨H1, a1, ⟨rfl, rfl⟩, r1, l1⟩
      · rw [if_neg hlt] at he ⊢
        cases eu : ent t1 (above k) (i - 1) with
        | error f => rw [eu] at he; cases he
        | ok u =>
          obtain ⟨u, t2⟩ := u
          rw [eu] at he
          simp only [Except.ok.injEq, Prod.mk.injEq] at he
          obtain ⟨H2, a2, g2, r2, l2⟩ := upperH_ok hs r1 (l1 _ _ hk) eu
          rw [g2]
          obtain ⟨rfl, rfl⟩ := he
          exact ⟨H2, a2, rfl, r2, l1.trans l2⟩

theorem pushH_ok {H0 H : Heap Diag} {a : Int → Option Nat} {t : Tab} (h : Rep H0 H a t) {k : Int} {p : Nat} (hk : a k = some p) (x : Nat) :
    ∃ H', pushH H p x = .ok H' ∧ Rep H0 H' a (t.push k x) := by
  have hl := h.live k p hk
  refine ⟨_, by unfold pushH; rw [Heap.load_ok hl]; simp only [bind, Except.bind]; rw [Heap.store_ok hl], ?_, h.inj, ?_, h.down, h.ge, ?_, ?_⟩
  · intro j q e
    by_cases hj : j = k
    · subst hj
      rw [hk] at e; cases e
      rw [List.getElem?_set_self (Heap.lt_of_live hl)]
      simp [Tab.push]
    · have hpq : p ≠ q := by intro ep; subst ep; exact hj (h.inj _ _ _ e hk)
      rw [List.getElem?_set_ne hpq, h.live j q e]
      simp [Tab.push, hj]
  · intro j e
    have hj : j ≠ k := by intro ej; rw [ej, hk] at e; cases e
    simp only [Tab.push, if_neg hj]
    exact h.fresh j e
  · intro q hq
    have := h.ge _ _ hk
    rw [List.getElem?_set_ne (by omega), h.old q hq]
  · have := h.len
    simpa using this

theorem entryLoopH_ok {H0 : Heap Diag} {ent : Tab → Int → Nat → Res (Nat × Tab)} {entH : Heap Diag → Nat → Nat → Res (Nat × Heap Diag)}
    (hs : Sim H0 ent entH) (c : Ctx α) (k : Int) (j : Nat) : ∀ (fuel : Nat) (H : Heap Diag) (a : Int → Option Nat) (t : Tab) (p x y : Nat) (t' : Tab),
    Rep H0 H a t → a k = some p → entryLoop ent c k j fuel t x = .ok (y, t') →
    ∃ H' a', entryLoopH entH c p j fuel H x = .ok (y, H') ∧ Rep H0 H' a' t' ∧ Le a a' := by
  intro fuel
  induction fuel with
  | zero => intro H a t p x y t' _ _ he; cases he
  | succ n ih =>
    intro H a t p x y t' h hk he
    simp only [entryLoop] at he
    simp only [entryLoopH]
    rw [Heap.load_ok (h.live k p hk)]
    simp only [bind, Except.bind, pure, Except.pure] at he ⊢
    by_cases hj : (t k).length ≤ j
    · rw [if_pos hj] at he ⊢
      cases e1 : cellStep ent c t k (t k).length x with
      | error f => rw [e1] at he; cases he
      | ok r =>
        obtain ⟨r, t1⟩ := r
        rw [e1] at he
        simp only at he
        obtain ⟨H1, a1, g1, r1, l1⟩ := cellStepH_ok hs c h hk e1
        rw [g1]
        simp only
        obtain ⟨H2, g2, r2⟩ := pushH_ok r1 (l1 _ _ hk) r
        rw [g2]
        obtain ⟨H3, a3, g3, r3, l3⟩ := ih H2 a1 _ p r y t' r2 (l1 _ _ hk) he
        exact ⟨H3, a3, g3, r3, l1.trans l3⟩
    · rw [if_neg hj] at he ⊢
      simp only [Except.ok.injEq, Prod.mk.injEq] at he
      obtain ⟨rfl, rfl⟩ := he
      exact ⟨H, a, rfl, h, Le.refl a⟩

theorem entryH_ok (H0 : Heap Diag) (c : Ctx α) : ∀ fuel, Sim H0 (entry c fuel) (entryH c fuel) := by
  intro fuel
  induction fuel with
  | zero => intro H a t k p j x t' _ _ he; cases he
  | succ n ih =>
    intro H a t k p j x t' h hk he
    simp only [entry] at he
    simp only [entryH]
    rw [Heap.load_ok (h.live k p hk)]
    simp only [bind, Except.bind, pure, Except.pure]
    cases e1 : (t k)[j]? with
    | some y =>
      rw [e1] at he
      simp only [Except.ok.injEq, Prod.mk.injEq] at he
      obtain ⟨rfl, rfl⟩ := he
      exact ⟨H, a, rfl, h, Le.refl a⟩
    | none =>
      rw [e1] at he
      simp only at he ⊢
      cases e2 : (t k)[(t k).length - 1]? with
      | none => rw [e2] at he; cases he
      | some y =>
        rw [e2] at he
        simp only at he ⊢
        exact entryLoopH_ok ih c k j _ H a t p y x t' h hk he

end Verif.DiffMem
