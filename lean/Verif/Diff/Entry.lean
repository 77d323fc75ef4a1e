import Verif.Diff.Model
import Verif.Diff.Matrix
/-
The lazily filled diagonals hold the entries of the distance matrix.
-/
namespace Verif.Diff
open Verif

variable {α : Type}

/-- row and column of an element of a diagonal -/
def cu (k : Int) (i : Nat) : Nat := if k ≥ 0 then i else k.natAbs + i
def cv (k : Int) (i : Nat) : Nat := if k ≥ 0 then k.natAbs + i else i

def val (c : Ctx α) (k : Int) (i : Nat) : Nat := M (mt c.eqv c.u c.v) (cu k i) (cv k i)

def InB (c : Ctx α) (k : Int) (i : Nat) : Prop := cu k i ≤ c.u.length ∧ cv k i ≤ c.v.length

def Sym (c : Ctx α) : Prop := ∀ a b, c.eqv a b = c.eqv b a

theorem at1_ok {l : List α} {i : Nat} (h : i < l.length) : at1 l (i + 1) = .ok l[i] := by
  simp [at1, h]

theorem objs {c : Ctx α} (hs : Sym c) {k : Int} {i : Nat} (hi : 1 ≤ i) (hb : InB c k i) :
    ∃ a b, c.u[cu k i - 1]? = some a ∧ c.v[cv k i - 1]? = some b ∧ objectU c k i = .ok (if k ≥ 0 then a else b) ∧
      objectV c k i = .ok (if k ≥ 0 then b else a) ∧
      c.eqv (if k ≥ 0 then a else b) (if k ≥ 0 then b else a) = mt c.eqv c.u c.v (cu k i - 1) (cv k i - 1) := by
  obtain ⟨h1, h2⟩ := hb
  obtain ⟨j, rfl⟩ : ∃ j, i = j + 1 := ⟨i - 1, by omega⟩
  unfold cu at h1
  unfold cv at h2
  unfold objectU objectV cu cv
  by_cases hk : k ≥ 0
  · simp only [hk, if_true] at h1 h2 ⊢
    have g1 : j < c.u.length := by omega
    have g2 : k.natAbs + j < c.v.length := by omega
    refine ⟨c.u[j], c.v[k.natAbs + j], ?_, ?_, at1_ok g1, ?_, ?_⟩
    · simp [g1]
    · simp [show k.natAbs + (j + 1) - 1 = k.natAbs + j by omega, g2]
    · rw [show k.natAbs + (j + 1) = k.natAbs + j + 1 by omega]; exact at1_ok g2
    · simp [mt, show k.natAbs + (j + 1) - 1 = k.natAbs + j by omega, g1, g2]
  · simp only [hk, if_false] at h1 h2 ⊢
    have g1 : k.natAbs + j < c.u.length := by omega
    have g2 : j < c.v.length := by omega
    refine ⟨c.u[k.natAbs + j], c.v[j], ?_, ?_, at1_ok g2, ?_, ?_⟩
    · simp [show k.natAbs + (j + 1) - 1 = k.natAbs + j by omega, g1]
    · simp [g2]
    · rw [show k.natAbs + (j + 1) = k.natAbs + j + 1 by omega]; exact at1_ok g1
    · rw [hs]; simp [mt, show k.natAbs + (j + 1) - 1 = k.natAbs + j by omega, g1, g2]

/-- neighbours of an element -/
theorem nbr (k : Int) (i : Nat) (hi : 1 ≤ i) :
    cu k i = cu k (i - 1) + 1 ∧ cv k i = cv k (i - 1) + 1 ∧
    (if k ≥ 0 then cu (below k) (leftIdx k i) = cu k i ∧ cv (below k) (leftIdx k i) + 1 = cv k i
      else cu (below k) (leftIdx k i) + 1 = cu k i ∧ cv (below k) (leftIdx k i) = cv k i) ∧
    (if k ≥ 0 then cu (above k) (i - 1) + 1 = cu k i ∧ cv (above k) (i - 1) = cv k i
      else cu (above k) (i - 1) = cu k i ∧ cv (above k) (i - 1) + 1 = cv k i) := by
  rcases Int.lt_trichotomy k 0 with h | h | h
  · have h0 : ¬ k ≥ 0 := by omega
    have ha : ¬ k - 1 ≥ 0 := by omega
    have e1 : below k = k + 1 := by unfold below; rw [if_neg (by omega), if_neg (by omega)]
    have e2 : above k = k - 1 := by unfold above; rw [if_neg h0]
    have e3 : leftIdx k i = i := by unfold leftIdx; rw [if_neg (by omega)]
    rw [e1, e2, e3]
    simp only [cu, cv, h0, ha, if_false]
    by_cases hb : k + 1 ≥ 0
    · simp only [hb, if_true, and_true, true_and]; omega
    · simp only [hb, if_false, and_true, true_and]; omega
  · subst h
    simp [cu, cv, below, above, leftIdx]; omega
  · have h0 : k ≥ 0 := by omega
    have ha : k + 1 ≥ 0 := by omega
    have hb : k - 1 ≥ 0 := by omega
    have e1 : below k = k - 1 := by unfold below; rw [if_pos (by omega)]
    have e2 : above k = k + 1 := by unfold above; rw [if_pos h0]
    have e3 : leftIdx k i = i := by unfold leftIdx; rw [if_neg (by omega)]
    rw [e1, e2, e3]
    simp only [cu, cv, h0, ha, hb, if_true, true_and]
    omega

/-- the recurrence along the diagonals -/
theorem val_step (c : Ctx α) (k : Int) (i : Nat) (hi : 1 ≤ i) :
    val c k i = (if mt c.eqv c.u c.v (cu k i - 1) (cv k i - 1) then val c k (i - 1)
      else 1 + min (val c k (i - 1)) (min (val c (below k) (leftIdx k i)) (val c (above k) (i - 1)))) ∧
    val c k (i - 1) ≤ val c (below k) (leftIdx k i) + 1 ∧ val c k (i - 1) ≤ val c (above k) (i - 1) + 1 ∧
    val c k (i - 1) ≤ val c k i := by
  obtain ⟨h1, h2, h3, h4⟩ := nbr k i hi
  unfold val
  generalize hm : mt c.eqv c.u c.v = m
  have hl := M_lip m _ (cu k (i - 1)) (cv k (i - 1)) rfl
  rw [h1, h2]
  simp only [Nat.add_sub_cancel]
  by_cases hk : k ≥ 0
  · simp only [hk, if_true] at h3 h4
    have e1 : cu (below k) (leftIdx k i) = cu k (i - 1) + 1 := by omega
    have e2 : cv (below k) (leftIdx k i) = cv k (i - 1) := by omega
    have e3 : cu (above k) (i - 1) = cu k (i - 1) := by omega
    have e4 : cv (above k) (i - 1) = cv k (i - 1) + 1 := by omega
    rw [e1, e2, e3, e4]
    refine ⟨?_, by omega, by omega, by omega⟩
    rw [M_succ, Nat.min_comm (M m (cu k (i - 1)) (cv k (i - 1) + 1))]
  · simp only [hk, if_false] at h3 h4
    have e1 : cu (below k) (leftIdx k i) = cu k (i - 1) := by omega
    have e2 : cv (below k) (leftIdx k i) = cv k (i - 1) + 1 := by omega
    have e3 : cu (above k) (i - 1) = cu k (i - 1) + 1 := by omega
    have e4 : cv (above k) (i - 1) = cv k (i - 1) := by omega
    rw [e1, e2, e3, e4]
    exact ⟨M_succ m _ _, by omega, by omega, by omega⟩

/-- all diagonals hold entries of the matrix -/
def Inv (c : Ctx α) (t : Tab) : Prop := ∀ k, 0 < (t k).length ∧ ∀ i x, (t k)[i]? = some x → x = val c k i

/-- only elements within the rectangle up to (p, q) have been added -/
def Ext (t t' : Tab) (p q : Nat) : Prop :=
  ∀ k, (∃ r, t' k = t k ++ r) ∧ ∀ i, (t k).length ≤ i → i < (t' k).length → cu k i ≤ p ∧ cv k i ≤ q

theorem Ext.refl (t : Tab) (p q : Nat) : Ext t t p q := fun _ => ⟨⟨[], by simp⟩, fun i h1 h2 => by omega⟩

theorem Ext.trans {t1 t2 t3 : Tab} {p q p' q' P Q : Nat} (h : Ext t1 t2 p q) (h' : Ext t2 t3 p' q') (hp : p ≤ P) (hq : q ≤ Q) (hp' : p' ≤ P)
    (hq' : q' ≤ Q) : Ext t1 t3 P Q := by
  intro k
  obtain ⟨⟨r, e⟩, h2⟩ := h k
  obtain ⟨⟨r', e'⟩, h2'⟩ := h' k
  refine ⟨⟨r ++ r', by rw [e', e, List.append_assoc]⟩, ?_⟩
  intro i h1 h3
  by_cases hi : i < (t2 k).length
  · have := h2 i h1 hi; omega
  · have := h2' i (by omega) h3; omega

theorem Ext.mono {t1 t2 : Tab} {p q P Q : Nat} (h : Ext t1 t2 p q) (hp : p ≤ P) (hq : q ≤ Q) : Ext t1 t2 P Q :=
  fun k => ⟨(h k).1, fun i h1 h2 => by have := (h k).2 i h1 h2; omega⟩

theorem cu_mono (k : Int) {i j : Nat} (h : i ≤ j) : cu k i ≤ cu k j ∧ cv k i ≤ cv k j := by
  unfold cu cv; split <;> omega

/-- a diagonal is not extended by work in a smaller rectangle -/
theorem Ext.same {t t' : Tab} {p q : Nat} {k : Int} (h : Ext t t' p q) (hn : p < cu k (t k).length ∨ q < cv k (t k).length) : t' k = t k := by
  obtain ⟨⟨r, e⟩, h2⟩ := h k
  cases r with
  | nil => simpa using e
  | cons x r =>
    have := h2 (t k).length (Nat.le_refl _) (by rw [e]; simp)
    omega

theorem inv_tab0 (c : Ctx α) : Inv c tab0 := by
  intro k
  refine ⟨by simp [tab0], ?_⟩
  intro i x h
  simp only [tab0] at h
  cases i with
  | succ i => simp at h
  | zero =>
    simp only [List.getElem?_cons_zero, Option.some.injEq] at h
    subst h
    unfold val cu cv
    split
    · simp [M_zero_left]
    · simp [M_zero_right]

def EntOk (c : Ctx α) (ent : Tab → Int → Nat → Res (Nat × Tab)) (n : Nat) : Prop :=
  ∀ t k j, Inv c t → InB c k j → cu k j + cv k j < n → ∃ t', ent t k j = .ok (val c k j, t') ∧ Inv c t' ∧ Ext t t' (cu k j) (cv k j)

theorem cellStep_ok {c : Ctx α} (hs : Sym c) {ent : Tab → Int → Nat → Res (Nat × Tab)} {n : Nat} (he : EntOk c ent n) {t : Tab} (ht : Inv c t) {k : Int} {i : Nat}
    (hi : 1 ≤ i) (hb : InB c k i) (hn : cu k i + cv k i < n + 1) (hlen : (t k).length = i) :
    ∃ t', cellStep ent c t k i (val c k (i - 1)) = .ok (val c k i, t') ∧ Inv c t' ∧ Ext t t' (cu k i) (cv k i) ∧ t' k = t k := by
  obtain ⟨a, b, _, _, o1, o2, o3⟩ := objs hs hi hb
  obtain ⟨v1, v2, v3, v4⟩ := val_step c k i hi
  obtain ⟨n1, n2, n3, n4⟩ := nbr k i hi
  unfold cellStep
  rw [o1, o2]
  simp only [bind, Except.bind, pure, Except.pure, o3]
  by_cases hm : mt c.eqv c.u c.v (cu k i - 1) (cv k i - 1) = true
  · rw [if_pos hm] at v1
    rw [if_pos hm, v1]
    exact ⟨t, rfl, ht, Ext.refl _ _ _, rfl⟩
  · rw [if_neg hm] at v1
    rw [if_neg hm]
    have hl : cu (below k) (leftIdx k i) ≤ cu k i ∧ cv (below k) (leftIdx k i) ≤ cv k i ∧
        cu (below k) (leftIdx k i) + cv (below k) (leftIdx k i) + 1 = cu k i + cv k i := by
      split at n3 <;> omega
    have hu : cu (above k) (i - 1) ≤ cu k i ∧ cv (above k) (i - 1) ≤ cv k i ∧
        cu (above k) (i - 1) + cv (above k) (i - 1) + 1 = cu k i + cv k i := by
      split at n4 <;> omega
    obtain ⟨t1, e1, i1, x1⟩ := he t (below k) (leftIdx k i) ht ⟨by have := hb.1; omega, by have := hb.2; omega⟩ (by omega)
    rw [e1]
    simp only
    have s1 : t1 k = t k := x1.same (by rw [hlen]; omega)
    by_cases hlt : val c (below k) (leftIdx k i) < val c k (i - 1)
    · rw [if_pos hlt]
      refine ⟨t1, ?_, i1, x1.mono hl.1 hl.2.1, s1⟩
      rw [show val c (below k) (leftIdx k i) + 1 = val c k i by omega]
    · rw [if_neg hlt]
      obtain ⟨t2, e2, i2, x2⟩ := he t1 (above k) (i - 1) i1 ⟨by have := hb.1; omega, by have := hb.2; omega⟩ (by omega)
      rw [e2]
      simp only
      have s2 : t2 k = t1 k := x2.same (by rw [s1, hlen]; omega)
      refine ⟨t2, ?_, i2, x1.trans x2 hl.1 hl.2.1 hu.1 hu.2.1, s2.trans s1⟩
      rw [show (if val c k (i - 1) < val c (above k) (i - 1) then val c k (i - 1) else val c (above k) (i - 1)) + 1 = val c k i by split <;> omega]

theorem inv_push {c : Ctx α} {t : Tab} (h : Inv c t) {k : Int} (hv : val c k (t k).length = x) : Inv c (t.push k x) := by
  intro k'
  unfold Tab.push
  by_cases hk : k' = k
  · subst hk
    rw [if_pos rfl]
    refine ⟨by simp, ?_⟩
    intro i y hy
    rw [List.getElem?_append] at hy
    split at hy
    · exact (h k').2 i y hy
    · rename_i hlt
      by_cases he : i - (t k').length = 0
      · rw [he] at hy
        simp only [List.getElem?_cons_zero, Option.some.injEq] at hy
        subst hy
        rw [show i = (t k').length by omega]; exact hv.symm
      · rw [List.getElem?_eq_none (by simp; omega)] at hy; cases hy
  · rw [if_neg hk]; exact h k'

theorem ext_push (t : Tab) (k : Int) (x : Nat) : Ext t (t.push k x) (cu k (t k).length) (cv k (t k).length) := by
  intro k'
  unfold Tab.push
  by_cases hk : k' = k
  · subst hk
    rw [if_pos rfl]
    refine ⟨⟨[x], rfl⟩, ?_⟩
    intro i h1 h2
    simp only [List.length_append, List.length_singleton] at h2
    rw [show i = (t k').length by omega]
    exact ⟨Nat.le_refl _, Nat.le_refl _⟩
  · rw [if_neg hk]
    exact ⟨⟨[], by simp⟩, fun i h1 h2 => by omega⟩

theorem entryLoop_ok {c : Ctx α} (hs : Sym c) {ent : Tab → Int → Nat → Res (Nat × Tab)} {n : Nat} (he : EntOk c ent n) {k : Int} {j : Nat} (hb : InB c k j)
    (hn : cu k j + cv k j < n + 1) : ∀ (fuel : Nat) (t : Tab), Inv c t → (t k).length ≤ j + 1 → j + 1 < fuel + (t k).length →
    ∃ t', entryLoop ent c k j fuel t (val c k ((t k).length - 1)) = .ok (val c k j, t') ∧ Inv c t' ∧ Ext t t' (cu k j) (cv k j) := by
  intro fuel
  induction fuel with
  | zero => intro t _ h1 h2; omega
  | succ fuel ih =>
    intro t ht h1 h2
    simp only [entryLoop]
    by_cases hlen : (t k).length ≤ j
    · rw [if_pos hlen]
      have hm := cu_mono k hlen
      have hpos := (ht k).1
      obtain ⟨t1, e1, i1, x1, s1⟩ := cellStep_ok hs he ht (k := k) (i := (t k).length) hpos ⟨by have := hb.1; omega, by have := hb.2; omega⟩ (by omega) rfl
      rw [e1]
      simp only [bind, Except.bind]
      have ip : Inv c (t1.push k (val c k (t k).length)) := inv_push i1 (by rw [s1])
      have hl : ((t1.push k (val c k (t k).length)) k).length = (t k).length + 1 := by
        unfold Tab.push; rw [if_pos rfl, s1]; simp
      obtain ⟨t2, e2, i2, x2⟩ := ih _ ip (by omega) (by omega)
      rw [hl, Nat.add_sub_cancel] at e2
      have xp := ext_push t1 k (val c k (t k).length)
      rw [s1] at xp
      exact ⟨t2, e2, i2, (x1.trans xp (Nat.le_refl _) (Nat.le_refl _) (Nat.le_refl _) (Nat.le_refl _)).trans x2 hm.1 hm.2 (Nat.le_refl _) (Nat.le_refl _)⟩
    · rw [if_neg hlen]
      refine ⟨t, ?_, ht, Ext.refl _ _ _⟩
      rw [show (t k).length - 1 = j by omega]

theorem entry_ok {c : Ctx α} (hs : Sym c) : ∀ n, EntOk c (entry c n) n := by
  intro n
  induction n with
  | zero => intro t k j _ _ h; omega
  | succ n ih =>
    intro t k j ht hb hn
    simp only [entry]
    cases hx : (t k)[j]? with
    | some x => exact ⟨t, by rw [(ht k).2 j x hx], ht, Ext.refl _ _ _⟩
    | none =>
      have hlen : (t k).length ≤ j := by simpa using hx
      have hpos := (ht k).1
      have hl : (t k)[(t k).length - 1]? = some ((t k)[(t k).length - 1]'(by omega)) := List.getElem?_eq_getElem (by omega)
      have hv := (ht k).2 _ _ hl
      rw [hl]
      simp only
      rw [hv]
      exact entryLoop_ok hs ih hb hn (j + 2) t ht (by omega) (by omega)

end Verif.Diff
