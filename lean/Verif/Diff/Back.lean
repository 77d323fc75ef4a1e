import Verif.Diff.Entry
/-
The backtrace follows a script of least cost.
-/
namespace Verif.Diff
open Verif Verif.Diff.Spec

variable {α : Type}

/-- the step the code reports for an operation of the script after `a` objects of `u` and `b` objects of `v` -/
def reportOp (c : Ctx α) (a b : Nat) : Op → Step α
  | .keep => ⟨.equal, none, none⟩
  | .replace => if a ≤ b then ⟨.modified, c.u[a]?, c.v[b]?⟩ else ⟨.modified, c.v[b]?, c.u[a]?⟩
  | .insert => if a ≤ b + 1 then ⟨.add, c.v[b]?, none⟩ else ⟨.add, c.u[a - 1]?, none⟩
  | .delete => if a + 1 ≤ b then ⟨.delete, c.v[b - 1]?, none⟩ else ⟨.delete, c.u[a]?, none⟩

def incU : Op → Nat
  | .insert => 0
  | _ => 1

def incV : Op → Nat
  | .delete => 0
  | _ => 1

def report (c : Ctx α) : List Op → Nat → Nat → List (Step α)
  | [], _, _ => []
  | o :: s, a, b => reportOp c a b o :: report c s (a + incU o) (b + incV o)

def sumU : List Op → Nat
  | [] => 0
  | o :: s => incU o + sumU s

def sumV : List Op → Nat
  | [] => 0
  | o :: s => incV o + sumV s

theorem report_snoc (c : Ctx α) (s : List Op) (o : Op) : ∀ a b, report c (s ++ [o]) a b = report c s a b ++ [reportOp c (a + sumU s) (b + sumV s) o] := by
  induction s with
  | nil => intro a b; rfl
  | cons x s ih => intro a b; simp only [List.cons_append, report, ih, sumU, sumV, Nat.add_assoc]

theorem Script.sums {eqv : α → α → Bool} {u v : List α} {s : List Op} (h : Script eqv u v s) : sumU s = u.length ∧ sumV s = v.length := by
  induction h with
  | done => exact ⟨rfl, rfl⟩
  | keep _ _ ih => simp only [sumU, sumV, incU, incV, List.length_cons]; omega
  | replace _ ih => simp only [sumU, sumV, incU, incV, List.length_cons]; omega
  | insert _ ih => simp only [sumU, sumV, incU, incV, List.length_cons]; omega
  | delete _ ih => simp only [sumU, sumV, incU, incV, List.length_cons]; omega

theorem take_snoc {l : List α} {n : Nat} {x : α} (h : l[n]? = some x) : l.take (n + 1) = l.take n ++ [x] := by
  rw [List.take_succ, h]; rfl

/-- the operation chosen at an element, with the neighbour it leads to -/
theorem opAt_ok {c : Ctx α} (hs : Sym c) {t : Tab} (ht : Inv c t) {k : Int} {i : Nat} (hb : InB c k i) {ef : Nat} (hn : cu k i + cv k i < ef) :
    ∃ t' op, opAt c ef t k i = .ok (op, t') ∧ Inv c t' ∧
      ((op = .start ∧ i = 0 ∧ k = 0) ∨
       (op = .equal ∧ 1 ≤ i ∧ mt c.eqv c.u c.v (cu k i - 1) (cv k i - 1) = true ∧ val c k i = val c k (i - 1)) ∨
       (op = .modified ∧ 1 ≤ i ∧ val c k i = val c k (i - 1) + 1) ∨
       (op = (if k ≥ 0 then .add else .delete) ∧ (i = 0 → k ≠ 0) ∧ val c k i = val c (below k) (leftIdx k i) + 1) ∨
       (op = (if k ≥ 0 then .delete else .add) ∧ 1 ≤ i ∧ val c k i = val c (above k) (i - 1) + 1)) := by
  by_cases hi : i = 0
  · subst hi
    refine ⟨t, _, by unfold opAt; rw [if_pos rfl], ht, ?_⟩
    rcases Int.lt_trichotomy k 0 with h | h | h
    · refine Or.inr (Or.inr (Or.inr (Or.inl ⟨?_, fun _ => by omega, ?_⟩)))
      · rw [if_neg (by omega), if_neg (by omega), if_neg (by omega)]
      · have e1 : below k = k + 1 := by unfold below; rw [if_neg (by omega), if_neg (by omega)]
        have e3 : leftIdx k 0 = 0 := by unfold leftIdx; split <;> rfl
        have h0 : ¬ k ≥ 0 := by omega
        rw [e1, e3]
        unfold val cu cv
        simp only [h0, if_false]
        rw [M_zero_right]
        by_cases hb : k + 1 ≥ 0
        · have : k + 1 = 0 := by omega
          rw [if_pos hb, if_pos hb, M_zero_left]; omega
        · rw [if_neg hb, if_neg hb, M_zero_right]; omega
    · exact Or.inl ⟨by rw [if_pos h], rfl, h⟩
    · refine Or.inr (Or.inr (Or.inr (Or.inl ⟨?_, fun _ => by omega, ?_⟩)))
      · rw [if_neg (by omega), if_pos (by omega), if_pos (by omega)]
      · have e1 : below k = k - 1 := by unfold below; rw [if_pos (by omega)]
        have e3 : leftIdx k 0 = 0 := by unfold leftIdx; split <;> rfl
        have h0 : k ≥ 0 := by omega
        have h1 : k - 1 ≥ 0 := by omega
        rw [e1, e3]
        unfold val cu cv
        simp only [h0, h1, if_true]
        rw [M_zero_left, M_zero_left]; omega
  · have hi1 : 1 ≤ i := by omega
    obtain ⟨a, b, _, _, o1, o2, o3⟩ := objs hs hi1 hb
    obtain ⟨v1, v2, v3, v4⟩ := val_step c k i hi1
    obtain ⟨n1, n2, n3, n4⟩ := nbr k i hi1
    unfold opAt
    rw [if_neg hi, o1, o2]
    simp only [bind, Except.bind, pure, Except.pure, o3]
    by_cases hm : mt c.eqv c.u c.v (cu k i - 1) (cv k i - 1) = true
    · rw [if_pos hm] at v1
      rw [if_pos hm]
      exact ⟨t, _, rfl, ht, Or.inr (Or.inl ⟨rfl, hi1, hm, v1⟩)⟩
    · rw [if_neg hm] at v1
      rw [if_neg hm]
      have hl : cu (below k) (leftIdx k i) ≤ cu k i ∧ cv (below k) (leftIdx k i) ≤ cv k i := by split at n3 <;> omega
      obtain ⟨t1, e1, i1, _⟩ := entry_ok hs ef t k i ht hb hn
      obtain ⟨t2, e2, i2, _⟩ := entry_ok hs ef t1 (below k) (leftIdx k i) i1 ⟨by have := hb.1; omega, by have := hb.2; omega⟩ (by omega)
      obtain ⟨t3, e3, i3, _⟩ := entry_ok hs ef t2 k (i - 1) i2 ⟨by have := hb.1; omega, by have := hb.2; omega⟩ (by omega)
      rw [e1]
      simp only
      rw [e2]
      simp only
      rw [e3]
      simp only
      by_cases c1 : val c k i = 1 + val c (below k) (leftIdx k i)
      · rw [if_pos c1]
        exact ⟨t3, _, rfl, i3, Or.inr (Or.inr (Or.inr (Or.inl ⟨rfl, fun h => absurd h hi, by omega⟩)))⟩
      · rw [if_neg c1]
        by_cases c2 : val c k i = 1 + val c k (i - 1)
        · rw [if_pos c2]
          exact ⟨t3, _, rfl, i3, Or.inr (Or.inr (Or.inl ⟨rfl, hi1, by omega⟩))⟩
        · rw [if_neg c2]
          exact ⟨t3, _, rfl, i3, Or.inr (Or.inr (Or.inr (Or.inr ⟨rfl, hi1, by omega⟩)))⟩

/-- objects and neighbours also for index 0 -/
theorem objV0 {c : Ctx α} {k : Int} {i : Nat} (hb : InB c k i) (hk : i = 0 → k ≠ 0) :
    ∃ x, objectV c k i = .ok x ∧ (if k ≥ 0 then c.v[cv k i - 1]? else c.u[cu k i - 1]?) = some x ∧ 1 ≤ (if k ≥ 0 then cv k i else cu k i) := by
  have hpos : 1 ≤ k.natAbs + i := by
    by_cases h : i = 0
    · have := hk h; omega
    · omega
  obtain ⟨h1, h2⟩ := hb
  unfold cu at h1
  unfold cv at h2
  unfold objectV cu cv
  obtain ⟨j, hj⟩ : ∃ j, k.natAbs + i = j + 1 := ⟨k.natAbs + i - 1, by omega⟩
  by_cases h0 : k ≥ 0
  · simp only [h0, if_true] at h1 h2 ⊢
    rw [hj] at h2 ⊢
    have g : j < c.v.length := by omega
    exact ⟨c.v[j], at1_ok g, by simp [g], by omega⟩
  · simp only [h0, if_false] at h1 h2 ⊢
    rw [hj] at h1 ⊢
    have g : j < c.u.length := by omega
    exact ⟨c.u[j], at1_ok g, by simp [g], by omega⟩

theorem left0 (k : Int) (i : Nat) (hk : i = 0 → k ≠ 0) :
    (if k ≥ 0 then cu (below k) (leftIdx k i) = cu k i ∧ cv (below k) (leftIdx k i) + 1 = cv k i
      else cu (below k) (leftIdx k i) + 1 = cu k i ∧ cv (below k) (leftIdx k i) = cv k i) := by
  by_cases hi : 1 ≤ i
  · exact (nbr k i hi).2.2.1
  · have h0 : i = 0 := by omega
    have hk' := hk h0
    subst h0
    rcases Int.lt_trichotomy k 0 with h | h | h
    · have e1 : below k = k + 1 := by unfold below; rw [if_neg (by omega), if_neg (by omega)]
      have e3 : leftIdx k 0 = 0 := by unfold leftIdx; split <;> rfl
      have h0 : ¬ k ≥ 0 := by omega
      rw [e1, e3]
      simp only [cu, cv, h0, if_false]
      by_cases hb : k + 1 ≥ 0
      · simp only [hb, if_true, and_true]; omega
      · simp only [hb, if_false, and_true]; omega
    · exact absurd h hk'
    · have e1 : below k = k - 1 := by unfold below; rw [if_pos (by omega)]
      have e3 : leftIdx k 0 = 0 := by unfold leftIdx; split <;> rfl
      have h0 : k ≥ 0 := by omega
      have h1 : k - 1 ≥ 0 := by omega
      rw [e1, e3]
      simp only [cu, cv, h0, h1, if_true, true_and]
      omega

theorem offs (k : Int) (i : Nat) : k ≥ 0 ↔ cu k i ≤ cv k i := by
  unfold cu cv
  by_cases h : k ≥ 0
  · simp only [h, if_true, true_iff]; omega
  · simp only [h, if_false, false_iff]; omega

/-- the script up to an element -/
def Good (c : Ctx α) (k : Int) (i : Nat) (s : List Op) : Prop :=
  ScriptR c.eqv (c.u.take (cu k i)) (c.v.take (cv k i)) s ∧ cost s = val c k i

theorem backtrace_ok {c : Ctx α} (hs : Sym c) (ef : Nat) : ∀ (fuel : Nat) (t : Tab) (k : Int) (i : Nat) (stack : List (Step α)), Inv c t → InB c k i →
    cu k i + cv k i < ef → cu k i + cv k i < fuel →
    ∃ s, Good c k i s ∧ backtrace c ef fuel t k i stack = .ok (⟨.start, none, none⟩ :: (report c s 0 0 ++ stack)) := by
  intro fuel
  induction fuel with
  | zero => intro t k i stack _ _ _ h; omega
  | succ fuel ih =>
    intro t k i stack ht hb hef hf
    obtain ⟨t', op, e1, i1, hop⟩ := opAt_ok hs ht hb hef
    -- one more step at the end of the script
    have close : ∀ (k' : Int) (i' : Nat) (o : Op) (st : Step α), move c k i op = .ok (st, some (k', i')) → cu k' i' + incU o = cu k i → cv k' i' + incV o = cv k i →
        (∀ s, Good c k' i' s → Good c k i (s ++ [o])) → st = reportOp c (cu k' i') (cv k' i') o →
        ∃ s, Good c k i s ∧ backtrace c ef (fuel + 1) t k i stack = .ok (⟨.start, none, none⟩ :: (report c s 0 0 ++ stack)) := by
      intro k' i' o st hm hu hv hg hst
      have hinc : 1 ≤ incU o + incV o := by cases o <;> decide
      obtain ⟨s, g1, g2⟩ := ih t' k' i' (st :: stack) i1 ⟨by have := hb.1; omega, by have := hb.2; omega⟩ (by omega) (by omega)
      refine ⟨s ++ [o], hg s g1, ?_⟩
      simp only [backtrace, e1, bind, Except.bind, hm]
      rw [g2, report_snoc]
      obtain ⟨l1, l2⟩ := Script.sums g1.1.toScript
      rw [List.length_take, Nat.min_eq_left (by have := hb.1; omega)] at l1
      rw [List.length_take, Nat.min_eq_left (by have := hb.2; omega)] at l2
      rw [l1, l2, Nat.zero_add, Nat.zero_add, ← hst]
      simp
    rcases hop with ⟨rfl, rfl, rfl⟩ | ⟨rfl, hi, hm, hv⟩ | ⟨rfl, hi, hv⟩ | ⟨ho, hi, hv⟩ | ⟨ho, hi, hv⟩
    · refine ⟨[], ⟨?_, ?_⟩, ?_⟩
      · simp only [cu, cv]; exact .done
      · simp [cost, val, cu, cv, M_zero_left]
      · simp only [backtrace, e1, bind, Except.bind, move, report]; rfl
    · obtain ⟨a, b, oa, ob, _, _, _⟩ := objs hs hi hb
      obtain ⟨n1, n2, _, _⟩ := nbr k i hi
      refine close k (i - 1) .keep ⟨.equal, none, none⟩ rfl (by simp only [incU]; omega) (by simp only [incV]; omega) ?_ rfl
      rintro s ⟨g1, g2⟩
      rw [n1] at oa
      rw [n2] at ob
      rw [n1, n2] at hm
      simp only [Nat.add_sub_cancel] at oa ob hm
      refine ⟨?_, ?_⟩
      · rw [n1, n2, take_snoc oa, take_snoc ob]
        refine .keep ?_ g1
        simpa [mt, oa, ob] using hm
      · rw [cost_append, g2, hv]; rfl
    · obtain ⟨a, b, oa, ob, ou, ov, _⟩ := objs hs hi hb
      obtain ⟨n1, n2, _, _⟩ := nbr k i hi
      have hoff := offs k (i - 1)
      rw [n1] at oa
      rw [n2] at ob
      simp only [Nat.add_sub_cancel] at oa ob
      have hmv : move c k i .modified = .ok (⟨.modified, some (if k ≥ 0 then a else b), some (if k ≥ 0 then b else a)⟩, some (k, i - 1)) := by
        simp only [move, ou, ov, bind, Except.bind, pure, Except.pure]
      refine close k (i - 1) .replace _ hmv (by simp only [incU]; omega) (by simp only [incV]; omega) ?_ ?_
      · rintro s ⟨g1, g2⟩
        refine ⟨?_, ?_⟩
        · rw [n1, n2, take_snoc oa, take_snoc ob]
          exact .replace g1
        · rw [cost_append, g2, hv]; rfl
      · unfold reportOp
        simp only [oa, ob]
        by_cases h0 : k ≥ 0
        · rw [if_pos (hoff.1 h0), if_pos h0, if_pos h0]
        · rw [if_neg (fun h => h0 (hoff.2 h)), if_neg h0, if_neg h0]
    · obtain ⟨x, ox, hx, hp⟩ := objV0 hb hi
      have hn := left0 k i hi
      have hoff := offs k i
      by_cases h0 : k ≥ 0
      · simp only [h0, if_true] at ho hx hp hn
        subst ho
        have hmv : move c k i .add = .ok (⟨.add, some x, none⟩, some (below k, leftIdx k i)) := by
          simp only [move, ox, bind, Except.bind, pure, Except.pure, leftIdx]
          by_cases hz : k = 0
          · rw [if_pos hz, if_pos hz]
          · rw [if_neg hz, if_neg hz, if_pos h0]
        rw [show cv k i - 1 = cv (below k) (leftIdx k i) by omega] at hx
        refine close _ _ .insert _ hmv (by simp only [incU]; omega) (by simp only [incV]; omega) ?_ ?_
        · rintro s ⟨g1, g2⟩
          refine ⟨?_, ?_⟩
          · rw [← hn.1, ← hn.2, take_snoc hx]
            exact .insert g1
          · rw [cost_append, g2, hv]; rfl
        · unfold reportOp
          simp only
          rw [if_pos (by have := hoff.1 h0; omega), hx]
      · simp only [h0, if_false] at ho hx hp hn
        subst ho
        have hmv : move c k i .delete = .ok (⟨.delete, some x, none⟩, some (below k, leftIdx k i)) := by
          simp only [move, ox, bind, Except.bind, pure, Except.pure, leftIdx]
          have hz : ¬ k = 0 := by omega
          rw [if_neg hz, if_neg hz, if_neg h0]
        rw [show cu k i - 1 = cu (below k) (leftIdx k i) by omega] at hx
        refine close _ _ .delete _ hmv (by simp only [incU]; omega) (by simp only [incV]; omega) ?_ ?_
        · rintro s ⟨g1, g2⟩
          refine ⟨?_, ?_⟩
          · rw [← hn.1, ← hn.2, take_snoc hx]
            exact .delete g1
          · rw [cost_append, g2, hv]; rfl
        · unfold reportOp
          simp only
          rw [if_neg (by have : ¬ cu k i ≤ cv k i := fun h => h0 (hoff.2 h); omega), hx]
    · obtain ⟨a, b, oa, ob, ou, ov, _⟩ := objs hs hi hb
      obtain ⟨_, _, _, hn⟩ := nbr k i hi
      have hoff := offs k i
      by_cases h0 : k ≥ 0
      · simp only [h0, if_true] at ho hn ov
        subst ho
        have hmv : move c k i .delete = .ok (⟨.delete, some b, none⟩, some (above k, i - 1)) := by
          simp only [move, ov, bind, Except.bind, pure, Except.pure]
          by_cases hz : k = 0
          · rw [if_pos hz]
          · rw [if_neg hz, if_pos h0]
        rw [show cu k i - 1 = cu (above k) (i - 1) by omega] at oa
        refine close _ _ .delete _ hmv (by simp only [incU]; omega) (by simp only [incV]; omega) ?_ ?_
        · rintro s ⟨g1, g2⟩
          refine ⟨?_, ?_⟩
          · rw [← hn.1, ← hn.2, take_snoc oa]
            exact .delete g1
          · rw [cost_append, g2, hv]; rfl
        · unfold reportOp
          simp only
          rw [if_pos (by have := hoff.1 h0; omega), hn.2, ob]
      · simp only [h0, if_false] at ho hn ov
        subst ho
        have hmv : move c k i .add = .ok (⟨.add, some a, none⟩, some (above k, i - 1)) := by
          simp only [move, ov, bind, Except.bind, pure, Except.pure]
          have hz : ¬ k = 0 := by omega
          rw [if_neg hz, if_neg h0]
        rw [show cv k i - 1 = cv (above k) (i - 1) by omega] at ob
        refine close _ _ .insert _ hmv (by simp only [incU]; omega) (by simp only [incV]; omega) ?_ ?_
        · rintro s ⟨g1, g2⟩
          refine ⟨?_, ?_⟩
          · rw [← hn.1, ← hn.2, take_snoc ob]
            exact .insert g1
          · rw [cost_append, g2, hv]; rfl
        · unfold reportOp
          simp only
          rw [if_neg (by have : ¬ cu k i ≤ cv k i := fun h => h0 (hoff.2 h); omega), hn.1, oa]

theorem solve_ok {c : Ctx α} (hs : Sym c) :
    ∃ s, Script c.eqv c.u c.v s ∧ cost s = D c.eqv c.u c.v ∧ solve c = .ok (D c.eqv c.u c.v, ⟨.start, none, none⟩ :: report c s 0 0) := by
  have hcu : cu (c.v.length - c.u.length) (min c.u.length c.v.length) = c.u.length := by unfold cu; split <;> omega
  have hcv : cv (c.v.length - c.u.length) (min c.u.length c.v.length) = c.v.length := by unfold cv; split <;> omega
  have hb : InB c (c.v.length - c.u.length) (min c.u.length c.v.length) := ⟨by omega, by omega⟩
  have hval : val c (c.v.length - c.u.length) (min c.u.length c.v.length) = D c.eqv c.u c.v := by unfold val; rw [hcu, hcv]; rfl
  obtain ⟨t1, e1, i1, _⟩ := entry_ok hs (c.u.length + c.v.length + 1) tab0 _ _ (inv_tab0 c) hb (by omega)
  obtain ⟨s, ⟨g1, g2⟩, e2⟩ := backtrace_ok hs (c.u.length + c.v.length + 1) (c.u.length + c.v.length + 1) t1 _ _ [] i1 hb (by omega) (by omega)
  rw [hcu, hcv, List.take_length, List.take_length] at g1
  rw [hval] at g2 e1
  refine ⟨s, g1.toScript, g2, ?_⟩
  unfold solve
  simp only [e1, e2, bind, Except.bind, pure, Except.pure, List.append_nil]

end Verif.Diff
