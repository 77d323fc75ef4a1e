import Verif.RefCount.Trace
import Verif.RefCount.Spec
/-
The life of objects, seen from the trace.
-/
namespace Verif.RefCount
open Verif

structure TrInv (s : State) (tr : List Ev) : Prop where
  bal : ∀ o, s.bal o + releases tr o = references tr o
  pool : ∀ o, s.pool.count o + s.S (rst o) + tr.count (.poolReleased o) = tr.count (.added o)
  created : ∀ o, tr.count (.created o) = if o < s.next then 1 else 0
  life : ∀ o, (s.alive o).toNat + tr.count (.destroyed o) = tr.count (.created o)
  last : ∀ o p q, tr = p ++ .destroyed o :: q → releases p o = references p o ∧ 0 < references p o ∧ ∀ e ∈ q, uses o e = false
  drained : DrainedAll tr

theorem bal_le_refs (s : State) (o : Nat) : s.bal o ≤ s.refs o := by unfold State.bal State.refs; omega

theorem bal_le_cnt (s : State) (o : Nat) : s.bal o ≤ s.cnt o := by unfold State.bal State.cnt; omega

theorem rst_own (s : State) (o : Nat) : s.S (rst o) ≤ s.S (own o) := S_le s _ _ (by intro f; cases f <;> simp [rst, own])

/-- splitting a trace at an event that is not the new one -/
theorem split_snoc {tr : List Ev} {e x : Ev} {p q : List Ev} (h : tr ++ [e] = p ++ x :: q) :
    (q = [] ∧ p = tr ∧ e = x) ∨ ∃ q', q = q' ++ [e] ∧ tr = p ++ x :: q' := by
  rcases List.eq_nil_or_concat q with hq | ⟨q', y, hq⟩
  · subst hq
    have := List.append_inj' h rfl
    exact Or.inl ⟨rfl, this.1.symm, by simpa using this.2⟩
  · rw [List.concat_eq_append] at hq
    subst hq
    have h' : tr ++ [e] = (p ++ x :: q') ++ [y] := by rw [h]; simp
    have := List.append_inj' h' rfl
    have hy : e = y := by simpa using this.2
    exact Or.inr ⟨q', by rw [hy], this.1⟩

theorem trInv_step (s : State) (tr : List Ev) (s' : State) (ev : List Ev) (inv : Inv s) (inv' : Inv s') (h : TrInv s tr)
    (st : StepEv s s' ev) : TrInv s' (tr ++ ev) := by
  have hbal : ∀ o, s'.bal o + releases (tr ++ ev) o = references (tr ++ ev) o := by
    intro o
    have h1 := h.bal o; have h2 := st.bal o
    simp only [releases, references, List.count_append] at *
    omega
  have hcr : ∀ o, (tr ++ ev).count (.created o) = if o < s'.next then 1 else 0 := by
    intro o
    have h1 := h.created o; have h2 := st.created o
    rw [List.count_append, h1, h2]
    rcases st.next with hn | hn
    · rw [hn]; by_cases ho : o < s.next
      · rw [if_pos ho, if_neg (by omega)]
      · rw [if_neg ho, if_neg (by omega)]
    · rw [hn]; by_cases ho : o < s.next
      · rw [if_pos ho, if_neg (by omega), if_pos (by omega)]
      · rw [if_neg ho]
        by_cases ho' : s.next = o
        · rw [if_pos ⟨ho', by omega⟩, if_pos (by omega)]
        · rw [if_neg (fun h => ho' h.1), if_neg (by omega)]
  have hlife : ∀ o, (s'.alive o).toNat + (tr ++ ev).count (.destroyed o) = (tr ++ ev).count (.created o) := by
    intro o
    have h1 := h.life o; have h2 := st.life o
    rw [List.count_append, List.count_append]; omega
  refine ⟨hbal, ?_, hcr, hlife, ?_, ?_⟩
  · intro o
    have h1 := h.pool o; have h2 := st.pool o
    rw [List.count_append, List.count_append]; omega
  · intro o p q he
    match ev, st.one with
    | [], _ => rw [List.append_nil] at he; exact h.last o p q he
    | [e], _ =>
      rcases split_snoc he with ⟨hq, hp, hx⟩ | ⟨q', hq, ht⟩
      · subst hq; subst hp; subst hx
        refine ⟨?_, ?_, by simp⟩
        · have hd : s'.alive o = false := by
            have h1 := hlife o; have h2 := hcr o
            have h3 : (p ++ [Ev.destroyed o]).count (.destroyed o) = p.count (.destroyed o) + 1 := by simp
            rw [h3, h2] at h1
            cases ha : s'.alive o with
            | false => rfl
            | true => rw [ha] at h1; simp at h1; split at h1 <;> omega
          have h0 := ((inv'.obj o).dead hd).2.2
          have h1 := bal_le_refs s' o
          have h2 := hbal o
          simp only [releases, references, List.count_append] at h2 ⊢
          simp at h2
          omega
        · have h1 := h.life o
          have h2 := st.life o
          simp at h2
          unfold references
          have : (s.alive o).toNat = 1 := by
            have := h2; cases h : s.alive o <;> simp_all
          omega
      · obtain ⟨l1, l2, l3⟩ := h.last o p q' ht
        refine ⟨l1, l2, ?_⟩
        rw [hq]
        intro x hx
        rcases List.mem_append.1 hx with hx | hx
        · exact l3 x hx
        · have hx : x = e := by simpa using hx
          subst hx
          -- the object is dead before and after
          have hcnt : 1 ≤ tr.count (.destroyed o) := by rw [ht]; simp; omega
          have hc := h.created o
          have hl := h.life o
          have hlt : o < s.next := by
            by_cases hlt : o < s.next
            · exact hlt
            · rw [if_neg hlt] at hc; omega
          rw [if_pos hlt] at hc
          have hdead : s.alive o = false := by
            cases ha : s.alive o with
            | false => rfl
            | true => rw [ha] at hl; simp at hl; omega
          have hce : [x].count (.created o) = 0 := by rw [st.created o, if_neg (by omega)]
          have hli := st.life o
          rw [hdead, hce] at hli
          have hdead' : s'.alive o = false := by
            cases ha : s'.alive o with
            | false => rfl
            | true => rw [ha] at hli; simp at hli
          have hde : [x].count (.destroyed o) = 0 := by rw [hdead'] at hli; simp at hli ⊢; exact hli
          have z1 : s.bal o = 0 := by have := ((inv.obj o).dead hdead).1; have := bal_le_cnt s o; omega
          have z2 : s'.bal o = 0 := by have := ((inv'.obj o).dead hdead').1; have := bal_le_cnt s' o; omega
          have hb := st.bal o
          have hp := st.pool o
          have r1 := rst_own s o
          have r2 := rst_own s' o
          rw [z1, z2] at hb
          unfold State.bal at z1 z2
          have e1 : [x].count (.poolReleased o) = [x].count (.added o) := by omega
          have e2 : [x].count (.released o) + [x].count (.poolReleased o) = [x].count (.retained o) := by omega
          cases x <;> simp only [uses] <;> simp_all [List.count_cons]
  · intro p q he
    match ev, st.one, st.drained with
    | [], _, _ => rw [List.append_nil] at he; exact h.drained p q he
    | [e], _, hdr =>
      rcases split_snoc he with ⟨hq, hp, hx⟩ | ⟨q', hq, ht⟩
      · subst hq; subst hp; subst hx
        intro o
        obtain ⟨_, d2, d3⟩ := hdr (by simp)
        have := h.pool o
        rw [inv.drain d2, d3 o] at this
        simp at this; omega
      · exact h.drained p q' ht

theorem trInv_init (n : Nat) : TrInv (init n) [] := by
  have inv := inv_init n
  refine ⟨?_, ?_, ?_, fun _ => rfl, ?_, ?_⟩
  · intro o
    have := ((inv.obj o).dead rfl).1
    have := bal_le_cnt (init n) o
    simp only [releases, references, List.count_nil]; omega
  · intro o
    have := ((inv.obj o).dead rfl).1
    have := bal_le_cnt (init n) o
    have := rst_own (init n) o
    unfold State.bal at this
    simp only [List.count_nil]
    have : (init n).pool.count o = 0 := rfl
    unfold State.bal at *
    omega
  · intro o; rw [if_neg (show ¬ o < (init n).next from Nat.not_lt_zero o)]; rfl
  · intro o p q h; have := congrArg List.length h; simp at this
  · intro p q h; have := congrArg List.length h; simp at this

theorem reach (n : Nat) (sched : List (Nat × Act)) (hn : NoMark sched) :
    ∃ s tr, run (init n) sched = .ok (s, tr) ∧ Inv s ∧ TrInv s tr := by
  obtain ⟨s, tr, h1, h2, h3⟩ := run_induct (P := TrInv) (inv_init n) (trInv_init n) trInv_step sched hn
  exact ⟨s, tr, h1, h2, by simpa using h3⟩

theorem S_idle {s : State} (h : Idle s) (w : Frame → Nat) : s.S w = 0 :=
  S_zero (fun t ht f hf => by rw [h t ht] at hf; cases hf)

end Verif.RefCount
