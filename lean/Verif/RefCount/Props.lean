import Verif.RefCount.Progress
import Verif.RefCount.Pool
/-
C27, C28: reference counting and the autorelease pool for every number of threads and every interleaving.
-/
namespace Verif.RefCount
open Verif

/-- **C27**: for every number of threads and every schedule of calls of `retain`, `release`, `autorelease`, `drain`,
constructors and destructors - a thread uses only objects it owns a reference to - nothing undefined ever happens (no
access to a destroyed object, no second destruction, no overflow of the counter); an object is destroyed at most
once, exactly when every reference has been released, and never used afterwards. -/
theorem refcount_safe (n : Nat) (sched : List (Nat × Act)) (hn : NoMark sched) :
    ∃ s tr, run (init n) sched = .ok (s, tr) ∧ Lifecycle tr := by
  obtain ⟨s, tr, hr, inv, ti⟩ := reach n sched hn
  refine ⟨s, tr, hr, ?_, ?_, ?_, ti.last⟩
  · intro o; rw [ti.created o]; split <;> omega
  · intro o
    have h1 := ti.life o; have h2 := ti.created o
    split at h2 <;> omega
  · intro o; have := ti.bal o; omega

/-- **C27**: when no call is in progress, an object has been destroyed if and only if it has been released as often as
it was referenced: the last `release` always destroys the object, an earlier one never does. -/
theorem last_release_destroys (n : Nat) (sched : List (Nat × Act)) (hn : NoMark sched) (s : State) (tr : List Ev)
    (hr : run (init n) sched = .ok (s, tr)) (hi : Idle s) (o : Nat) (ho : .created o ∈ tr) :
    .destroyed o ∈ tr ↔ releases tr o = references tr o := by
  obtain ⟨s', tr', hr', inv, ti⟩ := reach n sched hn
  rw [hr] at hr'; cases hr'
  have h1 := ti.life o
  have h2 := ti.created o
  have h3 := ti.bal o
  have hc : 0 < tr.count (.created o) := List.count_pos_iff.2 ho
  rw [← List.count_pos_iff]
  have hS := S_idle hi
  cases ha : s.alive o with
  | false =>
    rw [ha] at h1
    have h4 := ((inv.obj o).dead ha).1
    have h5 := bal_le_cnt s o
    simp at h1
    constructor
    · intro _; omega
    · intro _; omega
  | true =>
    rw [ha] at h1
    have h4 := ((inv.obj o).destr ha).1
    rw [hS] at h4
    have h6 : s.cnt o = s.bal o := by unfold State.cnt State.bal; rw [hS (pre o), hS (post o)]; rfl
    have h7 : s.bal o ≠ 0 := by intro h; exact absurd (h4 (by omega)) (by decide)
    simp at h1
    have h8 : tr.count (.created o) ≤ 1 := by rw [h2]; split <;> omega
    constructor
    · intro h; omega
    · intro h; omega

/-- **C27** (mutual exclusion): never are two threads inside the critical section of the reference counter, nor two
inside that of the pool. -/
theorem mutual_exclusion (n : Nat) (sched : List (Nat × Act)) (hn : NoMark sched) (s : State) (tr : List Ev)
    (hr : run (init n) sched = .ok (s, tr)) : s.S crit ≤ 1 ∧ s.S pcrit ≤ 1 := by
  obtain ⟨s', tr', hr', inv, ti⟩ := reach n sched hn
  rw [hr] at hr'; cases hr'
  have h1 := inv.mutex; have h2 := inv.pmutex
  constructor
  · rw [h1]; cases s.m <;> simp [b1]
  · rw [h2]; cases s.pm <;> simp [b1]

/-- **C28**: for every number of threads and every schedule, whenever `drain` returns, the pool has released every object
exactly as often as it was put in; nothing is released twice, nothing is forgotten. -/
theorem drain_releases_all (n : Nat) (sched : List (Nat × Act)) (hn : NoMark sched) :
    ∃ s tr, run (init n) sched = .ok (s, tr) ∧ DrainedAll tr := by
  obtain ⟨s, tr, hr, inv, ti⟩ := reach n sched hn
  exact ⟨s, tr, hr, ti.drained⟩

/-- **C28**: at every moment the pool has released an object at most as often as it was put in. -/
theorem pool_never_over_releases (n : Nat) (sched : List (Nat × Act)) (hn : NoMark sched) :
    ∃ s tr, run (init n) sched = .ok (s, tr) ∧ ∀ o, tr.count (.poolReleased o) ≤ tr.count (.added o) := by
  obtain ⟨s, tr, hr, inv, ti⟩ := reach n sched hn
  exact ⟨s, tr, hr, fun o => by have := ti.pool o; omega⟩

/-- **C28**: an object of which a thread still owns a reference is not destroyed, whatever `drain` does. -/
theorem drain_keeps_retained (n : Nat) (sched : List (Nat × Act)) (hn : NoMark sched) (s : State) (tr : List Ev)
    (hr : run (init n) sched = .ok (s, tr)) (t : Thr) (ht : t ∈ s.thr) (o : Nat) (ho : 0 < t.tok o) : .destroyed o ∉ tr := by
  obtain ⟨s', tr', hr', inv, ti⟩ := reach n sched hn
  rw [hr] at hr'; cases hr'
  intro hd
  have h1 := ti.life o
  have h2 := ti.created o
  have h3 : 0 < tr.count (.destroyed o) := List.count_pos_iff.2 hd
  have h4 : s.alive o = false := by
    cases ha : s.alive o with
    | false => rfl
    | true => rw [ha] at h1; simp at h1; split at h2 <;> omega
  have h5 := ((inv.obj o).dead h4).1
  have h6 : t.tok o ≤ s.T o := sum_ge (fun t : Thr => t.tok o) s.thr t ht
  unfold State.cnt at h5
  omega

/-- **C27, C28** (no deadlock): in every reachable state in which some call is in progress, some thread can go on - unless a
destructor called by `drain` waits for the pool it is drained from (see `drain_self_lock`). -/
theorem no_deadlock_partial (n : Nat) (sched : List (Nat × Act)) (hn : NoMark sched) (s : State) (tr : List Ev)
    (hr : run (init n) sched = .ok (s, tr)) : Idle s ∨ (∃ i, CanRun s i) ∨ ∃ i, SelfLock s i := by
  obtain ⟨s', tr', hr', inv, ti⟩ := reach n sched hn
  rw [hr] at hr'; cases hr'
  exact progress inv (top_run _ (top_init n) sched s tr hr)

/-- objects 0 and 1; 0 is put into the pool; `drain` destroys it; its destructor calls `autorelease` on object 1 -/
def selfLockSchedule : List (Nat × Act) :=
  [(0, .new), (0, .new), (0, .autorelease 0)] ++ List.replicate 4 (0, .new) ++ [(0, .drain)] ++ List.replicate 10 (0, .new) ++
    [(0, .autorelease 1), (0, .new)]

theorem run_append (s : State) (l k : List (Nat × Act)) :
    run s (l ++ k) = (match run s l with
      | .error e => .error e
      | .ok r => match run r.1 k with
        | .error e => .error e
        | .ok q => .ok (q.1, r.2 ++ q.2)) := by
  induction l generalizing s with
  | nil => simp only [List.nil_append, run]; cases run s k <;> rfl
  | cons x l ih =>
    obtain ⟨i, a⟩ := x
    simp only [List.cons_append, run, bind, Except.bind]
    cases step s i a with
    | error e => rfl
    | ok r =>
      simp only
      rw [ih]
      cases run r.1 l with
      | error e => rfl
      | ok r' =>
        simp only [pure, Except.pure]
        cases run r'.1 k with
        | error e => rfl
        | ok q => simp

theorem stuck_step {s s' : State} (inv : Inv s) {tok : Nat → Nat} {rest : List Frame} {o : Nat} {r : List Nat}
    (hs : s.thr[0]? = some ⟨.addLock o :: rest, tok⟩) (hd : .drainLoop r ∈ rest) {i : Nat} {a : Act} {ev : List Ev}
    (h : step s i a = .ok (s', ev)) : ∃ tok', s'.thr[0]? = some ⟨.addLock o :: rest, tok'⟩ := by
  have hpm : s.pm = true := by
    have h1 := S_ge s pcrit _ (List.mem_of_getElem? hs) (.drainLoop r) (by simp [hd])
    have h2 := inv.pmutex
    simp only [pcrit] at h1
    cases hp : s.pm with
    | true => rfl
    | false => rw [hp] at h2; simp only [b1] at h2; omega
  by_cases hi : i = 0
  · subst hi
    unfold step at h
    rw [hs] at h
    simp only [atClient, micro, hpm, if_true] at h
    cases h
    exact ⟨tok, hs⟩
  · have keep : ∀ (s1 : State) (t' : Thr), s1.thr = s.thr.set i t' → s1.thr[0]? = some ⟨.addLock o :: rest, tok⟩ := by
      intro s1 t' e; rw [e, List.getElem?_set_ne hi]; exact hs
    unfold step at h
    cases ht : s.thr[i]? with
    | none => rw [ht] at h; cases h; exact ⟨tok, hs⟩
    | some t =>
      rw [ht] at h
      have cl : ∀ a, ∃ tok', (client s i t a).1.thr[0]? = some ⟨.addLock o :: rest, tok'⟩ := by
        intro a
        cases a with
        | new => exact ⟨tok, keep _ _ rfl⟩
        | retain o' => simp only [client]; split; · exact ⟨tok, keep _ _ rfl⟩
                       exact ⟨tok, hs⟩
        | release o' => simp only [client]; split; · exact ⟨tok, keep _ _ rfl⟩
                        exact ⟨tok, hs⟩
        | autorelease o' => simp only [client]; split; · exact ⟨tok, keep _ _ rfl⟩
                            exact ⟨tok, hs⟩
        | drain => exact ⟨tok, keep _ _ rfl⟩
        | give o' j =>
          simp only [client]; split
          · have h1 := keep (s.setT i ⟨t.stack, upd t.tok o' (t.tok o' - 1)⟩) _ rfl
            unfold giveTo
            split
            · next u hu =>
              by_cases hj : j = 0
              · subst hj
                rw [h1] at hu
                have hu := Option.some.inj hu
                subst hu
                exact ⟨_, get_set h1 rfl⟩
              · refine ⟨tok, ?_⟩
                show ((s.setT i _).thr.set j _)[0]? = _
                rw [List.getElem?_set_ne hj]; exact h1
            · exact ⟨tok, h1⟩
          · exact ⟨tok, hs⟩
        | mark o' b => simp only [client]; split; · exact ⟨tok, keep _ _ rfl⟩
                       exact ⟨tok, hs⟩
        | endDtor =>
          show ∃ tok', (endDtor s i t).thr[0]? = _
          unfold endDtor
          split
          · exact ⟨tok, keep _ _ rfl⟩
          · exact ⟨tok, hs⟩
      obtain ⟨stack, tk⟩ := t
      cases stack with
      | nil =>
        have h := Except.ok.inj h
        have := cl a
        rw [h] at this; exact this
      | cons f rest' =>
        simp only at h
        by_cases hc : atClient (f :: rest') = true
        · rw [if_pos hc] at h
          have h := Except.ok.inj h
          have := cl a
          rw [h] at this; exact this
        · rw [if_neg hc] at h
          refine ⟨tok, ?_⟩
          cases f with
          | drainLoop r =>
            cases r with
            | nil => cases h; exact keep _ _ rfl
            | cons o r => cases h; exact keep _ _ rfl
          | _ =>
            simp only [micro] at h
            repeat' split at h
            all_goals first
              | (cases h; done)
              | (cases h; exact hs)
              | (cases h; exact keep _ _ rfl)

/-- **C28** is violated when the destructor of a pooled object uses the pool: `drain` holds the mutex of the pool while it
releases the objects, so `autorelease` inside such a destructor never returns.  After `selfLockSchedule` thread 0 stays
inside this call, whatever is done afterwards. -/
theorem drain_self_lock (sched : List (Nat × Act)) (hn : NoMark sched) :
    ∃ s tr tok, run (init 2) (selfLockSchedule ++ sched) = .ok (s, tr) ∧
      s.thr[0]? = some ⟨[.addLock 1, .dtor 0, .drainLoop []], tok⟩ := by
  have hn0 : NoMark selfLockSchedule := by unfold NoMark selfLockSchedule; simp
  obtain ⟨s0, tr0, h0, inv0, _⟩ := reach 2 selfLockSchedule hn0
  have hstack : s0.thr[0]?.map Thr.stack = some [.addLock 1, .dtor 0, .drainLoop []] := by
    have hd : (match run (init 2) selfLockSchedule with
      | .ok r => r.1.thr[0]?.map Thr.stack
      | .error _ => none) = some [.addLock 1, .dtor 0, .drainLoop []] := by decide +kernel
    rw [h0] at hd; exact hd
  obtain ⟨tok0, ht0⟩ : ∃ tok, s0.thr[0]? = some ⟨[.addLock 1, .dtor 0, .drainLoop []], tok⟩ := by
    cases ht : s0.thr[0]? with
    | none => rw [ht] at hstack; cases hstack
    | some t =>
      rw [ht] at hstack
      obtain ⟨st, tk⟩ := t
      simp only [Option.map_some, Option.some.injEq] at hstack
      subst hstack
      exact ⟨tk, rfl⟩
  suffices h : ∀ (l : List (Nat × Act)) (s : State) (tok : Nat → Nat), NoMark l → Inv s → s.thr[0]? = some ⟨[.addLock 1, .dtor 0, .drainLoop []], tok⟩ →
      ∃ s' tr tok', run s l = .ok (s', tr) ∧ s'.thr[0]? = some ⟨[.addLock 1, .dtor 0, .drainLoop []], tok'⟩ by
    obtain ⟨s, tr, tok, h1, h2⟩ := h sched s0 tok0 hn inv0 ht0
    refine ⟨s, tr0 ++ tr, tok, ?_, h2⟩
    rw [run_append, h0]; simp only [h1]
  intro l
  induction l with
  | nil => intro s tok _ _ hs; exact ⟨s, [], tok, rfl, hs⟩
  | cons x l ih =>
    intro s tok hn inv hs
    obtain ⟨i, a⟩ := x
    obtain ⟨⟨s1, e1⟩, h1, inv1⟩ := step_ok inv i a (hn (i, a) (by simp))
    obtain ⟨tok1, hs1⟩ := stuck_step inv hs (r := []) (by simp) h1
    obtain ⟨s2, t2, tok2, h2, h3⟩ := ih s1 tok1 (fun x hx => hn x (by simp [hx])) inv1 hs1
    exact ⟨s2, e1 ++ t2, tok2, by simp only [run, h1, bind, Except.bind, h2, pure, Except.pure], h3⟩

/-! ### setHighBit -/

/-- the schedule of a lost update: thread 1 loads the counter in `setHighBit`, thread 0 completes a `retain`, thread 1 stores -/
def lostUpdate : List (Nat × Act) :=
  [(0, .new), (0, .retain 0)] ++ List.replicate 5 (0, .new) ++ [(0, .give 0 1), (1, .mark 0 true), (1, .new), (0, .retain 0)] ++
    List.replicate 5 (0, .new) ++ [(1, .new)] ++ [(0, .release 0)] ++ List.replicate 7 (0, .new) ++ [(0, .release 0)] ++
    List.replicate 7 (0, .new) ++ [(0, .endDtor), (1, .release 0), (1, .new)]

/-- **C27** is violated when one thread calls `setHighBit` (unlike `retain` and `release` it takes no lock) while another
one calls `retain`: the `retain` is lost, the object is destroyed while it is referenced, the next access is undefined. -/
theorem highBit_race : run (init 2) lostUpdate = .error .ub := by
  have h : (match run (init 2) lostUpdate with
      | .error .ub => true
      | _ => false) = true := by decide +kernel
  revert h
  cases run (init 2) lostUpdate with
  | ok r => intro h; cases h
  | error e => cases e <;> intro h <;> first | rfl | cases h

/-- **C27**: without a race, `setHighBit` keeps the reference count and `highBit` reads back what was set; the count keeps
the bit. -/
theorem highBit_sequential (v : BitVec 32) (b : Bool) :
    refCount (withHighBit v b) = refCount v ∧ highBit (withHighBit v b) = b ∧
      (0 < (refCount v).toNat → refCount (v - 1) = refCount v - 1 ∧ highBit (v - 1) = highBit v) ∧
      ((refCount v).toNat + 1 < 2 ^ 31 → refCount (v + 1) = refCount v + 1 ∧ highBit (v + 1) = highBit v) := by
  have hrc : ∀ x : BitVec 32, (refCount x).toNat = x.toNat % 2 ^ 31 := by
    intro x; unfold refCount; rw [BitVec.toNat_and]; exact Nat.and_two_pow_sub_one_eq_mod x.toNat 31
  have hhb : ∀ x : BitVec 32, highBit x = decide (2 ^ 31 ≤ x.toNat) := by
    intro x
    have h1 : (x &&& 0x80000000 != 0) = x.getLsbD 31 := by
      cases hb : x.getLsbD 31 with
      | true =>
        rw [bne_iff_ne]
        intro h
        have := congrArg (fun y : BitVec 32 => y.getLsbD 31) h
        simp only [BitVec.getLsbD_and, hb] at this
        exact absurd this (by decide)
      | false =>
        rw [bne_eq_false_iff_eq]
        apply BitVec.eq_of_getLsbD_eq
        intro i hi
        have hc : (0x80000000 : BitVec 32).getLsbD i = decide (i = 31) := by
          revert hi; revert i; decide
        rw [BitVec.getLsbD_and, hc]
        by_cases h : i = 31
        · subst h; rw [hb]; rfl
        · simp [h]
    unfold highBit
    rw [h1]
    exact (BitVec.msb_eq_getLsbD_last x).symm.trans (BitVec.msb_eq_decide x)
  have hor : ∀ b : Bool, (withHighBit v b).toNat = v.toNat % 2 ^ 31 + (if b then 2 ^ 31 else 0) := by
    intro b
    unfold withHighBit
    rw [BitVec.toNat_or, hrc]
    cases b with
    | false => simp
    | true =>
      simp only [if_true]
      have hlt : v.toNat % 2 ^ 31 < 2 ^ 31 := Nat.mod_lt _ (by decide)
      have := Nat.two_pow_add_eq_or_of_lt hlt 1
      rw [Nat.mul_one] at this
      rw [Nat.or_comm, Nat.add_comm, this]; rfl
  refine ⟨?_, ?_, ?_, ?_⟩
  · apply BitVec.eq_of_toNat_eq
    rw [hrc, hrc, hor]
    split <;> omega
  · rw [hhb, hor]
    have hlt : v.toNat % 2 ^ 31 < 2 ^ 31 := Nat.mod_lt _ (by decide)
    cases b <;> simp <;> omega
  · intro h
    rw [hrc] at h
    have hv := v.isLt
    constructor
    · apply BitVec.eq_of_toNat_eq
      rw [hrc, BitVec.toNat_sub, BitVec.toNat_sub, hrc]
      have h1 : (1 : BitVec 32).toNat = 1 := rfl
      rw [h1]; omega
    · rw [hhb, hhb, BitVec.toNat_sub]
      have h1 : (1 : BitVec 32).toNat = 1 := rfl
      rw [h1]
      congr 1
      apply propext; omega
  · intro h
    rw [hrc] at h
    have hv := v.isLt
    constructor
    · apply BitVec.eq_of_toNat_eq
      rw [hrc, BitVec.toNat_add, BitVec.toNat_add, hrc]
      have h1 : (1 : BitVec 32).toNat = 1 := rfl
      rw [h1]; omega
    · rw [hhb, hhb, BitVec.toNat_add]
      have h1 : (1 : BitVec 32).toNat = 1 := rfl
      rw [h1]
      congr 1
      apply propext; omega

/-! ### the hypotheses can be met -/

/-- two threads: 0 creates, retains, hands one reference over and releases; 1 autoreleases and drains -/
def demo : List (Nat × Act) :=
  [(0, .new), (0, .retain 0)] ++ List.replicate 5 (0, .new) ++ [(0, .give 0 1), (1, .autorelease 0), (0, .release 0)] ++
    (List.replicate 8 [(0, .endDtor), (1, .endDtor)]).flatten ++ [(1, .drain)] ++ List.replicate 14 (1, .endDtor)

example : NoMark demo := by unfold NoMark demo; simp

example : (match run (init 2) demo with
    | .ok r => (r.2, r.1.thr.all (fun t => t.stack.isEmpty))
    | .error _ => ([], false)) =
    ([.created 0, .retained 0, .released 0, .added 0, .poolReleased 0, .destroyed 0, .drained], true) := by decide +kernel

end Verif.RefCount
