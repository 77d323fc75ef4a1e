import Verif.Thread.Calls
/-
C97: programs made of the calls keep to the rules of the mutex.
-/
namespace Verif.Thread

/-- the possible effects of a step, one by one -/
inductive Does (body : List Instr) (s : St) (t : Nat) : St → Prop where
  | lock (k) (hs : (s.ths t).status = .ready) (hr : (s.ths t).rest = .lock :: k) (ho : s.owner = none) :
      Does body s t { s.goOn t k with owner := some t }
  | unlock (k) (hs : (s.ths t).status = .ready) (hr : (s.ths t).rest = .unlock :: k) (ho : s.owner = some t) :
      Does body s t { s.goOn t k with owner := none }
  | wait (timed : Bool) (k) (hs : (s.ths t).status = .ready) (hr : (s.ths t).rest = (if timed then .timedWait else .wait) :: k) (ho : s.owner = some t) :
      Does body s t { s with owner := none, sleepers := s.sleepers ++ [t], ths := upd s.ths t ⟨k, (s.ths t).ret, .asleep timed⟩ }
  | signalNone (k) (hs : (s.ths t).status = .ready) (hr : (s.ths t).rest = .signal :: k) (he : s.sleepers = []) : Does body s t (s.goOn t k)
  | signal (k) (w : Nat) (hs : (s.ths t).status = .ready) (hr : (s.ths t).rest = .signal :: k) (hw : w ∈ s.sleepers) : Does body s t ((s.wakes w).goOn t k)
  | set (b : Bool) (k) (hs : (s.ths t).status = .ready) (hr : (s.ths t).rest = .set b :: k) : Does body s t { s.goOn t k with alive := b }
  | get (k) (hs : (s.ths t).status = .ready) (hr : (s.ths t).rest = .get :: k) : Does body s t { s with ths := upd s.ths t ⟨k, s.alive, .ready⟩ }
  | againYes (k) (hs : (s.ths t).status = .ready) (hr : (s.ths t).rest = .again :: k) (hret : (s.ths t).ret = true) : Does body s t (s.goOn t (body ++ .again :: k))
  | againNo (k) (hs : (s.ths t).status = .ready) (hr : (s.ths t).rest = .again :: k) (hret : (s.ths t).ret = false) : Does body s t (s.goOn t k)
  | spawn (k) (hs : (s.ths t).status = .ready) (hr : (s.ths t).rest = .spawn :: k) (hn : s.started = false) : Does body s t { s.goOn t k with started := true }
  | join (k) (hs : (s.ths t).status = .ready) (hr : (s.ths t).rest = .join :: k) (hov : s.over) (hj : s.joined = false) :
      Does body s t { s.goOn t k with joined := true }
  | work (k) (hs : (s.ths t).status = .ready) (hr : (s.ths t).rest = .work :: k) : Does body s t (s.goOn t k)
  | wakes (timed : Bool) (hs : (s.ths t).status = .asleep timed) : Does body s t (s.wakes t)
  | reacquire (hs : (s.ths t).status = .woken) (ho : s.owner = none) :
      Does body s t { s with owner := some t, ths := upd s.ths t { s.ths t with status := .ready } }

theorem does_of_ready {body s t i s'} (hs : (s.ths t).status = .ready) (l : List Instr) (hl : (s.ths t).rest = l)
    (h : readyStep body s t i l = .next s') : Does body s t s' := by
  cases l with
  | nil => cases h
  | cons a k =>
    cases a with
    | lock =>
      simp only [readyStep] at h
      split at h
      · rename_i ho
        cases h
        exact .lock k hs hl ho
      · cases h
    | unlock =>
      simp only [readyStep, unlockStep] at h
      split at h
      · rename_i ho
        cases h
        exact .unlock k hs hl ho
      · cases h
    | wait =>
      simp only [readyStep, waitStep] at h
      split at h
      · rename_i ho
        cases h
        exact .wait false k hs hl ho
      · cases h
    | timedWait =>
      simp only [readyStep, waitStep] at h
      split at h
      · rename_i ho
        cases h
        exact .wait true k hs hl ho
      · cases h
    | signal =>
      simp only [readyStep, signalStep] at h
      split at h
      · rename_i he
        cases h
        exact .signalNone k hs hl he
      · split at h
        · rename_i w hw
          cases h
          exact .signal k w hs hl (List.mem_of_getElem? hw)
        · cases h
    | set b =>
      simp only [readyStep] at h
      cases h
      exact .set b k hs hl
    | get =>
      simp only [readyStep] at h
      cases h
      exact .get k hs hl
    | again =>
      simp only [readyStep, againStep] at h
      split at h
      · rename_i hr
        cases h
        exact .againYes k hs hl hr
      · rename_i hr
        cases h
        exact .againNo k hs hl (by simpa using hr)
    | spawn =>
      simp only [readyStep] at h
      split at h
      · cases h
      · rename_i hr
        cases h
        exact .spawn k hs hl (by simpa using hr)
    | join =>
      simp only [readyStep, joinStep] at h
      split at h
      · cases h
      · rename_i hn
        split at h
        · rename_i ho
          cases h
          refine .join k hs hl ho ?_
          cases hj : s.joined with
          | false => rfl
          | true => exact absurd (Or.inr hj) hn
        · cases h
    | work =>
      simp only [readyStep] at h
      cases h
      exact .work k hs hl

theorem does {body s t c s'} (h : step body s t c = .next s') : Does body s t s' := by
  unfold step at h
  split at h
  · rename_i hs
    split at h
    · cases h
    · exact does_of_ready hs _ rfl h
  · rename_i hs
    cases h
    exact .wakes true hs
  · rename_i b hs
    cases h
    exact .wakes b hs
  · rename_i hs
    split at h
    · rename_i ho
      cases h
      exact .reacquire hs ho
    · cases h
  · cases h

/-! ### locking is balanced -/

/-- follows the code, knowing whether the mutex is held; `none` when a rule is broken: the flag and the condition are only
used with the mutex, the mutex is not locked twice, and nothing that may take long is done with it -/
def walk : Bool → List Instr → Option Bool
  | h, [] => some h
  | h, .lock :: k => if h then none else walk true k
  | h, .unlock :: k => if h then walk false k else none
  | h, .wait :: k => if h then walk true k else none
  | h, .timedWait :: k => if h then walk true k else none
  | h, .signal :: k => walk h k
  | h, .set _ :: k => if h then walk true k else none
  | h, .get :: k => if h then walk true k else none
  | h, .again :: k => if h then none else walk false k
  | h, .spawn :: k => if h then none else walk false k
  | h, .join :: k => if h then none else walk false k
  | h, .work :: k => walk h k

theorem walk_append (a b : List Instr) (h : Bool) : walk h (a ++ b) = (walk h a).bind (fun h => walk h b) := by
  induction a generalizing h with
  | nil => rfl
  | cons x a ih =>
    cases x <;> simp only [List.cons_append, walk] <;> (try split) <;> (try exact ih _) <;> rfl

/-- a program that keeps to the rules and has given the mutex back at the end -/
def Balanced (l : List Instr) : Prop := walk false l = some false

theorem balanced_append {a b : List Instr} (ha : Balanced a) (hb : Balanced b) : Balanced (a ++ b) := by
  unfold Balanced at *
  rw [walk_append, ha]
  exact hb

theorem balanced_nil : Balanced [] := rfl

theorem walk_works (h : Bool) (n : Nat) : walk h (List.replicate n .work) = some h := by
  induction n with
  | zero => rfl
  | succ n ih => exact ih

theorem balanced_call (c : Call) : Balanced c.code := by
  cases c with
  | critical n =>
    show walk false (.lock :: (List.replicate n .work ++ [.unlock])) = some false
    simp only [walk, Bool.false_eq_true, if_false]
    rw [walk_append, walk_works]
    rfl
  | _ => rfl

theorem balanced_codes (l : List Call) : Balanced (codes l) := by
  induction l with
  | nil => rfl
  | cons c l ih => exact balanced_append (balanced_call c) ih

theorem balanced_loop (w : Worker) : Balanced w.loop := balanced_append (balanced_codes _) rfl

theorem balanced_again {k : List Instr} (h : Balanced k) : Balanced (.again :: k) := h

theorem balanced_worker (w : Worker) : Balanced w.code :=
  balanced_append (by rfl) (balanced_append (balanced_append (balanced_codes _) rfl) (balanced_again (balanced_codes _)))

theorem balanced_program (p : Program) (t : Nat) : Balanced (p.code t) := by
  unfold Program.code
  split
  · exact balanced_worker _
  · exact balanced_append (balanced_append (balanced_append (balanced_append (balanced_codes _) rfl) (balanced_codes _)) rfl) (balanced_codes _)
  · exact balanced_codes _

/-! ### the invariant -/

/-- a thread that is ready is where its code says, with the mutex or without; one that sleeps will have it -/
structure Good (s : St) (t : Nat) : Prop where
  ready : (s.ths t).status = .ready → walk (decide (s.owner = some t)) (s.ths t).rest = some false
  away : (s.ths t).status ≠ .ready → s.owner ≠ some t ∧ walk true (s.ths t).rest = some false

structure Inv (s : St) : Prop where
  good : ∀ t, Good s t
  nodup : s.sleepers.Nodup
  asleep : ∀ t, t ∈ s.sleepers ↔ ∃ b, (s.ths t).status = .asleep b

theorem upd_self (f : Nat → Th) (t : Nat) (x : Th) : upd f t x t = x := by simp [upd]
theorem upd_ne (f : Nat → Th) {t u : Nat} (x : Th) (h : u ≠ t) : upd f t x u = f u := by simp [upd, h]

theorem ready_goOn {s : St} {t : Nat} (u : Nat) (k : List Instr) : ((s.goOn t k).ths u).status = (s.ths u).status := by
  by_cases h : u = t
  · subst h; simp [St.goOn, upd]
  · simp [St.goOn, upd, h]

/-- threads whose data and ownership did not change are as good as before -/
theorem good_frame {s s' : St} {u : Nat} (g : Good s u) (ht : s'.ths u = s.ths u) (ho : s'.owner = some u ↔ s.owner = some u) : Good s' u := by
  have hd : decide (s'.owner = some u) = decide (s.owner = some u) := decide_eq_decide.2 ho
  exact ⟨fun h => by rw [hd, ht]; exact g.ready (by rw [← ht]; exact h),
    fun h => ⟨fun e => (g.away (by rw [← ht]; exact h)).1 (ho.1 e), by rw [ht]; exact (g.away (by rw [← ht]; exact h)).2⟩⟩

/-- a step of a thread that stays ready and goes on with `k`; sleepers stay the same -/
theorem inv_goOn {s : St} (i : Inv s) {t : Nat} (hs : (s.ths t).status = .ready) (s' : St) (x : Th) (e : s'.ths = upd s.ths t x)
    (hsl : s'.sleepers = s.sleepers) (hx : x.status = .ready) (ho : ∀ u, u ≠ t → (s'.owner = some u ↔ s.owner = some u))
    (hw : walk (decide (s'.owner = some t)) x.rest = some false) : Inv s' := by
  refine ⟨?_, by rw [hsl]; exact i.nodup, ?_⟩
  · intro u
    by_cases h : u = t
    · subst h
      refine ⟨fun _ => ?_, fun hn => ?_⟩
      · rw [e, upd_self]
        exact hw
      · rw [e, upd_self] at hn
        exact absurd hx hn
    · exact good_frame (i.good u) (by rw [e, upd_ne _ _ h]) (ho u h)
  · intro u
    rw [hsl, i.asleep u, e]
    by_cases h : u = t
    · subst h
      rw [upd_self, hx, hs]
    · rw [upd_ne _ _ h]

/-- a sleeper is woken -/
theorem inv_wakes {s : St} (i : Inv s) {t : Nat} {b : Bool} (hs : (s.ths t).status = .asleep b) : Inv (s.wakes t) := by
  have hg := (i.good t).away (by rw [hs]; simp)
  refine ⟨?_, i.nodup.erase t, ?_⟩
  · intro u
    by_cases h : u = t
    · subst h
      refine ⟨fun hr => ?_, fun _ => ?_⟩
      · simp [St.wakes, upd_self] at hr
      · simp only [St.wakes, upd_self]
        exact hg
    · exact good_frame (i.good u) (by simp only [St.wakes]; rw [upd_ne _ _ h]) Iff.rfl
  · intro u
    simp only [St.wakes]
    rw [i.nodup.mem_erase_iff, i.asleep u]
    by_cases h : u = t
    · subst h
      simp [upd_self]
    · rw [upd_ne _ _ h]
      simp [h]

theorem owner_of_walk {s : St} {t : Nat} (g : Good s t) (hs : (s.ths t).status = .ready) {k : List Instr} {a : Instr}
    (hr : (s.ths t).rest = a :: k) : walk (decide (s.owner = some t)) (a :: k) = some false := by
  rw [← hr]; exact g.ready hs

theorem inv_step {body : List Instr} (hb : Balanced body) {s s' : St} {t : Nat} (i : Inv s) (d : Does body s t s') : Inv s' := by
  have g := i.good t
  cases d with
  | lock k hs hr ho =>
    have hw := owner_of_walk g hs hr
    refine inv_goOn i hs _ _ rfl rfl hs (fun u hu => ?_) ?_
    · simp [ho, hu.symm]
    · simpa [walk, ho] using hw
  | unlock k hs hr ho =>
    have hw := owner_of_walk g hs hr
    refine inv_goOn i hs _ _ rfl rfl hs (fun u hu => ?_) ?_
    · simp [ho, hu.symm]
    · simpa [walk, ho] using hw
  | wait timed k hs hr ho =>
    have hw := owner_of_walk g hs hr
    have hw2 : walk true k = some false := by cases timed <;> simpa [walk, ho] using hw
    have hn : t ∉ s.sleepers := by
      rw [i.asleep t, hs]
      simp
    refine ⟨?_, ?_, ?_⟩
    · intro u
      by_cases h : u = t
      · subst h
        refine ⟨fun hr => ?_, fun _ => ⟨by simp, ?_⟩⟩
        · simp [upd_self] at hr
        · simp only [upd_self]
          exact hw2
      · exact good_frame (i.good u) (by simp only; rw [upd_ne _ _ h]) (by simp [ho, Ne.symm h])
    · simp only
      rw [List.nodup_append]
      exact ⟨i.nodup, by simp, by intro a ha b hb e; simp at hb; subst hb; subst e; exact hn ha⟩
    · intro u
      simp only [List.mem_append, List.mem_singleton]
      rw [i.asleep u]
      by_cases h : u = t
      · subst h
        simp [upd_self]
      · rw [upd_ne _ _ h]
        simp [h]
  | signalNone k hs hr he =>
    have hw := owner_of_walk g hs hr
    exact inv_goOn i hs _ _ rfl rfl hs (fun _ _ => Iff.rfl) hw
  | signal k w hs hr hwm =>
    have hw := owner_of_walk g hs hr
    obtain ⟨b, hb⟩ := (i.asleep w).1 hwm
    have hne : t ≠ w := by
      intro e
      rw [← e, hs] at hb
      cases hb
    have i2 := inv_wakes i hb
    have e2 : (s.wakes w).ths t = s.ths t := by simp only [St.wakes]; rw [upd_ne _ _ hne]
    refine inv_goOn i2 (t := t) (by rw [e2]; exact hs) _ _ rfl rfl (by simp only [e2]; exact hs) (fun _ _ => Iff.rfl) ?_
    exact hw
  | set b k hs hr =>
    have hw := owner_of_walk g hs hr
    refine inv_goOn i hs _ _ rfl rfl hs (fun _ _ => Iff.rfl) ?_
    have ho : s.owner = some t := by
      by_cases h : s.owner = some t
      · exact h
      · simp [walk, h] at hw
    simpa [walk, ho, St.goOn] using hw
  | get k hs hr =>
    have hw := owner_of_walk g hs hr
    refine inv_goOn i hs _ _ rfl rfl rfl (fun _ _ => Iff.rfl) ?_
    have ho : s.owner = some t := by
      by_cases h : s.owner = some t
      · exact h
      · simp [walk, h] at hw
    simpa [walk, ho] using hw
  | againYes k hs hr hret =>
    have hw := owner_of_walk g hs hr
    refine inv_goOn i hs _ _ rfl rfl hs (fun _ _ => Iff.rfl) ?_
    by_cases ho : s.owner = some t
    · simp [walk, ho] at hw
    · simp only [walk, ho, decide_false, Bool.false_eq_true, if_false] at hw
      show walk (decide (s.owner = some t)) (body ++ .again :: k) = some false
      simp only [ho, decide_false, walk_append]
      unfold Balanced at hb
      rw [hb]
      exact hw
  | againNo k hs hr hret =>
    have hw := owner_of_walk g hs hr
    refine inv_goOn i hs _ _ rfl rfl hs (fun _ _ => Iff.rfl) ?_
    by_cases ho : s.owner = some t
    · simp [walk, ho] at hw
    · simpa [walk, ho, St.goOn] using hw
  | spawn k hs hr hn =>
    have hw := owner_of_walk g hs hr
    refine inv_goOn i hs _ _ rfl rfl hs (fun _ _ => Iff.rfl) ?_
    by_cases ho : s.owner = some t
    · simp [walk, ho] at hw
    · simpa [walk, ho, St.goOn] using hw
  | join k hs hr hov hj =>
    have hw := owner_of_walk g hs hr
    refine inv_goOn i hs _ _ rfl rfl hs (fun _ _ => Iff.rfl) ?_
    by_cases ho : s.owner = some t
    · simp [walk, ho] at hw
    · simpa [walk, ho, St.goOn] using hw
  | work k hs hr =>
    have hw := owner_of_walk g hs hr
    exact inv_goOn i hs _ _ rfl rfl hs (fun _ _ => Iff.rfl) hw
  | wakes b hs => exact inv_wakes i hs
  | reacquire hs ho =>
    have hg := g.away (by rw [hs]; simp)
    refine ⟨?_, i.nodup, ?_⟩
    · intro u
      by_cases h : u = t
      · subst h
        refine ⟨fun _ => ?_, fun hn => ?_⟩
        · simp only [upd_self, decide_true]
          exact hg.2
        · simp [upd_self] at hn
      · exact good_frame (i.good u) (by simp only; rw [upd_ne _ _ h]) (by simp [ho, Ne.symm h])
    · intro u
      rw [i.asleep u]
      by_cases h : u = t
      · subst h
        simp [upd_self, hs]
      · simp only [upd_ne _ _ h]

theorem inv_initial {code : Nat → List Instr} (h : ∀ t, Balanced (code t)) : Inv (initial code) := by
  refine ⟨fun t => ⟨fun _ => h t, fun hn => absurd rfl hn⟩, by simp [initial], ?_⟩
  intro t
  simp [initial]

theorem inv_run {body : List Instr} (hb : Balanced body) (l : List (Nat × Choice)) {s s' : St} (i : Inv s) (h : run body s l = some s') : Inv s' := by
  induction l generalizing s with
  | nil => cases h; exact i
  | cons x l ih =>
    simp only [run] at h
    cases e : step body s x.1 x.2 with
    | next s1 =>
      rw [e] at h
      exact ih (inv_step hb i (does e)) h
    | _ => rw [e] at h; cases h

theorem inv_reaches {p : Program} {s : St} (h : p.Reaches p.init s) : Inv s := by
  obtain ⟨l, hl⟩ := h
  exact inv_run (balanced_loop _) l (inv_initial (balanced_program p)) hl

end Verif.Thread
