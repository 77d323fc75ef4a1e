import Verif.RefCount.Micro
/-
Every call of the client keeps the invariant; so does every schedule.
-/
namespace Verif.RefCount
open Verif

/-- a call that pushes a frame or pops a destructor and keeps all numbers of references -/
theorem setT_quiet {s : State} (inv : Inv s) {i : Nat} {t t' : Thr} (hs : s.thr[i]? = some t)
    (hc : ∀ o, t'.tok o + sumBy (own o) t'.stack + sumBy (pre o) t'.stack + sumBy (post o) t'.stack =
      t.tok o + sumBy (own o) t.stack + sumBy (pre o) t.stack + sumBy (post o) t.stack)
    (hf : ∀ o, t'.tok o + sumBy (own o) t'.stack + sumBy (pre o) t'.stack + sumBy (pend o) t'.stack =
      t.tok o + sumBy (own o) t.stack + sumBy (pre o) t.stack + sumBy (pend o) t.stack)
    (hT : ∀ o, sumBy (dest true o) t'.stack = sumBy (dest true o) t.stack)
    (hF : ∀ o, sumBy (dest false o) t'.stack = sumBy (dest false o) t.stack)
    (hm : sumBy crit t'.stack = sumBy crit t.stack)
    (hpm : sumBy pcrit t'.stack = sumBy pcrit t.stack)
    (hmk : sumBy mk t'.stack = sumBy mk t.stack)
    (hd : sumBy drn t'.stack ≤ sumBy drn t.stack)
    (hfr : ∀ f ∈ t'.stack, f ∈ t.stack ∨ fresh s.raw f) : Inv (s.setT i t') := by
  refine quiet inv hs rfl rfl rfl rfl ?_ ?_ hT hF ?_ ?_ hmk (drn_keep inv hs rfl rfl hd) hfr
  · intro o; have := hc o; simp only [State.setT]; omega
  · intro o; have := hf o; simp only [State.setT]; omega
  · simp only [State.setT]; omega
  · simp only [State.setT]; omega

theorem client_new {s : State} (inv : Inv s) {i : Nat} {t : Thr} (hs : s.thr[i]? = some t) :
    Inv (client s i t .new).1 := by
  have hn := inv.next s.next (Nat.le_refl _)
  have hdead := (inv.obj s.next).dead hn
  obtain ⟨s', hs'⟩ : ∃ s', s' = (client s i t .new).1 := ⟨_, rfl⟩
  have e : s'.thr = s.thr.set i ⟨t.stack, upd t.tok s.next (t.tok s.next + 1)⟩ := by subst hs'; rfl
  have er : s'.raw = upd s.raw s.next 1 := by subst hs'; rfl
  have ea : s'.alive = upd s.alive s.next true := by subst hs'; rfl
  have ep : s'.pool = s.pool := by subst hs'; rfl
  have en : s'.next = s.next + 1 := by subst hs'; rfl
  have em : s'.m = s.m := by subst hs'; rfl
  have epm : s'.pm = s.pm := by subst hs'; rfl
  rw [← hs']; clear hs'
  have h1 : ∀ w, s'.S w + sumBy w t.stack = s.S w + sumBy w t.stack := fun w => S_set hs e w
  refine ⟨?_, ?_, ?_, ?_, ?_, ?_, ?_⟩
  · intro o
    obtain ⟨d1, d2, d3, d4, d5, d6, d7⟩ := delta hs e o
    simp only at d1 d2 d3 d4 d5 d6 d7
    have ob := inv.obj o
    by_cases ho : o = s.next
    · subst ho
      simp only [upd, if_true] at d1
      have hmono := dest_mono s.next s
      have hb := ob.bound
      have hc1 : s'.cnt s.next = 1 := by
        have := hdead.1; unfold State.cnt at this ⊢; rw [ep]; omega
      refine ⟨fun _ => ?_, fun _ => ⟨?_, ?_⟩, ?_, ?_⟩
      · rw [er, hc1]; simp [upd, cv]
      · intro h; omega
      · intro _; omega
      · intro h; rw [ea] at h; simp [upd] at h
      · have := hdead.2.2; unfold State.refs at this ⊢; rw [ep]; omega
    · simp only [upd, ho, if_false] at d1
      refine objInv_same ob ?_ ?_ ?_ (by omega) (by omega) ?_
      · rw [ea]; simp [upd, ho]
      · rw [er]; simp [upd, ho]
      · unfold State.cnt; rw [ep]; omega
      · unfold State.refs; rw [ep]; omega
  · have := h1 crit; have := inv.mutex; rw [em]; omega
  · have := h1 pcrit; have := inv.pmutex; rw [epm]; omega
  · have hz : ∀ u ∈ s.thr, ∀ f ∈ u.stack, fresh s'.raw f := by
      intro u hu f hf
      have h := inv.fresh u hu f hf
      have hal : ∀ o, 0 < own o f + pre o f → o ≠ s.next := by
        intro o h0 he
        have := alive_of inv hu hf o (by omega)
        rw [he, hn] at this; cases this
      cases f with
      | relStore o v => simp only [fresh] at h ⊢; rw [er, h]; simp [upd, hal o (by simp [own, pre])]
      | retStore o v => simp only [fresh] at h ⊢; rw [er, h]; simp [upd, hal o (by simp [own, pre])]
      | _ => trivial
    intro u hu f hf
    rw [e] at hu
    rcases List.mem_or_eq_of_mem_set hu with h | h
    · exact hz u h f hf
    · subst h; exact hz t (List.mem_of_getElem? hs) f hf
  · have := h1 mk; have := inv.nomark; omega
  · exact drn_keep inv hs e ep (Nat.le_refl _)
  · intro o ho
    rw [en] at ho
    rw [ea]
    simp only [upd]
    rw [if_neg (by omega)]
    exact inv.next o (by omega)

theorem client_retain {s : State} (inv : Inv s) {i : Nat} {t : Thr} (hs : s.thr[i]? = some t) (o : Nat) :
    Inv (client s i t (.retain o)).1 := by
  unfold client
  by_cases hc : ¬ (0 < t.tok o ∧ s.refs o + 1 < 2 ^ 31)
  · simp only [if_neg hc]; exact inv
  have hc := Classical.not_not.1 hc
  simp only [if_pos hc]
  obtain ⟨s', hs'⟩ : ∃ s', s' = s.setT i ⟨.retCall o :: t.stack, upd t.tok o (t.tok o - 1)⟩ := ⟨_, rfl⟩
  have e : s'.thr = s.thr.set i ⟨.retCall o :: t.stack, upd t.tok o (t.tok o - 1)⟩ := by subst hs'; rfl
  have er : s'.raw = s.raw := by subst hs'; rfl
  have ea : s'.alive = s.alive := by subst hs'; rfl
  have ep : s'.pool = s.pool := by subst hs'; rfl
  have en : s'.next = s.next := by subst hs'; rfl
  have em : s'.m = s.m := by subst hs'; rfl
  have epm : s'.pm = s.pm := by subst hs'; rfl
  rw [← hs']; clear hs'
  have h1 := S_set hs e
  refine ⟨?_, ?_, ?_, fresh_set hs e er inv.fresh ?_, ?_, drn_keep inv hs e ep (by simp [sumBy, drn]), by rw [ea, en]; exact inv.next⟩
  · intro o'
    obtain ⟨d1, d2, d3, d4, d5, d6, d7⟩ := delta hs e o'
    simp only [sumBy, own, pre, post, pend, dest, upd] at d1 d2 d3 d4 d5 d6 d7
    have ob := inv.obj o'
    have htok := sum_ge (fun t : Thr => t.tok o') s.thr t (List.mem_of_getElem? hs)
    have htok : t.tok o' ≤ s.T o' := htok
    by_cases ho : o = o'
    · subst ho
      simp only [if_true] at d1 d2 d3 d4 d5 d6 d7
      have hcnt : s'.cnt o = s.cnt o := by unfold State.cnt; rw [ep]; omega
      have hpos : 0 < s.cnt o := by unfold State.cnt; omega
      have ha : s.alive o = true := by
        cases ha : s.alive o with
        | true => rfl
        | false => have := (ob.dead ha).1; omega
      refine ⟨?_, ?_, ?_, ?_⟩
      · rw [ea, er, hcnt]; exact ob.count
      · intro _
        have := ob.destr ha
        refine ⟨fun h => ?_, fun _ => ?_⟩
        · omega
        · have := this.2 hpos; omega
      · intro h; rw [ea, ha] at h; cases h
      · have := hc.2; unfold State.refs at this ⊢; rw [ep]; omega
    · simp only [ho, Ne.symm ho, if_false] at d1 d2 d3 d4 d5 d6 d7
      refine objInv_same ob (by rw [ea]) (by rw [er]) ?_ (by omega) (by omega) ?_
      · unfold State.cnt; rw [ep]; omega
      · unfold State.refs; rw [ep]; omega
  · have := h1 crit; simp only [sumBy, crit] at this; have := inv.mutex; rw [em]; omega
  · have := h1 pcrit; simp only [sumBy, pcrit] at this; have := inv.pmutex; rw [epm]; omega
  · intro f hf
    rcases List.mem_cons.1 hf with hf | hf
    · exact Or.inr (by rw [hf]; trivial)
    · exact Or.inl hf
  · have := h1 mk; simp only [sumBy, mk] at this; have := inv.nomark; omega

/-- moving one reference from a thread to another -/
theorem give_ok {s : State} (inv : Inv s) {i j : Nat} {t u : Thr} (hs : s.thr[i]? = some t) (hj : s.thr[j]? = some u) (hij : j ≠ i)
    (o : Nat) (h0 : 0 < t.tok o) :
    Inv ((s.setT i ⟨t.stack, upd t.tok o (t.tok o - 1)⟩).setT j ⟨u.stack, upd u.tok o (u.tok o + 1)⟩) := by
  obtain ⟨s1, hs1⟩ : ∃ s1, s1 = s.setT i ⟨t.stack, upd t.tok o (t.tok o - 1)⟩ := ⟨_, rfl⟩
  obtain ⟨s', hs'⟩ : ∃ s', s' = s1.setT j ⟨u.stack, upd u.tok o (u.tok o + 1)⟩ := ⟨_, rfl⟩
  have e1 : s1.thr = s.thr.set i ⟨t.stack, upd t.tok o (t.tok o - 1)⟩ := by subst hs1; rfl
  have e : s'.thr = s1.thr.set j ⟨u.stack, upd u.tok o (u.tok o + 1)⟩ := by subst hs'; rfl
  have hj1 : s1.thr[j]? = some u := by rw [e1, List.getElem?_set_ne (Ne.symm hij)]; exact hj
  have er : s'.raw = s.raw := by subst hs'; subst hs1; rfl
  have ea : s'.alive = s.alive := by subst hs'; subst hs1; rfl
  have ep : s'.pool = s.pool := by subst hs'; subst hs1; rfl
  have en : s'.next = s.next := by subst hs'; subst hs1; rfl
  have em : s'.m = s.m := by subst hs'; subst hs1; rfl
  have epm : s'.pm = s.pm := by subst hs'; subst hs1; rfl
  rw [← hs1, ← hs']; clear hs'
  have hS : ∀ w, s'.S w = s.S w := by
    intro w
    have h1 := S_set hs e1 w
    have h2 := S_set hj1 e w
    simp only at h1 h2
    omega
  have hT : ∀ o', s'.T o' = s.T o' := by
    intro o'
    have h1 := T_set hs e1 o'
    have h2 := T_set hj1 e o'
    simp only [upd] at h1 h2
    by_cases ho : o' = o
    · subst ho; simp only [if_true] at h1 h2; omega
    · simp only [ho, if_false] at h1 h2; omega
  refine ⟨?_, by rw [hS, em]; exact inv.mutex, by rw [hS, epm]; exact inv.pmutex, ?_, by rw [hS]; exact inv.nomark,
    by rw [hS, ep]; exact inv.drain, by rw [ea, en]; exact inv.next⟩
  · intro o'
    refine objInv_same (inv.obj o') (by rw [ea]) (by rw [er]) ?_ (hS _) (hS _) ?_
    · unfold State.cnt; rw [ep, hT]; simp only [hS]
    · unfold State.refs; rw [ep, hT]; simp only [hS]
  · have f1 := fresh_set hs e1 (by subst hs1; rfl) inv.fresh (fun f hf => Or.inl hf)
    have er1 : s1.raw = s.raw := by subst hs1; rfl
    exact fresh_set hj1 e (by rw [er, er1]) f1 (fun f hf => Or.inl hf)

theorem client_ok {s : State} (inv : Inv s) {i : Nat} {t : Thr} (hs : s.thr[i]? = some t) (a : Act)
    (ha : ∀ o b, a ≠ .mark o b) : Inv (client s i t a).1 := by
  have pushed : ∀ (x : Frame), (∀ raw, fresh raw x) → ∀ f ∈ x :: t.stack, f ∈ t.stack ∨ fresh s.raw f := by
    intro x hx f hf
    rcases List.mem_cons.1 hf with hf | hf
    · exact Or.inr (by rw [hf]; exact hx _)
    · exact Or.inl hf
  cases a with
  | new => exact client_new inv hs
  | retain o => exact client_retain inv hs o
  | release o =>
    unfold client
    by_cases h0 : 0 < t.tok o
    · simp only [if_pos h0]
      refine setT_quiet inv hs ?_ ?_ ?_ ?_ ?_ ?_ ?_ ?_ (pushed _ (fun _ => trivial))
      · intro o'; simp only [sumBy, own, pre, post, upd]
        by_cases ho : o = o'
        · subst ho; simp only [if_true]; omega
        · simp only [ho, Ne.symm ho, if_false]; omega
      · intro o'; simp only [sumBy, own, pre, pend, upd]
        by_cases ho : o = o'
        · subst ho; simp only [if_true]; omega
        · simp only [ho, Ne.symm ho, if_false]; omega
      all_goals simp [sumBy, dest, crit, pcrit, mk, drn]
    · simp only [if_neg h0]; exact inv
  | autorelease o =>
    unfold client
    by_cases h0 : 0 < t.tok o
    · simp only [if_pos h0]
      refine setT_quiet inv hs ?_ ?_ ?_ ?_ ?_ ?_ ?_ ?_ (pushed _ (fun _ => trivial))
      · intro o'; simp only [sumBy, own, pre, post, upd]
        by_cases ho : o = o'
        · subst ho; simp only [if_true]; omega
        · simp only [ho, Ne.symm ho, if_false]; omega
      · intro o'; simp only [sumBy, own, pre, pend, upd]
        by_cases ho : o = o'
        · subst ho; simp only [if_true]; omega
        · simp only [ho, Ne.symm ho, if_false]; omega
      all_goals simp [sumBy, dest, crit, pcrit, mk, drn]
    · simp only [if_neg h0]; exact inv
  | drain =>
    refine setT_quiet inv hs ?_ ?_ ?_ ?_ ?_ ?_ ?_ ?_ (pushed _ (fun _ => trivial)) <;>
      simp [sumBy, own, pre, post, pend, dest, crit, pcrit, mk, drn]
  | give o j =>
    unfold client
    by_cases h0 : 0 < t.tok o ∧ j < s.thr.length ∧ j ≠ i
    · simp only [if_pos h0]
      have hj : (s.setT i ⟨t.stack, upd t.tok o (t.tok o - 1)⟩).thr[j]? = some s.thr[j] := by
        simp only [State.setT]
        rw [List.getElem?_set_ne (Ne.symm h0.2.2)]
        exact List.getElem?_eq_getElem h0.2.1
      have := give_ok inv hs (List.getElem?_eq_getElem h0.2.1) h0.2.2 o h0.1
      unfold giveTo
      rw [hj]
      exact this
    · simp only [if_neg h0]; exact inv
  | mark o b => exact absurd rfl (ha o b)
  | endDtor =>
    show Inv (endDtor s i t)
    unfold endDtor
    split
    · next heq =>
      refine setT_quiet inv hs ?_ ?_ ?_ ?_ ?_ ?_ ?_ ?_ ?_ <;>
        first
        | (simp [heq, sumBy, own, pre, post, pend, dest, crit, pcrit, mk, drn]; done)
        | (intro f hf; rw [heq]; exact Or.inl (List.mem_cons_of_mem _ hf))
    · exact inv

theorem step_ok {s : State} (inv : Inv s) (i : Nat) (a : Act) (ha : ∀ o b, a ≠ .mark o b) :
    ∃ r, step s i a = .ok r ∧ Inv r.1 := by
  unfold step
  cases hs : s.thr[i]? with
  | none => exact ⟨_, rfl, inv⟩
  | some t =>
    obtain ⟨stack, tok⟩ := t
    cases stack with
    | nil => exact ⟨_, rfl, client_ok inv hs a ha⟩
    | cons f rest =>
      simp only
      by_cases hc : atClient (f :: rest) = true
      · rw [if_pos hc]; exact ⟨_, rfl, client_ok inv hs a ha⟩
      · rw [if_neg hc]; exact micro_ok inv hs

theorem inv_init (n : Nat) : Inv (init n) := by
  have hT : ∀ o, (init n).T o = 0 := by
    intro o
    unfold State.T init
    induction n with
    | zero => rfl
    | succ n ih => simp only [List.replicate_succ, List.map_cons, List.sum_cons] at ih ⊢; rw [ih]
  have hS : ∀ w, (init n).S w = 0 := by
    intro w
    clear hT
    unfold State.S init
    induction n with
    | zero => rfl
    | succ n ih => simp only [List.replicate_succ, List.map_cons, List.sum_cons, sumBy] at ih ⊢; omega
  have hc : ∀ o, (init n).cnt o = 0 := by intro o; unfold State.cnt; rw [hT]; simp only [hS]; rfl
  have hr : ∀ o, (init n).refs o = 0 := by intro o; unfold State.refs; rw [hT]; simp only [hS]; rfl
  refine ⟨fun o => ⟨?_, ?_, fun _ => ⟨hc o, hS _, hr o⟩, by rw [hr]; decide⟩, hS _, hS _, ?_, hS _, fun _ => rfl, fun _ _ => rfl⟩
  · intro h; cases h
  · intro h; cases h
  · intro t ht f hf
    have := List.eq_of_mem_replicate ht
    subst this
    cases hf

end Verif.RefCount
