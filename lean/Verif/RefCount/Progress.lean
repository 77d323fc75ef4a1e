import Verif.RefCount.Life
/-
Who can run: frames below the top of a stack are destructors or `drain` calls.
-/
namespace Verif.RefCount
open Verif

def isCall : Frame → Bool
  | .dtor _ | .drainLoop _ => true
  | _ => false

def Top (s : State) : Prop := ∀ t ∈ s.thr, ∀ f ∈ t.stack.tail, isCall f = true

theorem top_set {s s' : State} {i : Nat} {t' : Thr} (e : s'.thr = s.thr.set i t') (h : Top s)
    (ht : ∀ f ∈ t'.stack.tail, isCall f = true) : Top s' := by
  intro u hu f hf
  rw [e] at hu
  rcases List.mem_or_eq_of_mem_set hu with h' | h'
  · exact h u h' f hf
  · subst h'; exact ht f hf

theorem mem_tail_of_tail {f : Frame} {l : List Frame} (h : f ∈ l.tail) : f ∈ l := List.mem_of_mem_tail h

theorem top_micro {s s' : State} (h : Top s) {i : Nat} {tok : Nat → Nat} {f : Frame} {rest : List Frame} {ev : List Ev}
    (hs : s.thr[i]? = some ⟨f :: rest, tok⟩) (hm : micro s i tok rest f = .ok (s', ev)) : Top s' := by
  have ht : ∀ g ∈ rest, isCall g = true := h _ (List.mem_of_getElem? hs)
  have ht' : ∀ g ∈ rest.tail, isCall g = true := fun g hg => ht g (mem_tail_of_tail hg)
  cases f with
  | drainLoop r =>
    cases r with
    | nil => cases hm; exact top_set rfl h ht
    | cons o r =>
      cases hm
      refine top_set rfl h ?_
      intro g hg
      rcases List.mem_cons.1 hg with hg | hg
      · subst hg; rfl
      · exact ht g hg
  | _ =>
    simp only [micro] at hm
    repeat' split at hm
    all_goals first
      | (cases hm; done)
      | (cases hm; exact h)
      | (cases hm; exact top_set rfl h ht)
      | (cases hm; exact top_set rfl h ht')

theorem top_client {s : State} (h : Top s) {i : Nat} {t : Thr} (hs : s.thr[i]? = some t) (hc : atClient t.stack = true) (a : Act) :
    Top (client s i t a).1 := by
  have ht : ∀ g ∈ t.stack, isCall g = true := by
    intro g hg
    have := h t (List.mem_of_getElem? hs)
    cases hst : t.stack with
    | nil => rw [hst] at hg; cases hg
    | cons x l =>
      rw [hst] at hg this hc
      rcases List.mem_cons.1 hg with hg | hg
      · subst hg; cases g <;> simp_all [atClient, isCall]
      · exact this g hg
  have ht' : ∀ g ∈ t.stack.tail, isCall g = true := fun g hg => ht g (mem_tail_of_tail hg)
  cases a with
  | new => exact top_set rfl h ht'
  | retain o => simp only [client]; split; · exact top_set rfl h ht
                exact h
  | release o => simp only [client]; split; · exact top_set rfl h ht
                 exact h
  | autorelease o => simp only [client]; split; · exact top_set rfl h ht
                     exact h
  | drain => exact top_set rfl h ht
  | give o j =>
    simp only [client]; split
    · have h1 : Top (s.setT i ⟨t.stack, upd t.tok o (t.tok o - 1)⟩) := top_set rfl h ht'
      unfold giveTo
      split
      · next u hu => exact top_set rfl h1 (h1 u (List.mem_of_getElem? hu))
      · exact h1
    · exact h
  | mark o b => simp only [client]; split; · exact top_set rfl h ht
                exact h
  | endDtor =>
    show Top (endDtor s i t)
    unfold endDtor
    split
    · next heq => exact top_set rfl h (fun g hg => ht g (by rw [heq]; exact List.mem_cons_of_mem _ (mem_tail_of_tail hg)))
    · exact h

theorem top_step {s s' : State} (h : Top s) {i : Nat} {a : Act} {ev : List Ev} (hst : step s i a = .ok (s', ev)) : Top s' := by
  unfold step at hst
  cases hs : s.thr[i]? with
  | none => rw [hs] at hst; cases hst; exact h
  | some t =>
    rw [hs] at hst
    obtain ⟨stack, tok⟩ := t
    cases stack with
    | nil =>
      have := top_client h hs rfl a
      have hst := Except.ok.inj hst
      rw [hst] at this; exact this
    | cons f rest =>
      simp only at hst
      by_cases hc : atClient (f :: rest) = true
      · rw [if_pos hc] at hst
        have := top_client h hs hc a
        have hst := Except.ok.inj hst
        rw [hst] at this; exact this
      · rw [if_neg hc] at hst; exact top_micro h hs hst

theorem top_run (s : State) (h : Top s) (sched : List (Nat × Act)) (s' : State) (tr : List Ev) (hr : run s sched = .ok (s', tr)) :
    Top s' := by
  induction sched generalizing s tr with
  | nil => cases hr; exact h
  | cons x l ih =>
    obtain ⟨i, a⟩ := x
    simp only [run, bind, Except.bind] at hr
    cases h1 : step s i a with
    | error e => rw [h1] at hr; cases hr
    | ok r =>
      rw [h1] at hr
      simp only at hr
      cases h2 : run r.1 l with
      | error e => rw [h2] at hr; cases hr
      | ok q =>
        rw [h2] at hr
        cases hr
        exact ih r.1 (top_step h h1) q.2 h2

theorem top_init (n : Nat) : Top (init n) := by
  intro t ht f hf
  have := List.eq_of_mem_replicate ht
  subst this
  cases hf

theorem S_pos {s : State} {w : Frame → Nat} (h : 0 < s.S w) : ∃ t ∈ s.thr, ∃ f ∈ t.stack, 0 < w f := by
  refine Classical.byContradiction fun hn => ?_
  have : s.S w = 0 := S_zero (fun t ht f hf => by
    refine Nat.eq_zero_of_not_pos fun hp => hn ⟨t, ht, f, hf, hp⟩)
  omega

/-- thread `i` can do something: some call or step of it changes its stack -/
def CanRun (s : State) (i : Nat) : Prop :=
  ∃ t a s' ev t', s.thr[i]? = some t ∧ t.stack ≠ [] ∧ step s i a = .ok (s', ev) ∧ s'.thr[i]? = some t' ∧ t'.stack ≠ t.stack

/-- thread `i` waits for the mutex of the pool inside a destructor that its own `drain` has called -/
def SelfLock (s : State) (i : Nat) : Prop :=
  ∃ t f rest r, s.thr[i]? = some t ∧ t.stack = f :: rest ∧ (f = .drainLock ∨ ∃ o, f = .addLock o) ∧ .drainLoop r ∈ rest

theorem get_set {s s' : State} {i : Nat} {t t' : Thr} (hs : s.thr[i]? = some t) (e : s'.thr = s.thr.set i t') : s'.thr[i]? = some t' := by
  rw [e, List.getElem?_set_self]
  exact (List.getElem?_eq_some_iff.1 hs).1

/-- a thread inside a call can run unless it waits for a mutex that is held -/
theorem canRun_of {s : State} (inv : Inv s) {i : Nat} {tok : Nat → Nat} {f : Frame} {rest : List Frame}
    (hs : s.thr[i]? = some ⟨f :: rest, tok⟩)
    (hm : (∀ o, f ≠ .relLock o ∧ f ≠ .retLock o) ∨ s.m = false)
    (hp : (∀ o, f ≠ .addLock o) ∧ f ≠ .drainLock ∨ s.pm = false) : CanRun s i := by
  by_cases hc : atClient (f :: rest) = true
  · have hd : ∃ o, f = .dtor o := by cases f <;> simp_all [atClient]
    obtain ⟨o, hd⟩ := hd
    subst hd
    refine ⟨_, .endDtor, s.setT i ⟨rest, tok⟩, [], ⟨rest, tok⟩, hs, by simp, ?_, get_set hs rfl, ?_⟩
    · unfold step; rw [hs]; simp only; rw [if_pos hc]; rfl
    · intro h; have := congrArg List.length h; simp at this
  · obtain ⟨⟨s', ev⟩, hr, inv'⟩ := micro_ok inv hs
    have hst : step s i .endDtor = .ok (s', ev) := by
      unfold step; rw [hs]; simp only; rw [if_neg hc]; exact hr
    suffices h : ∃ t', s'.thr = s.thr.set i t' ∧ t'.stack ≠ f :: rest by
      obtain ⟨t', e, hne⟩ := h
      exact ⟨_, .endDtor, s', ev, t', hs, by simp, hst, get_set hs e, hne⟩
    have hlen : ∀ g : Frame, rest ≠ g :: rest := fun g h => by have := congrArg List.length h; simp at this
    have hlen2 : ∀ g g' : Frame, g :: g' :: rest ≠ f :: rest := fun g g' h => by have := congrArg List.length h; simp at this
    cases f with
    | drainLoop r =>
      cases r with
      | nil => cases hr; exact ⟨_, rfl, by simp⟩
      | cons o r => cases hr; exact ⟨_, rfl, hlen2 _ _⟩
    | dtor o => simp [atClient] at hc
    | _ =>
      simp only [micro] at hr
      repeat' split at hr
      all_goals first
        | (cases hr; done)
        | (cases hr; exact ⟨_, rfl, by simp⟩)
        | (cases hr; exact ⟨_, rfl, hlen _⟩)
        | (exfalso; simp_all)

theorem exists_get {α : Type} {l : List α} {x : α} (h : x ∈ l) : ∃ i : Nat, l[i]? = some x := List.mem_iff_getElem?.1 h

/-- somebody can run, or a destructor called by `drain` waits for its own pool, or nobody is inside a call -/
theorem progress {s : State} (inv : Inv s) (top : Top s) : Idle s ∨ (∃ i, CanRun s i) ∨ ∃ i, SelfLock s i := by
  by_cases hid : Idle s
  · exact Or.inl hid
  -- the holder of `mMutex` can always run
  have holdm : s.m = true → ∃ i, CanRun s i := by
    intro hm
    have h1 := inv.mutex
    rw [hm] at h1
    obtain ⟨t, ht, f, hf, hw⟩ := S_pos (s := s) (w := crit) (by rw [h1]; simp [b1])
    obtain ⟨i, hi⟩ := exists_get ht
    obtain ⟨stack, tok⟩ := t
    cases stack with
    | nil => cases hf
    | cons g rest =>
      have hg : f = g := by
        rcases List.mem_cons.1 hf with h | h
        · exact h
        · have := top _ ht f h
          cases f <;> simp_all [crit, isCall]
      subst hg
      refine ⟨i, canRun_of inv hi (Or.inl ?_) (Or.inl ⟨?_, ?_⟩)⟩
      · intro o; constructor <;> (intro h; subst h; simp [crit] at hw)
      · intro o h; subst h; simp [crit] at hw
      · intro h; subst h; simp [crit] at hw
  -- so can the holder of the pool unless it locks itself out
  have holdp : s.pm = true → (∃ i, CanRun s i) ∨ ∃ i, SelfLock s i := by
    intro hp
    have h1 := inv.pmutex
    rw [hp] at h1
    obtain ⟨t, ht, f, hf, hw⟩ := S_pos (s := s) (w := pcrit) (by rw [h1]; simp [b1])
    obtain ⟨i, hi⟩ := exists_get ht
    obtain ⟨stack, tok⟩ := t
    cases stack with
    | nil => cases hf
    | cons g rest =>
      by_cases hgm : (∀ o, g ≠ .relLock o ∧ g ≠ .retLock o)
      · by_cases hgp : (∀ o, g ≠ .addLock o) ∧ g ≠ .drainLock
        · exact Or.inl ⟨i, canRun_of inv hi (Or.inl hgm) (Or.inl hgp)⟩
        · have hg' : g = .drainLock ∨ ∃ o, g = .addLock o := by
            refine Classical.byContradiction fun hn => hgp ⟨fun o h => hn (Or.inr ⟨o, h⟩), fun h => hn (Or.inl h)⟩
          have hfr : f ∈ rest := by
            rcases List.mem_cons.1 hf with h | h
            · subst h; rcases hg' with h | ⟨o, h⟩ <;> (subst h; simp [pcrit] at hw)
            · exact h
          have hcall := top _ ht f hfr
          cases f <;> simp_all [pcrit, isCall]
          next r => exact Or.inr ⟨i, ⟨_, _⟩, g, rest, r, hi, rfl, hg', hfr⟩
      · cases hm : s.m with
        | true => exact Or.inl (holdm hm)
        | false =>
          refine Or.inl ⟨i, canRun_of inv hi (Or.inr hm) (Or.inl ?_)⟩
          have : ∃ o, g = .relLock o ∨ g = .retLock o := by
            refine Classical.byContradiction fun hn => hgm fun o => ⟨fun h => hn ⟨o, Or.inl h⟩, fun h => hn ⟨o, Or.inr h⟩⟩
          obtain ⟨o, h | h⟩ := this <;> subst h <;> simp
  cases hm : s.m with
  | true => exact Or.inr (Or.inl (holdm hm))
  | false =>
    cases hp : s.pm with
    | true => exact Or.inr (holdp hp)
    | false =>
      have : ∃ t ∈ s.thr, t.stack ≠ [] := by
        refine Classical.byContradiction fun hn => hid fun t ht => ?_
        refine Classical.byContradiction fun h => hn ⟨t, ht, h⟩
      obtain ⟨t, ht, hne⟩ := this
      obtain ⟨i, hi⟩ := exists_get ht
      obtain ⟨stack, tok⟩ := t
      cases stack with
      | nil => exact absurd rfl hne
      | cons g rest => exact Or.inr (Or.inl ⟨i, canRun_of inv hi (Or.inr hm) (Or.inr hp)⟩)

end Verif.RefCount
