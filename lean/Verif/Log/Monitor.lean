/-
C100: an object whose functions do everything between `lock` and `unlock` of one mutex, used by any number of threads.
The steps in between are single actions; other threads can run between any two of them, but not enter.
-/
namespace Verif.Log
variable {σ μ C : Type}

/-- the actions of each call on the shared data and the local variables -/
structure Mon (σ μ C : Type) where
  steps : C → List (σ × μ → σ × μ)
  fresh : μ

/-- shared data; who is inside, with the actions left and the local variables; the calls each thread has left -/
structure MSt (σ μ C : Type) where
  data : σ
  busy : Option (Nat × List (σ × μ → σ × μ) × μ)
  left : Nat → List C

def take1 (f : Nat → List C) (t : Nat) (l : List C) : Nat → List C := fun u => if u = t then l else f u

/-- one step of thread `t`: enter, act, leave; `none` when it has to wait or has nothing to do -/
def mstep (m : Mon σ μ C) (s : MSt σ μ C) (t : Nat) : Option (MSt σ μ C) :=
  match s.busy with
  | none =>
    match s.left t with
    | [] => none
    | c :: cs => some ⟨s.data, some (t, m.steps c, m.fresh), take1 s.left t cs⟩
  | some (u, [], _) => if u = t then some ⟨s.data, none, s.left⟩ else none
  | some (u, f :: fs, l) => if u = t then some ⟨(f (s.data, l)).1, some (u, fs, (f (s.data, l)).2), s.left⟩ else none

def mrun (m : Mon σ μ C) (s : MSt σ μ C) : List Nat → Option (MSt σ μ C)
  | [] => some s
  | t :: l => (mstep m s t).bind (fun s => mrun m s l)

/-- a call without other threads -/
def alone (m : Mon σ μ C) (d : σ) (c : C) : σ := ((m.steps c).foldl (fun x f => f x) (d, m.fresh)).1

/-- calls one after the other -/
def inOrder (m : Mon σ μ C) (d : σ) (order : List (Nat × C)) : σ := order.foldl (fun d c => alone m d c.2) d

/-- the calls of one thread among all -/
def ofThread (t : Nat) (order : List (Nat × C)) : List C := (order.filter (fun c => c.1 == t)).map (·.2)

/-- the data once the call that is inside has finished -/
def MSt.after (s : MSt σ μ C) : σ :=
  match s.busy with
  | none => s.data
  | some (_, fs, l) => (fs.foldl (fun x f => f x) (s.data, l)).1

theorem mstep_inv (m : Mon σ μ C) {d : σ} {calls : Nat → List C} {s s' : MSt σ μ C} {t : Nat} {order : List (Nat × C)}
    (h1 : s.after = inOrder m d order) (h2 : ∀ u, calls u = ofThread u order ++ s.left u) (h : mstep m s t = some s') :
    ∃ order', s'.after = inOrder m d order' ∧ ∀ u, calls u = ofThread u order' ++ s'.left u := by
  unfold mstep at h
  cases hb : s.busy with
  | none =>
    rw [hb] at h
    cases hl : s.left t with
    | nil => rw [hl] at h; cases h
    | cons c cs =>
      simp only [hl] at h
      cases h
      refine ⟨order ++ [(t, c)], ?_, ?_⟩
      · have hs : s.data = inOrder m d order := by simpa [MSt.after, hb] using h1
        simp only [MSt.after, inOrder, List.foldl_append, List.foldl_cons, List.foldl_nil]
        rw [hs]
        rfl
      · intro u
        rw [h2 u]
        by_cases e : u = t
        · subst e
          simp [ofThread, take1, hl]
        · have e2 : ¬ t = u := fun h => e h.symm
          simp [ofThread, take1, e, e2]
  | some x =>
    obtain ⟨u, fs, l⟩ := x
    rw [hb] at h
    cases fs with
    | nil =>
      simp only at h
      split at h
      · cases h
        exact ⟨order, by simpa [MSt.after, hb] using h1, h2⟩
      · cases h
    | cons f fs =>
      simp only at h
      split at h
      · cases h
        exact ⟨order, by simpa [MSt.after, hb] using h1, h2⟩
      · cases h

/-- whatever the schedule: as soon as nobody is inside, the data are what the calls made so far make of them one after the other, in
an order in which each thread's calls come as it made them -/
theorem serial (m : Mon σ μ C) (d : σ) (calls : Nat → List C) (l : List Nat) (s : MSt σ μ C) (h : mrun m ⟨d, none, calls⟩ l = some s)
    (hq : s.busy = none) : ∃ order, s.data = inOrder m d order ∧ ∀ t, calls t = ofThread t order ++ s.left t := by
  have key : ∀ (l : List Nat) (a : MSt σ μ C) (order : List (Nat × C)), a.after = inOrder m d order → (∀ u, calls u = ofThread u order ++ a.left u) →
      mrun m a l = some s → ∃ order, s.after = inOrder m d order ∧ ∀ t, calls t = ofThread t order ++ s.left t := by
    intro l
    induction l with
    | nil => intro a order h1 h2 e; cases e; exact ⟨order, h1, h2⟩
    | cons x l ih =>
      intro a order h1 h2 e
      simp only [mrun] at e
      cases e1 : mstep m a x with
      | none => rw [e1] at e; cases e
      | some b =>
        rw [e1] at e
        obtain ⟨o, h3, h4⟩ := mstep_inv m h1 h2 e1
        exact ih b o h3 h4 e
  obtain ⟨order, h1, h2⟩ := key l ⟨d, none, calls⟩ [] rfl (fun u => rfl) h
  exact ⟨order, by simpa [MSt.after, hq] using h1, h2⟩

/-- and nobody waits for ever: as long as some thread has calls left or is inside, somebody can do a step -/
theorem progress (m : Mon σ μ C) (s : MSt σ μ C) (h : s.busy ≠ none ∨ ∃ t, s.left t ≠ []) : ∃ t s', mstep m s t = some s' := by
  cases hb : s.busy with
  | none =>
    rcases h with h | ⟨t, h⟩
    · exact absurd hb h
    · cases hl : s.left t with
      | nil => exact absurd hl h
      | cons c cs => exact ⟨t, ⟨s.data, some (t, m.steps c, m.fresh), take1 s.left t cs⟩, by simp [mstep, hb, hl]⟩
  | some x =>
    obtain ⟨u, fs, l⟩ := x
    cases fs with
    | nil => exact ⟨u, ⟨s.data, none, s.left⟩, by simp [mstep, hb]⟩
    | cons f fs => exact ⟨u, ⟨(f (s.data, l)).1, some (u, fs, (f (s.data, l)).2), s.left⟩, by simp [mstep, hb]⟩

/-- steps a call takes: enter, act, leave -/
def cost (m : Mon σ μ C) (l : List C) : Nat := (l.map (fun c => (m.steps c).length + 2)).sum

/-- steps the call inside still takes -/
def MSt.inCost (s : MSt σ μ C) : Nat :=
  match s.busy with
  | none => 0
  | some (_, fs, _) => fs.length + 1

/-- steps all calls of the first `n` threads still take -/
def MSt.todo (m : Mon σ μ C) (s : MSt σ μ C) (n : Nat) : Nat := s.inCost + ((List.range n).map (fun t => cost m (s.left t))).sum

theorem sum_take1 (m : Mon σ μ C) (f : Nat → List C) (t : Nat) (c : C) (cs : List C) (hf : f t = c :: cs) (n : Nat) :
    ((List.range n).map (fun u => cost m (f u))).sum =
      ((List.range n).map (fun u => cost m (take1 f t cs u))).sum + (if t < n then (m.steps c).length + 2 else 0) := by
  induction n with
  | zero => simp
  | succ n ih =>
    simp only [List.range_succ, List.map_append, List.map_cons, List.map_nil, List.sum_append, List.sum_cons, List.sum_nil]
    rw [ih]
    by_cases h : t = n
    · subst h
      simp only [hf, take1, if_true, Nat.lt_irrefl, if_false, cost, List.map_cons, List.sum_cons, Nat.lt_succ_self]
      omega
    · have hn : take1 f t cs n = f n := by simp [take1, Ne.symm h]
      have hlt : (t < n + 1) ↔ (t < n) := by omega
      rw [hn]
      simp only [hlt]
      omega

theorem mstep_todo (m : Mon σ μ C) {s s' : MSt σ μ C} {t n : Nat} (hn : ∀ u, n ≤ u → s.left u = []) (h : mstep m s t = some s') :
    s'.todo m n + 1 = s.todo m n ∧ ∀ u, n ≤ u → s'.left u = [] := by
  unfold mstep at h
  cases hb : s.busy with
  | none =>
    rw [hb] at h
    cases hl : s.left t with
    | nil => rw [hl] at h; cases h
    | cons c cs =>
      simp only [hl] at h
      cases h
      have ht : t < n := by
        refine Decidable.byContradiction fun hc => ?_
        rw [hn t (by omega)] at hl
        cases hl
      constructor
      · have := sum_take1 m s.left t c cs hl n
        rw [if_pos ht] at this
        simp only [MSt.todo, MSt.inCost, hb]
        omega
      · intro u hu
        simp only [take1]
        rw [if_neg (by omega)]
        exact hn u hu
  | some x =>
    obtain ⟨u, fs, l⟩ := x
    rw [hb] at h
    cases fs with
    | nil =>
      simp only at h
      split at h
      · cases h
        exact ⟨by simp [MSt.todo, MSt.inCost, hb, Nat.add_comm], hn⟩
      · cases h
    | cons f fs =>
      simp only at h
      split at h
      · cases h
        refine ⟨?_, hn⟩
        simp only [MSt.todo, MSt.inCost, hb, List.length_cons]
        omega
      · cases h

/-- every schedule ends: each step is one of those the calls take -/
theorem bounded (m : Mon σ μ C) (n : Nat) (l : List Nat) (s s' : MSt σ μ C) (hn : ∀ u, n ≤ u → s.left u = []) (h : mrun m s l = some s') :
    l.length + s'.todo m n = s.todo m n := by
  induction l generalizing s with
  | nil => cases h; simp
  | cons t l ih =>
    simp only [mrun] at h
    cases e : mstep m s t with
    | none => rw [e] at h; cases h
    | some s1 =>
      rw [e] at h
      obtain ⟨h1, h2⟩ := mstep_todo m hn e
      have := ih s1 h2 h
      simp only [List.length_cons]
      omega

end Verif.Log
