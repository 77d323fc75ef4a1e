import Verif.Diff.Back
/-
C37: the distance is the edit distance.   C38: the reported steps.
-/
namespace Verif.Diff.Props
open Verif Verif.Diff Verif.Diff.Spec

variable {α : Type}

/-! ### C37 -/

/-- For all sequences and every symmetric `equals`, `solve` succeeds and the distance is the least number of insertions, deletions and
replacements that turn the first sequence into one equal to the second. -/
theorem distance_minimal (eqv : α → α → Bool) (hs : ∀ a b, eqv a b = eqv b a) (u v : List α) :
    ∃ d steps, solve ⟨u, v, eqv⟩ = .ok (d, steps) ∧ IsDistance eqv u v d := by
  obtain ⟨s, h1, h2, h3⟩ := solve_ok (c := ⟨u, v, eqv⟩) hs
  exact ⟨_, _, h3, ⟨s, h1, h2⟩, fun s' h => D_lower (Script.toScriptR h)⟩

example : ∃ steps, solve ⟨[1, 2, 3, 4], [2, 3, 5], fun a b : Nat => a == b⟩ = .ok (2, steps) ∧ IsDistance (fun a b : Nat => a == b) [1, 2, 3, 4] [2, 3, 5] 2 := by
  obtain ⟨d, steps, h1, h2⟩ := distance_minimal (fun a b : Nat => a == b) (fun a b => BEq.comm) [1, 2, 3, 4] [2, 3, 5]
  have : ∃ st, solve ⟨[1, 2, 3, 4], [2, 3, 5], fun a b : Nat => a == b⟩ = .ok (2, st) := ⟨_, rfl⟩
  obtain ⟨st, h3⟩ := this
  rw [h3] at h1
  simp only [Except.ok.injEq, Prod.mk.injEq] at h1
  obtain ⟨rfl, rfl⟩ := h1
  exact ⟨st, h3, h2⟩

/-- The distance is 0 exactly for sequences that are equal object by object. -/
theorem distance_zero (eqv : α → α → Bool) (hs : ∀ a b, eqv a b = eqv b a) (u v : List α) (d : Nat) (steps : List (Step α))
    (h : solve ⟨u, v, eqv⟩ = .ok (d, steps)) : d = 0 ↔ (u.length = v.length ∧ ∀ p ∈ u.zip v, eqv p.1 p.2 = true) := by
  obtain ⟨d', steps', h1, ⟨s, hsc, hc⟩, hmin⟩ := distance_minimal eqv hs u v
  rw [h1] at h
  simp only [Except.ok.injEq, Prod.mk.injEq] at h
  obtain ⟨rfl, rfl⟩ := h
  constructor
  · intro h0
    subst h0
    clear hmin h1
    induction hsc with
    | done => simp
    | keep e _ ih =>
      have := ih (by simpa [cost] using hc)
      refine ⟨by simp [this.1], ?_⟩
      intro p hp
      simp only [List.zip_cons_cons, List.mem_cons] at hp
      rcases hp with rfl | hp
      · exact e
      · exact this.2 p hp
    | replace _ _ => simp [cost] at hc
    | insert _ _ => simp [cost] at hc
    | delete _ _ => simp [cost] at hc
  · rintro ⟨hl, hz⟩
    have key : ∀ (u v : List α), u.length = v.length → (∀ p ∈ u.zip v, eqv p.1 p.2 = true) → ∃ s, Script eqv u v s ∧ cost s = 0 := by
      intro u
      induction u with
      | nil =>
        intro v hl _
        cases v with
        | nil => exact ⟨[], .done, rfl⟩
        | cons b v => simp at hl
      | cons a u ih =>
        intro v hl hz
        cases v with
        | nil => simp at hl
        | cons b v =>
          obtain ⟨s, k1, k2⟩ := ih v (by simpa using hl) (fun p hp => hz p (by simp [hp]))
          exact ⟨.keep :: s, .keep (hz (a, b) (by simp)) k1, by simpa [cost] using k2⟩
    obtain ⟨s, k1, k2⟩ := key u v hl hz
    have := hmin s k1
    omega

example : ∃ steps, solve ⟨[1, 2], [1, 2], fun a b : Nat => a == b⟩ = .ok (0, steps) := ⟨_, rfl⟩

/-- Exchanging the sequences does not change the distance. -/
theorem distance_symmetric (eqv : α → α → Bool) (hs : ∀ a b, eqv a b = eqv b a) (u v : List α) :
    ∃ d s s', solve ⟨u, v, eqv⟩ = .ok (d, s) ∧ solve ⟨v, u, eqv⟩ = .ok (d, s') := by
  have flip : ∀ {u v : List α} {s : List Op}, Script eqv u v s → ∃ s', Script eqv v u s' ∧ cost s' = cost s := by
    intro u v s h
    induction h with
    | done => exact ⟨[], .done, rfl⟩
    | keep e _ ih => obtain ⟨t, h1, h2⟩ := ih; exact ⟨.keep :: t, .keep (by rw [hs]; exact e) h1, by simpa [cost] using h2⟩
    | replace _ ih => obtain ⟨t, h1, h2⟩ := ih; exact ⟨.replace :: t, .replace h1, by simpa [cost] using h2⟩
    | insert _ ih => obtain ⟨t, h1, h2⟩ := ih; exact ⟨.delete :: t, .delete h1, by simpa [cost] using h2⟩
    | delete _ ih => obtain ⟨t, h1, h2⟩ := ih; exact ⟨.insert :: t, .insert h1, by simpa [cost] using h2⟩
  obtain ⟨d, st, h1, ⟨s, hsc, hc⟩, hmin⟩ := distance_minimal eqv hs u v
  obtain ⟨d', st', h1', ⟨s', hsc', hc'⟩, hmin'⟩ := distance_minimal eqv hs v u
  obtain ⟨t, k1, k2⟩ := flip hsc
  obtain ⟨t', k1', k2'⟩ := flip hsc'
  have := hmin' t k1
  have := hmin t' k1'
  have : d' = d := by omega
  subst this
  exact ⟨d', st, st', h1, h1'⟩

/-! ### C38 -/

def kind : Op → DOp
  | .keep => .equal
  | .replace => .modified
  | .insert => .add
  | .delete => .delete

/-- the step that should be reported for an operation after `a` objects of `u` and `b` objects of `v` -/
def rightStep (u v : List α) (a b : Nat) : Op → Step α
  | .keep => ⟨.equal, none, none⟩
  | .replace => ⟨.modified, u[a]?, v[b]?⟩
  | .insert => ⟨.add, v[b]?, none⟩
  | .delete => ⟨.delete, u[a]?, none⟩

def rightSteps (u v : List α) : List Op → Nat → Nat → List (Step α)
  | [], _, _ => []
  | .keep :: s, a, b => rightStep u v a b .keep :: rightSteps u v s (a + 1) (b + 1)
  | .replace :: s, a, b => rightStep u v a b .replace :: rightSteps u v s (a + 1) (b + 1)
  | .insert :: s, a, b => rightStep u v a b .insert :: rightSteps u v s a (b + 1)
  | .delete :: s, a, b => rightStep u v a b .delete :: rightSteps u v s (a + 1) b

/-- The full claim: the steps are those of a script from the first to the second sequence with as many operations as the distance,
and each names the objects it is about. -/
def Full : Prop := ∀ u v : List Nat, ∃ s d, Script (fun a b => a == b) u v s ∧ cost s = d ∧
  solve ⟨u, v, fun a b => a == b⟩ = .ok (d, ⟨.start, none, none⟩ :: rightSteps u v s 0 0)

theorem report_kinds (c : Ctx α) (s : List Op) : ∀ a b, (report c s a b).map Step.op = s.map kind := by
  induction s with
  | nil => intro a b; rfl
  | cons o s ih =>
    intro a b
    simp only [report, List.map_cons, ih, List.cons.injEq, and_true]
    cases o <;> simp only [reportOp, kind] <;> split <;> rfl

/-- The operations reported are a script that turns the first sequence into the second, and as many of them are changes as
the distance says.  Missing: the objects named, see `objects` and the counterexamples. -/
theorem script_valid_partial (eqv : α → α → Bool) (hs : ∀ a b, eqv a b = eqv b a) (u v : List α) :
    ∃ s d steps, solve ⟨u, v, eqv⟩ = .ok (d, steps) ∧ Script eqv u v s ∧ cost s = d ∧ steps.map Step.op = .start :: s.map kind := by
  obtain ⟨s, h1, h2, h3⟩ := solve_ok (c := ⟨u, v, eqv⟩) hs
  refine ⟨s, _, _, h3, h1, h2, ?_⟩
  simp only [List.map_cons, report_kinds]

example : solve ⟨[1, 2, 3, 4], [2, 3, 5], fun a b : Nat => a == b⟩ =
    .ok (2, [⟨.start, none, none⟩, ⟨.delete, some 1, none⟩, ⟨.equal, none, none⟩, ⟨.equal, none, none⟩, ⟨.modified, some 5, some 4⟩]) := rfl

/-- Which objects are named.  With `a` objects of `u` and `b` objects of `v` before the step: replacements name the right pair while
`a ≤ b` and the exchanged pair otherwise; insertions name the right object while `a ≤ b + 1`, otherwise the last object of `u` used;
deletions name the right object while `b ≤ a`, otherwise the last object of `v` used. -/
theorem objects (eqv : α → α → Bool) (hs : ∀ a b, eqv a b = eqv b a) (u v : List α) :
    ∃ s d, Script eqv u v s ∧ cost s = d ∧ solve ⟨u, v, eqv⟩ = .ok (d, ⟨.start, none, none⟩ :: report ⟨u, v, eqv⟩ s 0 0) := by
  obtain ⟨s, h1, h2, h3⟩ := solve_ok (c := ⟨u, v, eqv⟩) hs
  exact ⟨s, _, h1, h2, h3⟩

/-- where the objects named are right -/
theorem reportOp_right (u v : List α) (eqv : α → α → Bool) (a b : Nat) (o : Op)
    (h : match o with
      | .keep => True
      | .replace => a ≤ b
      | .insert => a ≤ b + 1
      | .delete => b ≤ a) : reportOp ⟨u, v, eqv⟩ a b o = rightStep u v a b o := by
  cases o with
  | keep => rfl
  | replace => simp only at h; simp only [reportOp, rightStep, if_pos h]
  | insert => simp only at h; simp only [reportOp, rightStep, if_pos h]
  | delete => simp only at h; simp only [reportOp, rightStep]; rw [if_neg (by omega)]

/-- If the second sequence arises by insertions only, or by deletions only, every step names the right object. -/
theorem objects_one_sided (eqv : α → α → Bool) (hs : ∀ a b, eqv a b = eqv b a) (u v : List α)
    (hd : ∃ s, Script eqv u v s ∧ (cost s + u.length = v.length ∨ cost s + v.length = u.length)) :
    ∃ s d, Script eqv u v s ∧ cost s = d ∧ solve ⟨u, v, eqv⟩ = .ok (d, ⟨.start, none, none⟩ :: rightSteps u v s 0 0) := by
  obtain ⟨s, d, h1, h2, h3⟩ := objects eqv hs u v
  obtain ⟨s0, k1, k2⟩ := hd
  refine ⟨s, d, h1, h2, ?_⟩
  rw [h3]
  have hmin : cost s ≤ cost s0 := by
    obtain ⟨s', g1, g2, g3⟩ := solve_ok (c := ⟨u, v, eqv⟩) hs
    rw [h3] at g3
    simp only [Except.ok.injEq, Prod.mk.injEq] at g3
    have := D_lower (Script.toScriptR k1)
    have e := g3.1
    omega
  have hlow : ∀ {u v : List α} {s : List Op}, Script eqv u v s → u.length ≤ v.length + cost s ∧ v.length ≤ u.length + cost s ∧
      (cost s + u.length = v.length → ∀ o ∈ s, o = .keep ∨ o = .insert) ∧ (cost s + v.length = u.length → ∀ o ∈ s, o = .keep ∨ o = .delete) := by
    intro u v s h
    induction h with
    | done => simp
    | keep _ _ ih =>
      obtain ⟨i1, i2, i3, i4⟩ := ih
      have e : ∀ s, cost (Op.keep :: s) = cost s := fun s => by simp [cost]
      simp only [List.length_cons, e]
      refine ⟨by omega, by omega, ?_, ?_⟩
      · intro h o ho
        rcases List.mem_cons.1 ho with rfl | ho
        · exact Or.inl rfl
        · exact i3 (by omega) o ho
      · intro h o ho
        rcases List.mem_cons.1 ho with rfl | ho
        · exact Or.inl rfl
        · exact i4 (by omega) o ho
    | replace _ ih =>
      obtain ⟨i1, i2, i3, i4⟩ := ih
      have e : ∀ s, cost (Op.replace :: s) = cost s + 1 := fun s => by simp [cost]
      simp only [List.length_cons, e]
      exact ⟨by omega, by omega, fun h => by omega, fun h => by omega⟩
    | insert _ ih =>
      obtain ⟨i1, i2, i3, i4⟩ := ih
      have e : ∀ s, cost (Op.insert :: s) = cost s + 1 := fun s => by simp [cost]
      simp only [List.length_cons, e]
      refine ⟨by omega, by omega, ?_, fun h => by omega⟩
      intro h o ho
      rcases List.mem_cons.1 ho with rfl | ho
      · exact Or.inr rfl
      · exact i3 (by omega) o ho
    | delete _ ih =>
      obtain ⟨i1, i2, i3, i4⟩ := ih
      have e : ∀ s, cost (Op.delete :: s) = cost s + 1 := fun s => by simp [cost]
      simp only [List.length_cons, e]
      refine ⟨by omega, by omega, fun h => by omega, ?_⟩
      intro h o ho
      rcases List.mem_cons.1 ho with rfl | ho
      · exact Or.inr rfl
      · exact i4 (by omega) o ho
  obtain ⟨l1, l2, l3, l4⟩ := hlow h1
  have hins : ∀ (s : List Op) (a b : Nat), (∀ o ∈ s, o = .keep ∨ o = .insert) → a ≤ b → report ⟨u, v, eqv⟩ s a b = rightSteps u v s a b := by
    intro s
    induction s with
    | nil => intro a b _ _; rfl
    | cons o s ih =>
      intro a b ho hab
      have hr := fun o' ho' => ho o' (List.mem_cons_of_mem _ ho')
      rcases ho o (List.mem_cons_self ..) with rfl | rfl
      · simp only [report, rightSteps]
        rw [reportOp_right u v eqv a b .keep trivial, show a + incU .keep = a + 1 from rfl, show b + incV .keep = b + 1 from rfl, ih _ _ hr (by omega)]
      · simp only [report, rightSteps]
        rw [reportOp_right u v eqv a b .insert (by simp only; omega), show a + incU .insert = a from rfl, show b + incV .insert = b + 1 from rfl, ih _ _ hr (by omega)]
  have hdel : ∀ (s : List Op) (a b : Nat), (∀ o ∈ s, o = .keep ∨ o = .delete) → b ≤ a → report ⟨u, v, eqv⟩ s a b = rightSteps u v s a b := by
    intro s
    induction s with
    | nil => intro a b _ _; rfl
    | cons o s ih =>
      intro a b ho hab
      have hr := fun o' ho' => ho o' (List.mem_cons_of_mem _ ho')
      rcases ho o (List.mem_cons_self ..) with rfl | rfl
      · simp only [report, rightSteps]
        rw [reportOp_right u v eqv a b .keep trivial, show a + incU .keep = a + 1 from rfl, show b + incV .keep = b + 1 from rfl, ih _ _ hr (by omega)]
      · simp only [report, rightSteps]
        rw [reportOp_right u v eqv a b .delete (by simp only; omega), show a + incU .delete = a + 1 from rfl, show b + incV .delete = b from rfl, ih _ _ hr (by omega)]
  rcases k2 with k2 | k2
  · rw [hins s 0 0 (l3 (by omega)) (Nat.le_refl _)]
  · rw [hdel s 0 0 (l4 (by omega)) (Nat.le_refl _)]

example : ∃ s, Script (fun a b : Nat => a == b) [1, 2] [7, 1, 8, 2] s ∧ (cost s + [1, 2].length = [7, 1, 8, 2].length ∨ cost s + [7, 1, 8, 2].length = [1, 2].length) :=
  ⟨[.insert, .keep, .insert, .keep], .insert (.keep rfl (.insert (.keep rfl .done))), Or.inl rfl⟩

/-- A deletion can name an object that was kept: `1 2 9` to `7 1 2` deletes 9, the step says 2. -/
theorem deleted_object_wrong : ¬ Full := by
  intro h
  obtain ⟨s, d, _, _, h3⟩ := h [1, 2, 9] [7, 1, 2]
  have h4 : solve ⟨[1, 2, 9], [7, 1, 2], fun a b : Nat => a == b⟩ =
    .ok (2, [⟨.start, none, none⟩, ⟨.add, some 7, none⟩, ⟨.equal, none, none⟩, ⟨.equal, none, none⟩, ⟨.delete, some 2, none⟩]) := rfl
  rw [h4] at h3
  simp only [Except.ok.injEq, Prod.mk.injEq, List.cons.injEq, true_and] at h3
  have h3 := h3.2
  rcases s with _ | ⟨o1, s⟩
  · cases h3
  cases o1 <;> simp [rightSteps, rightStep] at h3
  rcases s with _ | ⟨o2, s⟩
  · cases h3
  cases o2 <;> simp [rightSteps, rightStep] at h3
  rcases s with _ | ⟨o3, s⟩
  · cases h3
  cases o3 <;> simp [rightSteps, rightStep] at h3
  rcases s with _ | ⟨o4, s⟩
  · cases h3
  cases o4 <;> simp [rightSteps, rightStep] at h3

/-- every replacement names an object of the first and one of the second sequence, in this order -/
def ModifiedOldNew : Prop := ∀ (u v : List Nat) d steps, solve ⟨u, v, fun a b => a == b⟩ = .ok (d, steps) → ∀ st ∈ steps, st.op = .modified →
  (∃ x ∈ u, st.obj1 = some x) ∧ ∃ y ∈ v, st.obj2 = some y

/-- It does not hold: `5 1 2` to `1 9` replaces 2 by 9, the step says 9 -> 2. -/
theorem modified_exchanged : ¬ ModifiedOldNew := by
  intro h
  obtain ⟨⟨x, hx, e⟩, _⟩ := h [5, 1, 2] [1, 9] 2
    [⟨.start, none, none⟩, ⟨.delete, some 5, none⟩, ⟨.equal, none, none⟩, ⟨.modified, some 9, some 2⟩] rfl ⟨.modified, some 9, some 2⟩ (by simp) rfl
  simp only [Option.some.injEq] at e
  subst e
  simp at hx

/-- every object of the second sequence that does not occur in the first one is named by a step -/
def NewNamed : Prop := ∀ (u v : List Nat) d steps, solve ⟨u, v, fun a b => a == b⟩ = .ok (d, steps) → ∀ y ∈ v, y ∉ u →
  ∃ st ∈ steps, st.obj1 = some y ∨ st.obj2 = some y

/-- It does not hold: `5 6 1 2 3 4` to `1 2 9 3 4` inserts 9, but the step says 2. -/
theorem added_object_wrong : ¬ NewNamed := by
  intro h
  have := h [5, 6, 1, 2, 3, 4] [1, 2, 9, 3, 4] 3
    [⟨.start, none, none⟩, ⟨.delete, some 5, none⟩, ⟨.delete, some 6, none⟩, ⟨.equal, none, none⟩, ⟨.equal, none, none⟩, ⟨.add, some 2, none⟩,
      ⟨.equal, none, none⟩, ⟨.equal, none, none⟩] (by decide +kernel) 9 (by simp) (by simp)
  simp at this

end Verif.Diff.Props
