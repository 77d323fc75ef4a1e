import Verif.Diff.Spec
/-
The distance matrix and edit scripts.
-/
namespace Verif.Diff
open Verif.Diff.Spec

variable {α : Type}

def M (m : Nat → Nat → Bool) : Nat → Nat → Nat
  | 0, b => b
  | a + 1, 0 => a + 1
  | a + 1, b + 1 => if m a b then M m a b else 1 + min (M m a b) (min (M m a (b + 1)) (M m (a + 1) b))

variable (m : Nat → Nat → Bool)

theorem M_zero_left (b : Nat) : M m 0 b = b := by unfold M; rfl
theorem M_zero_right (a : Nat) : M m a 0 = a := by cases a <;> (unfold M; rfl)
theorem M_succ (a b : Nat) : M m (a + 1) (b + 1) =
    if m a b then M m a b else 1 + min (M m a b) (min (M m a (b + 1)) (M m (a + 1) b)) := by rw [M]

theorem M_lip (n : Nat) : ∀ a b, a + b = n →
    M m a (b + 1) ≤ M m a b + 1 ∧ M m (a + 1) b ≤ M m a b + 1 ∧ M m a b ≤ M m a (b + 1) + 1 ∧ M m a b ≤ M m (a + 1) b + 1 ∧
      M m a b ≤ M m (a + 1) (b + 1) := by
  induction n using Nat.strongRecOn with
  | _ n ih =>
    intro a b hab
    have p1 : M m a (b + 1) ≤ M m a b + 1 := by
      cases a with
      | zero => rw [M_zero_left, M_zero_left]; omega
      | succ a =>
        have h := ih (a + b) (by omega) a b rfl
        rw [M_succ]; split <;> omega
    have p2 : M m (a + 1) b ≤ M m a b + 1 := by
      cases b with
      | zero => rw [M_zero_right, M_zero_right]; omega
      | succ b =>
        have h := ih (a + b) (by omega) a b rfl
        rw [M_succ]; split <;> omega
    have p3 : M m a b ≤ M m a (b + 1) + 1 := by
      cases a with
      | zero => rw [M_zero_left, M_zero_left]; omega
      | succ a =>
        have h := ih (a + b) (by omega) a b rfl
        rw [M_succ]; split <;> omega
    have p4 : M m a b ≤ M m (a + 1) b + 1 := by
      cases b with
      | zero => rw [M_zero_right, M_zero_right]; omega
      | succ b =>
        have h := ih (a + b) (by omega) a b rfl
        rw [M_succ]; split <;> omega
    refine ⟨p1, p2, p3, p4, ?_⟩
    rw [M_succ]; split <;> omega

theorem M_congr {m m' : Nat → Nat → Bool} : ∀ a b, (∀ i j, i < a → j < b → m i j = m' i j) → M m a b = M m' a b := by
  intro a b
  induction a, b using M.induct (m := m) with
  | case1 b => intro _; rw [M_zero_left, M_zero_left]
  | case2 a => intro _; rw [M_zero_right, M_zero_right]
  | case3 a b hm ih =>
    intro h
    rw [M_succ, M_succ, ← h a b (by omega) (by omega), hm, if_pos rfl, if_pos rfl]
    exact ih (fun i j hi hj => h i j (by omega) (by omega))
  | case4 a b hm ih1 ih2 ih3 =>
    intro h
    rw [M_succ, M_succ, ← h a b (by omega) (by omega), if_neg hm, if_neg hm, ih1 (fun i j hi hj => h i j (by omega) (by omega)),
      ih2 (fun i j hi hj => h i j (by omega) (by omega)), ih3 (fun i j hi hj => h i j (by omega) (by omega))]

/-- which objects are equal -/
def mt (eqv : α → α → Bool) (u v : List α) (i j : Nat) : Bool :=
  match u[i]?, v[j]? with
  | some a, some b => eqv a b
  | _, _ => false

theorem mt_append (eqv : α → α → Bool) (u v u' v' : List α) (i j : Nat) (hi : i < u.length) (hj : j < v.length) :
    mt eqv (u ++ u') (v ++ v') i j = mt eqv u v i j := by
  simp only [mt, List.getElem?_append_left hi, List.getElem?_append_left hj]

/-- the distance of two lists -/
def D (eqv : α → α → Bool) (u v : List α) : Nat := M (mt eqv u v) u.length v.length

/-- scripts that grow at the end -/
inductive ScriptR (eqv : α → α → Bool) : List α → List α → List Op → Prop
  | done : ScriptR eqv [] [] []
  | keep {a b u v s} : eqv a b = true → ScriptR eqv u v s → ScriptR eqv (u ++ [a]) (v ++ [b]) (s ++ [.keep])
  | replace {a b u v s} : ScriptR eqv u v s → ScriptR eqv (u ++ [a]) (v ++ [b]) (s ++ [.replace])
  | insert {b u v s} : ScriptR eqv u v s → ScriptR eqv u (v ++ [b]) (s ++ [.insert])
  | delete {a u v s} : ScriptR eqv u v s → ScriptR eqv (u ++ [a]) v (s ++ [.delete])

theorem script_append {eqv : α → α → Bool} {u v u' v' : List α} {s s' : List Op} (h : Script eqv u v s) (h' : Script eqv u' v' s') :
    Script eqv (u ++ u') (v ++ v') (s ++ s') := by
  induction h with
  | done => exact h'
  | keep e _ ih => exact .keep e ih
  | replace _ ih => exact .replace ih
  | insert _ ih => exact .insert ih
  | delete _ ih => exact .delete ih

theorem ScriptR.toScript {eqv : α → α → Bool} {u v : List α} {s : List Op} (h : ScriptR eqv u v s) : Script eqv u v s := by
  induction h with
  | done => exact .done
  | keep e _ ih => exact script_append ih (.keep e .done)
  | replace _ ih => exact script_append ih (.replace .done)
  | @insert b u v s _ ih => have := script_append ih (.insert (b := b) .done); rwa [List.append_nil] at this
  | @delete a u v s _ ih => have := script_append ih (.delete (a := a) .done); rwa [List.append_nil] at this

theorem scriptR_append {eqv : α → α → Bool} {u v u' v' : List α} {s s' : List Op} (h : ScriptR eqv u v s) (h' : ScriptR eqv u' v' s') :
    ScriptR eqv (u ++ u') (v ++ v') (s ++ s') := by
  induction h' with
  | done => simpa using h
  | keep e _ ih => rw [← List.append_assoc, ← List.append_assoc, ← List.append_assoc]; exact .keep e ih
  | replace _ ih => rw [← List.append_assoc, ← List.append_assoc, ← List.append_assoc]; exact .replace ih
  | insert _ ih => rw [← List.append_assoc, ← List.append_assoc]; exact .insert ih
  | delete _ ih => rw [← List.append_assoc, ← List.append_assoc]; exact .delete ih

theorem Script.toScriptR {eqv : α → α → Bool} {u v : List α} {s : List Op} (h : Script eqv u v s) : ScriptR eqv u v s := by
  induction h with
  | done => exact .done
  | @keep a b u v s e _ ih => exact scriptR_append (ScriptR.keep (u := []) (v := []) (s := []) e .done) ih
  | @replace a b u v s _ ih => exact scriptR_append (ScriptR.replace (a := a) (b := b) (u := []) (v := []) (s := []) .done) ih
  | @insert b u v s _ ih => exact scriptR_append (ScriptR.insert (b := b) (u := []) (v := []) (s := []) .done) ih
  | @delete a u v s _ ih => exact scriptR_append (ScriptR.delete (a := a) (u := []) (v := []) (s := []) .done) ih

theorem cost_append (s t : List Op) : cost (s ++ t) = cost s + cost t := by simp [cost]

theorem D_base (eqv : α → α → Bool) (u v u' v' : List α) : M (mt eqv (u ++ u') (v ++ v')) u.length v.length = D eqv u v :=
  M_congr _ _ (fun i j hi hj => mt_append eqv u v u' v' i j hi hj)

theorem D_snoc (eqv : α → α → Bool) (u v : List α) (a b : α) : D eqv (u ++ [a]) (v ++ [b]) =
    if eqv a b then D eqv u v else 1 + min (D eqv u v) (min (D eqv u (v ++ [b])) (D eqv (u ++ [a]) v)) := by
  have h1 := D_base eqv u v [a] [b]
  have h2 := D_base eqv u (v ++ [b]) [a] []
  have h3 := D_base eqv (u ++ [a]) v [] [b]
  simp only [List.append_nil] at h2 h3
  simp only [List.length_append, List.length_singleton] at h2 h3
  have hm : mt eqv (u ++ [a]) (v ++ [b]) u.length v.length = eqv a b := by simp [mt]
  rw [← h1, ← h2, ← h3]
  simp only [D, List.length_append, List.length_singleton, M_succ, hm]

theorem D_lip (eqv : α → α → Bool) (u v : List α) (a b : α) :
    D eqv u (v ++ [b]) ≤ D eqv u v + 1 ∧ D eqv (u ++ [a]) v ≤ D eqv u v + 1 ∧ D eqv (u ++ [a]) (v ++ [b]) ≤ D eqv u v + 1 := by
  have h1 := D_base eqv u v [a] [b]
  have h2 := D_base eqv u (v ++ [b]) [a] []
  have h3 := D_base eqv (u ++ [a]) v [] [b]
  simp only [List.append_nil] at h2 h3
  simp only [List.length_append, List.length_singleton] at h2 h3
  have h := M_lip (mt eqv (u ++ [a]) (v ++ [b])) _ u.length v.length rfl
  rw [h1, h2, h3] at h
  refine ⟨h.1, h.2.1, ?_⟩
  rw [D_snoc]
  split <;> omega

theorem D_lower {eqv : α → α → Bool} {u v : List α} {s : List Op} (h : ScriptR eqv u v s) : D eqv u v ≤ cost s := by
  induction h with
  | done => simp [D, M_zero_left]
  | @keep a b u v s e _ ih => rw [cost_append, D_snoc, if_pos e]; omega
  | @replace a b u v s _ ih =>
    have := (D_lip eqv u v a b).2.2
    rw [cost_append, show cost [Op.replace] = 1 from rfl]; omega
  | @insert b u v s _ ih =>
    rw [cost_append, show cost [Op.insert] = 1 from rfl]
    have h := M_lip (mt eqv u (v ++ [b])) _ u.length v.length rfl
    have h0 := D_base eqv u v [] [b]
    simp only [List.append_nil] at h0
    rw [h0] at h
    simp only [D, List.length_append, List.length_singleton] at ih h ⊢
    omega
  | @delete a u v s _ ih =>
    rw [cost_append, show cost [Op.delete] = 1 from rfl]
    have h := M_lip (mt eqv (u ++ [a]) v) _ u.length v.length rfl
    have h0 := D_base eqv u v [a] []
    simp only [List.append_nil] at h0
    rw [h0] at h
    simp only [D, List.length_append, List.length_singleton] at ih h ⊢
    omega

end Verif.Diff
