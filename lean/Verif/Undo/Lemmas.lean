import Verif.Undo.Model
/-
Lemmas about swapping changes.
-/
namespace Verif.Undo
open Verif

variable {V : Type}

/-- address `a` belongs to the member of the change -/
def Change.covers (c : Change V) (a : Nat) : Prop := c.ptr ≤ a ∧ a < c.ptr + c.val.length

instance (c : Change V) (a : Nat) : Decidable (c.covers a) := by unfold Change.covers; infer_instance

theorem readMem_length (m : Mem V) (p n : Nat) : (readMem m p n).length = n := by simp [readMem]

theorem readMem_get (m : Mem V) (p n i : Nat) (h : i < n) : (readMem m p n)[i]? = some (m (p + i)) := by
  simp [readMem, h]

theorem writeMem_in (m : Mem V) (p : Nat) (v : List V) (a : Nat) (h1 : p ≤ a) (h2 : a < p + v.length) :
    some (writeMem m p v a) = v[a - p]? := by
  have h3 : a - p < v.length := by omega
  simp [writeMem, h1, h3]

theorem writeMem_out (m : Mem V) (p : Nat) (v : List V) (a : Nat) (h : ¬ (p ≤ a ∧ a < p + v.length)) :
    writeMem m p v a = m a := by
  unfold writeMem
  split
  · rw [List.getElem?_eq_none (by omega)]; rfl
  · rfl

theorem read_write (m : Mem V) (p : Nat) (v : List V) : readMem (writeMem m p v) p v.length = v := by
  apply List.ext_getElem?
  intro i
  by_cases h : i < v.length
  · rw [readMem_get _ _ _ _ h, writeMem_in _ _ _ _ (by omega) (by omega)]
    congr 1; omega
  · rw [List.getElem?_eq_none (by rw [readMem_length]; omega), List.getElem?_eq_none (by omega)]

theorem write_read (m : Mem V) (p : Nat) (v : List V) : writeMem (writeMem m p v) p (readMem m p v.length) = m := by
  funext a
  by_cases h : p ≤ a ∧ a < p + v.length
  · have := writeMem_in (writeMem m p v) p (readMem m p v.length) a h.1 (by rw [readMem_length]; exact h.2)
    rw [readMem_get _ _ _ _ (by omega)] at this
    rw [show p + (a - p) = a by omega] at this
    exact Option.some.inj this
  · rw [writeMem_out _ _ _ _ (by rw [readMem_length]; exact h), writeMem_out _ _ _ _ h]

/-- swapping twice is the identity, up to the regeneration flags -/
theorem swap_swap (c : Change V) (m : Mem V) (r r' : Nat → Bool) :
    (swap (swap c m r).1 (swap c m r).2.1 r').1 = c ∧ (swap (swap c m r).1 (swap c m r).2.1 r').2.1 = m := by
  constructor
  · simp only [swap, readMem_length, read_write]
  · simp only [swap, write_read]

/-- memory and changes after swapping, independent of the regeneration flags -/
theorem swapAll_regen (cs : List (Change V)) (m : Mem V) (r r' : Nat → Bool) :
    (swapAll cs m r).1 = (swapAll cs m r').1 ∧ (swapAll cs m r).2.1 = (swapAll cs m r').2.1 := by
  induction cs generalizing m r r' with
  | nil => exact ⟨rfl, rfl⟩
  | cons c cs ih =>
    simp only [swapAll]
    have e : (swap c m r).2.1 = (swap c m r').2.1 := rfl
    rw [e]
    exact ⟨by rw [(ih _ (swap c m r).2.2 (swap c m r').2.2).1]; rfl, (ih _ _ _).2⟩

theorem swapAll_append (cs ds : List (Change V)) (m : Mem V) (r : Nat → Bool) :
    swapAll (cs ++ ds) m r =
      ((swapAll cs m r).1 ++ (swapAll ds (swapAll cs m r).2.1 (swapAll cs m r).2.2).1,
       (swapAll ds (swapAll cs m r).2.1 (swapAll cs m r).2.2).2) := by
  induction cs generalizing m r with
  | nil => simp [swapAll]
  | cons c cs ih => simp only [List.cons_append, swapAll, ih]

theorem swapAll_length (cs : List (Change V)) (m : Mem V) (r : Nat → Bool) : (swapAll cs m r).1.length = cs.length := by
  induction cs generalizing m r with
  | nil => rfl
  | cons c cs ih => simp [swapAll, ih]

theorem swapBack_length (cs : List (Change V)) (m : Mem V) (r : Nat → Bool) : (swapBack cs m r).1.length = cs.length := by
  simp [swapBack, swapAll_length]

/-- swapping in reverse order undoes swapping in order -/
theorem swapAll_inv (cs : List (Change V)) (m : Mem V) (r r' : Nat → Bool) :
    (swapBack (swapAll cs m r).1 (swapAll cs m r).2.1 r').1 = cs ∧
    (swapBack (swapAll cs m r).1 (swapAll cs m r).2.1 r').2.1 = m := by
  induction cs generalizing m r r' with
  | nil => exact ⟨rfl, rfl⟩
  | cons c cs ih =>
    obtain ⟨i1, i2⟩ := ih (swap c m r).2.1 (swap c m r).2.2 r'
    simp only [swapBack] at i1 i2 ⊢
    simp only [swapAll, List.reverse_cons, swapAll_append, List.reverse_append, i2]
    obtain ⟨j1, j2⟩ := swap_swap c m r
      (swapAll (swapAll cs (swap c m r).2.1 (swap c m r).2.2).1.reverse (swapAll cs (swap c m r).2.1 (swap c m r).2.2).2.1 r').2.2
    simp only [List.reverse_nil, List.nil_append, List.singleton_append, j1, j2, i1, and_self]

theorem swapBack_inv (cs : List (Change V)) (m : Mem V) (r r' : Nat → Bool) :
    (swapAll (swapBack cs m r).1 (swapBack cs m r).2.1 r').1 = cs ∧
    (swapAll (swapBack cs m r).1 (swapBack cs m r).2.1 r').2.1 = m := by
  have h := swapAll_inv cs.reverse m r r'
  simp only [swapBack] at h ⊢
  obtain ⟨h1, h2⟩ := h
  refine ⟨?_, h2⟩
  have := congrArg List.reverse h1
  simpa using this

theorem swapBack_append (cs ds : List (Change V)) (m : Mem V) (r : Nat → Bool) :
    (swapBack (cs ++ ds) m r).2.1 = (swapBack cs (swapBack ds m r).2.1 (swapBack ds m r).2.2).2.1 := by
  simp only [swapBack, List.reverse_append, swapAll_append]

theorem swapBack_regen (cs : List (Change V)) (m : Mem V) (r r' : Nat → Bool) :
    (swapBack cs m r).1 = (swapBack cs m r').1 ∧ (swapBack cs m r).2.1 = (swapBack cs m r').2.1 := by
  obtain ⟨h1, h2⟩ := swapAll_regen cs.reverse m r r'
  exact ⟨by simp only [swapBack, h1], h2⟩

/-- the saved value of the eldest change that covers `a` -/
def saved (cs : List (Change V)) (a : Nat) : Option V :=
  match cs.find? (fun c => decide (c.covers a)) with
  | some c => c.val[a - c.ptr]?
  | none => none

/-- what swapping backwards leaves in memory -/
theorem swapBack_mem (cs : List (Change V)) (m : Mem V) (r : Nat → Bool) (a : Nat) :
    (swapBack cs m r).2.1 a = (saved cs a).getD (m a) := by
  induction cs generalizing m r with
  | nil => rfl
  | cons c cs ih =>
    have e : (swapBack (c :: cs) m r).2.1 = (swapBack [c] (swapBack cs m r).2.1 (swapBack cs m r).2.2).2.1 :=
      swapBack_append [c] cs m r
    rw [e]
    have e2 : ∀ (m' : Mem V) r', (swapBack [c] m' r').2.1 = writeMem m' c.ptr c.val := fun _ _ => rfl
    rw [e2]
    by_cases h : c.covers a
    · have := writeMem_in (swapBack cs m r).2.1 c.ptr c.val a h.1 h.2
      simp only [saved, List.find?_cons, h, decide_true]
      rw [← this]; rfl
    · rw [writeMem_out _ _ _ _ h, ih]
      simp only [saved, List.find?_cons, h, decide_false]

theorem saved_some (cs : List (Change V)) (a : Nat) : (saved cs a).isSome = cs.any (fun c => decide (c.covers a)) := by
  induction cs with
  | nil => rfl
  | cons c cs ih =>
    by_cases h : c.covers a
    · have h2 : a - c.ptr < c.val.length := by have := h.1; have := h.2; omega
      simp [saved, h, h2]
    · simp only [List.any_cons, h, decide_false, Bool.false_or]
      rw [← ih]
      simp only [saved, List.find?_cons, h, decide_false]

/-- regeneration flags after swapping -/
theorem swapAll_flags (cs : List (Change V)) (m : Mem V) (r : Nat → Bool) (o : Nat) :
    (swapAll cs m r).2.2 o = (r o || cs.any (fun c => o == c.owner)) := by
  induction cs generalizing m r with
  | nil => simp [swapAll]
  | cons c cs ih =>
    simp only [swapAll, ih, List.any_cons]
    simp only [swap]
    by_cases h : o = c.owner
    · simp [h]
    · have h' : (o == c.owner) = false := by simp [h]
      simp [h, h']

theorem swapBack_flags (cs : List (Change V)) (m : Mem V) (r : Nat → Bool) (o : Nat) :
    (swapBack cs m r).2.2 o = (r o || cs.any (fun c => o == c.owner)) := by
  simp only [swapBack, swapAll_flags]
  congr 1
  rw [List.any_reverse]

end Verif.Undo
