import Verif.Own.Spec
namespace Verif.Own
open Verif
variable {α : Type}

/-- the heap after `delete[]` -/
def freed (h : Mem α) : Option Nat → Mem α
  | none => h
  | some p => h.set p none

theorem freed_length (h : Mem α) (p : Option Nat) : (freed h p).length = h.length := by
  cases p <;> simp [freed]

theorem freed_other (h : Mem α) (p : Option Nat) (q : Nat) (hq : q ∉ p.toList) : (freed h p)[q]? = h[q]? := by
  cases p with
  | none => rfl
  | some p =>
    simp at hq
    simp only [freed]
    rw [List.getElem?_set_ne (by omega)]

theorem deleteArr_ok (h : Mem α) (p : Option Nat) (hl : ∀ q ∈ p.toList, ∃ b, h[q]? = some (some b)) :
    deleteArr h p = .ok (freed h p) := by
  cases p with
  | none => rfl
  | some p =>
    obtain ⟨b, hb⟩ := hl p (by simp)
    simp only [deleteArr, freed, Heap.free_ok hb]

theorem changed_freed (h : Mem α) (p : Option Nat) : Changed h p.toList (freed h p) [] := by
  cases p with
  | none => exact changed_none h []
  | some p => exact changed_free h p

theorem changed_freed_alloc (h : Mem α) (p : Option Nat) (hl : ∀ q ∈ p.toList, q < h.length) (b : List (Option α)) :
    Changed h p.toList (freed h p ++ [some b]) [h.length] := by
  cases p with
  | none => exact changed_alloc h b
  | some p => exact changed_realloc h p (hl p (by simp)) b

/-- the object has a block whose first cells are its value -/
def BRep (h : Mem α) (o : Obj) (v : List (Option α)) : Prop :=
  ∃ p r, o.ptr = some p ∧ h[p]? = some (some (v ++ r)) ∧ o.size = v.length ∧ o.cap = (v ++ r).length

/-- or it has none and is empty -/
def NRep (h : Mem α) (o : Obj) (v : List (Option α)) : Prop :=
  (o.ptr = none ∧ o.size = 0 ∧ o.cap = 0 ∧ v = []) ∨ BRep h o v

/-- all elements are written -/
def WRep (h : Mem α) (o : Obj) (v : List (Option α)) : Prop := BRep h o v ∧ Written v

def owns (o : Obj) : List Nat := o.ptr.toList

theorem brep_live {h : Mem α} {o : Obj} {v : List (Option α)} (r : BRep h o v) : ∀ p ∈ owns o, ∃ b, h[p]? = some (some b) := by
  obtain ⟨p, r, e, hp, _⟩ := r
  intro q hq
  simp [owns, e] at hq
  subst hq
  exact ⟨_, hp⟩

theorem nrep_live {h : Mem α} {o : Obj} {v : List (Option α)} (r : NRep h o v) : ∀ p ∈ owns o, ∃ b, h[p]? = some (some b) := by
  rcases r with ⟨e, _⟩ | r
  · intro p hp
    simp [owns, e] at hp
  · exact brep_live r

theorem brep_frame {h h' : Mem α} {o : Obj} {v : List (Option α)} (r : BRep h o v) (e : ∀ p ∈ owns o, h'[p]? = h[p]?) : BRep h' o v := by
  obtain ⟨p, r, e1, e2, e3⟩ := r
  exact ⟨p, r, e1, by rw [e p (by simp [owns, e1])]; exact e2, e3⟩

theorem nrep_frame {h h' : Mem α} {o : Obj} {v : List (Option α)} (r : NRep h o v) (e : ∀ p ∈ owns o, h'[p]? = h[p]?) : NRep h' o v := by
  rcases r with r | r
  · exact Or.inl r
  · exact Or.inr (brep_frame r e)

theorem brep_read {h : Mem α} {o : Obj} {v : List (Option α)} (r : BRep h o v) : readAll h o.ptr o.size 0 = .ok v := by
  obtain ⟨p, r, e1, e2, e3, _⟩ := r
  rw [e1, e3]
  exact readAll_block h p v r e2

theorem nrep_read {h : Mem α} {o : Obj} {v : List (Option α)} (r : NRep h o v) : readAll h o.ptr o.size 0 = .ok v := by
  rcases r with ⟨_, e, _, e2⟩ | r
  · rw [e, e2]
    exact readAll_zero h _
  · exact brep_read r

theorem brep_of_alloc (h : Mem α) (n c : Nat) (v r : List (Option α)) (hn : n = v.length) (hc : c = (v ++ r).length) :
    BRep (h ++ [some (v ++ r)]) ⟨n, c, some h.length⟩ v :=
  ⟨h.length, r, rfl, getElem?_alloc h _, hn, hc⟩

/-- assigning: the right side survives the deletion of the left side -/
theorem brep_freed {h : Mem α} {o o2 : Obj} {v : List (Option α)} (r : BRep h o2 v) (d : ∀ p ∈ owns o, p ∉ owns o2) :
    BRep (freed h o.ptr) o2 v :=
  brep_frame r (fun p hp => freed_other h o.ptr p (fun hq => d p hq hp))

/-- copying the elements into a fresh block of `k` cells -/
theorem copy_elems {h : Mem α} {o : Obj} {v : List (Option α)} (r : BRep h o v) (w : Written v) (init : Option α) (k : Nat) (hk : v.length ≤ k) :
    copyLoop false o.ptr (some h.length) o.size 0 (h ++ [some (List.replicate k init)]) =
      .ok (h ++ [some (v ++ List.replicate (k - v.length) init)]) := by
  obtain ⟨p, r, e1, e2, e3, _⟩ := r
  rw [e1, e3]
  rw [copyLoop_fresh false h p v.length (v ++ r) (List.replicate k init) e2 (by simp) (by simpa using hk) (by
    intro _ i hi
    rw [List.getElem?_append_left hi]
    exact w i hi)]
  simp

theorem memcpy_elems {h : Mem α} {o : Obj} {v : List (Option α)} (r : BRep h o v) (init : Option α) (k : Nat) (hk : v.length ≤ k) :
    memcpy (some h.length) 0 o.ptr o.size (h ++ [some (List.replicate k init)]) =
      .ok (h ++ [some (v ++ List.replicate (k - v.length) init)]) := by
  obtain ⟨p, r, e1, e2, e3, _⟩ := r
  rw [e1, e3]
  rw [memcpy_fresh h p v.length (v ++ r) (List.replicate k init) e2 (by simp) (by simpa using hk)]
  simp

theorem pad_length (v : List (Option α)) (k : Nat) (hk : v.length ≤ k) (i : Option α) : (v ++ List.replicate (k - v.length) i).length = k := by
  simp; omega

theorem written_iff {v w : List (Option α)} : written v = some w ↔ v = w ∧ Written v := by
  unfold written
  constructor
  · intro h
    split at h
    · rename_i ha
      simp only [Option.some.injEq] at h
      refine ⟨h, fun i hi => ?_⟩
      rw [List.all_eq_true] at ha
      have := ha v[i] (List.getElem_mem hi)
      rw [Option.isSome_iff_exists] at this
      obtain ⟨x, hx⟩ := this
      exact ⟨x, by rw [List.getElem?_eq_getElem hi, hx]⟩
    · cases h
  · rintro ⟨rfl, hw⟩
    rw [if_pos]
    rw [List.all_eq_true]
    intro x hx
    obtain ⟨i, hi, e⟩ := List.getElem_of_mem hx
    obtain ⟨y, hy⟩ := hw i hi
    rw [List.getElem?_eq_getElem hi, e] at hy
    simp only [Option.some.injEq] at hy
    simp [hy]

theorem put_iff {v w : List (Option α)} {i : Nat} {x : α} : put v i x = some w ↔ i < v.length ∧ w = v.set i (some x) := by
  unfold put
  constructor
  · intro h
    split at h
    · simp only [Option.some.injEq] at h
      exact ⟨by assumption, h.symm⟩
    · cases h
  · rintro ⟨h, rfl⟩
    rw [if_pos h]

theorem written_map (l : List α) : Written (l.map some) := by
  intro i hi
  simp at hi
  exact ⟨l[i], by simp [hi]⟩

theorem written_replicate (n : Nat) (x : α) : Written (List.replicate n (some x)) := by
  intro i hi
  simp at hi
  exact ⟨x, by simp [hi]⟩

theorem written_set {v : List (Option α)} (h : Written v) (i : Nat) (x : α) : Written (v.set i (some x)) := by
  intro j hj
  simp only [List.length_set] at hj
  by_cases hij : i = j
  · subst hij
    exact ⟨x, by simp [hj]⟩
  · rw [List.getElem?_set_ne hij]
    exact h j hj

theorem written_append {v w : List (Option α)} (h : Written v) (h' : Written w) : Written (v ++ w) := by
  intro i hi
  simp only [List.length_append] at hi
  by_cases hv : i < v.length
  · rw [List.getElem?_append_left hv]; exact h i hv
  · rw [List.getElem?_append_right (by omega)]; exact h' _ (by omega)

theorem written_nil : Written ([] : List (Option α)) := fun i hi => by simp at hi

/-- writing one element in place -/
theorem set_elem {h : Mem α} {o : Obj} {v : List (Option α)} (r : BRep h o v) {i : Nat} (hi : i < v.length) (x : α) :
    ∃ h', wrCell h o.ptr i (some x) = .ok h' ∧ Changed h (owns o) h' (owns o) ∧ BRep h' o (v.set i (some x)) := by
  obtain ⟨p, r, e1, e2, e3, e4⟩ := r
  refine ⟨h.set p (some ((v ++ r).set i (some x))), ?_, ?_, p, r, e1, ?_, ?_, ?_⟩
  · rw [e1]
    exact wrCell_ok e2 (by simp; omega)
  · rw [owns, e1]
    exact changed_write h p _
  · rw [List.getElem?_set_self (Heap.lt_of_live e2), List.set_append_left _ _ hi]
  · simpa using e3
  · simpa using e4

theorem brep_lt {h : Mem α} {o : Obj} {v : List (Option α)} (r : BRep h o v) : ∀ p ∈ owns o, p < h.length :=
  fun p hp => let ⟨_, hb⟩ := brep_live r p hp; Heap.lt_of_live hb

theorem nrep_lt {h : Mem α} {o : Obj} {v : List (Option α)} (r : NRep h o v) : ∀ p ∈ owns o, p < h.length :=
  fun p hp => let ⟨_, hb⟩ := nrep_live r p hp; Heap.lt_of_live hb

/-- the old block is freed after the new one was filled -/
theorem free_after (h : Mem α) (o : Obj) (v b : List (Option α)) (r : BRep h o v) :
    deleteArr (h ++ [some b]) o.ptr = .ok (freed h o.ptr ++ [some b]) := by
  obtain ⟨p, r, e1, e2, _⟩ := r
  have hp := Heap.lt_of_live e2
  rw [e1]
  have e3 : (h ++ [some b])[p]? = some (some (v ++ r)) := by rw [List.getElem?_append_left hp]; exact e2
  simp only [deleteArr, Heap.free_ok e3, freed]
  rw [List.set_append_left _ _ hp]

end Verif.Own
