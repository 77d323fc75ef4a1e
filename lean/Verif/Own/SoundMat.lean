import Verif.Own.Sound2
namespace Verif.Own
open Verif
variable {α : Type}

/-- overwriting elements from index `i` on -/
theorem fillFrom_place {o : Obj} (l : List α) : ∀ {h : Mem α} {v : List (Option α)} (i : Nat), BRep h o v → i + l.length ≤ v.length →
    ∃ h', fillFrom l o.ptr i h = .ok h' ∧ Changed h (owns o) h' (owns o) ∧ BRep h' o (v.take i ++ l.map some ++ v.drop (i + l.length)) := by
  induction l with
  | nil =>
    intro h v i r _
    exact ⟨h, rfl, changed_none h _, by simpa using r⟩
  | cons x l ih =>
    intro h v i r hi
    simp only [List.length_cons] at hi
    obtain ⟨h1, e1, c1, r1⟩ := set_elem r (by omega : i < v.length) x
    obtain ⟨h2, e2, c2, r2⟩ := ih (i + 1) r1 (by simp only [List.length_set]; omega)
    refine ⟨h2, ?_, changed_trans c1 c2, ?_⟩
    · simp only [fillFrom, e1, ok_bind, e2]
    · have e : (v.set i (some x)).take (i + 1) ++ l.map some ++ (v.set i (some x)).drop (i + 1 + l.length) =
          v.take i ++ (x :: l).map some ++ v.drop (i + (x :: l).length) := by
        rw [List.drop_set_of_lt (by omega), List.take_add_one, List.take_set_of_le (Nat.le_refl _), List.getElem?_set_self (by omega)]
        simp [Nat.add_assoc, Nat.add_comm 1]
      rw [← e]
      exact r2

namespace Mat

def toObj (o : MObj) : Obj := ⟨o.m * o.n, o.m * o.n, o.ptr⟩

def mowns (o : MObj) : List Nat := o.ptr.toList

/-- a matrix without a block has no cells; rows and columns are remembered -/
def Rep (h : Mem α) (o : MObj) (v : Nat × Nat × List (Option α)) : Prop :=
  o.m = v.1 ∧ o.n = v.2.1 ∧ NRep h (toObj o) v.2.2 ∧ Written v.2.2

theorem rep_len {h : Mem α} {o : MObj} {v : Nat × Nat × List (Option α)} (r : Rep h o v) : o.m * o.n = v.2.2.length := by
  obtain ⟨_, _, r, _⟩ := r
  rcases r with ⟨_, e, _, e2⟩ | r
  · rw [e2]; exact e
  · exact brep_size r

theorem copy_ok {h : Mem α} {o : MObj} {v : List (Option α)} (r : NRep h (toObj o) v) (w : Written v) :
    (v = [] ∧ copy o h = .ok (h, ⟨o.m, o.n, none⟩) ∧ o.m * o.n = 0) ∨
    ∃ t, copy o h = .ok (h ++ [some (v ++ t)], ⟨o.m, o.n, some h.length⟩) ∧ o.m * o.n = v.length ∧ o.m * o.n = (v ++ t).length := by
  unfold copy
  have hv : o.m * o.n = v.length := by
    rcases r with ⟨_, e2, _, e4⟩ | r
    · rw [e4]; exact e2
    · exact brep_size r
  by_cases h0 : o.m * o.n > 0
  · right
    rw [if_pos h0]
    rcases r with ⟨_, e2, _⟩ | r
    · have : o.m * o.n = 0 := e2
      omega
    · have hm := copy_elems r w none (o.m * o.n) (by omega)
      refine ⟨List.replicate (o.m * o.n - v.length) none, ?_, hv, (pad_length v _ (by omega) _).symm⟩
      have hm2 : copyLoop false o.ptr (some h.length) (o.m * o.n) 0 (h ++ [some (List.replicate (o.m * o.n) none)]) = _ := hm
      simp only [newArr, Heap.alloc, hm2, ok_bind]
      rfl
  · left
    rw [if_neg h0]
    exact ⟨List.length_eq_zero_iff.1 (by omega), rfl, by omega⟩

theorem cell_lt {m n row col : Nat} (hr : row < m) (hc : col < n) : row + col * m < m * n := by
  have h1 : col * m + m ≤ n * m := by
    have := Nat.mul_le_mul_right m (Nat.succ_le_of_lt hc)
    rw [Nat.succ_mul] at this
    exact this
  rw [Nat.mul_comm m n]
  omega

theorem sound (zero : α) : Sound (cls zero) (matrix zero) mowns Rep where
  live := fun r => nrep_live (o := toObj _) r.2.2.1
  frame := fun r x => ⟨r.1, r.2.1, nrep_frame r.2.2.1 x, r.2.2.2⟩
  reads := by
    intro h o v r
    have hr : readAll h o.ptr (o.m * o.n) 0 = .ok v.2.2 := nrep_read r.2.2.1
    rw [r.1, r.2.1] at hr
    simp only [cls, observe, ok_bind, r.1, r.2.1, hr]
    rfl
  make := by
    intro h a v e
    cases a with
    | null =>
      simp only [matrix, Option.some.injEq] at e
      subst e
      exact ⟨h, ⟨0, 0, none⟩, rfl, changed_none h [], rfl, rfl, Or.inl ⟨rfl, rfl, rfl, rfl⟩, written_nil⟩
    | sized m n =>
      simp only [matrix, Option.some.injEq] at e
      subst e
      have hf := fillFrom_new h (List.replicate (m * n) zero) (List.replicate (m * n) none) (by simp)
      simp only [List.length_replicate, List.drop_replicate, Nat.sub_self, List.replicate_zero, List.append_nil, List.map_replicate] at hf
      refine ⟨h ++ [some (List.replicate (m * n) (some zero))], ⟨m, n, some h.length⟩, ?_, changed_alloc h _, rfl, rfl, Or.inr ?_, written_replicate _ _⟩
      · simp only [cls, make, newArr, Heap.alloc, hf, ok_bind]
        rfl
      · exact ⟨h.length, [], rfl, by simp, by simp [toObj], by simp [toObj]⟩
    | value x =>
      simp only [matrix, Option.some.injEq] at e
      subst e
      have hw : wrCell (h ++ [some (List.replicate 1 none)]) (some h.length) 0 (some x) = .ok (h ++ [some [some x]]) := by
        rw [wrCell_ok (getElem?_alloc h _) (by simp)]
        refine congrArg Except.ok ?_
        rw [List.set_append_right h.length _ (Nat.le_refl _), Nat.sub_self]
        simp
      refine ⟨h ++ [some [some x]], ⟨1, 1, some h.length⟩, ?_, changed_alloc h _, rfl, rfl, Or.inr ?_, StrList.written_single x⟩
      · simp only [cls, make, newArr, Heap.alloc, hw, ok_bind]
        rfl
      · exact ⟨h.length, [], rfl, by simp, by simp [toObj], by simp [toObj]⟩
  copy := by
    intro h o v v' r e
    simp only [matrix, Option.some.injEq] at e
    subst e
    rcases copy_ok r.2.2.1 r.2.2.2 with ⟨e1, e2, e3⟩ | ⟨t, e1, e2, e3⟩
    · exact ⟨h, _, e2, changed_none h [], r.1, r.2.1, Or.inl ⟨rfl, e3, e3, e1⟩, r.2.2.2⟩
    · exact ⟨_, _, e1, changed_alloc h _, r.1, r.2.1, Or.inr (brep_of_alloc h _ _ _ _ e2 e3), r.2.2.2⟩
  mutate := by
    intro h o v m v' r e
    have hl := rep_len r
    cases m with
    | set row col x =>
      simp only [matrix] at e
      split at e
      · rename_i hrc
        simp only [Option.some.injEq] at e
        subst e
        have hlt : row + col * o.m < v.2.2.length := by
          rw [← hl, r.1, r.2.1]
          exact cell_lt hrc.1 hrc.2
        rcases r.2.2.1 with ⟨_, _, _, e4⟩ | r1
        · rw [e4] at hlt; simp at hlt
        · obtain ⟨h', e1, c, r'⟩ := set_elem r1 hlt x
          have e1' : wrCell h o.ptr (row + col * o.m) (some x) = .ok h' := e1
          refine ⟨h', o, by simp only [cls, call, e1', ok_bind]; rfl, c, r.1, r.2.1, Or.inr ?_, written_set r.2.2.2 _ _⟩
          show BRep h' (toObj o) (v.2.2.set (row + col * v.1) (some x))
          rw [← r.1]
          exact r'
      · cases e
    | zeros =>
      simp only [matrix, Option.some.injEq] at e
      subst e
      rcases r.2.2.1 with ⟨e1, e2, e3, e4⟩ | r1
      · have h0 : o.m * o.n = 0 := e2
        refine ⟨h, o, ?_, changed_none h _, r.1, r.2.1, Or.inl ⟨e1, e2, e3, ?_⟩, written_replicate _ _⟩
        · simp only [cls, call, h0, List.replicate_zero, fillFrom, ok_bind]
          rfl
        · show List.replicate (v.1 * v.2.1) (some zero) = []
          rw [← r.1, ← r.2.1, h0]
          rfl
      · obtain ⟨h', e1, c, r'⟩ := fillFrom_place (List.replicate (o.m * o.n) zero) 0 r1 (by simp; omega)
        have e1' : fillFrom (List.replicate (o.m * o.n) zero) o.ptr 0 h = .ok h' := e1
        refine ⟨h', o, by simp only [cls, call, e1', ok_bind]; rfl, c, r.1, r.2.1, Or.inr ?_, written_replicate _ _⟩
        show BRep h' (toObj o) (List.replicate (v.1 * v.2.1) (some zero))
        rw [← r.1, ← r.2.1]
        have : v.2.2.take 0 ++ (List.replicate (o.m * o.n) zero).map some ++ v.2.2.drop (0 + (List.replicate (o.m * o.n) zero).length) =
            List.replicate (o.m * o.n) (some zero) := by
          simp; omega
        rw [← this]
        exact r'
  binary := by
    intro h o v o2 v2 b v' r r2 d e
    cases b
    simp only [matrix, Option.some.injEq] at e
    subst e
    have r3 : NRep (freed h o.ptr) (toObj o2) v2.2.2 := nrep_frame r2.2.2.1 (fun p hp => freed_other h o.ptr p (fun hq => d p hq hp))
    have hd : deleteArr h o.ptr = .ok (freed h o.ptr) := deleteArr_ok h o.ptr (nrep_live (o := toObj o) r.2.2.1)
    rcases copy_ok r3 r2.2.2.2 with ⟨e1, e2, e3⟩ | ⟨t, e1, e2, e3⟩
    · refine ⟨freed h o.ptr, ⟨o2.m, o2.n, none⟩, ?_, changed_freed h o.ptr, r2.1, r2.2.1, Or.inl ⟨rfl, e3, e3, e1⟩, r2.2.2.2⟩
      simp only [cls, assign, Bool.false_eq_true, if_false, hd, ok_bind, e2]
    · rw [freed_length] at e1
      refine ⟨freed h o.ptr ++ [some (v2.2.2 ++ t)], ⟨o2.m, o2.n, some h.length⟩, ?_,
        changed_freed_alloc h o.ptr (nrep_lt (o := toObj o) r.2.2.1) _, r2.1, r2.2.1, Or.inr (freed_alloc_brep (o := toObj o) e2 e3), r2.2.2.2⟩
      simp only [cls, assign, Bool.false_eq_true, if_false, hd, ok_bind, e1]
  binarySelf := by
    intro h o v b v' r e
    cases b
    simp only [matrix, Option.some.injEq] at e
    subst e
    exact ⟨h, o, rfl, changed_none h _, r⟩
  dtor := by
    intro h o v r
    exact ⟨freed h o.ptr, deleteArr_ok h o.ptr (nrep_live (o := toObj o) r.2.2.1), changed_freed h o.ptr⟩

end Mat
end Verif.Own
