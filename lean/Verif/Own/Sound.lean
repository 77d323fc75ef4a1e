import Verif.Own.Lemmas
namespace Verif.Own
open Verif
variable {α : Type}

theorem freed_alloc_brep {h : Mem α} {o : Obj} {n c : Nat} {v r : List (Option α)} (hn : n = v.length) (hc : c = (v ++ r).length) :
    BRep (freed h o.ptr ++ [some (v ++ r)]) ⟨n, c, some h.length⟩ v := by
  have := brep_of_alloc (freed h o.ptr) n c v r hn hc
  rw [freed_length] at this
  exact this

/-! ### ByteArray -/
namespace ByteArray

theorem fillLoop_ok (c : Byte) (h : Mem Byte) (p n : Nat) (b : List (Option Byte)) (hb : n ≤ b.length) (e : h[p]? = some (some b)) :
    ∀ i, i ≤ n → ∀ hh, hh = h.set p (some (List.replicate i (some c) ++ b.drop i)) →
      fillLoop c (some p) n i hh = .ok (h.set p (some (List.replicate n (some c) ++ b.drop n))) := by
  intro i hi hh he
  have hp := Heap.lt_of_live e
  unfold fillLoop
  by_cases hlt : i < n
  · rw [if_pos hlt]
    have e2 : hh[p]? = some (some (List.replicate i (some c) ++ b.drop i)) := by rw [he, List.getElem?_set_self hp]
    rw [wrCell_ok e2 (by simp; omega), ok_bind]
    refine fillLoop_ok c h p n b hb e (i + 1) (by omega) _ ?_
    rw [he, List.set_set]
    refine congrArg (fun z => h.set p (some z)) ?_
    rw [List.set_append_right _ _ (by simp), List.drop_eq_getElem_cons (by omega : i < b.length)]
    simp only [List.length_replicate, Nat.sub_self, List.set_cons_zero]
    rw [List.replicate_succ']
    simp
  · have : i = n := by omega
    subst this
    rw [if_neg hlt, he]
termination_by i => n - i

theorem copy_block {h : Mem Byte} {o : Obj} {v : List (Option Byte)} (r : NRep h o v) :
    ∃ t, copyLoop true o.ptr (some h.length) o.cap 0 (h ++ [some (List.replicate o.cap none)]) = .ok (h ++ [some (v ++ t)]) ∧
      o.size = v.length ∧ o.cap = (v ++ t).length := by
  rcases r with ⟨e1, e2, e3, e4⟩ | ⟨p, t, e1, e2, e3, e4⟩
  · refine ⟨[], ?_, by simp [e2, e4], by simp [e3, e4]⟩
    rw [e3, e4]
    exact copyLoop_zero true _ _ _
  · refine ⟨t, ?_, e3, e4⟩
    rw [e1, e4]
    rw [copyLoop_fresh true h p (v ++ t).length (v ++ t) (List.replicate (v ++ t).length none) e2 (Nat.le_refl _) (by simp) (by simp)]
    rw [List.take_length]
    simp

theorem sound : Sound cls byteArray owns NRep where
  live := nrep_live
  frame := nrep_frame
  reads := nrep_read
  make := by
    intro h a v e
    cases a with
    | null =>
      simp only [byteArray, Option.some.injEq] at e
      subst e
      exact ⟨h, ⟨0, 0, none⟩, rfl, changed_none h [], Or.inl ⟨rfl, rfl, rfl, rfl⟩⟩
    | bytes l =>
      simp only [byteArray, Option.some.injEq] at e
      subst e
      have hw : wrCell (h ++ [some (List.replicate (l.length + 1) none)]) (some h.length) l.length (some (0 : Byte)) =
          .ok (h ++ [some (List.replicate l.length none ++ [some 0])]) := by
        rw [wrCell_ok (getElem?_alloc h _) (by simp)]
        refine congrArg Except.ok ?_
        rw [List.set_append_right h.length _ (Nat.le_refl _), Nat.sub_self, List.replicate_succ']
        simp only [List.set_cons_zero]
        rw [List.set_append_right _ _ (by simp)]
        simp
      have hf : fillFrom l (some h.length) 0 (h ++ [some (List.replicate l.length none ++ [some (0 : Byte)])]) =
          .ok (h ++ [some (l.map some ++ [some 0])]) := by
        rw [fillFrom_new _ _ _ (by simp)]
        simp
      refine ⟨h ++ [some (l.map some ++ [some 0])], ⟨l.length, l.length + 1, some h.length⟩, ?_, changed_alloc h _, Or.inr ?_⟩
      · simp only [cls, make, newArr, Heap.alloc, hw, ok_bind, hf]
        rfl
      · exact brep_of_alloc h _ _ _ _ (by simp) (by simp)
    | filled n c =>
      simp only [byteArray, Option.some.injEq] at e
      subst e
      have hw : wrCell (h ++ [some (List.replicate (n + 1) none)]) (some h.length) n (some (0 : Byte)) =
          .ok (h ++ [some (List.replicate n none ++ [some 0])]) := by
        rw [wrCell_ok (getElem?_alloc h _) (by simp)]
        refine congrArg Except.ok ?_
        rw [List.set_append_right h.length _ (Nat.le_refl _), Nat.sub_self, List.replicate_succ']
        simp only [List.set_cons_zero]
        rw [List.set_append_right _ _ (by simp)]
        simp
      have hf : fillLoop c (some h.length) n 0 (h ++ [some (List.replicate n none ++ [some (0 : Byte)])]) =
          .ok (h ++ [some (List.replicate n (some c) ++ [some 0])]) := by
        rw [fillLoop_ok c (h ++ [some (List.replicate n none ++ [some (0 : Byte)])]) h.length n (List.replicate n none ++ [some 0])
          (by simp) (getElem?_alloc h _) 0 (Nat.zero_le _) _ (by
            rw [List.set_append_right h.length _ (Nat.le_refl _), Nat.sub_self]
            simp)]
        refine congrArg Except.ok ?_
        rw [List.set_append_right h.length _ (Nat.le_refl _), Nat.sub_self]
        simp
      refine ⟨h ++ [some (List.replicate n (some c) ++ [some 0])], ⟨n, n + 1, some h.length⟩, ?_, changed_alloc h _, Or.inr ?_⟩
      · simp only [cls, make, newArr, Heap.alloc, hw, ok_bind, hf]
        rfl
      · exact brep_of_alloc h _ _ _ _ (by simp) (by simp)
  copy := by
    intro h o v v' r e
    simp only [byteArray, Option.some.injEq] at e
    subst e
    obtain ⟨t, hc, h1, h2⟩ := copy_block r
    refine ⟨h ++ [some (v ++ t)], ⟨o.size, o.cap, some h.length⟩, ?_, changed_alloc h _, Or.inr (brep_of_alloc h _ _ _ _ h1 h2)⟩
    simp only [cls, copy, newArr, Heap.alloc, hc, ok_bind]
    rfl
  mutate := by
    intro h o v m v' r e
    cases m with
    | set i x =>
      simp only [byteArray, put_iff] at e
      obtain ⟨hi, rfl⟩ := e
      rcases r with ⟨_, _, _, e4⟩ | r
      · subst e4; simp at hi
      · obtain ⟨h', e1, c, r'⟩ := set_elem r hi x
        exact ⟨h', o, by simp only [cls, call, e1, ok_bind]; rfl, c, Or.inr r'⟩
    | fill c =>
      simp only [byteArray, Option.some.injEq] at e
      subst e
      rcases r with ⟨e1, e2, e3, e4⟩ | ⟨p, t, e1, e2, e3, e4⟩
      · refine ⟨h, o, ?_, changed_none h _, Or.inl ⟨e1, e2, e3, by simp [e4]⟩⟩
        simp only [cls, call, e2]
        unfold fillLoop
        simp
        rfl
      · have hf : fillLoop c (some p) v.length 0 h = .ok (h.set p (some (List.replicate v.length (some c) ++ (v ++ t).drop v.length))) :=
          fillLoop_ok c h p v.length (v ++ t) (by simp) e2 0 (Nat.zero_le _) h (by
            simp only [List.replicate_zero, List.nil_append, List.drop_zero]
            have hp := Heap.lt_of_live e2
            rw [List.getElem?_eq_getElem hp] at e2
            simp only [Option.some.injEq] at e2
            rw [← e2, List.set_getElem_self])
        refine ⟨h.set p (some (List.replicate v.length (some c) ++ (v ++ t).drop v.length)), o, ?_, ?_, Or.inr ⟨p, t, e1, ?_, by simpa using e3, by simpa using e4⟩⟩
        · simp only [cls, call, e1, e3, hf, ok_bind]
          rfl
        · rw [owns, e1]
          exact changed_write h p _
        · rw [List.getElem?_set_self (Heap.lt_of_live e2)]
          simp
  binary := by
    intro h o v o2 v2 b v' r r2 d e
    cases b
    simp only [byteArray, Option.some.injEq] at e
    subst e
    have r3 : NRep (freed h o.ptr) o2 v2 := nrep_frame r2 (fun p hp => freed_other h o.ptr p (fun hq => d p hq hp))
    obtain ⟨t, hc, h1, h2⟩ := copy_block r3
    refine ⟨freed h o.ptr ++ [some (v2 ++ t)], ⟨o2.size, o2.cap, some h.length⟩, ?_, changed_freed_alloc h o.ptr (nrep_lt r) _,
      Or.inr (freed_alloc_brep h1 h2)⟩
    rw [freed_length] at hc
    simp only [cls, assign, Bool.false_eq_true, if_false, deleteArr_ok h o.ptr (nrep_live r), ok_bind, newArr, Heap.alloc,
      freed_length, hc]
    rfl
  binarySelf := by
    intro h o v b v' r e
    cases b
    simp only [byteArray, Option.some.injEq] at e
    subst e
    exact ⟨h, o, rfl, changed_none h _, r⟩
  dtor := by
    intro h o v r
    exact ⟨freed h o.ptr, deleteArr_ok h o.ptr (nrep_live r), changed_freed h o.ptr⟩

end ByteArray

/-! ### CharArray -/
namespace CharArray

def Rep (h : Mem Ch) (o : Obj) (v : Option (List (Option Ch))) : Prop :=
  match v with
  | none => o.ptr = none ∧ o.size = 0
  | some v => BRep h o v

theorem rep_live {h : Mem Ch} {o : Obj} {v} (r : Rep h o v) : ∀ p ∈ owns o, ∃ b, h[p]? = some (some b) := by
  cases v with
  | none => intro p hp; simp [owns, r.1] at hp
  | some v => exact brep_live r

theorem sound : Sound cls charArray owns Rep where
  live := rep_live
  frame := by
    intro h h' o v r e
    cases v with
    | none => exact r
    | some v => exact brep_frame r e
  reads := by
    intro h o v r
    cases v with
    | none => simp [cls, observe, r.1]
    | some v =>
      have hn : o.ptr ≠ none := by obtain ⟨p, _, e, _⟩ := r; simp [e]
      simp only [cls, observe, if_neg hn, brep_read r, ok_bind]
      rfl
  make := by
    intro h a v e
    cases a with
    | null =>
      simp only [charArray, Option.some.injEq] at e
      subst e
      exact ⟨h, ⟨0, 0, none⟩, rfl, changed_none h [], rfl, rfl⟩
    | sized n =>
      simp only [charArray, Option.some.injEq] at e
      subst e
      refine ⟨h ++ [some (List.replicate n (some 0))], ⟨n, n, some h.length⟩, rfl, changed_alloc h _, ?_⟩
      exact ⟨h.length, [], rfl, by simp, by simp, by simp⟩
  copy := by
    intro h o v v' r e
    cases v with
    | none => simp [charArray] at e
    | some v =>
      simp only [charArray, Option.map_some, Option.some.injEq] at e
      subst e
      have hs : o.size = v.length := by obtain ⟨_, _, _, _, hs, _⟩ := r; exact hs
      have hm := memcpy_elems r (some 0) o.size (by omega)
      refine ⟨_, ⟨o.size, o.size, some h.length⟩, ?_, changed_alloc h _, brep_of_alloc h _ _ _ (List.replicate (o.size - v.length) (some 0)) hs (by simp; omega)⟩
      simp only [cls, copy, newArr, Heap.alloc, hm, ok_bind]
      rfl
  mutate := by
    intro h o v m v' r e
    cases m with
    | set i x =>
      cases v with
      | none => simp [charArray] at e
      | some v =>
        simp only [charArray, Option.bind_some, Option.map_eq_some_iff, put_iff] at e
        obtain ⟨v1, ⟨hi, rfl⟩, rfl⟩ := e
        obtain ⟨h', e1, c, r'⟩ := set_elem r hi x
        exact ⟨h', o, by simp only [cls, call, e1, ok_bind]; rfl, c, r'⟩
  binary := by
    intro h o v o2 v2 b v' r r2 d e
    cases b
    cases v2 with
    | none => simp [charArray] at e
    | some v2 =>
      simp only [charArray, Option.map_some, Option.some.injEq] at e
      subst e
      have r3 : BRep (freed h o.ptr) o2 v2 := brep_freed r2 d
      have hs : o2.size = v2.length := by obtain ⟨_, _, _, _, hs, _⟩ := r3; exact hs
      have hm := memcpy_elems r3 (some 0) o2.size (by omega)
      have hl : ∀ p ∈ owns o, p < h.length := fun p hp => let ⟨_, hb⟩ := rep_live r p hp; Heap.lt_of_live hb
      refine ⟨_, ⟨o2.size, o2.size, some h.length⟩, ?_, changed_freed_alloc h o.ptr hl _,
        freed_alloc_brep (r := List.replicate (o2.size - v2.length) (some 0)) hs (by simp; omega)⟩
      rw [freed_length] at hm
      simp only [cls, assign, Bool.false_eq_true, if_false, deleteArr_ok h o.ptr (rep_live r), ok_bind, newArr, Heap.alloc,
        freed_length, hm]
      rfl
  binarySelf := by
    intro h o v b v' r e
    cases b
    cases v with
    | none => simp [charArray] at e
    | some v =>
      simp only [charArray, Option.map_some, Option.some.injEq] at e
      subst e
      exact ⟨h, o, rfl, changed_none h _, r⟩
  dtor := by
    intro h o v r
    exact ⟨freed h o.ptr, deleteArr_ok h o.ptr (rep_live r), changed_freed h o.ptr⟩

end CharArray

/-! ### Array -/
namespace Array

theorem sound (init : Option α) : Sound (cls init) (array init) owns BRep where
  live := brep_live
  frame := brep_frame
  reads := brep_read
  make := by
    intro h n v e
    simp only [array, Option.some.injEq] at e
    subst e
    refine ⟨h ++ [some (List.replicate n init)], ⟨n, n, some h.length⟩, rfl, changed_alloc h _, ?_⟩
    exact ⟨h.length, [], rfl, by simp, by simp, by simp⟩
  copy := by
    intro h o v v' r e
    obtain ⟨rfl, hw⟩ := written_iff.1 e
    have hs : o.size = v.length := by obtain ⟨_, _, _, _, hs, _⟩ := r; exact hs
    have hm := copy_elems r hw init o.size (by omega)
    refine ⟨_, ⟨o.size, o.size, some h.length⟩, ?_, changed_alloc h _, brep_of_alloc h _ _ _ (List.replicate (o.size - v.length) init) hs (by simp; omega)⟩
    simp only [cls, copy, newArr, Heap.alloc, hm, ok_bind]
    rfl
  mutate := by
    intro h o v m v' r e
    cases m with
    | set i x =>
      simp only [array, put_iff] at e
      obtain ⟨hi, rfl⟩ := e
      have hs : o.size = v.length := by obtain ⟨_, _, _, _, hs, _⟩ := r; exact hs
      obtain ⟨h', e1, c, r'⟩ := set_elem r hi x
      refine ⟨h', o, ?_, c, r'⟩
      have hn : ¬ i ≥ o.size := by omega
      simp only [cls, call, if_neg hn, e1, ok_bind]
      rfl
  binary := by
    intro h o v o2 v2 b v' r r2 d e
    cases b
    obtain ⟨rfl, hw⟩ := written_iff.1 e
    have r3 : BRep (freed h o.ptr) o2 v2 := brep_freed r2 d
    have hs : o2.size = v2.length := by obtain ⟨_, _, _, _, hs, _⟩ := r3; exact hs
    have hm := copy_elems r3 hw init o2.size (by omega)
    refine ⟨_, ⟨o2.size, o2.size, some h.length⟩, ?_, changed_freed_alloc h o.ptr (brep_lt r) _,
      freed_alloc_brep (r := List.replicate (o2.size - v2.length) init) hs (by simp; omega)⟩
    rw [freed_length] at hm
    simp only [cls, assign, Bool.false_eq_true, if_false, deleteArr_ok h o.ptr (brep_live r), ok_bind, newArr, Heap.alloc,
      freed_length, hm]
    rfl
  binarySelf := by
    intro h o v b v' r e
    cases b
    obtain ⟨rfl, hw⟩ := written_iff.1 e
    exact ⟨h, o, rfl, changed_none h _, r⟩
  dtor := by
    intro h o v r
    exact ⟨freed h o.ptr, deleteArr_ok h o.ptr (brep_live r), changed_freed h o.ptr⟩

end Array

end Verif.Own
