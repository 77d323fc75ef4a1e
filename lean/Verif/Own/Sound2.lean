import Verif.Own.Sound
namespace Verif.Own
open Verif
variable {α : Type}

theorem brep_size {h : Mem α} {o : Obj} {v : List (Option α)} (r : BRep h o v) : o.size = v.length := by
  obtain ⟨_, _, _, _, hs, _⟩ := r; exact hs

theorem brep_cap {h : Mem α} {o : Obj} {v : List (Option α)} (r : BRep h o v) : v.length ≤ o.cap := by
  obtain ⟨_, _, _, _, _, hs⟩ := r; rw [hs]; simp

/-- forgetting the value keeps the object -/
theorem brep_empty {h : Mem α} {o : Obj} {v : List (Option α)} (r : BRep h o v) : BRep h { o with size := 0 } [] := by
  obtain ⟨p, t, e1, e2, _, e4⟩ := r
  exact ⟨p, v ++ t, e1, e2, rfl, e4⟩

/-- writing the element behind the last one -/
theorem push_elem {h : Mem α} {o : Obj} {v : List (Option α)} (r : BRep h o v) (hc : v.length < o.cap) (x : α) :
    ∃ h', wrCell h o.ptr o.size (some x) = .ok h' ∧ Changed h (owns o) h' (owns { o with size := o.size + 1 }) ∧
      BRep h' { o with size := o.size + 1 } (v ++ [some x]) := by
  obtain ⟨p, t, e1, e2, e3, e4⟩ := r
  have hl : (v ++ t).length = v.length + t.length := List.length_append
  cases t with
  | nil => simp at e4; omega
  | cons y t =>
    refine ⟨h.set p (some ((v ++ y :: t).set v.length (some x))), ?_, ?_, p, t, e1, ?_, ?_, ?_⟩
    · rw [e1, e3]
      exact wrCell_ok e2 (by simp)
    · show Changed h o.ptr.toList _ o.ptr.toList
      rw [e1]
      exact changed_write h p _
    · rw [List.getElem?_set_self (Heap.lt_of_live e2), List.set_append_right _ _ (Nat.le_refl _)]
      simp
    · simp [e3]
    · simp at e4 ⊢; omega

theorem changed_trans {h h1 h2 : Mem α} {a b c : List Nat} (x : Changed h a h1 b) (y : Changed h1 b h2 c) : Changed h a h2 c := by
  constructor
  · exact Nat.le_trans x.len y.len
  · intro p hp hn
    have hb : p ∉ b := by
      intro hb
      rcases x.fresh p hb with h' | h'
      · exact hn h'
      · omega
    rw [y.same p (Nat.lt_of_lt_of_le hp x.len) hb, x.same p hp hn]
  · intro p hp
    rcases y.fresh p hp with h' | h'
    · exact x.fresh p h'
    · have := x.len
      exact Or.inr (by omega)
  · intro p bl e
    rcases y.noleak p bl e with h' | ⟨h1', h2'⟩
    · exact Or.inl h'
    · rw [y.same p h1' h2'] at e
      rcases x.noleak p bl e with h' | h'
      · exact absurd h' h2'
      · exact Or.inr h'

/-! ### String -/
namespace Str

theorem round16_ge (n : Nat) : n ≤ round16 n := by
  unfold round16
  split <;> omega

theorem checkCapacity_ok {h : Mem Ch} {o : Obj} {v : List (Option Ch)} (r : BRep h o v) (more : Nat) :
    ∃ h' o', checkCapacity more o h = .ok (h', o') ∧ Changed h (owns o) h' (owns o') ∧ BRep h' o' v ∧ v.length + more ≤ o'.cap := by
  have hs := brep_size r
  unfold checkCapacity
  by_cases hc : o.size + more < o.cap
  · rw [if_pos hc]
    exact ⟨h, o, rfl, changed_none h _, r, by omega⟩
  · rw [if_neg hc]
    have hg := round16_ge (o.size + more)
    have hm := memcpy_elems r (some 0) (round16 (o.size + more)) (by omega)
    refine ⟨freed h o.ptr ++ [some (v ++ List.replicate (round16 (o.size + more) - v.length) (some 0))],
      ⟨o.size, round16 (o.size + more), some h.length⟩, ?_, changed_freed_alloc h o.ptr (brep_lt r) _, ?_, ?_⟩
    · simp only [newArr, Heap.alloc, hm, ok_bind, free_after h o v _ r]
      rfl
    · exact freed_alloc_brep hs (pad_length v _ (by omega) _).symm
    · show v.length + more ≤ round16 (o.size + more)
      omega

/-- `memcpy` behind the last character, from another block -/
theorem memcpy_behind {h : Mem Ch} {o o2 : Obj} {v v2 : List (Option Ch)} (r : BRep h o v) (r2 : BRep h o2 v2)
    (hc : v.length + v2.length ≤ o.cap) :
    ∃ h', memcpy o.ptr o.size o2.ptr o2.size h = .ok h' ∧ Changed h (owns o) h' (owns o) ∧
      BRep h' ⟨o.size + o2.size, o.cap, o.ptr⟩ (v ++ v2) := by
  obtain ⟨p, t, e1, e2, e3, e4⟩ := r
  obtain ⟨q, t2, f1, f2, f3, f4⟩ := r2
  have hl : (v ++ t).length = v.length + t.length := List.length_append
  refine ⟨h.set p (some (v ++ v2 ++ t.drop v2.length)), ?_, ?_, p, t.drop v2.length, e1, ?_, ?_, ?_⟩
  · rw [e1, e3, f1, f3]
    simp only [memcpy, Heap.load_ok e2, Heap.load_ok f2, ok_bind]
    rw [if_pos (by constructor <;> simp <;> omega), Heap.store_ok e2]
    refine congrArg Except.ok (congrArg (fun z => h.set p (some z)) ?_)
    have : (v ++ t).drop (v.length + v2.length) = t.drop v2.length := by
      rw [List.drop_append]
      simp
    rw [this]
    simp
  · show Changed h o.ptr.toList _ o.ptr.toList
    rw [e1]
    exact changed_write h p _
  · rw [List.getElem?_set_self (Heap.lt_of_live e2)]
  · simp [e3, f3]
  · rw [e4]
    simp only [List.length_append, List.length_drop]
    omega

theorem append_ok {h : Mem Ch} {o o2 : Obj} {v v2 : List (Option Ch)} (r : BRep h o v) (r2 : BRep h o2 v2)
    (d : ∀ p ∈ owns o, p ∉ owns o2) :
    ∃ h' o', append false o o2 h = .ok (h', o') ∧ Changed h (owns o) h' (owns o') ∧ BRep h' o' (v ++ v2) := by
  have hs := brep_size r2
  unfold append
  by_cases h0 : o2.size = 0
  · rw [if_pos h0]
    have : v2 = [] := List.length_eq_zero_iff.1 (by omega)
    subst this
    exact ⟨h, o, rfl, changed_none h _, by simpa using r⟩
  · rw [if_neg h0]
    obtain ⟨h1, o1, e1, c1, r1, k1⟩ := checkCapacity_ok r o2.size
    have r3 : BRep h1 o2 v2 := brep_frame r2 (fun p hp => c1.same p (brep_lt r2 p hp) (fun hq => d p hq hp))
    obtain ⟨h2, e2, c2, r4⟩ := memcpy_behind r1 r3 (by omega)
    refine ⟨h2, ⟨o1.size + o2.size, o1.cap, o1.ptr⟩, ?_, changed_trans c1 c2, r4⟩
    simp only [e1, ok_bind, Bool.false_eq_true, if_false, e2]
    rfl

theorem append_self {h : Mem Ch} {o : Obj} {v : List (Option Ch)} (r : BRep h o v) :
    ∃ h' o', append true o o h = .ok (h', o') ∧ Changed h (owns o) h' (owns o') ∧ BRep h' o' (v ++ v) := by
  have hs := brep_size r
  unfold append
  by_cases h0 : o.size = 0
  · rw [if_pos h0]
    have : v = [] := List.length_eq_zero_iff.1 (by omega)
    subst this
    exact ⟨h, o, rfl, changed_none h _, by simpa using r⟩
  · rw [if_neg h0]
    obtain ⟨h1, o1, e1, c1, r1, k1⟩ := checkCapacity_ok r o.size
    obtain ⟨h2, e2, c2, r4⟩ := memcpy_behind r1 r1 (by omega)
    refine ⟨h2, ⟨o1.size + o1.size, o1.cap, o1.ptr⟩, ?_, changed_trans c1 c2, r4⟩
    simp only [e1, ok_bind, if_true, e2]
    rfl

theorem sound : Sound cls string owns BRep where
  live := brep_live
  frame := brep_frame
  reads := brep_read
  make := by
    intro h a v e
    cases a with
    | empty =>
      simp only [string, Option.some.injEq] at e
      subst e
      exact ⟨h ++ [some (List.replicate 16 (some 0))], ⟨0, 16, some h.length⟩, rfl, changed_alloc h _,
        h.length, List.replicate 16 (some 0), rfl, getElem?_alloc h _, rfl, rfl⟩
    | chars l =>
      simp only [string, Option.some.injEq] at e
      subst e
      have hg := round16_ge l.length
      have hf := fillFrom_new h l (List.replicate (round16 l.length) (some 0)) (by simpa using hg)
      refine ⟨_, ⟨l.length, round16 l.length, some h.length⟩, ?_, changed_alloc h _, brep_of_alloc h _ _ _ ((List.replicate (round16 l.length) (some 0)).drop l.length) (by simp) ?_⟩
      · simp only [cls, make, newArr, Heap.alloc, hf, ok_bind]
        rfl
      · simp
        omega
  copy := by
    intro h o v v' r e
    simp only [string, Option.some.injEq] at e
    subst e
    have hm := memcpy_elems r (some 0) o.cap (brep_cap r)
    refine ⟨_, ⟨o.size, o.cap, some h.length⟩, ?_, changed_alloc h _, brep_of_alloc h _ _ _ _ (brep_size r) (pad_length v _ (brep_cap r) (some 0)).symm⟩
    simp only [cls, copy, newArr, Heap.alloc, hm, ok_bind]
    rfl
  mutate := by
    intro h o v m v' r e
    have hs := brep_size r
    cases m with
    | set i x =>
      simp only [string, put_iff] at e
      obtain ⟨hi, rfl⟩ := e
      obtain ⟨h', e1, c, r'⟩ := set_elem r hi x
      refine ⟨h', o, ?_, c, r'⟩
      have hn : ¬ i ≥ o.size := by omega
      simp only [cls, call, if_neg hn, e1, ok_bind]
      rfl
    | append x =>
      simp only [string, Option.some.injEq] at e
      subst e
      obtain ⟨h1, o1, e1, c1, r1, k1⟩ := checkCapacity_ok r 1
      obtain ⟨h2, e2, c2, r2⟩ := push_elem r1 (by omega) x
      refine ⟨h2, { o1 with size := o1.size + 1 }, ?_, changed_trans c1 c2, r2⟩
      simp only [cls, call, e1, ok_bind, e2]
      rfl
    | clear =>
      simp only [string, Option.some.injEq] at e
      subst e
      by_cases hc : o.cap > 16
      · refine ⟨freed h o.ptr ++ [some (List.replicate 16 (some 0))], ⟨0, 16, some h.length⟩, ?_, changed_freed_alloc h o.ptr (brep_lt r) _,
          freed_alloc_brep (v := []) (r := List.replicate 16 (some 0)) rfl rfl⟩
        simp only [cls, call, if_pos hc, deleteArr_ok h o.ptr (brep_live r), ok_bind, newArr, Heap.alloc, freed_length]
        rfl
      · refine ⟨h, { o with size := 0 }, ?_, changed_none h _, brep_empty r⟩
        simp only [cls, call, if_neg hc]
  binary := by
    intro h o v o2 v2 b v' r r2 d e
    cases b with
    | assign =>
      simp only [string, Option.some.injEq] at e
      subst e
      have r3 : BRep (freed h o.ptr) o2 v2 := brep_freed r2 d
      have hm := memcpy_elems r3 (some 0) o2.cap (brep_cap r3)
      refine ⟨_, ⟨o2.size, o2.cap, some h.length⟩, ?_, changed_freed_alloc h o.ptr (brep_lt r) _,
        freed_alloc_brep (brep_size r3) (pad_length v2 _ (brep_cap r3) (some 0)).symm⟩
      rw [freed_length] at hm
      simp only [cls, binary, assign, Bool.false_eq_true, if_false, deleteArr_ok h o.ptr (brep_live r), ok_bind, newArr, Heap.alloc,
        freed_length, hm]
      rfl
    | append =>
      simp only [string, Option.some.injEq] at e
      subst e
      exact append_ok r r2 d
  binarySelf := by
    intro h o v b v' r e
    cases b with
    | assign =>
      simp only [string, Option.some.injEq] at e
      subst e
      exact ⟨h, o, rfl, changed_none h _, r⟩
    | append =>
      simp only [string, Option.some.injEq] at e
      subst e
      exact append_self r
  dtor := by
    intro h o v r
    exact ⟨freed h o.ptr, deleteArr_ok h o.ptr (brep_live r), changed_freed h o.ptr⟩

end Str

/-! ### StringList -/
namespace StrList

theorem grow_ge (cap need : Nat) : need ≤ grow cap need ∧ cap ≤ grow cap need := by
  unfold grow
  split
  · have := grow_ge (cap + 8) need
    omega
  · omega
termination_by need - cap

theorem checkSize_ok (e : α) {h : Mem α} {o : Obj} {v : List (Option α)} (r : BRep h o v) (w : Written v) (more : Nat) :
    ∃ h' o', checkSize e more o h = .ok (h', o') ∧ Changed h (owns o) h' (owns o') ∧ BRep h' o' v ∧ v.length + more ≤ o'.cap ∧
      (¬ o.size + more < o.cap → ∀ p ∈ owns o, h'[p]? = some none) := by
  have hs := brep_size r
  unfold checkSize
  by_cases hc : o.size + more < o.cap
  · rw [if_pos hc]
    exact ⟨h, o, rfl, changed_none h _, r, by omega, fun hn => absurd hc hn⟩
  · rw [if_neg hc]
    have hg := grow_ge o.cap (o.size + more)
    have hm := copy_elems r w (some e) (grow o.cap (o.size + more)) (by omega)
    refine ⟨freed h o.ptr ++ [some (v ++ List.replicate (grow o.cap (o.size + more) - v.length) (some e))],
      ⟨o.size, grow o.cap (o.size + more), some h.length⟩, ?_, changed_freed_alloc h o.ptr (brep_lt r) _, ?_, ?_, ?_⟩
    · simp only [newArr, Heap.alloc, hm, ok_bind, free_after h o v _ r]
      rfl
    · exact freed_alloc_brep hs (pad_length v _ (by omega) _).symm
    · show v.length + more ≤ grow o.cap (o.size + more)
      omega
    · intro _ p hp
      have hlt := brep_lt r p hp
      rw [List.getElem?_append_left (by rw [freed_length]; exact hlt)]
      cases ho : o.ptr with
      | none => simp [owns, ho] at hp
      | some q =>
        simp [owns, ho] at hp
        subst hp
        simp [freed, hlt]

theorem append_ok (e : α) {h : Mem α} {o : Obj} {v : List (Option α)} (r : BRep h o v) (w : Written v) (s : α) :
    ∃ h' o', append e s o h = .ok (h', o') ∧ Changed h (owns o) h' (owns o') ∧ BRep h' o' (v ++ [some s]) := by
  obtain ⟨h1, o1, e1, c1, r1, k1, _⟩ := checkSize_ok e r w 1
  obtain ⟨h2, e2, c2, r2⟩ := push_elem r1 (by omega) s
  refine ⟨h2, { o1 with size := o1.size + 1 }, ?_, changed_trans c1 c2, r2⟩
  simp only [append, e1, ok_bind, e2]
  rfl

theorem written_single (s : α) : Written [some s] := by
  intro i hi
  simp at hi
  subst hi
  exact ⟨s, rfl⟩

theorem sound (e : α) : Sound (cls e) (stringList e) owns WRep where
  live := fun r => brep_live r.1
  frame := fun r x => ⟨brep_frame r.1 x, r.2⟩
  reads := fun r => brep_read r.1
  make := by
    intro h a v ev
    cases a with
    | empty =>
      simp only [stringList, Option.some.injEq] at ev
      subst ev
      exact ⟨h ++ [some (List.replicate 8 (some e))], ⟨0, 8, some h.length⟩, rfl, changed_alloc h _,
        ⟨h.length, List.replicate 8 (some e), rfl, getElem?_alloc h _, rfl, rfl⟩, written_nil⟩
    | sized n =>
      simp only [stringList, Option.some.injEq] at ev
      subst ev
      refine ⟨h ++ [some (List.replicate n (some e))], ⟨n, n, some h.length⟩, rfl, changed_alloc h _, ?_, written_replicate n e⟩
      exact ⟨h.length, [], rfl, by simp, by simp, by simp⟩
    | single s =>
      simp only [stringList, Option.some.injEq] at ev
      subst ev
      have r0 : BRep (h ++ [some (List.replicate 8 (some e))]) ⟨0, 8, some h.length⟩ [] :=
        ⟨h.length, List.replicate 8 (some e), rfl, getElem?_alloc h _, rfl, rfl⟩
      obtain ⟨h', o', e1, c1, r1⟩ := append_ok e r0 written_nil s
      exact ⟨h', o', e1, changed_trans (changed_alloc h _) c1, r1, written_single s⟩
  copy := by
    intro h o v v' r ev
    simp only [stringList, Option.some.injEq] at ev
    subst ev
    have hm := copy_elems r.1 r.2 (some e) o.cap (brep_cap r.1)
    refine ⟨_, ⟨o.size, o.cap, some h.length⟩, ?_, changed_alloc h _,
      brep_of_alloc h _ _ _ _ (brep_size r.1) (pad_length v _ (brep_cap r.1) (some e)).symm, r.2⟩
    simp only [cls, copy, newArr, Heap.alloc, hm, ok_bind]
    rfl
  mutate := by
    intro h o v m v' r ev
    have hs := brep_size r.1
    cases m with
    | append s =>
      simp only [stringList, Option.some.injEq] at ev
      subst ev
      obtain ⟨h', o', e1, c1, r1⟩ := append_ok e r.1 r.2 s
      exact ⟨h', o', e1, c1, r1, written_append r.2 (written_single s)⟩
    | set i x =>
      simp only [stringList, put_iff] at ev
      obtain ⟨hi, rfl⟩ := ev
      obtain ⟨h', e1, c, r'⟩ := set_elem r.1 hi x
      refine ⟨h', o, ?_, c, r', written_set r.2 i x⟩
      have hn : ¬ i ≥ o.size := by omega
      simp only [cls, call, if_neg hn, e1, ok_bind]
      rfl
    | clear =>
      simp only [stringList, Option.some.injEq] at ev
      subst ev
      exact ⟨h, { o with size := 0 }, rfl, changed_none h _, brep_empty r.1, written_nil⟩
    | reserve n =>
      simp only [stringList, Option.some.injEq] at ev
      subst ev
      obtain ⟨h', o', e1, c1, r1, _⟩ := checkSize_ok e r.1 r.2 n
      exact ⟨h', o', e1, c1, r1, r.2⟩
  binary := by
    intro h o v o2 v2 b v' r r2 d ev
    cases b
    simp only [stringList, Option.some.injEq] at ev
    subst ev
    have r3 : BRep (freed h o.ptr) o2 v2 := brep_freed r2.1 d
    have hm := copy_elems r3 r2.2 (some e) o2.cap (brep_cap r3)
    refine ⟨_, ⟨o2.size, o2.cap, some h.length⟩, ?_, changed_freed_alloc h o.ptr (brep_lt r.1) _,
      freed_alloc_brep (brep_size r3) (pad_length v2 _ (brep_cap r3) (some e)).symm, r2.2⟩
    rw [freed_length] at hm
    simp only [cls, assign, Bool.false_eq_true, if_false, deleteArr_ok h o.ptr (brep_live r.1), ok_bind, newArr, Heap.alloc,
      freed_length, hm]
    rfl
  binarySelf := by
    intro h o v b v' r ev
    cases b
    simp only [stringList, Option.some.injEq] at ev
    subst ev
    exact ⟨h, o, rfl, changed_none h _, r⟩
  dtor := by
    intro h o v r
    exact ⟨freed h o.ptr, deleteArr_ok h o.ptr (brep_live r.1), changed_freed h o.ptr⟩

end StrList

/-! ### Vector -/
namespace Vec

def Rep (h : Mem α) (o : Obj) (v : List (Option α)) : Prop := NRep h o v ∧ Written v

theorem copy_ok {h : Mem α} {o : Obj} {v : List (Option α)} (r : NRep h o v) (w : Written v) :
    (v = [] ∧ copy o h = .ok (h, ⟨0, 0, none⟩)) ∨
    ∃ t, copy o h = .ok (h ++ [some (v ++ t)], ⟨o.size, o.size, some h.length⟩) ∧ o.size = v.length ∧ o.size = (v ++ t).length := by
  unfold copy
  by_cases h0 : o.size > 0
  · right
    rw [if_pos h0]
    rcases r with ⟨_, e2, _⟩ | r
    · omega
    · have hs := brep_size r
      have hm := copy_elems r w none o.size (by omega)
      refine ⟨List.replicate (o.size - v.length) none, ?_, hs, (pad_length v _ (by omega) _).symm⟩
      simp only [newArr, Heap.alloc, hm, ok_bind]
      rfl
  · left
    rw [if_neg h0]
    have hv : o.size = v.length := by
      rcases r with ⟨_, e2, _, e4⟩ | r
      · simp [e2, e4]
      · exact brep_size r
    have h00 : o.size = 0 := by omega
    exact ⟨List.length_eq_zero_iff.1 (by omega), by rw [h00]⟩

theorem sound (zero : α) : Sound (cls zero) (vector zero) owns Rep where
  live := fun r => nrep_live r.1
  frame := fun r x => ⟨nrep_frame r.1 x, r.2⟩
  reads := fun r => nrep_read r.1
  make := by
    intro h a v e
    cases a with
    | null =>
      simp only [vector, Option.some.injEq] at e
      subst e
      exact ⟨h, ⟨0, 0, none⟩, rfl, changed_none h [], Or.inl ⟨rfl, rfl, rfl, rfl⟩, written_nil⟩
    | sized n =>
      simp only [vector, Option.some.injEq] at e
      subst e
      have hf := fillFrom_new h (List.replicate n zero) (List.replicate n none) (by simp)
      refine ⟨_, ⟨n, n, some h.length⟩, ?_, changed_alloc h _, Or.inr (brep_of_alloc h _ _ (List.replicate n (some zero)) [] (by simp) (by simp)), written_replicate n zero⟩
      simp only [cls, make, newArr, Heap.alloc, hf, ok_bind]
      simp [pure, Except.pure]
  copy := by
    intro h o v v' r e
    simp only [vector, Option.some.injEq] at e
    subst e
    rcases copy_ok r.1 r.2 with ⟨e1, e2⟩ | ⟨t, e1, e2, e3⟩
    · exact ⟨h, ⟨0, 0, none⟩, e2, changed_none h [], Or.inl ⟨rfl, rfl, rfl, e1⟩, r.2⟩
    · exact ⟨_, _, e1, changed_alloc h _, Or.inr (brep_of_alloc h _ _ _ _ e2 e3), r.2⟩
  mutate := by
    intro h o v m v' r e
    cases m with
    | set i x =>
      simp only [vector, put_iff] at e
      obtain ⟨hi, rfl⟩ := e
      rcases r.1 with ⟨_, _, _, e4⟩ | r1
      · subst e4; simp at hi
      · obtain ⟨h', e1, c, r'⟩ := set_elem r1 hi x
        exact ⟨h', o, by simp only [cls, call, e1, ok_bind]; rfl, c, Or.inr r', written_set r.2 i x⟩
  binary := by
    intro h o v o2 v2 b v' r r2 d e
    cases b
    simp only [vector, Option.some.injEq] at e
    subst e
    have r3 : NRep (freed h o.ptr) o2 v2 := nrep_frame r2.1 (fun p hp => freed_other h o.ptr p (fun hq => d p hq hp))
    have hd := deleteArr_ok h o.ptr (nrep_live r.1)
    rcases copy_ok r3 r2.2 with ⟨e1, e2⟩ | ⟨t, e1, e2, e3⟩
    · refine ⟨freed h o.ptr, ⟨0, 0, none⟩, ?_, changed_freed h o.ptr, Or.inl ⟨rfl, rfl, rfl, e1⟩, r2.2⟩
      simp only [cls, assign, Bool.false_eq_true, if_false, hd, ok_bind, e2]
    · rw [freed_length] at e1
      refine ⟨freed h o.ptr ++ [some (v2 ++ t)], ⟨o2.size, o2.size, some h.length⟩, ?_, changed_freed_alloc h o.ptr (nrep_lt r.1) _,
        Or.inr (freed_alloc_brep e2 e3), r2.2⟩
      simp only [cls, assign, Bool.false_eq_true, if_false, hd, ok_bind, e1]
  binarySelf := by
    intro h o v b v' r e
    cases b
    simp only [vector, Option.some.injEq] at e
    subst e
    exact ⟨h, o, rfl, changed_none h _, r⟩
  dtor := by
    intro h o v r
    exact ⟨freed h o.ptr, deleteArr_ok h o.ptr (nrep_live r.1), changed_freed h o.ptr⟩

end Vec

end Verif.Own
