import Verif.Own.SoundMat
import Verif.Own.Implicit
import Verif.Own.Resource
/-
C96: value types own their memory.
-/
namespace Verif.Own.Props
open Verif Verif.Own
variable {α : Type}

/-! ### values -/

/-- ByteArray: every program on variables works on their values, without undefined behaviour and without leak -/
theorem bytearray_values : Refines ByteArray.cls byteArray := refines ByteArray.sound

/-- CharArray; missing: an array without a buffer cannot be copied (`chararray_copy_null`) -/
theorem chararray_values_partial : Refines CharArray.cls charArray := refines CharArray.sound

/-- Array<T>; missing: numbers have to be written before the array is copied (`array_copy_unwritten`) -/
theorem array_values_partial (init : Option α) : Refines (Array.cls init) (array init) := refines (Array.sound init)

/-- String, including `s = s` and `s.append(s)` -/
theorem string_values : Refines Str.cls string := refines Str.sound

/-- StringList; the strings are values (`string_values`).  Missing: `append` with an element of the list itself
(`append_element`). -/
theorem stringlist_values_partial (e : α) : Refines (StrList.cls e) (stringList e) := refines (StrList.sound e)

/-- Vector -/
theorem vector_values (zero : α) : Refines (Vec.cls zero) (vector zero) := refines (Vec.sound zero)

/-- Matrix -/
theorem matrix_values (zero : α) : Refines (Mat.cls zero) (matrix zero) := refines (Mat.sound zero)

/-- what `Refines` means for two variables: an operation on one of them leaves the other alone (String) -/
theorem string_copy_independent (os : List (Op Str.Args Str.Call Str.Binary)) (vs : List (Option (List (Option Str.Ch)))) (v : List (Option Str.Ch))
    (x : Nat) (c : Str.Ch) (e : vrun string [] os = some vs) (ex : valueOf vs x = some v) :
    ∃ w o o', run Str.cls World.start (os ++ [.copy x, .mutate x (.append c)]) = .ok w ∧
      w.obj x = .ok o ∧ Str.observe o w.heap = .ok (v ++ [some c]) ∧
      w.obj vs.length = .ok o' ∧ Str.observe o' w.heap = .ok v := by
  have app : ∀ (a b : List (Op Str.Args Str.Call Str.Binary)) vs0, vrun string vs0 (a ++ b) = (vrun string vs0 a).bind (fun vs => vrun string vs b) := by
    intro a
    induction a with
    | nil => intro b vs0; rfl
    | cons o a ih =>
      intro b vs0
      simp only [List.cons_append, vrun]
      cases vstep string vs0 o with
      | none => rfl
      | some vs1 => simp only [Option.bind_some]; exact ih b vs1
  have hx : x < vs.length := (List.getElem?_eq_some_iff.1 (value_iff.1 ex)).1
  have ex2 : valueOf (vs ++ [some v]) x = some v := by
    rw [value_iff, List.getElem?_append_left hx]
    exact value_iff.1 ex
  have e2 : vrun string [] (os ++ [.copy x, .mutate x (.append c)]) = some ((vs ++ [some v]).set x (some (v ++ [some c]))) := by
    rw [app, e]
    simp only [Option.bind_some, vrun, vstep, ex, string, Option.map_some, ex2]
  obtain ⟨w, hw, hv, _⟩ := string_values _ _ e2
  obtain ⟨o, ho, hoo⟩ := hv x (v ++ [some c]) (by rw [value_iff, List.getElem?_set_self (by simp; omega)])
  obtain ⟨o', ho', hoo'⟩ := hv vs.length v (by rw [value_iff, List.getElem?_set_ne (by omega)]; simp)
  exact ⟨w, o, o', hw, ho, hoo, ho', hoo'⟩

/-! ### where the classes fail -/

/-- growing a ByteArray that has a block gives it back with the wrong operator -/
theorem resize_undefined (o : Obj) (h : Mem Byte) (v : List (Option Byte)) (r : BRep h o v) (n : Nat) (hn : o.cap ≤ n) :
    ByteArray.resize n o h = .error .ub := by
  obtain ⟨p, t, e1, e2, e3, e4⟩ := r
  have hc := copyLoop_fresh true h p v.length (v ++ t) (List.replicate (n + 1) none) e2 (by simp) (by
    have : v.length ≤ o.cap := by rw [e4]; simp
    simp; omega) (by simp)
  have hnn : ¬ n < o.cap := by omega
  simp only [ByteArray.resize, if_neg hnn, newArr, Heap.alloc]
  rw [e1, e3, hc, ok_bind]
  have hz : ∃ h', ByteArray.zeroLoop (some h.length) n v.length (h ++ [some ((v ++ t).take v.length ++ (List.replicate (n + 1) none).drop v.length)]) = .ok h' := by
    have hv : v.length ≤ n := by
      have : v.length ≤ o.cap := by rw [e4]; simp
      omega
    have key : ∀ k i (hh : Mem Byte) (b : List (Option Byte)), n - i ≤ k → hh[h.length]? = some (some b) → b.length = n + 1 →
        ∃ h', ByteArray.fillLoop 0 (some h.length) n i hh = .ok h' := by
      intro k
      induction k with
      | zero =>
        intro i hh b hk _ _
        unfold ByteArray.fillLoop
        rw [if_neg (by omega)]
        exact ⟨hh, rfl⟩
      | succ k ih =>
        intro i hh b hk eb hb
        unfold ByteArray.fillLoop
        by_cases hi : i < n
        · rw [if_pos hi, wrCell_ok eb (by omega), ok_bind]
          exact ih (i + 1) _ (b.set i (some 0)) (by omega) (by rw [List.getElem?_set_self (Heap.lt_of_live eb)]) (by simpa using hb)
        · rw [if_neg hi]
          exact ⟨hh, rfl⟩
    refine key n v.length _ _ (by omega) (getElem?_alloc h _) ?_
    simp; omega
  obtain ⟨h', hz⟩ := hz
  rw [hz, ok_bind]
  rfl

/-- copying or assigning an array without a buffer calls `memcpy` with a null pointer -/
theorem chararray_copy_null (h : Mem CharArray.Ch) (o : Obj) (v : List (Option CharArray.Ch)) (r : BRep h o v) :
    CharArray.make .null h = .ok (h, ⟨0, 0, none⟩) ∧ CharArray.copy ⟨0, 0, none⟩ h = .error .ub ∧
      CharArray.assign false o ⟨0, 0, none⟩ h = .error .ub := by
  refine ⟨rfl, rfl, ?_⟩
  simp only [CharArray.assign, Bool.false_eq_true, if_false, deleteArr_ok h o.ptr (brep_live r), ok_bind]
  rfl

/-- copying an array of numbers nothing was written to reads indeterminate values -/
theorem array_copy_unwritten (n : Nat) (h : Mem α) (hn : 0 < n) :
    ∃ h' o, Array.make none n h = .ok (h', o) ∧ Array.copy none o h' = .error .ub := by
  refine ⟨_, _, rfl, ?_⟩
  simp only [Array.copy, newArr, Heap.alloc]
  unfold copyLoop
  rw [if_pos hn]
  have e : ((h ++ [some (List.replicate n none)]) ++ [some (List.replicate n (none : Option α))])[h.length]? = some (some (List.replicate n none)) := by
    rw [List.getElem?_append_left (by simp)]
    exact getElem?_alloc h _
  rw [rdCell_ok (x := none) e (by simp [hn])]
  rfl

/-- `list.append(list[i])`: fine as long as there is room, otherwise the element is read from the block just freed -/
theorem append_element (e : α) (o : Obj) (h : Mem α) (v : List (Option α)) (s : α) (r : BRep h o v) (w : Written v) (i : Nat) (hi : v[i]? = some (some s)) :
    (o.size + 1 < o.cap → ∃ h' o', StrList.appendElement e i o h = .ok (h', o') ∧ BRep h' o' (v ++ [some s])) ∧
    (o.cap ≤ o.size + 1 → StrList.appendElement e i o h = .error .ub) := by
  have hlt := (List.getElem?_eq_some_iff.1 hi).1
  constructor
  · intro hc
    obtain ⟨p, t, e1, e2, e3, e4⟩ := r
    have r : BRep h o v := ⟨p, t, e1, e2, e3, e4⟩
    obtain ⟨h2, f2, _, r2⟩ := push_elem r (by omega) s
    refine ⟨h2, { o with size := o.size + 1 }, ?_, r2⟩
    have hrd : rdCell h o.ptr i = .ok (some s) := by
      rw [e1]
      exact rdCell_ok e2 (by rw [List.getElem?_append_left hlt]; exact hi)
    simp only [StrList.appendElement, StrList.checkSize, if_pos hc, ok_bind, hrd, defined, f2]
    rfl
  · intro hc
    obtain ⟨h1, o1, f1, _, _, _, fr⟩ := StrList.checkSize_ok e r w 1
    obtain ⟨p, t, e1, _⟩ := r
    have hfr := fr (by omega) p (by simp [owns, e1])
    simp only [StrList.appendElement, f1, ok_bind, e1, rdCell, Heap.load_free hfr]
    rfl

/-- so the eighth `list.append(list[0])` on a list that began empty is undefined: the list has 8 cells -/
theorem append_element_eighth (e s : α) (h : Mem α) :
    ∃ h1 o1, run (StrList.cls e) ⟨h, []⟩ (.make .empty :: List.replicate 7 (.mutate 0 (.append s))) = .ok ⟨h1, [some o1]⟩ ∧
      StrList.appendElement e 0 o1 h1 = .error .ub := by
  have r0 : WRep (h ++ [some (List.replicate 8 (some e))]) (⟨0, 8, some h.length⟩ : Obj) [] :=
    ⟨⟨h.length, List.replicate 8 (some e), rfl, getElem?_alloc h _, rfl, rfl⟩, written_nil⟩
  have room : ∀ (n : Nat) (hh : Mem α) (v : List (Option α)), WRep hh ⟨n, 8, some h.length⟩ v → n + 1 < 8 →
      ∃ h', StrList.call e (.append s) ⟨n, 8, some h.length⟩ hh = .ok (h', ⟨n + 1, 8, some h.length⟩) ∧
        WRep h' ⟨n + 1, 8, some h.length⟩ (v ++ [some s]) := by
    intro n hh v r hc
    have hs : n = v.length := brep_size r.1
    obtain ⟨h2, f2, _, r2⟩ := push_elem r.1 (by show v.length < 8; omega) s
    refine ⟨h2, ?_, r2, written_append r.2 (StrList.written_single s)⟩
    have f2' : wrCell hh (some h.length) n (some s) = .ok h2 := f2
    simp only [StrList.call, StrList.append, StrList.checkSize, if_pos hc, ok_bind, f2']
    rfl
  obtain ⟨g1, a1, r1⟩ := room 0 _ _ r0 (by omega)
  obtain ⟨g2, a2, r2⟩ := room 1 _ _ r1 (by omega)
  obtain ⟨g3, a3, r3⟩ := room 2 _ _ r2 (by omega)
  obtain ⟨g4, a4, r4⟩ := room 3 _ _ r3 (by omega)
  obtain ⟨g5, a5, r5⟩ := room 4 _ _ r4 (by omega)
  obtain ⟨g6, a6, r6⟩ := room 5 _ _ r5 (by omega)
  obtain ⟨g8, a8, r8⟩ := room 6 _ _ r6 (by omega)
  refine ⟨g8, ⟨7, 8, some h.length⟩, ?_, (append_element e _ g8 _ s r8.1 r8.2 0 rfl).2 (Nat.le_refl 8)⟩
  have st : ∀ (hh h' : Mem α) (o o' : Obj), StrList.call e (.append s) o hh = .ok (h', o') →
      step (StrList.cls e) ⟨hh, [some o]⟩ (.mutate 0 (.append s)) = .ok ⟨h', [some o']⟩ := by
    intro hh h' o o' hc
    have hc' : (StrList.cls e).mutate (.append s) o hh = .ok (h', o') := hc
    simp only [step, World.obj, Heap.load, List.getElem?_cons_zero, ok_bind, hc']
    rfl
  have s0 : step (StrList.cls e) ⟨h, []⟩ (.make .empty) = .ok ⟨h ++ [some (List.replicate 8 (some e))], [some ⟨0, 8, some h.length⟩]⟩ := rfl
  simp only [Nat.reduceAdd] at a1 a2 a3 a4 a5 a6 a8
  have hrep : ∀ x : Op (StrList.Args α) (StrList.Call α) Assign, List.replicate 7 x = [x, x, x, x, x, x, x] := fun _ => rfl
  rw [hrep]
  simp only [run, s0, ok_bind, st _ _ _ _ a1, st _ _ _ _ a2, st _ _ _ _ a3, st _ _ _ _ a4, st _ _ _ _ a5,
    st _ _ _ _ a6, st _ _ _ _ a8]

/-- classes copied by the compiler: the second destructor frees the same memory again -/
theorem nurbs_copy_double_free (c k w : List α) (h : Mem α) :
    ∃ h' o, nurbsMake c k w h = .ok (h', o) ∧ implicitCopy o h' = .ok (h', o) ∧
      ∃ h'', nurbsDtor o h' = .ok h'' ∧ nurbsDtor o h'' = .error .ub := by
  have f1 := fillFrom_new h c (List.replicate c.length none) (by simp)
  have f2 := fillFrom_new (h ++ [some (c.map some)]) k (List.replicate k.length none) (by simp)
  have f3 := fillFrom_new (h ++ [some (c.map some)] ++ [some (k.map some)]) w (List.replicate w.length none) (by simp)
  simp only [List.drop_replicate, Nat.sub_self, List.replicate_zero, List.append_nil] at f1 f2 f3
  refine ⟨h ++ [some (c.map some)] ++ [some (k.map some)] ++ [some (w.map some)], ⟨some h.length, some (h.length + 1), some (h.length + 2)⟩, ?_, rfl, ?_⟩
  · simp only [nurbsMake, newArr, Heap.alloc, f1, ok_bind, f2, f3]
    simp [pure, Except.pure]
  · have e0 : (h ++ [some (c.map some)] ++ [some (k.map some)] ++ [some (w.map some)])[h.length]? = some (some (c.map some)) := by
      simp [List.append_assoc]
    have hl : h.length < (h ++ [some (c.map some)] ++ [some (k.map some)] ++ [some (w.map some)]).length := by simp
    have key : ∀ hh : Mem α, hh[h.length]? = some none → nurbsDtor ⟨some h.length, some (h.length + 1), some (h.length + 2)⟩ hh = .error .ub := by
      intro hh e
      simp only [nurbsDtor, deleteArr, Heap.free, e]
      rfl
    refine ⟨h ++ [none] ++ [none] ++ [none], ?_, key _ (by simp [List.append_assoc])⟩
    have a1 : Heap.free (h ++ [some (c.map some)] ++ [some (k.map some)] ++ [some (w.map some)]) h.length =
        .ok (h ++ [none] ++ [some (k.map some)] ++ [some (w.map some)]) := by
      rw [Heap.free_ok e0]
      simp [List.append_assoc, List.set_append_right]
    have a2 : Heap.free (h ++ [none] ++ [some (k.map some)] ++ [some (w.map some)]) (h.length + 1) =
        .ok (h ++ [none] ++ [none] ++ [some (w.map some)]) := by
      rw [Heap.free_ok (x := k.map some) (by simp [List.append_assoc])]
      simp [List.append_assoc, List.set_append_right]
    have a3 : Heap.free (h ++ [none] ++ [none] ++ [some (w.map some)]) (h.length + 2) =
        .ok (h ++ [none] ++ [none] ++ [none]) := by
      rw [Heap.free_ok (x := w.map some) (by simp [List.append_assoc])]
      simp [List.append_assoc, List.set_append_right]
    simp only [nurbsDtor, deleteArr, a1, ok_bind, a2, a3]

/-- a stream that owns its buffer cannot be copied; one that does not can -/
theorem stream_copy (p : Nat) (b : List (Option α)) (h : Mem α) (e : h[p]? = some (some b)) :
    (∃ h', streamDtor ⟨some p, true⟩ h = .ok h' ∧ streamDtor ⟨some p, true⟩ h' = .error .ub) ∧
    (streamDtor ⟨some p, false⟩ h = .ok h) := by
  refine ⟨⟨h.set p none, ?_, ?_⟩, rfl⟩
  · simp only [streamDtor, deleteArr, if_true, Heap.free_ok e]
  · have : (h.set p none)[p]? = some none := by rw [List.getElem?_set_self (Heap.lt_of_live e)]
    simp only [streamDtor, deleteArr, if_true, Heap.free, this]

/-- a copied Hashtable -/
theorem hashtable_copy_double_free (null : α) (h : Mem α) :
    ∃ h' o, tableMake null h = .ok (h', o) ∧ implicitCopy o h' = .ok (h', o) ∧
      ∃ h'', tableDtor null o h' = .ok h'' ∧ tableDtor null o h'' = .error .ub := by
  have f1 := fillFrom_new h (List.replicate 7 null) (List.replicate 7 none) (by simp)
  simp only [List.length_replicate, List.drop_replicate, Nat.sub_self, List.replicate_zero, List.append_nil, List.map_replicate] at f1
  have cl : ∀ k i, k + i = 7 → clearLoop (some h.length) 7 i null (h ++ [some (List.replicate 7 (some null))]) = .ok (h ++ [some (List.replicate 7 (some null))]) := by
    intro k
    induction k with
    | zero =>
      intro i hi
      unfold clearLoop
      rw [if_neg (by omega)]
    | succ k ih =>
      intro i hi
      unfold clearLoop
      rw [if_pos (by omega), rdCell_ok (getElem?_alloc h _) (x := some null) (by rw [List.getElem?_replicate, if_pos (by omega)]), ok_bind,
        wrCell_ok (getElem?_alloc h _) (by simp; omega), ok_bind]
      have : (h ++ [some (List.replicate 7 (some null))]).set h.length (some ((List.replicate 7 (some null)).set i (some null))) =
          h ++ [some (List.replicate 7 (some null))] := by
        rw [List.set_append_right h.length _ (Nat.le_refl _), Nat.sub_self, List.set_cons_zero]
        rw [List.set_replicate_self]
      rw [this]
      exact ih (i + 1) (by omega)
  refine ⟨h ++ [some (List.replicate 7 (some null))], ⟨0, 7, some h.length⟩, ?_, rfl, h ++ [none], ?_, ?_⟩
  · simp only [tableMake, newArr, Heap.alloc, f1, ok_bind]
    rfl
  · simp only [tableDtor, cl 7 0 rfl, ok_bind, deleteArr]
    rw [Heap.free_ok (getElem?_alloc h _)]
    simp [List.set_append_right]
  · simp only [tableDtor]
    unfold clearLoop
    have : (h ++ [none] : Mem α)[h.length]? = some none := by simp
    simp only [Nat.zero_lt_succ, if_true, rdCell, Heap.load_free this]
    rfl

/-- SAXAttributes: the copy constructor uses pointers that were never set -/
theorem attributes_copy (o : AttrObj) (h : Mem α) : attrCopy o h = .error .ub := rfl

/-! ### Resource -/

/-- Resource: whatever the program does, no deleted stream is used, every variable has the stream it should have, and it is
alive.  Missing: streams that were overwritten by an assignment are never deleted (`resource_leak`); the last part says
that these are the only ones. -/
theorem resource_partial (os : List Res.Op) (v : Res.Names) (e : Res.nrun ⟨0, []⟩ os = some v) :
    ∃ w, Res.run Res.start os = .ok w ∧ w.vars = v.vars ∧
      (∀ (x p : Nat), v.vars[x]? = some (some p) → ∃ c, w.heap[p]? = some (some c) ∧ 0 < c) ∧
      (∀ (p : Nat), p < v.streams → ((∃ c, w.heap[p]? = some (some c)) ↔ (some p ∈ v.vars ∨ 0 < Res.lost p ⟨0, []⟩ os))) := by
  obtain ⟨w, hw, i⟩ := Res.run_inv os Res.inv_start e
  refine ⟨w, hw, i.vars, ?_, ?_⟩
  · intro x p hx
    exact ⟨_, Res.live_of_user i hx, by have := Res.users_pos hx; omega⟩
  · intro p hp
    have hc := i.count p hp
    have hu : some p ∈ v.vars ↔ 0 < Res.users v.vars p := by unfold Res.users; exact List.count_pos_iff.symm
    rw [hu, hc, Res.cell]
    simp only [Nat.zero_add]
    constructor
    · rintro ⟨c, hcc⟩
      split at hcc
      · cases hcc
      · omega
    · intro h
      rw [if_neg (by omega)]
      exact ⟨_, rfl⟩

/-- without assignments between different variables nothing leaks -/
theorem resource_no_leak (os : List Res.Op) (v : Res.Names) (e : Res.nrun ⟨0, []⟩ os = some v)
    (ha : ∀ x y, Res.Op.assign x y ∈ os → x = y) (hd : ∀ (x : Nat), (v.vars[x]?).join = none) :
    ∃ w, Res.run Res.start os = .ok w ∧ Heap.AllFreed w.heap := by
  obtain ⟨w, hw, i⟩ := Res.run_inv os Res.inv_start e
  have hl : ∀ (os : List Res.Op) (u : Res.Names) (p : Nat), (∀ x y, Res.Op.assign x y ∈ os → x = y) → Res.lost p u os = 0 := by
    intro os
    induction os with
    | nil => intro u p _; rfl
    | cons o os ih =>
      intro u p ha
      unfold Res.lost
      have h1 : Res.lostStep p u o = 0 := by
        cases o with
        | assign x y =>
          have := ha x y (by simp)
          simp [Res.lostStep, this]
        | _ => rfl
      rw [h1]
      cases Res.nstep u o with
      | none => rfl
      | some u' => simp [ih u' p (fun x y h => ha x y (List.mem_cons_of_mem _ h))]
  refine ⟨w, hw, ?_⟩
  intro c hc
  obtain ⟨p, hp, ep⟩ := List.getElem_of_mem hc
  have hps : p < v.streams := by rw [← i.len]; exact hp
  have hcnt := i.count p hps
  rw [List.getElem?_eq_getElem hp, ep] at hcnt
  have hu : Res.users v.vars p = 0 := by
    unfold Res.users
    rw [List.count_eq_zero]
    intro hm
    obtain ⟨x, hx, ex⟩ := List.getElem_of_mem hm
    have := hd x
    rw [List.getElem?_eq_getElem hx, ex] at this
    simp at this
  rw [hu, hl os _ p ha] at hcnt
  simpa [Res.cell] using hcnt

/-- `a = b` on two resources: the stream `a` had stays for ever -/
theorem resource_leak : ∃ w, Res.run Res.start [.make, .make, .assign 0 1, .destroy 0, .destroy 1] = .ok w ∧
    w.vars = [none, none] ∧ w.heap = [some 1, none] := ⟨_, rfl, rfl, rfl⟩

/-! ### the hypotheses are met -/

/-- a program of strings: construct, copy, change the copy, append it to itself, assign, destroy -/
example : vrun string [] [.make (.chars [104, 105]), .copy 0, .mutate 1 (.append 33), .binary 1 1 .append, .binary 0 1 .assign, .destroy 1] =
    some [some [some 104, some 105, some 33, some 104, some 105, some 33], none] := by decide

example : vrun byteArray [] [.make (.bytes [1, 2, 3]), .copy 0, .mutate 0 (.set 1 9), .make .null, .binary 2 0 .assign, .destroy 0, .destroy 1, .destroy 2] =
    some [none, none, none] := by decide

example : vrun (matrix (0 : Nat)) [] [.make (.sized 2 3), .mutate 0 (.set 1 2 7), .copy 0, .make .null, .binary 0 2 .assign] =
    some [some (0, 0, []), some (2, 3, [some 0, some 0, some 0, some 0, some 0, some 7]), some (0, 0, [])] := by decide

example : vrun charArray [] [.make (.sized 2), .make .null, .mutate 0 (.set 0 65), .binary 1 0 .assign, .copy 1] =
    some [some (some [some 65, some 0]), some (some [some 65, some 0]), some (some [some 65, some 0])] := by decide

example : vrun (array (some 0)) [] [.make 2, .mutate 0 (.set 0 (5 : Nat)), .copy 0, .binary 1 1 .assign] =
    some [some [some 5, some 0], some [some 5, some 0]] := by decide

example : vrun (stringList "") [] [.make (.single "a"), .mutate 0 (.append "b"), .copy 0, .mutate 0 .clear] =
    some [some [], some [some "a", some "b"]] := by decide

example : vrun (vector (0 : Nat)) [] [.make (.sized 2), .make .null, .binary 1 0 .assign, .mutate 0 (.set 0 3)] =
    some [some [some 3, some 0], some [some 0, some 0]] := by decide

/-- a block meets `BRep` -/
example : BRep [some [some (1 : Byte), some 0]] ⟨1, 2, some 0⟩ [some 1] := ⟨0, [some 0], rfl, rfl, rfl, rfl⟩

example : Res.nrun ⟨0, []⟩ [.make, .copy 0, .assign 1 1, .destroy 0, .destroy 1] = some ⟨1, [none, none]⟩ := rfl

end Verif.Own.Props
