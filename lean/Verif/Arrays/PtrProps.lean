import Verif.Arrays.PtrModel
import Verif.Sort.Props
import Verif.Fp32.Lemmas
/-
C118: arrays of pointers and of floats; sorting keeps equal elements in order.
-/
namespace Verif.Arrays
open Verif Verif.Sort

/-! ### Sorting is stable -/

section Stable
variable {α : Type}

/-- an exchange of neighbours of which one is not selected does not change what is selected -/
theorem filter_swap (p : α → Bool) : ∀ (v : List α) (i : Nat) (x y : α), v[i]? = some x → v[i + 1]? = some y → (p x = false ∨ p y = false) →
    ((v.set i y).set (i + 1) x).filter p = v.filter p
  | [], i, x, y, h, _, _ => by simp at h
  | [a], i, x, y, _, h, _ => by simp at h
  | a :: b :: v, 0, x, y, h1, h2, h => by
    simp at h1 h2
    subst h1; subst h2
    simp only [List.set_cons_zero, List.set_cons_succ, List.filter_cons]
    rcases h with h | h <;> simp [h]
  | a :: b :: v, i + 1, x, y, h1, h2, h => by
    have := filter_swap p (b :: v) i x y (by simpa using h1) (by simpa using h2) h
    simp only [List.set_cons_succ, List.filter_cons (x := a)]
    rw [this]

/-- and with what lies behind the sorted part left alone -/
theorem swap_take (v : List α) (i size : Nat) (x y : α) (hs : i + 1 < size) :
    ((v.set i y).set (i + 1) x).take size = ((v.take size).set i y).set (i + 1) x ∧ ((v.set i y).set (i + 1) x).drop size = v.drop size := by
  constructor
  · rw [List.take_set, List.take_set]
  · rw [List.drop_set_of_lt hs, List.drop_set_of_lt (by omega)]

theorem pass_stable (gt : α → α → Bool) (p : α → Bool) (hp : ∀ a b, p a = true → p b = true → gt a b = false) (size n : Nat) (hn : n ≤ size) :
    ∀ (k i newn : Nat) (v : List α) (r : Nat × List α), n - i = k → pass gt n i newn v = .ok r →
      (r.2.take size).filter p = (v.take size).filter p ∧ r.2.length = v.length := by
  intro k
  induction k with
  | zero =>
    intro i newn v r hk h
    rw [pass, if_neg (by omega)] at h
    cases h
    exact ⟨rfl, rfl⟩
  | succ k ih =>
    intro i newn v r hk h
    rw [pass] at h
    by_cases hi : i + 1 < n
    · rw [if_pos hi] at h
      by_cases hl : i + 1 < v.length
      · rw [rd_ok (by omega), rd_ok hl] at h
        simp only [bind, Except.bind] at h
        split at h
        · rename_i hg
          rw [wr_ok (by omega)] at h
          simp only at h
          rw [wr_ok (by simp; omega)] at h
          simp only at h
          obtain ⟨h1, h2⟩ := ih (i + 1) (i + 1) _ r (by omega) h
          refine ⟨?_, by rw [h2]; simp⟩
          rw [h1, (swap_take v i size _ _ (by omega)).1]
          refine filter_swap p (v.take size) i v[i] v[i + 1] ?_ ?_ ?_
          · rw [List.getElem?_take_of_lt (by omega), List.getElem?_eq_getElem (by omega)]
          · rw [List.getElem?_take_of_lt (by omega), List.getElem?_eq_getElem (by omega)]
          · cases hx : p v[i] with
            | false => exact Or.inl rfl
            | true =>
              cases hy : p v[i + 1] with
              | false => exact Or.inr rfl
              | true => rw [hp _ _ hx hy] at hg; cases hg
        · exact ih (i + 1) newn v r (by omega) h
      · exfalso
        by_cases hl' : i < v.length
        · rw [rd_ok hl', rd_ub (by omega)] at h
          cases h
        · rw [rd_ub (by omega)] at h
          cases h
    · rw [if_neg hi] at h
      cases h
      exact ⟨rfl, rfl⟩

theorem sortLoop_stable (gt : α → α → Bool) (p : α → Bool) (hp : ∀ a b, p a = true → p b = true → gt a b = false) (size : Nat) :
    ∀ (n : Nat), n ≤ size → ∀ (v w : List α), sortLoop gt n v = .ok w → (w.take size).filter p = (v.take size).filter p := by
  intro n
  induction n using Nat.strongRecOn with
  | ind n ih =>
    intro hn v w h
    rw [sortLoop] at h
    split at h
    · cases h
    · next m u e =>
      have s := (pass_stable gt p hp size n hn (n - 0) 0 1 v (m, u) rfl e).1
      split at h
      · have hmn : m < n := by rcases pass_newn gt n 0 1 v m u e with h | h <;> omega
        rw [ih m hmn (by omega) u w h]
        exact s
      · cases h
        exact s

/-- Sorting is stable: elements of which none is greater than another keep their order. -/
theorem sort_stable (gt : α → α → Bool) (size : Nat) (v w : List α) (h : Sort.sort gt size v = .ok w) (p : α → Bool)
    (hp : ∀ a b, p a = true → p b = true → gt a b = false) : (w.take size).filter p = (v.take size).filter p := by
  unfold Sort.sort at h
  split at h
  · cases h; rfl
  · exact sortLoop_stable gt p hp size size (Nat.le_refl _) v w h

/-- in particular the elements equivalent to a given one, for a total preorder -/
theorem sort_keeps_equivalents (gt : α → α → Bool) (hg : Sort.Props.Preorder gt) (size : Nat) (v w : List α) (h : Sort.sort gt size v = .ok w) (x : α) :
    (w.take size).filter (fun a => !gt a x && !gt x a) = (v.take size).filter (fun a => !gt a x && !gt x a) := by
  refine sort_stable gt size v w h _ ?_
  intro a b ha hb
  simp only [Bool.and_eq_true, Bool.not_eq_true'] at ha hb
  exact hg.trans a x b ha.1 hb.2

end Stable

/-! ### The loop with a comparison that may be undefined -/

section Map
variable {α β : Type}

theorem rd_map (f : α → β) (v : List α) (i : Nat) : rd (v.map f) i = (rd v i).map f := by
  by_cases h : i < v.length
  · rw [rd_ok h, rd_ok (by simpa using h)]
    simp [Except.map]
  · rw [rd_ub (b := v) (by omega), rd_ub (b := v.map f) (by simp; omega)]
    rfl

theorem wr_map (f : α → β) (v : List α) (i : Nat) (x : α) : wr (v.map f) i (f x) = (wr v i x).map (List.map f) := by
  by_cases h : i < v.length
  · rw [wr_ok h, wr_ok (by simpa using h)]
    simp [Except.map]
  · have h1 : wr v i x = .error .ub := by simp [wr, h]
    have h2 : wr (v.map f) i (f x) = .error .ub := by simp [wr, h]
    rw [h1, h2]; rfl

theorem passM_map (gt : α → α → Bool) (gtM : β → β → Res Bool) (f : α → β) (hf : ∀ a b, gtM (f a) (f b) = .ok (gt a b)) (n : Nat) :
    ∀ (k i newn : Nat) (v : List α), n - i = k → passM gtM n i newn (v.map f) = (pass gt n i newn v).map (fun r => (r.1, r.2.map f)) := by
  intro k
  induction k with
  | zero =>
    intro i newn v hk
    rw [pass, passM, if_neg (by omega), if_neg (by omega)]
    rfl
  | succ k ih =>
    intro i newn v hk
    rw [pass, passM]
    by_cases hi : i + 1 < n
    · rw [if_pos hi, if_pos hi, rd_map, rd_map]
      cases h1 : rd v i with
      | error e => rfl
      | ok a1 =>
      cases h2 : rd v (i + 1) with
      | error e => rfl
      | ok a2 =>
      simp only [Except.map, bind, Except.bind, hf]
      cases hg : gt a1 a2 with
      | false =>
        simp only [Bool.false_eq_true, if_false]
        exact ih (i + 1) newn v (by omega)
      | true =>
        simp only [if_true]
        rw [wr_map]
        cases h3 : wr v i a2 with
        | error e => rfl
        | ok v1 =>
        simp only [Except.map]
        rw [wr_map]
        cases h4 : wr v1 (i + 1) a1 with
        | error e => rfl
        | ok v2 =>
        simp only [Except.map]
        exact ih (i + 1) (i + 1) v2 (by omega)
    · rw [if_neg hi, if_neg hi]
      rfl

theorem sortLoopM_map (gt : α → α → Bool) (gtM : β → β → Res Bool) (f : α → β) (hf : ∀ a b, gtM (f a) (f b) = .ok (gt a b)) :
    ∀ (fuel n : Nat) (v : List α), n ≤ fuel → 1 ≤ n → sortLoopM gtM fuel n (v.map f) = (sortLoop gt n v).map (List.map f) := by
  intro fuel
  induction fuel with
  | zero => intro n v h1 h2; omega
  | succ fuel ih =>
    intro n v h1 h2
    rw [sortLoop]
    simp only [sortLoopM]
    rw [passM_map gt gtM f hf n (n - 0) 0 1 v rfl]
    split
    · next e h => rw [h]; rfl
    · next m u h =>
      rw [h]
      simp only [Except.map, bind, Except.bind]
      split
      · have hmn : m < n := by rcases pass_newn gt n 0 1 v m u h with h | h <;> omega
        exact ih m u (by omega) (by omega)
      · rfl

end Map

/-! ### Arrays of pointers -/

section Pointers
variable {α : Type}

/-- all cells have been set -/
def PArr.Is (a : PArr α) (l : List (Option α)) : Prop := a.data = l.map some

theorem PArr.ext {a b : PArr α} (h : a.data = b.data) : a = b := by cases a; cases b; cases h; rfl

/-- `get` returns what is there, `set` changes one element; a wrong index throws and changes nothing. -/
theorem ptr_get_set {a : PArr α} {l : List (Option α)} (h : a.Is l) (i : Nat) (x : Option α) :
    a.size = l.length ∧
    (∀ hi : i < l.length, a.get i = .ok l[i] ∧ ∃ b, a.set i x = .ok b ∧ b.Is (l.set i x)) ∧
    (l.length ≤ i → a.get i = .error .thrown ∧ a.set i x = .error .thrown) := by
  have hs : a.size = l.length := by simp [PArr.size, show a.data = _ from h]
  refine ⟨hs, fun hi => ⟨?_, ⟨⟨(l.set i x).map some⟩, ?_, rfl⟩⟩, fun hi => ?_⟩
  · unfold PArr.get
    rw [if_neg (by omega), show a.data = _ from h, rd_map, rd_ok hi]
    rfl
  · unfold PArr.set
    rw [if_neg (by omega), show a.data = _ from h, wr_map, wr_ok hi]
    rfl
  · unfold PArr.get PArr.set
    rw [if_pos (by omega), if_pos (by omega)]
    exact ⟨rfl, rfl⟩

theorem copyLoop_ok {β : Type} (l : List β) : ∀ (k i : Nat) (d : List (Option β)), l.length - i = k → i ≤ l.length → d.length = l.length →
    (∀ j, j < i → d[j]? = (l.map some)[j]?) → copyLoop (l.map some) i d = .ok (l.map some) := by
  intro k
  induction k with
  | zero =>
    intro i d hk hi hd h
    rw [copyLoop, if_neg (by simp; omega)]
    congr 1
    apply List.ext_getElem?
    intro j
    by_cases hj : j < i
    · exact h j hj
    · rw [List.getElem?_eq_none (by omega), List.getElem?_eq_none (by simp; omega)]
  | succ k ih =>
    intro i d hk hi hd h
    have hil : i < l.length := by omega
    rw [copyLoop, if_pos (by simpa using hil), rd_map, rd_ok hil]
    simp only [Except.map, bind, Except.bind, value]
    rw [wr_ok (by omega)]
    simp only
    refine ih (i + 1) _ (by omega) (by omega) (by simpa using hd) ?_
    intro j hj
    by_cases hji : j = i
    · subst hji
      rw [List.getElem?_set_self (by omega)]
      simp [hil]
    · rw [List.getElem?_set_ne (by omega)]
      exact h j (by omega)

/-- a copy (and an assigned array) has the same elements -/
theorem ptr_copy {a : PArr α} {l : List (Option α)} (h : a.Is l) : ∃ b, a.copy = .ok b ∧ b.Is l := by
  refine ⟨⟨l.map some⟩, ?_, rfl⟩
  unfold PArr.copy
  rw [show a.data = _ from h, copyLoop_ok l (l.length - 0) 0 _ rfl (Nat.zero_le _) (by simp) (by intro j hj; omega)]
  rfl

/-- the elements of a new array must be set before they are used -/
theorem ptr_new_unset (n i : Nat) (hi : i < n) : (PArr.new n : PArr α).get i = .error .ub ∧ (PArr.new n : PArr α).copy = .error .ub := by
  constructor
  · unfold PArr.get
    rw [if_neg (by simp [PArr.size, PArr.new]; omega)]
    simp only [PArr.new]
    rw [rd_ok (by simpa using hi)]
    simp [bind, Except.bind, value]
  · unfold PArr.copy
    rw [copyLoop, if_pos (by simp [PArr.new]; omega), rd_ok (by simp [PArr.new]; omega)]
    simp [bind, Except.bind, value, PArr.new]

/-- Sorting an array without null pointers: an ascending, stable permutation, for every total preorder `compareTo`. -/
theorem ptr_sort_partial (gt : α → α → Bool) (hg : Sort.Props.Preorder gt) (l : List α) (a : PArr α) (h : a.Is (l.map some)) :
    ∃ (b : PArr α) (w : List α), a.sort gt = .ok b ∧ b.Is (w.map some) ∧ w.Perm l ∧ w.Pairwise (fun x y => gt x y = false) ∧
      ∀ x, w.filter (fun y => !gt y x && !gt x y) = l.filter (fun y => !gt y x && !gt x y) := by
  have hd : a.data = l.map (fun x => some (some x)) := by rw [show a.data = _ from h]; simp
  obtain ⟨w, e1, e2, e3, -⟩ := Sort.Props.sort_sorts gt hg l.length l (Nat.le_refl _)
  have hst := fun x => sort_keeps_equivalents gt hg l.length l w e1 x
  have hwl : w.length = l.length := by
    obtain ⟨w', h1, h2⟩ := Sort.Props.sort_permutes gt l.length l (Nat.le_refl _)
    rw [e1] at h1
    cases h1
    exact h2.length_eq
  rw [← hwl, List.take_length] at e2 e3 hst
  rw [hwl, List.take_length] at e2
  refine ⟨⟨w.map (fun x => some (some x))⟩, w, ?_, by simp [PArr.Is], e2, e3, fun x => ?_⟩
  · unfold PArr.sort
    have hs : a.size = l.length := by simp [PArr.size, hd]
    unfold Sort.sort at e1
    rw [hs]
    split
    · rename_i h0
      rw [if_pos h0] at e1
      cases e1
      cases a; simp only at hd; rw [hd]
    · rename_i h0
      rw [if_neg h0] at e1
      rw [hd, rd_map, rd_ok (by omega)]
      simp only [Except.map, bind, Except.bind, value, Option.isNone_some, Bool.false_eq_true, if_false]
      rw [sortLoopM_map gt (ptrGt gt) (fun x => some (some x)) (fun a b => rfl) l.length l.length l (Nat.le_refl _) (by omega), e1]
      rfl
  · have := hst x
    rw [hwl, List.take_length] at this
    exact this

/-- With a null pointer in front `sort` does nothing, whatever follows. -/
theorem ptr_sort_null_first (gt : α → α → Bool) (l : List (Option α)) (a : PArr α) (h : a.Is (none :: l)) : a.sort gt = .ok a := by
  unfold PArr.sort
  have hd : a.data = (none :: l).map some := h
  split
  · rfl
  · rw [hd, rd_map, rd_ok (by simp)]
    rfl

theorem passM_null (gt : α → α → Bool) (n : Nat) : ∀ (k i newn : Nat) (v : List (Option (Option α))) (l : List α) (m : List (Option (Option α))),
    n - i = k → v.length = n → v.drop i = l.map (fun x => some (some x)) ++ some none :: m → l ≠ [] → passM (ptrGt gt) n i newn v = .error .ub := by
  intro k
  induction k with
  | zero =>
    intro i newn v l m hk hv hd hl
    rw [List.drop_eq_nil_of_le (by omega)] at hd
    have := congrArg List.length hd
    simp at this
  | succ k ih =>
    intro i newn v l m hk hv hd hl
    cases l with
    | nil => exact absurd rfl hl
    | cons x l =>
    have hlen := congrArg List.length hd
    simp at hlen
    have hi : i + 1 < n := by omega
    have g0 : v[i]? = some (some (some x)) := by
      have := congrArg (fun z => z[0]?) hd
      simpa [List.getElem?_drop] using this
    have ei : v[i] = some (some x) := by
      have := List.getElem?_eq_getElem (l := v) (i := i) (by omega)
      rw [this] at g0
      simpa using g0
    rw [passM, if_pos hi, rd_ok (by omega), rd_ok (by omega)]
    simp only [bind, Except.bind]
    have hd1 : v.drop (i + 1) = l.map (fun x => some (some x)) ++ some none :: m := by
      rw [← List.drop_drop, hd]
      simp
    have e1 : v.drop (i + 1) = v[i + 1] :: v.drop (i + 2) := List.drop_eq_getElem_cons (by omega)
    cases l with
    | nil =>
      rw [e1] at hd1
      simp only [List.map_nil, List.nil_append, List.cons.injEq] at hd1
      rw [hd1.1, ei]
      rfl
    | cons y l =>
      have e2 : v[i + 1] = some (some y) := by
        rw [e1] at hd1
        simp only [List.map_cons, List.cons_append, List.cons.injEq] at hd1
        exact hd1.1
      rw [ei, e2]
      simp only [ptrGt, value, bind, Except.bind, pure, Except.pure]
      split
      · rw [wr_ok (by omega)]
        simp only
        rw [wr_ok (by simp; omega)]
        simp only
        refine ih (i + 1) (i + 1) _ (x :: l) m (by omega) (by simpa using hv) ?_ (by simp)
        have hlt : i + 1 < ((v.set i (some (some y))).set (i + 1) (some (some x))).length := by simp; omega
        rw [List.drop_eq_getElem_cons hlt, List.getElem_set_self, List.drop_set_of_lt (by omega), List.drop_set_of_lt (by omega)]
        rw [e1] at hd1
        simp only [List.map_cons, List.cons_append, List.cons.injEq] at hd1
        rw [hd1.2]
        rfl
      · exact ih (i + 1) newn v (y :: l) m (by omega) hv hd1 (by simp)

/-- With a null pointer behind other elements `sort` is undefined behaviour. -/
theorem ptr_sort_null (gt : α → α → Bool) (x : α) (l : List α) (m : List (Option α)) (a : PArr α) (h : a.Is ((x :: l).map some ++ none :: m)) :
    a.sort gt = .error .ub := by
  have hd : a.data = (x :: l).map (fun x => some (some x)) ++ some none :: m.map some := by rw [show a.data = _ from h]; simp
  have hs : a.size = (x :: l).length + 1 + m.length := by simp [PArr.size, hd]; omega
  unfold PArr.sort
  rw [if_neg (by rw [hs]; simp)]
  have r0 : rd a.data 0 = .ok (some (some x)) := by rw [hd]; rfl
  rw [r0]
  simp only [bind, Except.bind, value, Option.isNone_some, Bool.false_eq_true, if_false]
  obtain ⟨k, hk⟩ : ∃ k, a.size = k + 1 := ⟨a.size - 1, by omega⟩
  rw [hk]
  simp only [sortLoopM]
  rw [← hk, passM_null gt a.size (a.size - 0) 0 1 a.data (x :: l) (m.map some) rfl rfl (by rw [hd]; rfl) (by simp)]
  rfl

end Pointers

/-! ### FloatArray -/

open Verif.Fp32 (F32)

def FArr.Is (a : FArr) (l : List F32) : Prop := a.data = l.map some

/-- `Get` and `Set` act on the elements; outside they are undefined behaviour (nothing is checked). -/
theorem float_get_set {a : FArr} {l : List F32} (h : a.Is l) (i : Nat) (x : F32) :
    a.length = l.length ∧
    (∀ hi : i < l.length, a.get i = .ok l[i] ∧ ∃ b, a.set i x = .ok b ∧ b.Is (l.set i x)) ∧
    (l.length ≤ i → a.get i = .error .ub ∧ a.set i x = .error .ub) := by
  have hd : a.data = l.map some := h
  refine ⟨by simp [FArr.length, hd], fun hi => ⟨?_, ⟨⟨(l.set i x).map some⟩, ?_, rfl⟩⟩, fun hi => ⟨?_, ?_⟩⟩
  · unfold FArr.get
    rw [hd, rd_map, rd_ok hi]
    rfl
  · unfold FArr.set
    rw [hd, wr_map, wr_ok hi]
    rfl
  · unfold FArr.get
    rw [hd, rd_map, rd_ub hi]
    rfl
  · unfold FArr.set
    rw [hd, wr_map]
    have : wr l i x = .error .ub := by simp [wr]; omega
    rw [this]
    rfl

theorem float_ofList (l : List F32) : (FArr.ofList l).Is l := rfl

theorem float_copy {a : FArr} {l : List F32} (h : a.Is l) : ∃ b, a.copy = .ok b ∧ b.Is l := by
  refine ⟨⟨l.map some⟩, ?_, rfl⟩
  unfold FArr.copy
  rw [show a.data = _ from h, copyLoop_ok l (l.length - 0) 0 _ rfl (Nat.zero_le _) (by simp) (by intro j hj; omega)]
  rfl

/-- Every FloatArray that was filled is sorted into a permutation (also with NaN), stably. -/
theorem float_sort_permutes {a : FArr} {l : List F32} (h : a.Is l) :
    ∃ (b : FArr) (w : List F32), a.sort = .ok b ∧ b.Is w ∧ w.Perm l ∧
      ∀ p : F32 → Bool, (∀ x y, p x = true → p y = true → Fp32.lt y x = false) → w.filter p = l.filter p := by
  have hd : a.data = l.map some := h
  obtain ⟨w, e1, e2⟩ := Sort.Props.sort_permutes (fun x y : F32 => Fp32.lt y x) l.length l (Nat.le_refl _)
  refine ⟨⟨w.map some⟩, w, ?_, rfl, e2, fun p hp => ?_⟩
  · unfold FArr.sort
    have hs : a.length = l.length := by simp [FArr.length, hd]
    unfold Sort.sort at e1
    rw [hs]
    split
    · rename_i h0
      rw [if_pos h0] at e1
      cases e1
      cases a; simp only at hd; rw [hd]
    · rename_i h0
      rw [if_neg h0] at e1
      rw [hd, sortLoopM_map (fun x y : F32 => Fp32.lt y x) floatGt some (fun a b => rfl) l.length l.length l (Nat.le_refl _) (by omega), e1]
      rfl
  · have := sort_stable _ l.length l w e1 p hp
    have hwl := e2.length_eq
    rw [← hwl, List.take_length] at this
    rw [this, hwl, List.take_length]

/-- Without NaN the result is ascending. -/
theorem float_sort_partial {a : FArr} {l : List F32} (h : a.Is l) (hn : .nan ∉ l) :
    ∃ (b : FArr) (w : List F32), a.sort = .ok b ∧ b.Is w ∧ w.Perm l ∧ w.Pairwise (fun x y => Fp32.le x y = true) := by
  obtain ⟨b, w, e1, e2, e3, -⟩ := float_sort_permutes h
  refine ⟨b, w, e1, e2, e3, ?_⟩
  -- the same array seen as an array of numbers
  let N := { x : F32 // x ≠ .nan }
  let gt : N → N → Bool := fun x y => Fp32.lt y.1 x.1
  have hg : Sort.Props.Preorder gt := by
    constructor
    · intro x y
      simp only [gt, Bool.eq_false_iff, ne_eq, Fp32.lt_iff x.2 y.2, Fp32.lt_iff y.2 x.2]
      omega
    · intro x y z
      simp only [gt, Bool.eq_false_iff, ne_eq, Fp32.lt_iff x.2 y.2, Fp32.lt_iff y.2 x.2, Fp32.lt_iff z.2 y.2, Fp32.lt_iff z.2 x.2]
      omega
  obtain ⟨m, hm⟩ : ∃ m : List N, m.map Subtype.val = l := by
    clear h e1 e2 e3
    induction l with
    | nil => exact ⟨[], rfl⟩
    | cons x l ih =>
      simp only [List.mem_cons, not_or] at hn
      obtain ⟨m, hm⟩ := ih hn.2
      exact ⟨⟨x, fun e => hn.1 e.symm⟩ :: m, by simp [hm]⟩
  obtain ⟨u, f1, f2, f3, -⟩ := Sort.Props.sort_sorts gt hg m.length m (Nat.le_refl _)
  have hul : u.length = m.length := by
    obtain ⟨w', h1, h2⟩ := Sort.Props.sort_permutes gt m.length m (Nat.le_refl _)
    rw [f1] at h1
    cases h1
    exact h2.length_eq
  have hd : a.data = m.map (fun x => some x.1) := by rw [show a.data = _ from h, ← hm, List.map_map]; rfl
  have : a.sort = .ok ⟨u.map (fun x => some x.1)⟩ := by
    unfold FArr.sort
    have hs : a.length = m.length := by simp [FArr.length, hd]
    unfold Sort.sort at f1
    rw [hs]
    split
    · rename_i h0
      rw [if_pos h0] at f1
      cases f1
      cases a; simp only at hd; rw [hd]
    · rename_i h0
      rw [if_neg h0] at f1
      rw [hd, sortLoopM_map gt floatGt (fun x => some x.1) (fun a b => rfl) m.length m.length m (Nat.le_refl _) (by omega), f1]
      rfl
  rw [this] at e1
  cases e1
  have hw : w = u.map Subtype.val := by
    have e2' : u.map (fun x => some x.1) = w.map some := e2
    have : (u.map Subtype.val).map some = w.map some := by rw [← e2', List.map_map]; rfl
    exact ((List.map_inj_right (fun _ _ h => Option.some.inj h)).1 this).symm
  rw [hw, List.pairwise_map]
  rw [← hul, List.take_length] at f3
  refine f3.imp ?_
  intro x y hxy
  rw [Fp32.le_iff x.2 y.2]
  simp only [gt, Bool.eq_false_iff, ne_eq, Fp32.lt_iff y.2 x.2] at hxy
  omega

/-- a NaN blocks sorting: 2, NaN, 1 stays as it is -/
theorem float_nan_blocks : ∃ b, (FArr.ofList [Fp32.lit 2 1, .nan, Fp32.lit 1 1]).sort = .ok b ∧ b.Is [Fp32.lit 2 1, .nan, Fp32.lit 1 1] ∧
    Fp32.lt (Fp32.lit 1 1) (Fp32.lit 2 1) = true := by
  refine ⟨⟨[some (Fp32.lit 2 1), some .nan, some (Fp32.lit 1 1)]⟩, ?_, rfl, by decide +kernel⟩
  have h1 : floatGt (some (Fp32.lit 2 1)) (some .nan) = .ok false := by decide +kernel
  have h2 : floatGt (some .nan) (some (Fp32.lit 1 1)) = .ok false := by decide +kernel
  simp only [FArr.sort, FArr.ofList, FArr.length, List.map_cons, List.map_nil, List.length_cons, List.length_nil]
  rw [if_neg (by omega)]
  simp only [sortLoopM]
  rw [passM, if_pos (by omega), rd_ok (by simp), rd_ok (by simp)]
  simp only [bind, Except.bind, List.getElem_cons_zero, List.getElem_cons_succ, h1, Bool.false_eq_true, if_false]
  rw [passM, if_pos (by omega), rd_ok (by simp), rd_ok (by simp)]
  simp only [bind, Except.bind, List.getElem_cons_zero, List.getElem_cons_succ, h2, Bool.false_eq_true, if_false]
  rw [passM, if_neg (by omega)]
  rfl

/-! ### The theorems apply -/

example := float_sort_partial (float_ofList [Fp32.lit 3 1, Fp32.lit (-1) 2, Fp32.lit 7 10]) (by decide +kernel)
/-- pairs compared by their first component: the second shows that the order of equivalents is kept -/
example : Sort.sort (fun a b : Nat × Nat => decide (a.1 > b.1)) 5 [(2, 0), (1, 1), (2, 2), (0, 3), (1, 4)] = .ok [(0, 3), (1, 1), (1, 4), (2, 0), (2, 2)] := by decide +kernel
example : Sort.Props.Preorder (fun a b : Nat × Nat => decide (a.1 > b.1)) := ⟨by simp; omega, by simp; omega⟩
example := ptr_sort_null (fun a b : Nat => decide (a > b)) 3 [1] [some 2] ⟨[some (some 3), some (some 1), some none, some (some 2)]⟩ rfl

end Verif.Arrays
