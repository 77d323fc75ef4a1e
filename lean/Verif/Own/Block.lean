import Verif.Own.Machine
/-
The C++ operations on blocks that the value types use: `new T[n]`, `delete[]`, `delete`, `p[i]`, copying loops and
`memcpy`.
-/
namespace Verif.Own
open Verif
variable {α : Type}

/-- `new T[n]`; `init` is what the default constructor leaves in a cell (`none` for numbers: nothing) -/
def newArr (init : Option α) (n : Nat) (h : Mem α) : Mem α × Nat := h.alloc (List.replicate n init)

/-- `delete[] p`; nothing happens for a null pointer -/
def deleteArr (h : Mem α) : Option Nat → Res (Mem α)
  | none => .ok h
  | some p => h.free p

/-- `delete p` for memory that came from `new T[n]`: undefined -/
def deleteOne (h : Mem α) : Option Nat → Res (Mem α)
  | none => .ok h
  | some _ => .error .ub

/-- reading the cell `p[i]` -/
def rdCell (h : Mem α) (p : Option Nat) (i : Nat) : Res (Option α) :=
  match p with
  | none => .error .ub
  | some p => do
    let b ← h.load p
    rd b i

/-- writing the cell `p[i]` -/
def wrCell (h : Mem α) (p : Option Nat) (i : Nat) (x : Option α) : Res (Mem α) :=
  match p with
  | none => .error .ub
  | some p => do
    let b ← h.load p
    let b ← wr b i x
    h.store p b

/-- using a value that was read: undefined for one that was never written -/
def defined : Option α → Res α
  | none => .error .ub
  | some x => .ok x

/-- a value that is copied: bytes (`chars`) need not have been written -/
def usable (chars : Bool) (x : Option α) : Res (Option α) := if chars then .ok x else (defined x).map some

/-- `for(i = 0; i < n; i++) dst[i] = src[i]`.  Bytes (`chars`) may be copied without having been written. -/
def copyLoop (chars : Bool) (src dst : Option Nat) (n i : Nat) (h : Mem α) : Res (Mem α) :=
  if i < n then do
    let x ← rdCell h src i
    let x ← usable chars x
    let h ← wrCell h dst i x
    copyLoop chars src dst n (i + 1) h
  else .ok h
termination_by n - i

/-- `memcpy(dst + d, src, n * sizeof(T))`: both pointers have to be valid, even when `n` is 0 (C17 7.1.4, 7.24.1) -/
def memcpy (dst : Option Nat) (d : Nat) (src : Option Nat) (n : Nat) (h : Mem α) : Res (Mem α) :=
  match dst, src with
  | some q, some p => do
    let a ← h.load p
    let b ← h.load q
    if n ≤ a.length ∧ d + n ≤ b.length then h.store q (b.take d ++ a.take n ++ b.drop (d + n)) else .error .ub
  | _, _ => .error .ub

/-- the first `n` cells, read one after the other (`none`: never written) -/
def readAll (h : Mem α) (p : Option Nat) (n i : Nat) : Res (List (Option α)) :=
  if i < n then do
    let x ← rdCell h p i
    let r ← readAll h p n (i + 1)
    return x :: r
  else .ok []
termination_by n - i

/-- storing given values one after the other from index `i` on -/
def fillFrom (l : List α) (p : Option Nat) (i : Nat) (h : Mem α) : Res (Mem α) :=
  match l with
  | [] => .ok h
  | x :: l => do
    let h ← wrCell h p i (some x)
    fillFrom l p (i + 1) h

/-! ### lemmas -/

theorem ok_bind {β γ : Type} (x : β) (f : β → Res γ) : (Except.ok x >>= f) = f x := rfl

theorem changed_alloc (h : Mem α) (b : List (Option α)) : Changed h [] (h ++ [some b]) [h.length] := by
  constructor
  · simp
  · intro p hp _
    rw [List.getElem?_append_left hp]
  · intro p hp
    simp at hp
    exact Or.inr (by omega)
  · intro p x e
    by_cases hp : p < h.length
    · exact Or.inr ⟨hp, by simp⟩
    · have := (List.getElem?_eq_some_iff.1 e).1
      simp at this
      left
      simp
      omega

theorem changed_none (h : Mem α) (l : List Nat) : Changed h l h l := by
  refine ⟨Nat.le_refl _, fun _ _ _ => rfl, fun p hp => Or.inl hp, fun p b e => ?_⟩
  by_cases hp : p ∈ l
  · exact Or.inl hp
  · exact Or.inr ⟨(List.getElem?_eq_some_iff.1 e).1, hp⟩

theorem changed_write (h : Mem α) (p : Nat) (b : List (Option α)) : Changed h [p] (h.set p (some b)) [p] := by
  constructor
  · simp
  · intro q _ hn
    rw [List.getElem?_set_ne (by simp at hn; omega)]
  · intro q hq; exact Or.inl hq
  · intro q x e
    by_cases hq : q ∈ [p]
    · exact Or.inl hq
    · have := (List.getElem?_eq_some_iff.1 e).1
      simp only [List.length_set] at this
      exact Or.inr ⟨this, hq⟩

theorem changed_free (h : Mem α) (p : Nat) : Changed h [p] (h.set p none) [] := by
  constructor
  · simp
  · intro q _ hn
    rw [List.getElem?_set_ne (by simp at hn; omega)]
  · intro q hq; cases hq
  · intro q x e
    have hl := (List.getElem?_eq_some_iff.1 e).1
    simp only [List.length_set] at hl
    refine Or.inr ⟨hl, ?_⟩
    intro hq
    simp at hq
    subst hq
    rw [List.getElem?_set_self hl] at e
    simp at e

theorem changed_realloc (h : Mem α) (p : Nat) (hp : p < h.length) (b : List (Option α)) :
    Changed h [p] (h.set p none ++ [some b]) [h.length] := by
  constructor
  · simp
  · intro q hq hn
    rw [List.getElem?_append_left (by simpa using hq), List.getElem?_set_ne (by simp at hn; omega)]
  · intro q hq
    simp at hq
    exact Or.inr (by omega)
  · intro q x e
    by_cases hq : q < h.length
    · refine Or.inr ⟨hq, ?_⟩
      intro hqp
      simp at hqp
      subst hqp
      rw [List.getElem?_append_left (by simpa using hq), List.getElem?_set_self hp] at e
      simp at e
    · have := (List.getElem?_eq_some_iff.1 e).1
      simp at this
      left
      simp
      omega

theorem getElem?_alloc (h : Mem α) (b : List (Option α)) : (h ++ [some b])[h.length]? = some (some b) := by simp

theorem rdCell_ok {h : Mem α} {p i : Nat} {b : List (Option α)} {x : Option α} (e : h[p]? = some (some b)) (hx : b[i]? = some x) :
    rdCell h (some p) i = .ok x := by
  simp only [rdCell, Heap.load_ok e, ok_bind]
  simp [rd, hx]

theorem wrCell_ok {h : Mem α} {p i : Nat} {b : List (Option α)} {x : Option α} (e : h[p]? = some (some b)) (hi : i < b.length) :
    wrCell h (some p) i x = .ok (h.set p (some (b.set i x))) := by
  simp only [wrCell, Heap.load_ok e, ok_bind, wr_ok hi, Heap.store_ok e]

/-- copying into a fresh block -/
theorem copyLoop_ok (chars : Bool) (h : Mem α) (p n : Nat) (a b : List (Option α)) (e : h[p]? = some (some a)) (ha : n ≤ a.length)
    (hb : n ≤ b.length) (hd : chars = false → ∀ i < n, ∃ x, a[i]? = some (some x)) :
    ∀ i, i ≤ n → copyLoop chars (some p) (some h.length) n i (h ++ [some (a.take i ++ b.drop i)]) = .ok (h ++ [some (a.take n ++ b.drop n)]) := by
  intro i hi
  by_cases hlt : i < n
  · unfold copyLoop
    rw [if_pos hlt]
    have hp : p < h.length := (List.getElem?_eq_some_iff.1 e).1
    have e2 : (h ++ [some (a.take i ++ b.drop i)])[p]? = some (some a) := by rw [List.getElem?_append_left hp]; exact e
    have hai : i < a.length := by omega
    have hr : rdCell (h ++ [some (a.take i ++ b.drop i)]) (some p) i = .ok a[i] := rdCell_ok e2 (List.getElem?_eq_getElem hai)
    have hw : wrCell (h ++ [some (a.take i ++ b.drop i)]) (some h.length) i a[i] =
        .ok (h ++ [some (a.take (i + 1) ++ b.drop (i + 1))]) := by
      rw [wrCell_ok (getElem?_alloc h _) (by simp; omega)]
      refine congrArg Except.ok ?_
      rw [List.set_append_right h.length _ (Nat.le_refl _), Nat.sub_self]
      simp only [List.set_cons_zero]
      refine congrArg (fun z => h ++ [some z]) ?_
      rw [List.set_append_right _ _ (by simp; omega)]
      have : i - (a.take i).length = 0 := by simp; omega
      rw [this, List.drop_eq_getElem_cons (by omega : i < b.length), List.set_cons_zero, List.take_add_one (l := a),
        List.getElem?_eq_getElem hai]
      simp only [Option.toList_some, List.append_assoc, List.singleton_append]
    rw [hr, ok_bind]
    have hdef : usable chars a[i] = .ok a[i] := by
      cases chars with
      | true => rfl
      | false =>
        obtain ⟨x, hx⟩ := hd rfl i hlt
        rw [List.getElem?_eq_getElem hai] at hx
        simp only [Option.some.injEq] at hx
        rw [hx]
        rfl
    rw [hdef, ok_bind, hw, ok_bind]
    exact copyLoop_ok chars h p n a b e ha hb hd (i + 1) (by omega)
  · have : i = n := by omega
    subst this
    unfold copyLoop
    rw [if_neg hlt]
termination_by i => n - i

theorem copyLoop_fresh (chars : Bool) (h : Mem α) (p n : Nat) (a b : List (Option α)) (e : h[p]? = some (some a)) (ha : n ≤ a.length)
    (hb : n ≤ b.length) (hd : chars = false → ∀ i < n, ∃ x, a[i]? = some (some x)) :
    copyLoop chars (some p) (some h.length) n 0 (h ++ [some b]) = .ok (h ++ [some (a.take n ++ b.drop n)]) := by
  have := copyLoop_ok chars h p n a b e ha hb hd 0 (Nat.zero_le _)
  simpa using this

theorem copyLoop_zero (chars : Bool) (src dst : Option Nat) (h : Mem α) : copyLoop chars src dst 0 0 h = .ok h := by
  unfold copyLoop
  simp

/-- `memcpy` into a fresh block -/
theorem memcpy_fresh (h : Mem α) (p n : Nat) (a b : List (Option α)) (e : h[p]? = some (some a)) (ha : n ≤ a.length) (hb : n ≤ b.length) :
    memcpy (some h.length) 0 (some p) n (h ++ [some b]) = .ok (h ++ [some (a.take n ++ b.drop n)]) := by
  have hp : p < h.length := (List.getElem?_eq_some_iff.1 e).1
  have e2 : (h ++ [some b])[p]? = some (some a) := by rw [List.getElem?_append_left hp]; exact e
  have e3 := getElem?_alloc h b
  simp only [memcpy, Heap.load_ok e2, Heap.load_ok e3, ok_bind]
  rw [if_pos ⟨ha, by omega⟩, Heap.store_ok e3]
  refine congrArg Except.ok ?_
  rw [List.set_append_right h.length _ (Nat.le_refl _), Nat.sub_self]
  simp

theorem readAll_ok (h : Mem α) (p : Nat) (v r : List (Option α)) (e : h[p]? = some (some (v ++ r))) :
    ∀ i, i ≤ v.length → readAll h (some p) v.length i = .ok (v.drop i) := by
  intro i hi
  by_cases hlt : i < v.length
  · unfold readAll
    have hg : (v ++ r)[i]? = some v[i] := by rw [List.getElem?_append_left hlt]; exact List.getElem?_eq_getElem hlt
    rw [if_pos hlt, rdCell_ok e hg, ok_bind]
    rw [readAll_ok h p v r e (i + 1) (by omega), ok_bind, List.drop_eq_getElem_cons hlt]
    rfl
  · have : i = v.length := by omega
    subst this
    unfold readAll
    rw [if_neg hlt]
    simp
termination_by i => v.length - i

theorem readAll_zero (h : Mem α) (p : Option Nat) : readAll h p 0 0 = .ok [] := by
  unfold readAll
  simp

theorem readAll_block (h : Mem α) (p : Nat) (v r : List (Option α)) (e : h[p]? = some (some (v ++ r))) :
    readAll h (some p) v.length 0 = .ok v := by
  have := readAll_ok h p v r e 0 (Nat.zero_le _)
  simpa using this

theorem fillFrom_fresh (h : Mem α) (l : List α) : ∀ (d b : List (Option α)), l.length ≤ b.length →
    fillFrom l (some h.length) d.length (h ++ [some (d ++ b)]) = .ok (h ++ [some (d ++ l.map some ++ b.drop l.length)]) := by
  induction l with
  | nil => intro d b _; simp [fillFrom]
  | cons x l ih =>
    intro d b hb
    simp only [List.length_cons] at hb
    cases b with
    | nil => simp at hb
    | cons y b =>
      simp only [fillFrom]
      rw [wrCell_ok (getElem?_alloc h _) (by simp), ok_bind]
      have e1 : (h ++ [some (d ++ y :: b)]).set h.length (some ((d ++ y :: b).set d.length (some x))) = h ++ [some ((d ++ [some x]) ++ b)] := by
        rw [List.set_append_right h.length _ (Nat.le_refl _), Nat.sub_self]
        simp
      rw [e1]
      have := ih (d ++ [some x]) b (by simpa using hb)
      simp only [List.length_append, List.length_singleton] at this
      rw [this]
      simp

theorem fillFrom_new (h : Mem α) (l : List α) (b : List (Option α)) (hb : l.length ≤ b.length) :
    fillFrom l (some h.length) 0 (h ++ [some b]) = .ok (h ++ [some (l.map some ++ b.drop l.length)]) := by
  have := fillFrom_fresh h l [] b hb
  simpa using this

/-- all the cells of a list have been written -/
def Written (v : List (Option α)) : Prop := ∀ i < v.length, ∃ x, v[i]? = some (some x)

end Verif.Own
