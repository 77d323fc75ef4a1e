import Verif.UndoMem.Model
import Mathlib.Data.List.Nodup
import Mathlib.Data.List.Perm.Basic
/-
Layout of the undo manager in memory, and what the loops along the pointers do to it.
-/
namespace Verif.UndoMem
open Verif Verif.Undo

variable {V : Type}

/-- a list of changes with their addresses, eldest first -/
abbrev Chain (V : Type) := List (Nat × Change V)

def nextOf : Chain V → Option Nat → Option Nat
  | [], e => e
  | (a, _) :: _, _ => some a

def lastOf : Chain V → Option Nat → Option Nat
  | [], p => p
  | (a, _) :: l, _ => lastOf l (some a)

/-- the doubly linked chain of changes; `p` is the `mPrev` of the first, `e` the `mNext` of the last -/
def DL (ch : Heap (CNode V)) : Option Nat → Chain V → Option Nat → Prop
  | _, [], _ => True
  | p, (a, c) :: l, e => ch[a]? = some (some ⟨p, nextOf l e, c⟩) ∧ DL ch (some a) l e

theorem nextOf_append (l1 l2 : Chain V) (e : Option Nat) : nextOf (l1 ++ l2) e = nextOf l1 (nextOf l2 e) := by
  cases l1 <;> rfl

theorem lastOf_append (l1 l2 : Chain V) (p : Option Nat) : lastOf (l1 ++ l2) p = lastOf l2 (lastOf l1 p) := by
  induction l1 generalizing p with
  | nil => rfl
  | cons x l ih => exact ih _

theorem DL_append {ch : Heap (CNode V)} (l1 l2 : Chain V) (p e : Option Nat) :
    DL ch p (l1 ++ l2) e ↔ DL ch p l1 (nextOf l2 e) ∧ DL ch (lastOf l1 p) l2 e := by
  induction l1 generalizing p with
  | nil => simp [DL, lastOf]
  | cons x l ih =>
    obtain ⟨a, c⟩ := x
    simp only [List.cons_append, DL, lastOf, ih, nextOf_append, and_assoc]

theorem DL_frame {ch ch' : Heap (CNode V)} {l : Chain V} {p e : Option Nat} (h : DL ch p l e)
    (hf : ∀ a ∈ l.map Prod.fst, ch'[a]? = ch[a]?) : DL ch' p l e := by
  induction l generalizing p with
  | nil => trivial
  | cons x l ih =>
    obtain ⟨a, c⟩ := x
    exact ⟨by rw [hf a (by simp)]; exact h.1, ih h.2 (fun b hb => hf b (by simp at hb ⊢; exact Or.inr hb))⟩

theorem DL_live {ch : Heap (CNode V)} {l : Chain V} {p e : Option Nat} (h : DL ch p l e) : ∀ a ∈ l.map Prod.fst, ∃ n, ch[a]? = some (some n) := by
  induction l generalizing p with
  | nil => intro a ha; cases ha
  | cons x l ih =>
    obtain ⟨b, c⟩ := x
    intro a ha
    simp only [List.map_cons, List.mem_cons] at ha
    rcases ha with rfl | ha
    · exact ⟨_, h.1⟩
    · exact ih h.2 a ha

theorem lastOf_none {l : Chain V} {p : Option Nat} : lastOf l p = none ↔ l = [] ∧ p = none := by
  induction l generalizing p with
  | nil => simp [lastOf]
  | cons x l ih => obtain ⟨a, c⟩ := x; simp [lastOf, ih]

theorem lastOf_mem {l : Chain V} {p : Option Nat} {r : Nat} (h : lastOf l p = some r) : r ∈ l.map Prod.fst ∨ p = some r := by
  induction l generalizing p with
  | nil => exact Or.inr h
  | cons x l ih =>
    obtain ⟨a, c⟩ := x
    rcases ih h with h | h
    · exact Or.inl (by simp at h ⊢; exact Or.inr h)
    · cases h; exact Or.inl (by simp)

theorem nodup_length_le {l : List Nat} (hn : l.Nodup) {n : Nat} (h : ∀ a ∈ l, a < n) : l.length ≤ n := by
  have := hn.length_le_of_subset (l₂ := List.range n) (by intro a ha; exact List.mem_range.2 (h a ha))
  simpa using this

theorem chain_length {ch : Heap (CNode V)} {l : Chain V} {p e : Option Nat} (h : DL ch p l e) (hn : (l.map Prod.fst).Nodup) : l.length ≤ ch.length := by
  have := nodup_length_le hn (n := ch.length) (by
    intro a ha
    obtain ⟨n, hn⟩ := DL_live h a ha
    exact Heap.lt_of_live hn)
  simpa using this

theorem nextOf_addr {l l' : Chain V} (h : l.map Prod.fst = l'.map Prod.fst) (p : Option Nat) : nextOf l p = nextOf l' p := by
  cases l with
  | nil => cases l' with
    | nil => rfl
    | cons y l' => simp at h
  | cons x l => cases l' with
    | nil => simp at h
    | cons y l' =>
      simp only [List.map_cons, List.cons.injEq] at h
      obtain ⟨x1, x2⟩ := x
      obtain ⟨y1, y2⟩ := y
      simp only [nextOf]
      rw [show x1 = y1 from h.1]

/-! ### The loops along a chain -/

/-- the changes along `mNext`, all swapped -/
theorem swapNext_spec (l : Chain V) : ∀ (fuel : Nat) (m : M V) (p : Option Nat), l.length ≤ fuel → DL m.ch p l none → (l.map Prod.fst).Nodup →
    ∃ (l' : Chain V) (ch' : Heap (CNode V)), l'.map Prod.fst = l.map Prod.fst ∧ l'.map Prod.snd = (swapAll (l.map Prod.snd) m.mem m.regen).1 ∧
      swapNext fuel (nextOf l none) m = .ok { m with ch := ch', mem := (swapAll (l.map Prod.snd) m.mem m.regen).2.1, regen := (swapAll (l.map Prod.snd) m.mem m.regen).2.2 } ∧
      DL ch' p l' none ∧ (∀ a, a ∉ l.map Prod.fst → ch'[a]? = m.ch[a]?) ∧ ch'.length = m.ch.length := by
  induction l with
  | nil =>
    intro fuel m p _ _ _
    exact ⟨[], m.ch, rfl, rfl, by cases fuel <;> rfl, trivial, fun a _ => rfl, rfl⟩
  | cons x l ih =>
    obtain ⟨a, c⟩ := x
    intro fuel m p hf h hn
    obtain ⟨fuel, rfl⟩ : ∃ k, fuel = k + 1 := ⟨fuel - 1, by simp at hf; omega⟩
    simp only [List.map_cons, List.nodup_cons] at hn
    have hlt := Heap.lt_of_live h.1
    let x := swap c m.mem m.regen
    let m1 : M V := { m with ch := m.ch.set a (some ⟨p, nextOf l none, x.1⟩), mem := x.2.1, regen := x.2.2 }
    have h1 : DL m1.ch (some a) l none := by
      refine DL_frame h.2 ?_
      intro b hb
      have : a ≠ b := by intro e; subst e; exact hn.1 hb
      simp only [m1]
      rw [List.getElem?_set_ne this]
    obtain ⟨l', ch', e1, e2, e3, e4, e5, e6⟩ := ih fuel m1 (some a) (by simp at hf; omega) h1 hn.2
    refine ⟨(a, x.1) :: l', ch', by simp [e1], by simp [e2, swapAll, m1, x], ?_, ⟨?_, e4⟩, ?_, ?_⟩
    · simp only [nextOf, swapNext]
      rw [Heap.load_ok h.1]
      simp only [bind, Except.bind]
      rw [Heap.store_ok h.1]
      exact e3
    · rw [e5 a hn.1]
      simp only [m1]
      rw [List.getElem?_set_self hlt]
      rw [nextOf_addr e1]
    · intro b hb
      simp only [List.map_cons, List.mem_cons, not_or] at hb
      rw [e5 b hb.2]
      simp only [m1]
      rw [List.getElem?_set_ne (fun e => hb.1 e.symm)]
    · rw [e6]; simp [m1]

theorem lastOf_addr {l l' : Chain V} (h : l.map Prod.fst = l'.map Prod.fst) (p : Option Nat) : lastOf l p = lastOf l' p := by
  induction l generalizing l' p with
  | nil => cases l' with
    | nil => rfl
    | cons y l' => simp at h
  | cons x l ih => cases l' with
    | nil => simp at h
    | cons y l' =>
      simp only [List.map_cons, List.cons.injEq] at h
      obtain ⟨x1, x2⟩ := x
      obtain ⟨y1, y2⟩ := y
      simp only at h
      simp only [lastOf, h.1]
      exact ih h.2 _

/-- the changes along `mPrev`, all swapped; `r` is the chain in reverse -/
theorem swapPrev_rev (r : Chain V) : ∀ (fuel : Nat) (m : M V) (e : Option Nat), r.length ≤ fuel → DL m.ch none r.reverse e → (r.map Prod.fst).Nodup →
    ∃ (r' : Chain V) (ch' : Heap (CNode V)), r'.map Prod.fst = r.map Prod.fst ∧ r'.map Prod.snd = (swapAll (r.map Prod.snd) m.mem m.regen).1 ∧
      swapPrev fuel (lastOf r.reverse none) m = .ok { m with ch := ch', mem := (swapAll (r.map Prod.snd) m.mem m.regen).2.1, regen := (swapAll (r.map Prod.snd) m.mem m.regen).2.2 } ∧
      DL ch' none r'.reverse e ∧ (∀ a, a ∉ r.map Prod.fst → ch'[a]? = m.ch[a]?) ∧ ch'.length = m.ch.length := by
  induction r with
  | nil =>
    intro fuel m e _ _ _
    exact ⟨[], m.ch, rfl, rfl, by cases fuel <;> rfl, trivial, fun a _ => rfl, rfl⟩
  | cons x r ih =>
    obtain ⟨a, c⟩ := x
    intro fuel m e hf h hn
    obtain ⟨fuel, rfl⟩ : ∃ k, fuel = k + 1 := ⟨fuel - 1, by simp at hf; omega⟩
    simp only [List.map_cons, List.nodup_cons] at hn
    rw [List.reverse_cons, DL_append] at h
    obtain ⟨h1, h2, -⟩ := h
    simp only [nextOf] at h1 h2
    have hlt := Heap.lt_of_live h2
    let x := swap c m.mem m.regen
    let m1 : M V := { m with ch := m.ch.set a (some ⟨lastOf r.reverse none, e, x.1⟩), mem := x.2.1, regen := x.2.2 }
    have h3 : DL m1.ch none r.reverse (some a) := by
      refine DL_frame h1 ?_
      intro b hb
      have : a ≠ b := by
        intro e; subst e
        rw [List.map_reverse, List.mem_reverse] at hb
        exact hn.1 hb
      simp only [m1]
      rw [List.getElem?_set_ne this]
    obtain ⟨r', ch', e1, e2, e3, e4, e5, e6⟩ := ih fuel m1 (some a) (by simp at hf; omega) h3 hn.2
    refine ⟨(a, x.1) :: r', ch', by simp [e1], by simp [e2, swapAll, m1, x], ?_, ?_, ?_, ?_⟩
    · rw [List.reverse_cons, lastOf_append]
      simp only [lastOf, swapPrev]
      rw [Heap.load_ok h2]
      simp only [bind, Except.bind]
      rw [Heap.store_ok h2]
      exact e3
    · rw [List.reverse_cons, DL_append]
      refine ⟨e4, ?_, trivial⟩
      rw [e5 a hn.1]
      simp only [m1, nextOf]
      rw [List.getElem?_set_self hlt, lastOf_addr (l := r'.reverse) (l' := r.reverse) (by simp [List.map_reverse, e1])]
    · intro b hb
      simp only [List.map_cons, List.mem_cons, not_or] at hb
      rw [e5 b hb.2]
      simp only [m1]
      rw [List.getElem?_set_ne (fun e => hb.1 e.symm)]
    · rw [e6]; simp [m1]

theorem swapPrev_spec (l : Chain V) (fuel : Nat) (m : M V) (hf : l.length ≤ fuel) (h : DL m.ch none l none) (hn : (l.map Prod.fst).Nodup) :
    ∃ (l' : Chain V) (ch' : Heap (CNode V)), l'.map Prod.fst = l.map Prod.fst ∧ l'.map Prod.snd = (swapBack (l.map Prod.snd) m.mem m.regen).1 ∧
      swapPrev fuel (lastOf l none) m = .ok { m with ch := ch', mem := (swapBack (l.map Prod.snd) m.mem m.regen).2.1, regen := (swapBack (l.map Prod.snd) m.mem m.regen).2.2 } ∧
      DL ch' none l' none ∧ (∀ a, a ∉ l.map Prod.fst → ch'[a]? = m.ch[a]?) ∧ ch'.length = m.ch.length := by
  obtain ⟨r', ch', e1, e2, e3, e4, e5, e6⟩ := swapPrev_rev l.reverse fuel m none (by simpa using hf) (by simpa using h) (by
    rw [List.map_reverse]; exact List.nodup_reverse.2 hn)
  rw [List.reverse_reverse] at e3
  rw [List.map_reverse] at e2 e3
  refine ⟨r'.reverse, ch', ?_, ?_, ?_, e4, ?_, e6⟩
  · rw [List.map_reverse, e1, List.map_reverse, List.reverse_reverse]
  · rw [List.map_reverse, e2]; rfl
  · exact e3
  · intro a ha
    refine e5 a ?_
    rw [List.map_reverse, List.mem_reverse]
    exact ha

/-- all changes of a chain are deleted, nothing else -/
theorem freeChain_rev (r : Chain V) : ∀ (fuel : Nat) (ch : Heap (CNode V)) (e : Option Nat), r.length ≤ fuel → DL ch none r.reverse e → (r.map Prod.fst).Nodup →
    ∃ ch' : Heap (CNode V), freeChain fuel (lastOf r.reverse none) ch = .ok ch' ∧ (∀ a ∈ r.map Prod.fst, ch'[a]? = some none) ∧
      (∀ a, a ∉ r.map Prod.fst → ch'[a]? = ch[a]?) ∧ ch'.length = ch.length := by
  induction r with
  | nil =>
    intro fuel ch e _ _ _
    exact ⟨ch, by cases fuel <;> rfl, by simp, fun a _ => rfl, rfl⟩
  | cons x r ih =>
    obtain ⟨a, c⟩ := x
    intro fuel ch e hf h hn
    obtain ⟨fuel, rfl⟩ : ∃ k, fuel = k + 1 := ⟨fuel - 1, by simp at hf; omega⟩
    simp only [List.map_cons, List.nodup_cons] at hn
    rw [List.reverse_cons, DL_append] at h
    obtain ⟨h1, h2, -⟩ := h
    simp only [nextOf] at h1 h2
    have hlt := Heap.lt_of_live h2
    have h3 : DL (ch.set a none) none r.reverse (some a) := by
      refine DL_frame h1 ?_
      intro b hb
      have : a ≠ b := by
        intro e; subst e
        rw [List.map_reverse, List.mem_reverse] at hb
        exact hn.1 hb
      rw [List.getElem?_set_ne this]
    obtain ⟨ch', e1, e2, e3, e4⟩ := ih fuel (ch.set a none) (some a) (by simp at hf; omega) h3 hn.2
    refine ⟨ch', ?_, ?_, ?_, ?_⟩
    · rw [List.reverse_cons, lastOf_append]
      simp only [lastOf, freeChain]
      rw [Heap.load_ok h2]
      simp only [bind, Except.bind]
      rw [Heap.free_ok h2]
      exact e1
    · intro b hb
      simp only [List.map_cons, List.mem_cons] at hb
      rcases hb with rfl | hb
      · rw [e3 _ hn.1, List.getElem?_set_self hlt]
      · exact e2 b hb
    · intro b hb
      simp only [List.map_cons, List.mem_cons, not_or] at hb
      rw [e3 b hb.2, List.getElem?_set_ne (fun e => hb.1 e.symm)]
    · rw [e4]; simp

theorem freeChain_spec (l : Chain V) (fuel : Nat) (ch : Heap (CNode V)) (hf : l.length ≤ fuel) (h : DL ch none l none) (hn : (l.map Prod.fst).Nodup) :
    ∃ ch' : Heap (CNode V), freeChain fuel (lastOf l none) ch = .ok ch' ∧ (∀ a ∈ l.map Prod.fst, ch'[a]? = some none) ∧
      (∀ a, a ∉ l.map Prod.fst → ch'[a]? = ch[a]?) ∧ ch'.length = ch.length := by
  obtain ⟨ch', e1, e2, e3, e4⟩ := freeChain_rev l.reverse fuel ch none (by simpa using hf) (by simpa using h) (by
    rw [List.map_reverse]; exact List.nodup_reverse.2 hn)
  rw [List.reverse_reverse] at e1
  rw [List.map_reverse] at e2 e3
  refine ⟨ch', e1, ?_, ?_, e4⟩
  · intro a ha; exact e2 a (List.mem_reverse.2 ha)
  · intro a ha; exact e3 a (fun h => ha (List.mem_reverse.1 h))

end Verif.UndoMem
