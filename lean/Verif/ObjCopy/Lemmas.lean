import Verif.ObjCopy.Spec
import Verif.RefCount.Props
/-
C121: lemmas.
-/
namespace Verif.ObjCopy
open Verif
open Verif.RefCount (refCount withHighBit highBit cv cv_sub cv_add refCount_zero highBit_sequential)

theorem refCount_toNat (x : BitVec 32) : (refCount x).toNat = cv x := by
  unfold refCount cv
  rw [BitVec.toNat_and]
  exact Nat.and_two_pow_sub_one_eq_mod x.toNat 31

theorem word_sub {x : BitVec 32} (h : 0 < cv x) : cv (x - 1) = cv x - 1 ∧ highBit (x - 1) = highBit x ∧ x ≠ 0x80000000 :=
  ⟨(cv_sub h).1, ((highBit_sequential x true).2.2.1 (by rw [refCount_toNat]; exact h)).2, (cv_sub h).2⟩

theorem word_add {x : BitVec 32} (h : cv x + 1 < 2 ^ 31) : cv (x + 1) = cv x + 1 ∧ highBit (x + 1) = highBit x ∧ x ≠ 0x7FFFFFFF :=
  ⟨(cv_add h).1, ((highBit_sequential x true).2.2.2 (by rw [refCount_toNat]; exact h)).2, (cv_add h).2⟩

theorem word_mark (x : BitVec 32) (b : Bool) : cv (withHighBit x b) = cv x ∧ highBit (withHighBit x b) = b := by
  refine ⟨?_, (highBit_sequential x b).2.1⟩
  rw [← refCount_toNat, ← refCount_toNat, (highBit_sequential x b).1]

/-- what the object `o` looks like -/
def Slot (c : Option (Option Obj)) (refs : Nat) (mark : Bool) (born : Nat) (u : Bool) : Prop :=
  if refs = 0 then c = some none
  else ∃ x, c = some (some x) ∧ cv x.raw = refs ∧ highBit x.raw = mark ∧ x.pool = some born ∧ x.userCopy = u

structure Good (h : Heap Obj) (n : Nat) (r : Nat → Nat) (mark : Nat → Bool) (born : Nat → Nat) (u : Nat → Bool) : Prop where
  len : h.length = n
  slot : ∀ o, o < n → Slot (h[o]?) (r o) (mark o) (born o) (u o)

theorem Good.get {h : Heap Obj} {n : Nat} {r : Nat → Nat} {mark : Nat → Bool} {born : Nat → Nat} {u : Nat → Bool}
    (g : Good h n r mark born u) {o : Nat} (ho : o < n) (hr : 0 < r o) :
    ∃ x, h[o]? = some (some x) ∧ cv x.raw = r o ∧ highBit x.raw = mark o ∧ x.pool = some (born o) ∧ x.userCopy = u o := by
  have := g.slot o ho
  unfold Slot at this
  rwa [if_neg (by omega)] at this

theorem Good.set {h : Heap Obj} {n : Nat} {r r' : Nat → Nat} {mark mark' : Nat → Bool} {born : Nat → Nat} {u : Nat → Bool}
    (g : Good h n r mark born u) {o : Nat} (ho : o < n) (c : Option Obj)
    (hs : Slot (some c) (r' o) (mark' o) (born o) (u o)) (hr : ∀ i, i ≠ o → r' i = r i) (hm : ∀ i, i ≠ o → mark' i = mark i) :
    Good (h.set o c) n r' mark' born u := by
  refine ⟨by rw [List.length_set]; exact g.len, fun i hi => ?_⟩
  by_cases e : i = o
  · subst e
    rw [List.getElem?_set_self (by rw [g.len]; exact ho)]
    exact hs
  · rw [List.getElem?_set_ne (fun e' => e e'.symm), hr i e, hm i e]
    exact g.slot i hi

theorem Good.congr {h : Heap Obj} {n : Nat} {r r' : Nat → Nat} {mark : Nat → Bool} {born : Nat → Nat} {u : Nat → Bool}
    (g : Good h n r mark born u) (e : ∀ o, o < n → r' o = r o) : Good h n r' mark born u :=
  ⟨g.len, fun o ho => by rw [e o ho]; exact g.slot o ho⟩

/-- one reference less -/
theorem release_ok {s : State} {n : Nat} {r : Nat → Nat} {mark : Nat → Bool} {born : Nat → Nat} {u : Nat → Bool}
    (g : Good s.objs n r mark born u) {o : Nat} (ho : o < n) (hr : 0 < r o) {l : List Nat} (hp : s.pools[born o]? = some (some l)) :
    ∃ h', release s o = .ok { s with objs := h' } ∧ Good h' n (ObjCopy.set r o (r o - 1)) mark born u := by
  obtain ⟨x, hx, hc, hm, hpo, hu⟩ := g.get ho hr
  obtain ⟨w1, w2, w3⟩ := word_sub (x := x.raw) (by omega)
  have hl : lockPool s x.pool = .ok () := by rw [hpo]; simp only [lockPool, Heap.load_ok hp]; rfl
  have hs : ∀ i, i ≠ o → ObjCopy.set r o (r o - 1) i = r i := fun i hi => by simp [ObjCopy.set, hi]
  have hso : ObjCopy.set r o (r o - 1) o = r o - 1 := by simp [ObjCopy.set]
  have base : release s o = if refCount (x.raw - 1) = 0 then (do let objs ← s.objs.free o; return { s with objs := objs }) else
      (do let objs ← s.objs.store o { x with raw := x.raw - 1 }; return { s with objs := objs }) := by
    unfold release
    rw [Heap.load_ok hx]
    show (if x.pool.isNone = true then _ else _) = _
    rw [if_neg (by rw [hpo]; simp)]
    show (lockPool s x.pool >>= _) = _
    rw [hl]
    show (if x.raw = 0x80000000 then _ else _) = _
    rw [if_neg w3]
  by_cases hz : refCount (x.raw - 1) = 0
  · refine ⟨s.objs.set o none, ?_, g.set ho none ?_ hs (fun _ _ => rfl)⟩
    · rw [base, if_pos hz, Heap.free_ok hx]; rfl
    · rw [refCount_zero, w1] at hz
      rw [hso]
      unfold Slot
      rw [if_pos (by omega)]
  · refine ⟨s.objs.set o (some { x with raw := x.raw - 1 }), ?_, g.set ho _ ?_ hs (fun _ _ => rfl)⟩
    · rw [base, if_neg hz, Heap.store_ok hx]; rfl
    · rw [refCount_zero, w1] at hz
      rw [hso]
      unfold Slot
      rw [if_neg (by omega)]
      exact ⟨_, rfl, by show cv (x.raw - 1) = _; omega, by rw [← hm]; exact w2, hpo, hu⟩

/-- the loop of `drain` -/
theorem releaseAll_ok (l : List Nat) : ∀ {s : State} {n : Nat} {r : Nat → Nat} {mark : Nat → Bool} {born : Nat → Nat} {u : Nat → Bool} {p : Nat}
    {q : List Nat}, Good s.objs n (fun o => r o + l.count o) mark born u → (∀ o ∈ l, o < n ∧ born o = p) → s.pools[p]? = some (some q) →
    ∃ h', releaseAll s l = .ok { s with objs := h' } ∧ Good h' n r mark born u := by
  induction l with
  | nil =>
    intro s n r mark born u p q g _ _
    exact ⟨s.objs, rfl, g.congr fun o _ => by simp⟩
  | cons o l ih =>
    intro s n r mark born u p q g hl hp
    obtain ⟨ho, hb⟩ := hl o (by simp)
    obtain ⟨h1, e1, g1⟩ := release_ok g ho (by simp; omega) (hb ▸ hp)
    have g2 : Good h1 n (fun o => r o + l.count o) mark born u := by
      refine g1.congr fun i _ => ?_
      unfold ObjCopy.set
      by_cases e : i = o
      · subst e; simp
      · rw [if_neg e]; show _ = r i + (o :: l).count i; rw [List.count_cons_of_ne (fun e' => e e'.symm)]
    obtain ⟨h2, e2, g3⟩ := ih (s := { s with objs := h1 }) g2 (fun i hi => hl i (by simp [hi])) hp
    refine ⟨h2, ?_, g3⟩
    simp only [releaseAll, e1]
    exact e2

end Verif.ObjCopy
