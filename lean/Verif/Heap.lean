import Verif.Base
/-
A heap of objects of one type: `new` yields an address never used before, `delete` marks it as freed, and any
access to an address that was never allocated or has been freed is undefined behaviour.
-/
namespace Verif

abbrev Heap (α : Type) := List (Option α)

namespace Heap
variable {α : Type}

/-- `new`: the new heap and the address -/
def alloc (h : Heap α) (x : α) : Heap α × Nat := (h ++ [some x], h.length)

/-- `*p` -/
def load (h : Heap α) (p : Nat) : Res α :=
  match h[p]? with
  | some (some x) => .ok x
  | _ => .error .ub

/-- `*p = x` -/
def store (h : Heap α) (p : Nat) (x : α) : Res (Heap α) :=
  match h[p]? with
  | some (some _) => .ok (h.set p (some x))
  | _ => .error .ub

/-- `delete p` for a non-null pointer -/
def free (h : Heap α) (p : Nat) : Res (Heap α) :=
  match h[p]? with
  | some (some _) => .ok (h.set p none)
  | _ => .error .ub

theorem load_ok {h : Heap α} {p : Nat} {x : α} (e : h[p]? = some (some x)) : h.load p = .ok x := by
  simp [load, e]

theorem load_free {h : Heap α} {p : Nat} (e : h[p]? = some none) : h.load p = .error .ub := by
  simp [load, e]

theorem store_ok {h : Heap α} {p : Nat} {x y : α} (e : h[p]? = some (some x)) : h.store p y = .ok (h.set p (some y)) := by
  simp [store, e]

theorem free_ok {h : Heap α} {p : Nat} {x : α} (e : h[p]? = some (some x)) : h.free p = .ok (h.set p none) := by
  simp [free, e]

theorem lt_of_live {h : Heap α} {p : Nat} {x : α} (e : h[p]? = some (some x)) : p < h.length :=
  (List.getElem?_eq_some_iff.1 e).1

/-- the heap has no live object left (nothing leaks) -/
def AllFreed (h : Heap α) : Prop := ∀ c ∈ h, c = none

end Heap
end Verif
