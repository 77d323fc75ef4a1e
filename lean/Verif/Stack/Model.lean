import Verif.Heap
/-
Model of the Stack template (include/core/Stack.h).  The elements live on a heap; pointers are addresses,
`nullptr` is `none`.  `mCount` is a uint32.
-/
namespace Verif.Stack
open Verif
variable {α : Type}

/-- Stack.h:48-57 `StackElement` -/
structure Node (α : Type) where
  prev : Option Nat
  data : α
deriving DecidableEq

/-- Stack.h:61-64 -/
structure Stk where
  top : Option Nat
  count : BitVec 32
deriving DecidableEq

/-- Stack.h:70-74 the constructor -/
def Stk.new : Stk := ⟨none, 0⟩

/-- dereferencing a pointer, possibly null -/
def ld (h : Heap (Node α)) : Option Nat → Res (Node α)
  | none => .error .ub
  | some p => h.load p

/-- Stack.h:87-90 -/
def Stk.hasElements (s : Stk) : Bool := s.top.isSome

/-- `delete` of a pointer; of a null pointer it does nothing -/
def del (h : Heap (Node α)) : Option Nat → Res (Heap (Node α))
  | none => .ok h
  | some p => h.free p

/-- Stack.h:96-104 `pop` -/
def Stk.pop (h : Heap (Node α)) (s : Stk) : Res (α × Heap (Node α) × Stk) := do
  let n ← ld h s.top
  let h ← del h s.top
  return (n.data, h, ⟨n.prev, s.count - 1⟩)

/-- Stack.h:110-113 `top` (read through the returned reference) -/
def Stk.getTop (h : Heap (Node α)) (s : Stk) : Res α := do
  let n ← ld h s.top
  return n.data

/-- Stack.h:110-122 `top`, `topRef` (assignment through the returned reference) -/
def Stk.setTop (h : Heap (Node α)) (s : Stk) (x : α) : Res (Heap (Node α)) :=
  match s.top with
  | none => .error .ub
  | some p => do
    let n ← h.load p
    h.store p { n with data := x }

/-- Stack.h:128-137 `top2` -/
def Stk.top2 (h : Heap (Node α)) (s : Stk) : Res α :=
  match s.top with
  | none => .error .thrown
  | some p => do
    let n ← h.load p
    match n.prev with
    | none => .error .thrown
    | some q => do
      let m ← h.load q
      return m.data

/-- Stack.h:143-152 `top3` -/
def Stk.top3 (h : Heap (Node α)) (s : Stk) : Res α :=
  match s.top with
  | none => .error .thrown
  | some p => do
    let n ← h.load p
    match n.prev with
    | none => .error .thrown
    | some q => do
      let m ← h.load q
      match m.prev with
      | none => .error .thrown
      | some r => do
        let k ← h.load r
        return k.data

/-- Stack.h:158-165 `push` -/
def Stk.push (h : Heap (Node α)) (s : Stk) (x : α) : Heap (Node α) × Stk :=
  let r := h.alloc ⟨s.top, x⟩
  (r.1, ⟨some r.2, s.count + 1⟩)

/-- Stack.h:170-173 `clear` (also the destructor, 79-82): `while(hasElements())pop()`.  `fuel` bounds the
rounds; running out is reported as UB and never happens for a proper stack (`history`). -/
def Stk.clearLoop : Nat → Heap (Node α) → Stk → Res (Heap (Node α) × Stk)
  | 0, _, _ => .error .ub
  | fuel + 1, h, s => if s.hasElements then do
      let r ← s.pop h
      Stk.clearLoop fuel r.2.1 r.2.2
    else .ok (h, s)

def Stk.clear (h : Heap (Node α)) (s : Stk) : Res (Heap (Node α) × Stk) := Stk.clearLoop (h.length + 1) h s

/-- Stack.h:185-202: the loop of `reverse` with the locals `mTop` and `push`; `fuel` as above. -/
def revLoop : Nat → Heap (Node α) → Option Nat → Option Nat → Res (Heap (Node α) × Option Nat)
  | 0, _, _, _ => .error .ub
  | fuel + 1, h, top, push =>
    match top with
    | none => .ok (h, push)
    | some p => do
      let n ← h.load p
      let h ← h.store p { n with prev := push }
      revLoop fuel h n.prev (some p)

/-- Stack.h:187-205 `reverse` -/
def Stk.reverse (h : Heap (Node α)) (s : Stk) : Res (Heap (Node α) × Stk) := do
  let r ← revLoop (h.length + 1) h s.top none
  return (r.1, ⟨r.2, s.count⟩)

/-- The implicitly generated copy constructor: both stacks point to the same elements. -/
def Stk.copy (s : Stk) : Stk := s

end Verif.Stack
