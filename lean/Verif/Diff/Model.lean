import Verif.Base
/-
Model of src/core/DiffDiag.cpp, src/core/DiffDistance.cpp and DiffBacktrace::backtrace (src/core/DiffBacktrace.cpp).

 * Objects are values of any type; `eqv` is `Object::equals`.
 * A diagonal is named by its offset.  The diagonals reachable from the main one are one per offset: `above` of an offset ≥ 0 is
   the next higher one, `above` of an offset < 0 the next lower one, `below` is created (offset -1) for the main diagonal only and
   was set to the creator for all others (DiffDiag.cpp:59-83).  Diagonals with offset < 0 hold the two vectors exchanged.
 * `mElements` of all diagonals together is a table; a diagonal that has not been created yet has the contents its constructor
   gives it.  `int64` values are distances and indices, natural numbers here.  `calc` and the output to cout are left out.
 * `vector::at` outside the vector throws.
 * Recursion and loops carry a bound; running out of it is `ub`, which the theorems exclude.
-/
namespace Verif.Diff
open Verif

variable {α : Type}

abbrev Tab := Int → List Nat

/-- the two vectors given to `DiffDistance::addU`, `addV` and `Object::equals` -/
structure Ctx (α : Type) where
  u : List α
  v : List α
  eqv : α → α → Bool

/-- DiffDiag.cpp:36-48: the constructor pushes the absolute value of the offset -/
def tab0 : Tab := fun k => [k.natAbs]

/-- DiffDiag.cpp:57-65 -/
def above (k : Int) : Int := if k ≥ 0 then k + 1 else k - 1

/-- DiffDiag.cpp:67-78, and the assignment of `mBelow` in line 64 -/
def below (k : Int) : Int := if k > 0 then k - 1 else if k = 0 then -1 else k + 1

/-- `std::vector::at`; `i` is the index plus one -/
def at1 (l : List α) (i : Nat) : Res α :=
  match i with
  | 0 => .error .thrown
  | i + 1 =>
    match l[i]? with
    | some x => .ok x
    | none => .error .thrown

/-- DiffDiag.cpp:142-145; a diagonal below the main one has the vectors exchanged (line 77) -/
def objectU (c : Ctx α) (k : Int) (i : Nat) : Res α := at1 (if k ≥ 0 then c.u else c.v) i

/-- DiffDiag.cpp:147-150 -/
def objectV (c : Ctx α) (k : Int) (i : Nat) : Res α := at1 (if k ≥ 0 then c.v else c.u) (k.natAbs + i)

/-- DiffDiag.cpp:85-91: the index in the diagonal below -/
def leftIdx (k : Int) (i : Nat) : Nat := if k = 0 then i - 1 else i

def Tab.push (t : Tab) (k : Int) (x : Nat) : Tab := fun k' => if k' = k then t k ++ [x] else t k'

/-- DiffDiag.cpp:109-133: the value of the next element; `ent` is `entry` of other diagonals -/
def cellStep (ent : Tab → Int → Nat → Res (Nat × Tab)) (c : Ctx α) (t : Tab) (k : Int) (i lu : Nat) : Res (Nat × Tab) := do
  let o1 ← objectU c k i
  let o2 ← objectV c k i
  if c.eqv o1 o2 then return (lu, t)
  else
    let l ← ent t (below k) (leftIdx k i)
    if l.1 < lu then return (l.1 + 1, l.2)
    else
      let u ← ent l.2 (above k) (i - 1)
      return ((if lu < u.1 then lu else u.1) + 1, u.2)

/-- DiffDiag.cpp:99-138 -/
def entryLoop (ent : Tab → Int → Nat → Res (Nat × Tab)) (c : Ctx α) (k : Int) (j : Nat) : Nat → Tab → Nat → Res (Nat × Tab)
  | 0, _, _ => .error .ub
  | fuel + 1, t, x =>
    if (t k).length ≤ j then do
      let r ← cellStep ent c t k (t k).length x
      entryLoop ent c k j fuel (r.2.push k r.1) r.1
    else .ok (x, t)

/-- DiffDiag.cpp:93-140 -/
def entry (c : Ctx α) : Nat → Tab → Int → Nat → Res (Nat × Tab)
  | 0, _, _, _ => .error .ub
  | fuel + 1, t, k, j =>
    match (t k)[j]? with
    | some x => .ok (x, t)
    | none =>
      match (t k)[(t k).length - 1]? with
      | none => .error .thrown
      | some x => entryLoop (entry c fuel) c k j (j + 2) t x

inductive DOp where
  | add
  | delete
  | modified
  | equal
  | start
deriving DecidableEq, Repr

/-- what a DiffBacktrace carries (the links are the order in the list) -/
structure Step (α : Type) where
  op : DOp
  obj1 : Option α
  obj2 : Option α
deriving DecidableEq, Repr

/-- DiffBacktrace.cpp:91-144: the operation -/
def opAt (c : Ctx α) (fuel : Nat) (t : Tab) (k : Int) (i : Nat) : Res (DOp × Tab) :=
  if i = 0 then .ok (if k = 0 then .start else if k > 0 then .add else .delete, t)
  else do
    let o1 ← objectU c k i
    let o2 ← objectV c k i
    if c.eqv o1 o2 then return (.equal, t)
    else
      let me ← entry c fuel t k i
      let w ← entry c fuel me.2 (below k) (leftIdx k i)
      let nw ← entry c fuel w.2 k (i - 1)
      if me.1 = 1 + w.1 then return (if k ≥ 0 then .add else .delete, nw.2)
      else if me.1 = 1 + nw.1 then return (.modified, nw.2)
      else return (if k ≥ 0 then .delete else .add, nw.2)

/-- DiffBacktrace.cpp:146-212: the step reported, the next diagonal and index; `none` ends the loop -/
def move (c : Ctx α) (k : Int) (i : Nat) : DOp → Res (Step α × Option (Int × Nat))
  | .equal => .ok (⟨.equal, none, none⟩, some (k, i - 1))
  | .modified => do
    let a ← objectU c k i
    let b ← objectV c k i
    return (⟨.modified, some a, some b⟩, some (k, i - 1))
  | .add => do
    let a ← objectV c k i
    return (⟨.add, some a, none⟩, some (if k = 0 then (below k, i - 1) else if k ≥ 0 then (below k, i) else (above k, i - 1)))
  | .delete => do
    let a ← objectV c k i
    return (⟨.delete, some a, none⟩, some (if k = 0 then (above k, i - 1) else if k ≥ 0 then (above k, i - 1) else (below k, i)))
  | .start => .ok (⟨.start, none, none⟩, none)

/-- DiffBacktrace.cpp:84-226: the stack has the latest step first, which is the order of the list returned -/
def backtrace (c : Ctx α) (ef : Nat) : Nat → Tab → Int → Nat → List (Step α) → Res (List (Step α))
  | 0, _, _, _, _ => .error .ub
  | fuel + 1, t, k, i, stack => do
    let op ← opAt c ef t k i
    let r ← move c k i op.1
    match r.2 with
    | none => return r.1 :: stack
    | some (k, i) => backtrace c ef fuel op.2 k i (r.1 :: stack)

/-- DiffDistance.cpp:76-124: the distance and the steps.  (`(int)` of the smaller length needs lengths below 2³¹.) -/
def solve (c : Ctx α) : Res (Nat × List (Step α)) := do
  let k : Int := c.v.length - c.u.length
  let fuel := c.u.length + c.v.length + 1
  let d ← entry c fuel tab0 k (min c.u.length c.v.length)
  let b ← backtrace c fuel fuel d.2 k (min c.u.length c.v.length) []
  return (d.1, b)

end Verif.Diff
