import Verif.DiffMem.Model
import Verif.Diff.Spec
/-
What a client sees: DiffDistance objects are two lists and a number, results are lists of steps; nothing is in memory.
`solve` is the function `Diff.solve` of the two lists, about which C37 and C38 speak.
-/
namespace Verif.DiffMem
open Verif Verif.Diff

variable {α : Type}

structure ADist (α : Type) where
  u : List α
  v : List α
  distance : Nat

structure Abs (α : Type) where
  dists : List (Option (ADist α))
  reports : List (Option (List (Step α)))

def Abs.init : Abs α := ⟨[], []⟩

/-- using what has been destroyed, or never was, is the client's fault -/
def alive {β : Type} (l : List (Option β)) (i : Nat) : Res β :=
  match l[i]? with
  | some (some x) => .ok x
  | _ => .error .ub

def acall (eqv : α → α → Bool) (sh : Show α) (a : Abs α) : Call α → Res (Abs α × Out)
  | .create => .ok ({ a with dists := a.dists ++ [some ⟨[], [], 0⟩] }, .nothing)
  | .addU h x => do
    let d ← alive a.dists h
    return ({ a with dists := a.dists.set h (some { d with u := d.u ++ [x] }) }, .nothing)
  | .addV h x => do
    let d ← alive a.dists h
    return ({ a with dists := a.dists.set h (some { d with v := d.v ++ [x] }) }, .nothing)
  | .solve h => do
    let d ← alive a.dists h
    let s ← Diff.solve ⟨d.u, d.v, eqv⟩
    return (⟨a.dists.set h (some { d with distance := s.1 }), a.reports ++ [some s.2]⟩, .nothing)
  | .distance h => do
    let d ← alive a.dists h
    return (a, .number d.distance)
  | .clear h => do
    let _ ← alive a.dists h
    return ({ a with dists := a.dists.set h (some ⟨[], [], 0⟩) }, .nothing)
  | .destroy h => do
    let _ ← alive a.dists h
    return ({ a with dists := a.dists.set h none }, .nothing)
  | .print r => do
    let s ← alive a.reports r
    return (a, .text (s.flatMap (printStep sh)))
  | .drop r => do
    let _ ← alive a.reports r
    return ({ a with reports := a.reports.set r none }, .nothing)

def arun (eqv : α → α → Bool) (sh : Show α) : Abs α → List (Call α) → Res (Abs α × List Out)
  | a, [] => .ok (a, [])
  | a, c :: cs => do
    let r ← acall eqv sh a c
    let s ← arun eqv sh r.1 cs
    return (s.1, r.2 :: s.2)

/-! ### In words of the history -/

/-- what `addU h` has added since the last `clear h` -/
def addedU (h : Nat) : List α → List (Call α) → List α
  | acc, [] => acc
  | acc, .addU h' x :: cs => addedU h (if h' = h then acc ++ [x] else acc) cs
  | acc, .clear h' :: cs => addedU h (if h' = h then [] else acc) cs
  | acc, _ :: cs => addedU h acc cs
/-- what `addV h` has added since the last `clear h` -/
def addedV (h : Nat) : List α → List (Call α) → List α
  | acc, [] => acc
  | acc, .addV h' x :: cs => addedV h (if h' = h then acc ++ [x] else acc) cs
  | acc, .clear h' :: cs => addedV h (if h' = h then [] else acc) cs
  | acc, _ :: cs => addedV h acc cs

/-- the entry of the report for an insertion, a deletion, a replacement -/
def Entry : Verif.Diff.Spec.Op → List (List Char) → Prop
  | .keep, l => l = []
  | .insert, l => ∃ n, l = ["A ".toList ++ n]
  | .delete, l => ∃ n, l = ["D ".toList ++ n]
  | .replace, l => ∃ n r, l = ("M ".toList ++ n) :: r ∨ l = ("R ".toList ++ n) :: r

/-- what the call needs exists -/
def Usable (a : Abs α) : Call α → Prop
  | .create => True
  | .addU h _ => ∃ d, a.dists[h]? = some (some d)
  | .addV h _ => ∃ d, a.dists[h]? = some (some d)
  | .solve h => ∃ d, a.dists[h]? = some (some d)
  | .distance h => ∃ d, a.dists[h]? = some (some d)
  | .clear h => ∃ d, a.dists[h]? = some (some d)
  | .destroy h => ∃ d, a.dists[h]? = some (some d)
  | .print r => ∃ s, a.reports[r]? = some (some s)
  | .drop r => ∃ s, a.reports[r]? = some (some s)

end Verif.DiffMem
