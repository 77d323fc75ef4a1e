/-
Specification of the difference of two sequences: edit scripts.  Nothing here refers to matrices or diagonals.
-/
namespace Verif.Diff.Spec

variable {α : Type}

inductive Op where
  | keep
  | replace
  | insert
  | delete
deriving DecidableEq, Repr

/-- the script turns the first sequence into the second; what is kept must be equal -/
inductive Script (eqv : α → α → Bool) : List α → List α → List Op → Prop
  | done : Script eqv [] [] []
  | keep {a b u v s} : eqv a b = true → Script eqv u v s → Script eqv (a :: u) (b :: v) (.keep :: s)
  | replace {a b u v s} : Script eqv u v s → Script eqv (a :: u) (b :: v) (.replace :: s)
  | insert {b u v s} : Script eqv u v s → Script eqv u (b :: v) (.insert :: s)
  | delete {a u v s} : Script eqv u v s → Script eqv (a :: u) v (.delete :: s)

/-- number of insertions, deletions and replacements -/
def cost (s : List Op) : Nat := (s.filter (fun o => o != .keep)).length

/-- least cost of a script -/
def IsDistance (eqv : α → α → Bool) (u v : List α) (d : Nat) : Prop :=
  (∃ s, Script eqv u v s ∧ cost s = d) ∧ ∀ s, Script eqv u v s → d ≤ cost s

end Verif.Diff.Spec
