import Verif.Hashtable.Model
/-
Specification: a finite map from key contents to pointers, as a plain function, and the
operations a client can perform on it.
-/
namespace Verif.Hashtable.Spec
open Verif Verif.Hashtable

/-- A map: `none` = key absent. -/
abbrev Map (K : Type) := K → Option Ptr

variable {K : Type} [DecidableEq K]

def empty : Map K := fun _ => none
def insert (m : Map K) (k : K) (v : Ptr) : Map K := fun x => if x = k then some v else m x
def erase (m : Map K) (k : K) : Map K := fun x => if x = k then none else m x

/-- What the API reports for an optional value: absent is `nullptr`. -/
def orNull : Option Ptr → Ptr
  | some v => v
  | none => nullptr

/-- Client operations and their results. -/
inductive Op (K : Type) where
  | put (k : K) (v : Ptr)
  | get (k : K)
  | containsKey (k : K)
  | remove (k : K)
  | clear
  | size

inductive Out where
  | ptr (p : Ptr)
  | bool (b : Bool)
  | unit
  | nat (n : Nat)
deriving DecidableEq, Repr

/-- `n` is the number of keys present in `m`. -/
def HasSize (m : Map K) (n : Nat) : Prop := ∃ ks : List K, ks.Nodup ∧ (∀ k, k ∈ ks ↔ m k ≠ none) ∧ ks.length = n

/-- One step of the specification: which map and which answer are allowed.
`put`/`remove` answer the previous value, `containsKey` whether a non-null value is present. -/
inductive Step : Map K → Op K → Map K → Out → Prop
  | put (m k v) : Step m (.put k v) (insert m k v) (.ptr (orNull (m k)))
  | get (m k) : Step m (.get k) m (.ptr (orNull (m k)))
  | containsKey (m k) : Step m (.containsKey k) m (.bool (decide (orNull (m k) ≠ nullptr)))
  | remove (m k) : Step m (.remove k) (erase m k) (.ptr (orNull (m k)))
  | clear (m) : Step m .clear empty .unit
  | size (m n) : HasSize m n → Step m .size m (.nat n)

/-- A history of operations with their answers. -/
inductive Steps : Map K → List (Op K) → Map K → List Out → Prop
  | nil (m) : Steps m [] m []
  | cons {m m1 m2 op o ops os} : Step m op m1 o → Steps m1 ops m2 os → Steps m (op :: ops) m2 (o :: os)

end Verif.Hashtable.Spec
