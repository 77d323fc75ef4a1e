import Verif.Str.Model
/-
Specification of path strings: components separated by '/'.
-/
namespace Verif.Path.Spec
open Verif Verif.Str

def slash : Ch := 0x2F

/-- the parts between separators, empty ones included -/
def split : List Ch → List (List Ch)
  | [] => [[]]
  | c :: l =>
    if c = slash then [] :: split l
    else match split l with
      | s :: ss => (c :: s) :: ss
      | [] => [[c]]

/-- the components of a path: the non-empty parts -/
def comps (l : List Ch) : List (List Ch) := (split l).filter (fun s => !s.isEmpty)

def Absolute (l : List Ch) : Prop := l.head? = some slash

instance (l : List Ch) : Decidable (Absolute l) := inferInstanceAs (Decidable (_ = _))

/-- components joined by single separators -/
def join : List (List Ch) → List Ch
  | [] => []
  | [x] => x
  | x :: y :: r => x ++ slash :: join (y :: r)

/-- the canonical way to write a path -/
def canonical (l : List Ch) : List Ch := (if Absolute l then [slash] else []) ++ join (comps l)

/-- no two separators in a row, and no separator at the end (but for the path "/") -/
def Normal (l : List Ch) : Prop :=
  (¬ ∃ a b, l = a ++ slash :: slash :: b) ∧ (l.getLast? = some slash → l = [slash])

end Verif.Path.Spec
