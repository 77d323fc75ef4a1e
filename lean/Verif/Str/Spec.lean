import Verif.Str.Lemmas
/-
Specifications on plain character sequences.
-/
namespace Verif.Str.Spec
open Verif Verif.Str

/-- Client edits of a string; string arguments are other objects. -/
inductive Op where
  | append (t : Str)
  | appendSelf
  | appendChar (c : Ch)
  | insertChar (i : Int) (c : Ch)
  | insert (i : Int) (t : Str)
  | setCharAt (i : Int) (c : Ch)
  | deleteCharAt (i : Int)
  | deleteRange (i : Int) (n : Nat)
  | clear

/-- What the edit does to the sequence; `none`: it throws. -/
def edit (l : List Ch) : Op → Option (List Ch)
  | .append t => some (l ++ chars t)
  | .appendSelf => some (l ++ l)
  | .appendChar c => some (l ++ [c])
  | .insertChar i c => if 0 ≤ i ∧ i ≤ l.length then some (l.take i.toNat ++ [c] ++ l.drop i.toNat) else none
  | .insert i t => if 0 ≤ i ∧ i ≤ l.length then some (l.take i.toNat ++ chars t ++ l.drop i.toNat) else none
  | .setCharAt i c => if 0 ≤ i ∧ i < l.length then some (l.set i.toNat c) else none
  | .deleteCharAt i => if 0 ≤ i ∧ i < l.length then some (l.take i.toNat ++ l.drop (i.toNat + 1)) else none
  | .deleteRange i n => if 0 ≤ i ∧ i ≤ l.length then some (l.take i.toNat ++ l.drop (i.toNat + n)) else none
  | .clear => some []

/-- A history of edits: a throwing edit changes nothing. `true` = the edit threw. -/
def editAll (l : List Ch) : List Op → List Ch × List Bool
  | [] => (l, [])
  | op :: ops =>
    match edit l op with
    | some l' => let r := editAll l' ops; (r.1, false :: r.2)
    | none => let r := editAll l ops; (r.1, true :: r.2)

/-- String arguments are proper objects. -/
def Op.ArgsWF : Op → Prop
  | .append t => WF t
  | .insert _ t => WF t
  | _ => True

/-- The range of a range deletion lies in the string (`l` the content at that moment). -/
def Op.InRange (l : List Ch) : Op → Prop
  | .deleteRange i n => 0 ≤ i → i ≤ l.length → i.toNat + n ≤ l.length
  | _ => True

/-- Every range deletion in a history stays in range. -/
def AllInRange (l : List Ch) : List Op → Prop
  | [] => True
  | op :: ops => op.InRange l ∧ AllInRange ((edit l op).getD l) ops

/-- The polynomial hash `31 h + c` modulo 2^32. -/
def H (l : List Ch) : BitVec 32 := l.foldl (fun h c => 31#32 * h + c.setWidth 32) 0

end Verif.Str.Spec
