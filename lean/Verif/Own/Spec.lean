import Verif.Own.Model
/-
C96: what the user of a value type expects: a variable has a value of its own - a sequence of elements, `none` standing
for an element nothing was ever written to - and an operation changes nothing but the variable it is applied to.
-/
namespace Verif.Own
open Verif
variable {α : Type}

/-- an element is written -/
def put (v : List (Option α)) (i : Nat) (x : α) : Option (List (Option α)) :=
  if i < v.length then some (v.set i (some x)) else none

/-- numbers may only be copied once they were written -/
def written (v : List (Option α)) : Option (List (Option α)) := if v.all Option.isSome then some v else none

def byteArray : Val ByteArray.Args ByteArray.Call Assign (List (Option Byte)) where
  make
    | .null => some []
    | .bytes l => some (l.map some)
    | .filled n c => some (List.replicate n (some c))
  copy v := some v
  mutate
    | .set i x => fun v => put v i x
    | .fill c => fun v => some (List.replicate v.length (some c))
  binary := fun .assign _ other => some other

/-- `none` is the array without a buffer: it cannot be copied or assigned -/
def charArray : Val CharArray.Args CharArray.Call Assign (Option (List (Option CharArray.Ch))) where
  make
    | .null => some none
    | .sized n => some (some (List.replicate n (some 0)))
  copy v := v.map some
  mutate := fun (.set i c) v => v.bind (fun v => (put v i c).map some)
  binary := fun .assign _ other => other.map some

def array (init : Option α) : Val Nat (Array.Call α) Assign (List (Option α)) where
  make n := some (List.replicate n init)
  copy v := written v
  mutate := fun (.set i x) v => put v i x
  binary := fun .assign _ other => written other

def string : Val Str.Args Str.Call Str.Binary (List (Option Str.Ch)) where
  make
    | .empty => some []
    | .chars l => some (l.map some)
  copy v := some v
  mutate
    | .set i c => fun v => put v i c
    | .append c => fun v => some (v ++ [some c])
    | .clear => fun _ => some []
  binary
    | .assign => fun _ other => some other
    | .append => fun v other => some (v ++ other)

def stringList (e : α) : Val (StrList.Args α) (StrList.Call α) Assign (List (Option α)) where
  make
    | .empty => some []
    | .sized n => some (List.replicate n (some e))
    | .single s => some [some s]
  copy v := some v
  mutate
    | .append s => fun v => some (v ++ [some s])
    | .set i s => fun v => put v i s
    | .clear => fun _ => some []
    | .reserve _ => fun v => some v
  binary := fun .assign _ other => some other

def vector (zero : α) : Val Vec.Args (Vec.Call α) Assign (List (Option α)) where
  make
    | .null => some []
    | .sized n => some (List.replicate n (some zero))
  copy v := some v
  mutate := fun (.set i x) v => put v i x
  binary := fun .assign _ other => some other

/-- rows, columns and the cells, column by column -/
def matrix (zero : α) : Val (Mat.Args α) (Mat.Call α) Assign (Nat × Nat × List (Option α)) where
  make
    | .null => some (0, 0, [])
    | .sized m n => some (m, n, List.replicate (m * n) (some zero))
    | .value x => some (1, 1, [some x])
  copy v := some v
  mutate
    | .set row col x => fun v => if row < v.1 ∧ col < v.2.1 then some (v.1, v.2.1, v.2.2.set (row + col * v.1) (some x)) else none
    | .zeros => fun v => some (v.1, v.2.1, List.replicate (v.1 * v.2.1) (some zero))
  binary := fun .assign _ other => some other

end Verif.Own
