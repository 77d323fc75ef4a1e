import Verif.Num.Model
/-
Model of String::argIndicies, String::arg (src/core/String.cpp:780-962) and
String::compareFancyTo (679-752).  Strings are character lists (see Verif/Str for the refinement of
substring and append).
-/
namespace Verif.Str.Arg
open Verif Verif.Str Verif.Num

/-- `substring(b, e)` on the characters, PartProps.substring_spec -/
def sub (l : List Ch) (b e : Int) : List Ch := (l.take e.toNat).drop b.toNat

/-- String.cpp:790-798: the number behind a `%` at `index`, if a digit follows. -/
def numberAt (s : List Ch) (index : Nat) : Option Int :=
  match s[index]?, s[index + 1]? with
  | some c, some d =>
    if c = 0x25 ∧ isDigit d then
      match s[index + 2]? with
      | some e => if isDigit e then some (digitValue d * 10 + digitValue e) else some (digitValue d)
      | none => some (digitValue d)
    else none
  | _, _ => none

/-- String.cpp:790-805: one iteration; state `(first, second, lowest)`. -/
def argStep (s : List Ch) (index : Nat) (st : Int × Int × Int) : Int × Int × Int :=
  match numberAt s index with
  | some number =>
    if number < st.2.2 then (index, if number > 9 then index + 2 + 1 else index + 2, number) else st
  | none => st

/-- String.cpp:788-806: the loop. -/
def argLoop (s : List Ch) (index : Nat) (st : Int × Int × Int) : Int × Int × Int :=
  if index + 1 < s.length then argLoop s (index + 1) (argStep s index st)
  else st
termination_by s.length - index

/-- String.cpp:780-809 `argIndicies` -/
def argIndicies (s : List Ch) : Option (Int × Int) :=
  if (0x25 : Ch) ∉ s then none
  else
    let r := argLoop s 0 (-1, -1, 100)
    some (r.1, r.2.1)

/-- `for(int64 a = size; a < width; a++) result << fillchar` -/
def fill (size : Nat) (width : Int) (fillchar : Ch) : List Ch := List.replicate (width - size).toNat fillchar

/-- String.cpp:896-923 `arg(const String&, fieldwidth, fillchar)`.  The `Char` and integer versions
(812-894) are the same with the one-character string and `valueOf(value)`.  `abs` of the most
negative width is not modelled (UB). -/
def arg (s value : List Ch) (width : Int) (fillchar : Ch) : List Ch :=
  match argIndicies s with
  | none => s
  | some (first, second) =>
    sub s 0 first ++ (if width > 0 then fill value.length width fillchar else []) ++ value ++
      (if width < 0 then fill value.length (-width) fillchar else []) ++ sub s second s.length

/-- String.cpp:847-874 `arg(int64, …)` -/
def argInt (s : List Ch) (value : Int) (width : Int) (fillchar : Ch) : Res (List Ch) :=
  match argIndicies s with
  | none => .ok s
  | some _ => do
    let v ← valueOf value
    return arg s v width fillchar

/-- String.cpp:812-844 `arg(Char, …)` -/
def argChar (s : List Ch) (c : Ch) (width : Int) (fillchar : Ch) : List Ch := arg s [c] width fillchar

/-! compareFancyTo -/

/-- String.cpp:698-703: the inner loop collecting a run of digits; `cntin` is at the last digit read.
Returns the last index and the number (`uint32`). -/
def digitRun (s : List Ch) (strl cntin : Nat) (number : BitVec 32) : Nat × BitVec 32 :=
  if h : cntin + 1 < strl ∧ cntin + 1 < s.length then
    if isDigit (s[cntin + 1]'h.2) then
      digitRun s strl (cntin + 1) (number * 10 + BitVec.ofInt 32 (digitValue (s[cntin + 1]'h.2)))
    else (cntin, number)
  else (cntin, number)
termination_by strl - cntin

theorem digitRun_ge (s : List Ch) (strl cntin : Nat) (number : BitVec 32) : cntin ≤ (digitRun s strl cntin number).1 := by
  fun_induction digitRun s strl cntin number <;> omega

/-- String.cpp:692-711: conversion of a string; the array of 256 cells is `out` (at most one cell per
character, so it never overflows). -/
def fancyLoop (s : List Ch) (strl cntin : Nat) (out : List (BitVec 32)) : Res (List (BitVec 32)) :=
  if h : cntin < strl then do
    let c ← rd s cntin
    if isDigit c then
      let r := digitRun s strl cntin (BitVec.ofInt 32 (digitValue c))
      let out ← emit 256 out r.2
      fancyLoop s strl (r.1 + 1) out
    else
      let out ← emit 256 out (c.setWidth 32)
      fancyLoop s strl (cntin + 1) out
  else .ok out
termination_by strl - cntin
decreasing_by
  · have := digitRun_ge s strl cntin (BitVec.ofInt 32 (digitValue c)); omega
  · omega

/-- String.cpp:737-749: the comparison loop. -/
def cmpKeys : List (BitVec 32) → List (BitVec 32) → Int
  | [], [] => 0
  | [], _ :: _ => -1
  | _ :: _, [] => 1
  | a :: l, b :: m => if a.toNat < b.toNat then -1 else if a.toNat > b.toNat then 1 else cmpKeys l m

/-- String.cpp:679-752 `compareFancyTo` -/
def compareFancyTo (s t : List Ch) : Res Int := do
  let k1 ← fancyLoop s (min s.length 256) 0 []
  let k2 ← fancyLoop t (min t.length 256) 0 []
  return cmpKeys k1 k2

end Verif.Str.Arg
