import Verif.Math.FpModel
import Verif.Num.Model
import Verif.Str.ArgModel
/-
Model of String::valueOf(double, int64, bool), a number as text with a fixed number of decimal places
(src/core/String.cpp:1053-1084), and of String::arg(double, …) (String.cpp:928-963).

Doubles are IEEE doubles (`Verif/Fp/Model.lean`).  Two functions of the C library are specified here: `fmod`,
which is exact, and `pow(10, n)`, which is taken to be correctly rounded for whole `n` (so exact up to 10^22;
the usual libraries do this, the C++ standard does not demand it).
Strings are character sequences (see Verif/Num/Model.lean).
-/
namespace Verif.DoubleFmt
open Verif Verif.Str Verif.Num Verif.Fp Verif.Math.Fl

/-- `std::fmod(x, 1.0)`: the part behind the point, with the sign of `x`; NaN for infinities -/
def fmod1 : F64 → F64
  | .nan => .nan
  | .num s b _ => if b = infBits then .nan else ofUnits s (Int.tmod (sgn s (mag b)) one) 1

/-- `std::pow(10, n)` -/
def pow10 (n : Int) : F64 := if n < 0 then lit 1 (10 ^ n.natAbs) else lit (10 ^ n.toNat) 1

/-- String.cpp:1057: `if(neg)before *= -1;` -/
def flip (neg : Bool) (before : Int) : Res Int := if neg then i64 (before * -1) else .ok before

/-- String.cpp:1065-1067: the last digit is used for rounding -/
def roundLast (after : Int) : Int := if Int.tmod after 10 ≥ 5 then Int.tdiv after 10 + 1 else Int.tdiv after 10

/-- String.cpp:1068-1072: the decimal places became a whole one; the result is (before, after) -/
def carry (factor : F64) (before after : Int) : Res (Int × Int) :=
  if eq (ofInt after) factor then do
    let before ← i64 (before + 1)
    return (before, 0)
  else .ok (before, after)

/-- String.cpp:1078: `while(a.size() < precision)a.insert(0, '0');` -/
def padZeros (precision : Int) (a : List Ch) : List Ch := List.replicate (precision - a.length).toNat 0x30 ++ a

/-- String.cpp:1080, on the reversed text: `while(a.size() > 1 && last == '0')` drop it -/
def stripRev : List Ch → List Ch
  | [] => []
  | [c] => [c]
  | c :: d :: r => if c = 0x30 then stripRev (d :: r) else c :: d :: r

/-- String.cpp:1080 -/
def strip (trunc : Bool) (a : List Ch) : List Ch := if trunc then (stripRev a.reverse).reverse else a

/-- String.cpp:1074-1083: putting the text together -/
def assemble (neg : Bool) (before after precision : Int) (trunc : Bool) : Res (List Ch) := do
  let b ← Num.valueOf before
  let b := if neg then 0x2d :: b else b
  let a ← Num.valueOf after
  let a := strip trunc (padZeros precision a)
  return if after ≠ 0 ∨ trunc = false then b ++ [0x2c] ++ a else b

/-- String.cpp:1053-1084 `valueOf(double number, int64 precision, bool trunc)` -/
def valueOf (number : F64) (precision : Int) (trunc : Bool) : Res (List Ch) := do
  let neg := isLess number zero
  let before ← toInt64 number
  let before ← flip neg before
  let factor := pow10 precision
  let number := fmod1 number * ofInt 10 * factor
  let after ← toInt64 (Fp.abs number)
  let (before, after) ← carry factor before (roundLast after)
  assemble neg before after precision trunc

/-- String.cpp:928-963 `arg(double value, fieldWidth, precision, fillchar)` -/
def argDouble (s : List Ch) (value : F64) (width precision : Int) (fillchar : Ch) : Res (List Ch) :=
  match Arg.argIndicies s with
  | none => .ok s
  | some _ => do
    let v ← if precision < 0 then valueOf value 10 true else valueOf value precision false
    return Arg.arg s v width fillchar

end Verif.DoubleFmt
