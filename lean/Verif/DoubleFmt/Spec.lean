import Verif.DateFmt.Spec
import Verif.Fp.Val
import Mathlib.Data.List.DropRight
/-
Specification of decimal texts: `N` hundredths, thousandths, … written with a comma.
-/
namespace Verif.DoubleFmt.Spec
open Verif Verif.Str Verif.Fp
export Verif.DateFmt.Spec (dec padded txt)

/-- the sign -/
def sign (neg : Bool) : List Ch := if neg then [0x2d] else []

/-- the number `N / 10^p` with exactly `p` decimal places -/
def fixedText (neg : Bool) (N p : Nat) : List Ch := sign neg ++ dec (N / 10 ^ p) ++ [0x2c] ++ padded p (N % 10 ^ p)

/-- the number `N / 10^p` without the zeros at the end of the decimal places, and without a comma if there are none -/
def shortText (neg : Bool) (N p : Nat) : List Ch :=
  sign neg ++ dec (N / 10 ^ p) ++
    if N % 10 ^ p = 0 then [] else [0x2c] ++ (padded p (N % 10 ^ p)).rdropWhile (· = 0x30)

/-- `N / 10^p` is the number `x` rounded to `p` decimal places: at most half a unit of the last place away, up to a
rounding error of a fiftieth of that unit; the sign is the one of `x`, and is shown from -0.000001 on. -/
structure Rendered (x : F64) (p : Nat) (neg : Bool) (N : Nat) : Prop where
  close : |(N : ℚ) - 10 ^ p * (|val x|)| ≤ 1 / 2 + 1 / 50
  sign : neg = true → val x < 0
  signed : val x ≤ -(1000001 / 10 ^ 12) → neg = true

end Verif.DoubleFmt.Spec
