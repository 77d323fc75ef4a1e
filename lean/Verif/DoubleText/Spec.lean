import Verif.Num.Props
import Verif.DateFmt.Spec
import Mathlib.Data.List.DropRight
import Mathlib.Data.Rat.Defs
import Mathlib.Algebra.Order.Group.Unbundled.Abs
import Mathlib.Data.Rat.Cast.Order
/-
Specification of numbers as text: what a text denotes, and what a number with ten digits is.
-/
namespace Verif.DoubleText.Spec
open Verif Verif.Str
open Verif.Num.Props (natVal)
export Verif.DateFmt.Spec (txt)

inductive Sign where | none | plus | minus

def Sign.text : Sign → List Ch
  | .none => []
  | .plus => [0x2b]
  | .minus => [0x2d]

def Sign.neg : Sign → Bool
  | .minus => true
  | _ => false

def Sign.fac (s : Sign) : ℤ := if s.neg then -1 else 1

/-- the text of a number: sign, digits, perhaps a point and digits, perhaps an exponent -/
structure Numeral where
  sign : Sign
  whole : List Ch
  frac : Option (List Ch)
  exp : Option (Bool × Sign × List Ch)

def Numeral.fracDigits (n : Numeral) : List Ch := n.frac.getD []

/-- there are digits, and there are digits in the exponent -/
structure Numeral.Valid (n : Numeral) : Prop where
  whole : ∀ c ∈ n.whole, isDigit c = true
  frac : ∀ c ∈ n.fracDigits, isDigit c = true
  digits : n.whole ++ n.fracDigits ≠ []
  exp : ∀ e, n.exp = some e → e.2.2 ≠ [] ∧ ∀ c ∈ e.2.2, isDigit c = true

/-- the point and the digits behind it -/
def fracText : Option (List Ch) → List Ch
  | none => []
  | some f => 0x2e :: f

/-- the exponent -/
def expoText : Option (Bool × Sign × List Ch) → List Ch
  | none => []
  | some (upper, s, ds) => (if upper then 0x45 else 0x65) :: (s.text ++ ds)

def expoVal : Option (Bool × Sign × List Ch) → ℤ
  | none => 0
  | some (_, s, ds) => s.fac * natVal ds

def Numeral.text (n : Numeral) : List Ch := n.sign.text ++ n.whole ++ fracText n.frac ++ expoText n.exp

def Numeral.exponent (n : Numeral) : ℤ := expoVal n.exp

/-- the number it denotes -/
def Numeral.value (n : Numeral) : ℚ :=
  n.sign.fac * natVal (n.whole ++ n.fracDigits) * (10 : ℚ) ^ (n.exponent - n.fracDigits.length)

/-- the characters that would make the number longer: digits, a point if there is none yet and no exponent,
the letter e if there is no exponent yet -/
def Numeral.Continues (n : Numeral) (c : Ch) : Prop :=
  isDigit c = true ∨ (c = 0x2e ∧ n.frac = none ∧ n.exp = none) ∨ ((c = 0x65 ∨ c = 0x45) ∧ n.exp = none)

/-- the text of `N / 10^p` with a point, without zeros at the end, and without a point if nothing follows -/
def shortText (neg : Bool) (N p : Nat) : List Ch :=
  (if neg then [0x2d] else []) ++ DateFmt.Spec.dec (N / 10 ^ p) ++
    if N % 10 ^ p = 0 then [] else [0x2e] ++ (DateFmt.Spec.padded p (N % 10 ^ p)).rdropWhile (· = 0x30)

/-- numbers with at most ten significant digits -/
def Ten (q : ℚ) : Prop := ∃ (M : ℤ) (X : ℤ), M.natAbs < 10 ^ 10 ∧ q = M * (10 : ℚ) ^ X

/-- `q` is `v` rounded to ten significant digits -/
structure Rounded (v q : ℚ) : Prop where
  ten : Ten q
  nearest : ∀ q', Ten q' → |q - v| ≤ |q' - v|

end Verif.DoubleText.Spec
