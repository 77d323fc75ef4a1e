import Verif.Fp.Model
import Verif.Num.Props
import Verif.DateFmt.Spec
import Mathlib.Data.Nat.Log
import Mathlib.Data.List.DropRight
/-
Model of String::valueOf(double) (src/core/String.cpp:1044-1051), String::toDouble (1097-1105) and
ConvertToDouble (1325-1332).

Both conversions are done by the streams of the C++ library.  `print` and `scan` describe what the C++ and C
standards (and, for failures, libstdc++) say about `ss << std::setprecision(10) << number` and `ss >> d` in the "C"
locale: the first is printf's "%.10g", exactly rounded with ties to even; the second accumulates the longest text
that can be the beginning of a number and passes it to strtod, which rounds to nearest.  If the accumulated text is
no number the result is 0; a number that is too large becomes the largest double.
Strings are character sequences (Verif/Num/Model.lean).  `toDouble` converts to the default character set first;
as in all of the library's 8-bit sets an ASCII character is one byte and no other character contains an ASCII digit,
sign, point or letter `e`, the conversion does not change what is read (UTF-16 as default set is not modelled).
-/
namespace Verif.DoubleText
open Verif Verif.Str Verif.Fp
open Verif.Num.Props (natVal)
open Verif.DateFmt.Spec (dec padded)

/-! ### printing -/

/-- `n / d`, rounded to an integer, ties to even -/
def roundEven (n d : Nat) : Nat :=
  if 2 * (n % d) < d then n / d
  else if d < 2 * (n % d) then n / d + 1
  else if n / d % 2 = 0 then n / d else n / d + 1

/-- the decimal exponent of `u` units (`u > 0`): 10^X ≤ u / 2^1074 < 10^(X+1) -/
def expo10 (u : Nat) : Int := (Nat.log 10 (u * 10 ^ 400 / one) : Int) - 400

/-- `u / 2^1074` in units of `10^k` as a fraction, rounded -/
def scaled (u : Nat) (k : Int) : Nat :=
  if 0 ≤ k then roundEven u (one * 10 ^ k.toNat) else roundEven (u * 10 ^ (-k).toNat) one

/-- ten digits and their exponent: the number is M * 10^(X-9) -/
def ten (u : Nat) : Nat × Int :=
  let X := expo10 u
  let M := scaled u (X - 9)
  if M = 10 ^ 10 then (10 ^ 9, X + 1) else (M, X)

/-- `M / 10^p` with a point, without zeros at the end of the decimal places, without a point if there are none -/
def plain (M p : Nat) : List Ch :=
  dec (M / 10 ^ p) ++ if M % 10 ^ p = 0 then [] else 0x2e :: (padded p (M % 10 ^ p)).rdropWhile (· = 0x30)

/-- the exponent: `e`, sign, at least two digits -/
def expText (X : Int) : List Ch :=
  0x65 :: (if X < 0 then 0x2d else 0x2b) :: if X.natAbs < 10 then 0x30 :: dec X.natAbs else dec X.natAbs

/-- printf "%.10g" of `M * 10^(X-9)` -/
def general (M : Nat) (X : Int) : List Ch :=
  if -4 ≤ X ∧ X < 10 then plain M (9 - X).toNat else plain M 9 ++ expText X

/-- `ss << std::setprecision(10) << number` -/
def print : F64 → List Ch
  | .nan => [0x6e, 0x61, 0x6e]
  | .num s b _ =>
    (if s then [0x2d] else []) ++
      if b = infBits then [0x69, 0x6e, 0x66]
      else if b = 0 then [0x30]
      else general (ten (mag b)).1 (ten (mag b)).2

/-- String.cpp:1044-1051 `valueOf(double number)` -/
def valueOf (number : F64) : List Ch := print number

/-! ### reading -/

/-- white space of the "C" locale -/
def isSpace (c : Ch) : Bool := c == 0x20 || decide (9 ≤ c.toNat ∧ c.toNat ≤ 13)

/-- an optional sign; true for minus -/
def takeSign : List Ch → Bool × List Ch
  | [] => (false, [])
  | c :: l => if c = 0x2d then (true, l) else if c = 0x2b then (false, l) else (false, c :: l)

/-- an optional point and the digits behind it -/
def takeFrac : List Ch → List Ch × List Ch
  | [] => ([], [])
  | c :: l => if c = 0x2e then (l.takeWhile isDigit, l.dropWhile isDigit) else ([], c :: l)

/-- an optional exponent; none if there is an `e` but no number behind it -/
def takeExp : List Ch → Option Int
  | [] => some 0
  | c :: l =>
    if c = 0x65 ∨ c = 0x45 then
      let (neg, l) := takeSign l
      let ds := l.takeWhile isDigit
      if ds = [] then none else some (if neg then -(natVal ds : Int) else natVal ds)
    else some 0

/-- strtod: `m * 10^e`, rounded; the largest double if that is infinite -/
def strtod (neg : Bool) (m : Nat) (e : Int) : F64 :=
  mk neg (min (infBits - 1) (if 0 ≤ e then roundBits (m * 10 ^ e.toNat * one) 1 else roundBits (m * one) (10 ^ (-e).toNat)))

/-- `ss >> d` with `d = 0.0` before -/
def scan (l : List Ch) : F64 :=
  let (neg, l) := takeSign (l.dropWhile isSpace)
  let a := l.takeWhile isDigit
  let (b, l) := takeFrac (l.dropWhile isDigit)
  if a ++ b = [] then zero
  else match takeExp l with
    | none => zero
    | some e => strtod neg (natVal (a ++ b)) (e - b.length)

/-- String.cpp:1097-1105 `toDouble()` -/
def toDouble (l : List Ch) : F64 := scan l

/-- String.cpp:1325-1332 `ConvertToDouble(str)`: commas count as points -/
def convertToDouble (l : List Ch) : F64 := toDouble (l.map fun c => if c = 0x2c then 0x2e else c)

end Verif.DoubleText
