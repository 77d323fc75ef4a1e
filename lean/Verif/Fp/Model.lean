import Verif.Base
/-
The type `double` of the code: IEEE 754 binary64, rounding to nearest, ties to even (the
default rounding mode, which the code never changes; include/core/Types.h uses the C++ type
`double` directly).  NaN payloads and signalling NaNs are not modelled: there is one NaN.
`float` and `long double` are not modelled.

A double that is not NaN is a sign and the 63 remaining bits `b` of its bit pattern, from 0
(zero) over the subnormal and normal numbers to `infBits` (infinity).  Every finite double is
an integer multiple of 2^-1074; `mag b` is the absolute value in that unit, so that the
arithmetic can be described with natural numbers only.
-/
namespace Verif.Fp
open Verif

/-- the bit pattern of infinity: exponent 0x7FF, no mantissa -/
def infBits : Nat := 0x7FF0000000000000

inductive F64 where
  | nan
  | num (neg : Bool) (b : Nat) (h : b ≤ infBits)
deriving DecidableEq

/-- the exponent of the last mantissa bit, relative to 2^-1074 -/
def expo (b : Nat) : Nat := b / 2 ^ 52 - 1

/-- the mantissa including the hidden bit -/
def mant (b : Nat) : Nat := if b < 2 ^ 52 then b else 2 ^ 52 + b % 2 ^ 52

/-- absolute value of the bit pattern in units of 2^-1074 -/
def mag (b : Nat) : Nat := mant b * 2 ^ expo b

/-- the number of units in 1.0 -/
def one : Nat := 2 ^ 1074

/-- The bit pattern nearest to `n/d` units (`d > 0`), ties to the even one. May exceed
`infBits`, see `mk`. -/
def roundBits (n d : Nat) : Nat :=
  let k := Nat.log2 (n / d) - 52
  let q := n / (d * 2 ^ k)
  let r := n % (d * 2 ^ k)
  let b := k * 2 ^ 52 + q
  if 2 * r < d * 2 ^ k then b
  else if d * 2 ^ k < 2 * r then b + 1
  else if b % 2 = 0 then b else b + 1

/-- a double with the given bits; too large values become infinite -/
def mk (neg : Bool) (b : Nat) : F64 := .num neg (min b infBits) (Nat.min_le_right _ _)

/-- `n/d` units, rounded; the sign of a zero result is given by `neg0` -/
def ofUnits (neg0 : Bool) (n : Int) (d : Nat) : F64 :=
  if n = 0 then mk neg0 0 else mk (decide (n < 0)) (roundBits n.natAbs d)

/-- the double nearest to the rational number `n/d`: the value of a decimal literal of the
source, and of the conversion of an integer -/
def lit (n : Int) (d : Nat) : F64 := ofUnits false (n * one) d

/-- `static_cast<double>(n)` -/
def ofInt (n : Int) : F64 := lit n 1

/-- value of a finite double in units -/
def sgn (neg : Bool) (m : Nat) : Int := if neg then -(m : Int) else m

def neg : F64 → F64
  | .nan => .nan
  | .num s b h => .num (!s) b h

def abs : F64 → F64
  | .nan => .nan
  | .num _ b h => .num false b h

/-- `x + y` -/
def add : F64 → F64 → F64
  | .num s a _, .num t b _ =>
    if a = infBits then (if b = infBits ∧ s ≠ t then .nan else mk s infBits)
    else if b = infBits then mk t infBits
    else ofUnits (s && t) (sgn s (mag a) + sgn t (mag b)) 1
  | _, _ => .nan

/-- `x - y` -/
def sub (x y : F64) : F64 := add x (neg y)

/-- `x * y` -/
def mul : F64 → F64 → F64
  | .num s a _, .num t b _ =>
    if a = infBits ∨ b = infBits then
      (if a = 0 ∨ b = 0 then .nan else mk (s != t) infBits)
    else ofUnits (s != t) (sgn (s != t) (mag a * mag b)) one
  | _, _ => .nan

/-- `x / y` (division by zero gives infinity or NaN, as IEEE 754 demands) -/
def div : F64 → F64 → F64
  | .num s a _, .num t b _ =>
    if a = infBits then (if b = infBits then .nan else mk (s != t) infBits)
    else if b = infBits then mk (s != t) 0
    else if b = 0 then (if a = 0 then .nan else mk (s != t) infBits)
    else ofUnits (s != t) (sgn (s != t) (mag a * one)) (mag b)
  | _, _ => .nan

instance : Add F64 := ⟨add⟩
instance : Sub F64 := ⟨sub⟩
instance : Mul F64 := ⟨mul⟩
instance : Div F64 := ⟨div⟩
instance : Neg F64 := ⟨neg⟩

/-- position in the order of the numbers: both zeros have key 0 -/
def key (s : Bool) (b : Nat) : Int := sgn s b

/-- `x < y`: false if one is NaN -/
def lt : F64 → F64 → Bool
  | .num s a _, .num t b _ => decide (key s a < key t b)
  | _, _ => false

/-- `x <= y` -/
def le : F64 → F64 → Bool
  | .num s a _, .num t b _ => decide (key s a ≤ key t b)
  | _, _ => false

/-- `x == y` -/
def eq : F64 → F64 → Bool
  | .num s a _, .num t b _ => decide (key s a = key t b)
  | _, _ => false

/-- `std::min(x, y)`: `(y < x) ? y : x` -/
def fmin (x y : F64) : F64 := if lt y x then y else x

/-- `std::max(x, y)`: `(x < y) ? y : x` -/
def fmax (x y : F64) : F64 := if lt x y then y else x

def isNaN : F64 → Bool
  | .nan => true
  | _ => false

def zero : F64 := mk false 0

/-- neither NaN nor infinite -/
def Finite : F64 → Prop
  | .nan => False
  | .num _ b _ => b < infBits

instance : DecidablePred Finite := fun x => by cases x <;> unfold Finite <;> infer_instance

/-- value in units of 2^-1074 (0 for NaN; for infinity the value is that of 2^1024) -/
def units : F64 → Int
  | .nan => 0
  | .num s b _ => sgn s (mag b)

/-- `std::floor(x)`: the largest integer not above `x`; exact, because every double of absolute
value 2^52 or more is an integer -/
def floor : F64 → F64
  | .nan => .nan
  | .num s b h => if b = infBits then .num s b h
      else ofUnits s (Int.fdiv (sgn s (mag b)) one * one) 1

/-- `std::ceil(x)` -/
def ceil : F64 → F64
  | .nan => .nan
  | .num s b h => if b = infBits then .num s b h
      else ofUnits s (-(Int.fdiv (-(sgn s (mag b))) one) * one) 1

/-- conversion to an integer type with values from `lo` to `hi`: truncation, undefined
behaviour if the result is not representable (C++ [conv.fpint]) -/
def toIntRange (lo hi : Int) : F64 → Res Int
  | .nan => .error .ub
  | .num s b _ => if b = infBits then .error .ub
      else
        let v := Int.tdiv (sgn s (mag b)) one
        if lo ≤ v ∧ v ≤ hi then .ok v else .error .ub

def toInt64 : F64 → Res Int := toIntRange (-(2 ^ 63)) (2 ^ 63 - 1)

-- the model computes the well-known results
example : lit 1 10 + lit 2 10 ≠ lit 3 10 := by decide +kernel
example : lit 1 2 + lit 1 4 = lit 3 4 := by decide +kernel
example : lit 1 10 = mk false 0x3FB999999999999A := by decide +kernel
example : lit 1 3 * lit 3 1 = lit 1 1 := by decide +kernel
example : lit 1 1 / lit 3 1 = mk false 0x3FD5555555555555 := by decide +kernel
example : (lit 1 1 / lit 10 1) * lit 3 1 = mk false 0x3FD3333333333334 := by decide +kernel
example : lit (10 ^ 308) 1 * lit 10 1 = mk false infBits := by decide +kernel
example : lit 1 (10 ^ 400) = mk false 0 := by decide +kernel
example : lit 5 (10 ^ 324) = mk false 1 := by decide +kernel
example : floor (lit (-5) 2) = lit (-3) 1 ∧ ceil (lit (-5) 2) = lit (-2) 1 := by decide +kernel
example : floor (lit (-1) 2 + lit 1 2) = mk false 0 ∧ ceil (lit (-1) 2) = mk true 0 := by decide +kernel

end Verif.Fp
