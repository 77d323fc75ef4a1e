import Verif.Base
/-
The type `float` of the code: IEEE 754 binary32, rounding to nearest, ties to even.  Generated
by tools/mkf32.py from Verif/Fp/Model.lean, which explains the representation; the numbers 24, 23,
149, 253 and 0x7F800000 become 24, 23, 149, 253 and 0x7F800000.  No excess precision
(FLT_EVAL_METHOD 0, the usual setting on 64-bit systems).
-/
namespace Verif.Fp32
open Verif

/-- the bit pattern of infinity: exponent 0xFF, no mantissa -/
def infBits : Nat := 0x7F800000

inductive F32 where
  | nan
  | num (neg : Bool) (b : Nat) (h : b ≤ infBits)
deriving DecidableEq

/-- the exponent of the last mantissa bit, relative to 2^-149 -/
def expo (b : Nat) : Nat := b / 2 ^ 23 - 1

/-- the mantissa including the hidden bit -/
def mant (b : Nat) : Nat := if b < 2 ^ 23 then b else 2 ^ 23 + b % 2 ^ 23

/-- absolute value of the bit pattern in units of 2^-149 -/
def mag (b : Nat) : Nat := mant b * 2 ^ expo b

/-- the number of units in 1.0 -/
def one : Nat := 2 ^ 149

/-- The bit pattern nearest to `n/d` units (`d > 0`), ties to the even one. May exceed
`infBits`, see `mk`. -/
def roundBits (n d : Nat) : Nat :=
  let k := Nat.log2 (n / d) - 23
  let q := n / (d * 2 ^ k)
  let r := n % (d * 2 ^ k)
  let b := k * 2 ^ 23 + q
  if 2 * r < d * 2 ^ k then b
  else if d * 2 ^ k < 2 * r then b + 1
  else if b % 2 = 0 then b else b + 1

/-- a float with the given bits; too large values become infinite -/
def mk (neg : Bool) (b : Nat) : F32 := .num neg (min b infBits) (Nat.min_le_right _ _)

/-- `n/d` units, rounded; the sign of a zero result is given by `neg0` -/
def ofUnits (neg0 : Bool) (n : Int) (d : Nat) : F32 :=
  if n = 0 then mk neg0 0 else mk (decide (n < 0)) (roundBits n.natAbs d)

/-- the float nearest to the rational number `n/d`: the value of a decimal literal of the
source, and of the conversion of an integer -/
def lit (n : Int) (d : Nat) : F32 := ofUnits false (n * one) d

/-- `static_cast<float>(n)` -/
def ofInt (n : Int) : F32 := lit n 1

/-- value of a finite float in units -/
def sgn (neg : Bool) (m : Nat) : Int := if neg then -(m : Int) else m

def neg : F32 → F32
  | .nan => .nan
  | .num s b h => .num (!s) b h

def abs : F32 → F32
  | .nan => .nan
  | .num _ b h => .num false b h

/-- `x + y` -/
def add : F32 → F32 → F32
  | .num s a _, .num t b _ =>
    if a = infBits then (if b = infBits ∧ s ≠ t then .nan else mk s infBits)
    else if b = infBits then mk t infBits
    else ofUnits (s && t) (sgn s (mag a) + sgn t (mag b)) 1
  | _, _ => .nan

/-- `x - y` -/
def sub (x y : F32) : F32 := add x (neg y)

/-- `x * y` -/
def mul : F32 → F32 → F32
  | .num s a _, .num t b _ =>
    if a = infBits ∨ b = infBits then
      (if a = 0 ∨ b = 0 then .nan else mk (s != t) infBits)
    else ofUnits (s != t) (sgn (s != t) (mag a * mag b)) one
  | _, _ => .nan

/-- `x / y` (division by zero gives infinity or NaN, as IEEE 754 demands) -/
def div : F32 → F32 → F32
  | .num s a _, .num t b _ =>
    if a = infBits then (if b = infBits then .nan else mk (s != t) infBits)
    else if b = infBits then mk (s != t) 0
    else if b = 0 then (if a = 0 then .nan else mk (s != t) infBits)
    else ofUnits (s != t) (sgn (s != t) (mag a * one)) (mag b)
  | _, _ => .nan

instance : Add F32 := ⟨add⟩
instance : Sub F32 := ⟨sub⟩
instance : Mul F32 := ⟨mul⟩
instance : Div F32 := ⟨div⟩
instance : Neg F32 := ⟨neg⟩

/-- position in the order of the numbers: both zeros have key 0 -/
def key (s : Bool) (b : Nat) : Int := sgn s b

/-- `x < y`: false if one is NaN -/
def lt : F32 → F32 → Bool
  | .num s a _, .num t b _ => decide (key s a < key t b)
  | _, _ => false

/-- `x <= y` -/
def le : F32 → F32 → Bool
  | .num s a _, .num t b _ => decide (key s a ≤ key t b)
  | _, _ => false

/-- `x == y` -/
def eq : F32 → F32 → Bool
  | .num s a _, .num t b _ => decide (key s a = key t b)
  | _, _ => false

/-- `std::min(x, y)`: `(y < x) ? y : x` -/
def fmin (x y : F32) : F32 := if lt y x then y else x

/-- `std::max(x, y)`: `(x < y) ? y : x` -/
def fmax (x y : F32) : F32 := if lt x y then y else x

def isNaN : F32 → Bool
  | .nan => true
  | _ => false

def zero : F32 := mk false 0

/-- neither NaN nor infinite -/
def Finite : F32 → Prop
  | .nan => False
  | .num _ b _ => b < infBits

instance : DecidablePred Finite := fun x => by cases x <;> unfold Finite <;> infer_instance

/-- value in units of 2^-149 (0 for NaN; for infinity the value is that of 2^128) -/
def units : F32 → Int
  | .nan => 0
  | .num s b _ => sgn s (mag b)

/-- `std::floor(x)`: the largest integer not above `x`; exact, because every float of absolute
value 2^23 or more is an integer -/
def floor : F32 → F32
  | .nan => .nan
  | .num s b h => if b = infBits then .num s b h
      else ofUnits s (Int.fdiv (sgn s (mag b)) one * one) 1

/-- `std::ceil(x)` -/
def ceil : F32 → F32
  | .nan => .nan
  | .num s b h => if b = infBits then .num s b h
      else ofUnits s (-(Int.fdiv (-(sgn s (mag b))) one) * one) 1

/-- conversion to an integer type with values from `lo` to `hi`: truncation, undefined
behaviour if the result is not representable (C++ [conv.fpint]) -/
def toIntRange (lo hi : Int) : F32 → Res Int
  | .nan => .error .ub
  | .num s b _ => if b = infBits then .error .ub
      else
        let v := Int.tdiv (sgn s (mag b)) one
        if lo ≤ v ∧ v ≤ hi then .ok v else .error .ub

def toInt64 : F32 → Res Int := toIntRange (-(2 ^ 63)) (2 ^ 63 - 1)

-- the model computes the well-known results
example : lit 1 10 = mk false 0x3DCCCCCD := by decide +kernel
example : lit 1 3 = mk false 0x3EAAAAAB := by decide +kernel
example : ofInt 16777217 = ofInt 16777216 := by decide +kernel
example : lit (10 ^ 38) 1 * lit 10 1 = mk false infBits := by decide +kernel
example : lit 1 1 / lit 255 1 * lit 255 1 = lit 1 1 := by decide +kernel

end Verif.Fp32
