import Verif.Base
/-
Model of src/core/Math.cpp.

Functions on `int64` are modelled on `Int` with explicit range checks (division by zero and
overflow are UB); functions on `uint32`/`int32` bit patterns on `BitVec 32`.
Functions on `double` are modelled on exact rationals `Rat`: rounding errors of IEEE
arithmetic, NaN and infinities are *not* modelled (the theorems on them are `_partial`).
-/
namespace Verif.Math
open Verif

def int64Min : Int := -(2 ^ 63)
def int64Max : Int := 2 ^ 63 - 1
def isInt64 (x : Int) : Prop := int64Min ≤ x ∧ x ≤ int64Max
instance (x : Int) : Decidable (isInt64 x) := by unfold isInt64; infer_instance

/-- C++ `x / y` on `int64`: truncation; `y = 0` and `INT64_MIN / -1` are UB. -/
def cdiv (x y : Int) : Res Int :=
  if y = 0 then .error .ub else if isInt64 (x.tdiv y) then .ok (x.tdiv y) else .error .ub

/-- C++ `x % y` on `int64`: UB under the same conditions as `x / y`. -/
def cmod (x y : Int) : Res Int :=
  if y = 0 then .error .ub else if isInt64 (x.tdiv y) then .ok (x.tmod y) else .error .ub

/-- Math.cpp:235-241 `divFloor` -/
def divFloor (x y : Int) : Res Int := do
  let q ← cdiv x y
  let r ← cmod x y
  if r ≠ 0 ∧ (decide (r < 0)) ≠ (decide (y < 0)) then
    if isInt64 (q - 1) then return q - 1 else .error .ub
  else return q

/-- Math.cpp:243-252 `modFloor` -/
def modFloor (x y : Int) : Res Int := do
  if y = 0 then return 0
  let r ← cmod x y
  if r ≠ 0 ∧ (decide (r < 0)) ≠ (decide (y < 0)) then
    if isInt64 (r + y) then return r + y else .error .ub
  else return r

/-- Math.cpp:199-202 `powerOf2` (`int32`; `x - 1` is only evaluated for `x > 0`). -/
def powerOf2 (x : BitVec 32) : Bool :=
  decide (0 < x.toInt) && (x &&& (x - 1#32)) == 0#32

/-- Math.cpp:204-215 `ceilPowerOf2` -/
def ceilPowerOf2 (x : BitVec 32) : BitVec 32 :=
  let x := x - 1#32
  let x := x ||| (x >>> 1)
  let x := x ||| (x >>> 2)
  let x := x ||| (x >>> 4)
  let x := x ||| (x >>> 8)
  let x := x ||| (x >>> 16)
  x + 1#32

/-- A store of variables of width `w`. -/
abbrev Store (w : Nat) := Nat → BitVec w

def Store.set {w} (s : Store w) (a : Nat) (v : BitVec w) : Store w := fun b => if b = a then v else s b

/-- Math.cpp:125-151 `swap` for `int32`, `uint32`, `uint16`, `uint8`: the two references are
the addresses `a` and `b`, which may be the same variable. -/
def swap {w} (s : Store w) (a b : Nat) : Store w :=
  let s := s.set a (s a ^^^ s b)
  let s := s.set b (s b ^^^ s a)
  s.set a (s a ^^^ s b)

/-- Math.cpp:169-174 `random(lower, upper)`; `z` is the value `rand()` returns (0 ≤ z). The
expression `upper + 1 - lower` is `int` arithmetic. -/
def random (z lower upper : Int) : Res Int :=
  let isInt (v : Int) : Bool := decide (-(2^31) ≤ v ∧ v ≤ 2^31 - 1)
  if ¬ isInt (upper + 1) then .error .ub
  else if ¬ isInt (upper + 1 - lower) then .error .ub
  else if upper + 1 - lower = 0 then .error .ub
  else .ok (z.tmod (upper + 1 - lower) + lower)

/-- include/core/Math.h:44 -/
def RESABS : Rat := 1 / 1000000

/-- Math.cpp:81-85 (exact arithmetic) -/
def isEqual (v1 v2 : Rat) : Bool := let d := v2 - v1; decide (d < RESABS) && decide (d > -RESABS)
/-- Math.cpp:87-91 (exact arithmetic) -/
def isNotEqual (v1 v2 : Rat) : Bool := let d := v2 - v1; !(decide (d < RESABS) && decide (d > -RESABS))
/-- Math.cpp:93-96 (exact arithmetic) -/
def isLess (v1 v2 : Rat) : Bool := decide (v1 + RESABS ≤ v2)
/-- Math.cpp:98-101 (exact arithmetic) -/
def isLessEqual (v1 v2 : Rat) : Bool := decide (v1 < v2 + RESABS)
/-- Math.cpp:103-106 (exact arithmetic) -/
def isGreater (v1 v2 : Rat) : Bool := decide (v1 ≥ v2 + RESABS)
/-- Math.cpp:108-111 (exact arithmetic) -/
def isGreaterEqual (v1 v2 : Rat) : Bool := decide (v1 > v2 - RESABS)

/-- Math.cpp:54-62 `round` (exact arithmetic; the conversion to `int64` is taken to be exact). -/
def round (x : Rat) : Int := if x > 0 then (x + 1/2).floor else (x - 1/2).ceil

/-- Math.cpp:49-52 `sign` -/
def sign (d : Rat) : Int := (if 0 < d then 1 else 0) - (if d < 0 then 1 else 0)

/-- Math.cpp:188-191 `interpolate` (exact arithmetic) -/
def interpolate (b e p : Rat) : Rat := b + p * (e - b)

/-- Math.cpp:193-197 `interpolate` over a range (exact arithmetic; `begin = end` divides by
zero, which gives inf/NaN in IEEE arithmetic and is excluded in the theorems). -/
def interpolateRange (vb ve b e pos : Rat) : Rat := interpolate vb ve ((pos - b) / (e - b))

end Verif.Math
