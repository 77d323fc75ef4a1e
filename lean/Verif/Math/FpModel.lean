import Verif.Fp.Model
/-
The functions of src/core/Math.cpp on `double`, in IEEE arithmetic (`Verif/Fp/Model.lean`);
no fused multiply-add and no excess precision.
-/
namespace Verif.Math.Fl
open Verif Verif.Fp

/-- include/core/Math.h:44 -/
def RESABS : F64 := lit 1 1000000

/-- Math.cpp:81-85 -/
def isEqual (v1 v2 : F64) : Bool := let d := v2 - v1; lt d RESABS && lt (-RESABS) d
/-- Math.cpp:87-91 -/
def isNotEqual (v1 v2 : F64) : Bool := let d := v2 - v1; !(lt d RESABS && lt (-RESABS) d)
/-- Math.cpp:93-96 -/
def isLess (v1 v2 : F64) : Bool := le (v1 + RESABS) v2
/-- Math.cpp:98-101 -/
def isLessEqual (v1 v2 : F64) : Bool := lt v1 (v2 + RESABS)
/-- Math.cpp:103-106 -/
def isGreater (v1 v2 : F64) : Bool := le (v2 + RESABS) v1
/-- Math.cpp:108-111 -/
def isGreaterEqual (v1 v2 : F64) : Bool := lt (v2 - RESABS) v1
/-- Math.cpp:113-116 `d != d` -/
def isNaN (d : F64) : Bool := !(eq d d)

/-- Math.cpp:49-52 -/
def sign (d : F64) : Int := (if lt zero d then 1 else 0) - (if lt d zero then 1 else 0)

/-- Math.cpp:54-62: the result of `floor`/`ceil` is converted to `int64`, undefined behaviour
if it does not fit -/
def round (x : F64) : Res Int :=
  toInt64 (if lt zero x then floor (x + lit 1 2) else ceil (x - lit 1 2))

/-- Math.cpp:188-191 -/
def interpolate (b e p : F64) : F64 := b + p * (e - b)

/-- Math.cpp:193-197 -/
def interpolateRange (vb ve b e pos : F64) : F64 := interpolate vb ve ((pos - b) / (e - b))

/-- Math.cpp:176-181 `probability`; `value` is the result of `random(0, 10000)` -/
def probability (value : Int) (percent : F64) : Res Bool := do
  let threshold ← toIntRange (-(2 ^ 31)) (2 ^ 31 - 1) (percent * ofInt 10000)
  return decide (value ≤ threshold)

end Verif.Math.Fl
