import Verif.Str.Model
/-
Model of the conversions between integers and text: String::valueOf(int64/uint64),
String::toInt (src/core/String.cpp:965-1042, 1087-1129).

Strings are character sequences here; that the String operations used (append, charAt, setCharAt)
act as list operations is proved in Verif/Str/EditProps.  The swapping loop is the
one of `reverse` (`Str.revLoop`): both exchange the positions `a` and `size - 1 - a`.
-/
namespace Verif.Num
open Verif Verif.Str

def minInt64 : Int := -2 ^ 63
def maxInt64 : Int := 2 ^ 63 - 1

/-- A signed 64-bit result: outside the range it is UB. -/
def i64 (x : Int) : Res Int := if minInt64 ≤ x ∧ x ≤ maxInt64 then .ok x else .error .ub

/-- String.cpp:983-988 and 1014-1020: the digits, least significant first. -/
def digits (n : Nat) : List Ch :=
  if n > 0 then BitVec.ofNat 16 (n % 10 + 0x30) :: digits (n / 10) else []
termination_by n

/-- String.cpp:965-1001 `valueOf(int64)` -/
def valueOf (number : Int) : Res (List Ch) := do
  let neg := decide (number < 0)
  let number ← if number < 0 then i64 (number * -1) else .ok number
  let ret := if number = 0 ∧ ¬ neg then [0x30#16] else []
  let ret := ret ++ digits number.toNat
  let ret := if neg then ret ++ [0x2d#16] else ret
  revLoop (ret.length / 2) 0 (ret.length - 1) ret

/-- String.cpp:1003-1032 `valueOf(uint64)` -/
def valueOfU (number : Nat) : Res (List Ch) :=
  if number = 0 then .ok [0x30#16] else
    let ret := digits number
    revLoop (ret.length / 2) 0 (ret.length - 1) ret

/-- String.cpp:1113-1124: the loop of `toInt`. -/
def toIntLoop : List Ch → Int → Bool → Res (Int × Bool)
  | [], val, neg => .ok (val, neg)
  | c :: l, val, neg =>
    if isDigit c then do
      let val ← i64 (val * 10)
      let val ← i64 (val + digitValue c)
      toIntLoop l val neg
    else if c = 0x2d then toIntLoop l val true
    else .error .thrown

/-- String.cpp:1108-1128 `toInt` -/
def toInt (l : List Ch) : Res Int := do
  let r ← toIntLoop l 0 false
  if r.2 then i64 (r.1 * -1) else return r.1

/-- String.cpp:1087-1090 `valueOf(bool)` -/
def valueOfBool (b : Bool) : List Ch := if b then [0x74, 0x72, 0x75, 0x65] else [0x66, 0x61, 0x6c, 0x73, 0x65]

/-- String.cpp:1092-1095 `toBool`: `equalsIgnoreCase("true")` -/
def toBool (l : List Ch) : Bool := decide (l.map toLowerCh = ([0x74, 0x72, 0x75, 0x65] : List Ch).map toLowerCh)

end Verif.Num
