import Verif.Num.Model
/-
Model of src/core/Integer.cpp.  Strings are character lists (`append` adds at the end, `reverse` is
`List.reverse`; both are justified in Verif/Str).  int64 values are `Int`; `/` and `%` of C++ are
`Int.tdiv` and `Int.tmod`.
-/
namespace Verif.Num
open Verif Verif.Str

/-- Integer.cpp:49-53: the loop of `digits` for a nonnegative number. -/
def digitCountLoop (number i : Nat) : Nat :=
  if number > 9 then digitCountLoop (number / 10) (i + 1) else i
termination_by number

/-- Integer.cpp:40-55 `digits` (the count, at most 20, fits `uint8`) -/
def digitCount (number : Int) : Res Nat := do
  if number < 0 then
    let number ← i64 (number * -1)
    return digitCountLoop number.toNat 2
  else return digitCountLoop number.toNat 1

/-- Integer.cpp:74-87: value of one character; anything but a hexadecimal digit counts as 0. -/
def hexDigit (c : Ch) : Nat :=
  if isDigit c then c.toNat - 0x30
  else if 0x61 ≤ c.toNat ∧ c.toNat ≤ 0x66 then c.toNat - 0x61 + 10
  else if 0x41 ≤ c.toNat ∧ c.toNat ≤ 0x46 then c.toNat - 0x41 + 10
  else 0

/-- Integer.cpp:69-92: the loop of `fromHex` over the characters. -/
def fromHexLoop : List Ch → BitVec 64 → BitVec 64
  | [], r => r
  | c :: l, r => fromHexLoop l ((r <<< 4) ||| BitVec.ofNat 64 (hexDigit c))

/-- Integer.cpp:57-60 `fromHex(str)`: the `uint64` result converted to `int64`. -/
def fromHex (l : List Ch) : Int := (fromHexLoop l 0).toInt

/-- Integer.cpp:36 `gMask` -/
def gMask : List Ch := [0x30, 0x31, 0x32, 0x33, 0x34, 0x35, 0x36, 0x37, 0x38, 0x39, 0x41, 0x42, 0x43, 0x44, 0x45, 0x46]

/-- Integer.cpp:112-117: hexadecimal digits, least significant first. -/
def hexLoop (number : Nat) (ret : List Ch) : Res (List Ch) :=
  if number > 0 then do
    let d ← rd gMask (number % 16)
    hexLoop (number / 16) (ret ++ [d])
  else .ok ret
termination_by number

/-- Integer.cpp:98-121 `toHexString`; `while(number > 0)` does nothing for negative numbers. -/
def toHexString (number : Int) : Res (List Ch) := do
  if number = 0 then return [0x30]
  else
    let r ← hexLoop number.toNat []
    return r.reverse

/-- Integer.cpp:37-38 `gArabic`, `gRoman`, from index 12 down to 0. -/
def romanTable : List (Int × List Ch) :=
  [(1000, [0x4D]), (900, [0x43, 0x4D]), (500, [0x44]), (400, [0x43, 0x44]), (100, [0x43]), (90, [0x58, 0x43]),
   (50, [0x4C]), (40, [0x58, 0x4C]), (10, [0x58]), (9, [0x49, 0x58]), (5, [0x56]), (4, [0x49, 0x56]), (1, [0x49])]

/-- Integer.cpp:135-140: `while(div > 0)` -/
def romanRep (sym : List Ch) : Nat → List Ch → List Ch
  | 0, out => out
  | div + 1, out => romanRep sym div (out ++ sym)

/-- Integer.cpp:129-141: `while(index >= 0)` -/
def romanLoop : List (Int × List Ch) → Int → List Ch → List Ch
  | [], _, out => out
  | (a, sym) :: t, number, out => romanLoop t (number.tmod a) (romanRep sym (number.tdiv a).toNat out)

/-- Integer.cpp:123-144 `toRomanString` -/
def toRomanString (number : Int) : List Ch := romanLoop romanTable number []

/-- Conversion of an `int64` to `int32` (modulo 2^32). -/
def toInt32 (x : Int) : Int := (BitVec.ofInt 32 x).toInt

/-- Integer.cpp:150-158: the loop of `toLatinAlphabetString`. -/
def latinLoop (number : Int) (out : List Ch) : List Ch :=
  if h : 0 < number then
    let div := toInt32 (number.tdiv 26)
    let rest := number.tmod 26 - 1
    latinLoop div (out ++ [BitVec.ofInt 16 (0x41 + rest)])
  else out
termination_by number.toNat
decreasing_by
  have h1 : number.tdiv 26 = number / 26 := Int.tdiv_eq_ediv_of_nonneg (by omega)
  have h2 : toInt32 (number.tdiv 26) ≤ number / 26 := by
    rw [toInt32, BitVec.toInt_ofInt, h1]
    simp only [Int.bmod]
    split <;> omega
  show (toInt32 (number.tdiv 26)).toNat < number.toNat
  omega

/-- Integer.cpp:146-162 `toLatinAlphabetString` -/
def toLatinAlphabetString (number : Int) : List Ch := (latinLoop number []).reverse

end Verif.Num
