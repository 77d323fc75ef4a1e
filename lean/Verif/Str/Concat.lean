import Verif.Str.HashProps
import Verif.Num.Props
import Verif.DoubleText.Model
/-
Building text with `+`, `+=` and `<<` (src/core/String.cpp:1193-1231, 1247-1315).

 * Numbers become text by `String::valueOf` (Verif/Num, Verif/DoubleText); the temporary string is the result of `ofChars`.
 * `operator+(const char*&, …)` and `operator+(…, const char*&)` decode the C string into a temporary (Verif/Charset) and are
   then `operator+(const String&, const String&)`; they are not modelled separately.
 * The conversions the compiler inserts are those of the parameter types: `char` and `int8` to `Char` go through `uint16`
   (include/core/CharArray.h:52-55), with the sign.
-/
namespace Verif.Str.Concat
open Verif Verif.Str

/-- CharArray.h:52-55: `Char(uint16)` from a `char` or `int8`, which are signed -/
def charOf (b : Byte) : Ch := b.signExtend 16

/-- what stands on the right of `<<` -/
inductive Item where
  | text (t : Str)
  /-- the same object as on the left -/
  | self
  | int64 (z : Int)
  | uint64 (n : Nat)
  | int32 (z : Int)
  | uint32 (n : Nat)
  | double (x : Fp.F64)
  | char (b : Byte)
  | ch (c : Ch)

/-- the temporary `String::valueOf(…)` of a number -/
def temp (v : Res (List Ch)) : Res Str := do
  let l ← v
  ofChars l

/-- String.cpp:1185-1231 `operator<<`; String.cpp:1247-1251 `operator+=` is the case of a text -/
def out (s : Str) : Item → Res Str
  | .text t => append s t
  | .self => appendSelf s
  | .int64 z => do let t ← temp (Num.valueOf z); append s t
  | .uint64 n => do let t ← temp (Num.valueOfU n); append s t
  | .int32 z => do let t ← temp (Num.valueOf z); append s t
  | .uint32 n => do let t ← temp (Num.valueOf n); append s t
  | .double x => do let t ← temp (.ok (DoubleText.valueOf x)); append s t
  | .char b => appendChar s (charOf b)
  | .ch c => appendChar s c

/-- `s << a << b << …`: every operator returns its left operand -/
def outs (s : Str) : List Item → Res Str
  | [] => .ok s
  | i :: is => do
    let r ← out s i
    outs r is

/-- String.cpp:1253-1258 `operator+` of two strings -/
def plus (left right : Str) : Res Str := do
  let ret ← copyCtor left
  append ret right

/-- String.cpp:1274-1279, 1288-1293: a number on the left; `v` is its text -/
def plusLeft (v : Res (List Ch)) (right : Str) : Res Str := do
  let ret ← temp v
  append ret right

/-- String.cpp:1281-1286, 1295-1300: a number on the right -/
def plusRight (left : Str) (v : Res (List Ch)) : Res Str := do
  let ret ← copyCtor left
  let t ← temp v
  append ret t

/-- String.cpp:1302-1308: an `int8` on the left -/
def plusLeft8 (left : Byte) (right : Str) : Res Str := do
  let ret ← appendChar empty (charOf left)
  append ret right

/-- String.cpp:1310-1315: an `int8` on the right -/
def plusRight8 (left : Str) (right : Byte) : Res Str := do
  let ret ← copyCtor left
  appendChar ret (charOf right)

end Verif.Str.Concat
