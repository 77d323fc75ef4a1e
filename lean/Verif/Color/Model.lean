import Verif.Fp32.Mono
/-
Model of src/core/Color.cpp (all functions) with `float` as in Verif/Fp32/Model.lean.

The union of include/core/Color.h:267-292 is modelled by its four bytes: grey, red and cyan are
byte 0, green and magenta byte 1, blue and yellow byte 2, key byte 3 (all compilers the library
supports allow to read another member of the union).  The bytes a constructor does not set have
an arbitrary value.
-/
namespace Verif.Color
open Verif Verif.Fp32

/-- include/core/Color.h:44-49 -/
inductive Mode where
  | grey | rgb | cmyk
deriving DecidableEq

/-- include/core/Color.h:263-294 -/
structure Color where
  mode : Mode
  b0 : Byte
  b1 : Byte
  b2 : Byte
  b3 : Byte
  alpha : Byte
deriving DecidableEq

namespace Color

/-- Color.cpp:46-53; `junk` is the byte that is not set -/
def new (junk : Byte) : Color := ⟨.rgb, 0, 0, 0, junk, 255⟩
/-- Color.cpp:55-63 copy constructor; the same statements as in the assignment -/
def copy (o : Color) : Color := ⟨o.mode, o.b0, o.b1, o.b2, o.b3, o.alpha⟩
/-- Color.cpp:67-80 -/
def assign (_ o : Color) : Color := ⟨o.mode, o.b0, o.b1, o.b2, o.b3, o.alpha⟩

/-- Color.cpp:202-250 -/
def red (c : Color) : Byte := c.b0
def green (c : Color) : Byte := c.b1
def blue (c : Color) : Byte := c.b2
def greyOf (c : Color) : Byte := c.b0
def cyan (c : Color) : Byte := c.b0
def magenta (c : Color) : Byte := c.b1
def yellow (c : Color) : Byte := c.b2
def key (c : Color) : Byte := c.b3

/-- Color.cpp:305-353 -/
def setMode (c : Color) (m : Mode) : Color := { c with mode := m }
def setAlpha (c : Color) (v : Byte) : Color := { c with alpha := v }
def setRed (c : Color) (v : Byte) : Color := { c with b0 := v }
def setGreen (c : Color) (v : Byte) : Color := { c with b1 := v }
def setBlue (c : Color) (v : Byte) : Color := { c with b2 := v }
def setGrey (c : Color) (v : Byte) : Color := { c with b0 := v }
def setCyan (c : Color) (v : Byte) : Color := { c with b0 := v }
def setMagenta (c : Color) (v : Byte) : Color := { c with b1 := v }
def setYellow (c : Color) (v : Byte) : Color := { c with b2 := v }
def setKey (c : Color) (v : Byte) : Color := { c with b3 := v }

/-- Color.cpp:355-364 -/
def fromGrey (junk grey alpha : Byte) : Color := { new junk with mode := .grey, b0 := grey, alpha := alpha }
/-- Color.cpp:366-377 -/
def fromRgb (junk red green blue alpha : Byte) : Color :=
  { new junk with mode := .rgb, b0 := red, b1 := green, b2 := blue, alpha := alpha }
/-- Color.cpp:379-391 -/
def fromCmyk (cyan magenta yellow key alpha : Byte) : Color :=
  { new 0 with mode := .cmyk, b0 := cyan, b1 := magenta, b2 := yellow, b3 := key, alpha := alpha }

/-- the expression `static_cast<uint8>(255 - std::min(255, c + k))` of Color.cpp:110-112; the
operands are promoted to int -/
def invert (c k : Byte) : Byte := BitVec.ofNat 8 (255 - min 255 (c.toNat + k.toNat))

/-- Color.cpp:84-118 -/
def toRgb (c : Color) : Color :=
  match c.mode with
  | .rgb => c
  | .grey => { c with mode := .rgb, b0 := c.b0, b1 := c.b0, b2 := c.b0 }
  | .cmyk => { c with mode := .rgb, b0 := invert c.b0 c.b3, b1 := invert c.b1 c.b3, b2 := invert c.b2 c.b3 }

/-- conversion of a `uint8` to `float` (by way of int) -/
def fl (b : Byte) : F32 := ofInt b.toNat

/-- the sum in Color.cpp:128-130 -/
def luma (c : Color) : F32 := lit 2126 10000 * fl c.b0 + lit 7152 10000 * fl c.b1 + lit 733 10000 * fl c.b2

/-- Color.cpp:131: both operands are converted to `int8`; 255 becomes -1 (modulo 256), a float out
of range is undefined behaviour; the minimum is stored in a `uint8` -/
def greyByte (grey : F32) : Res Byte := do
  let v ← toIntRange (-128) 127 grey
  return BitVec.ofInt 8 (if v < -1 then v else -1)

/-- Color.cpp:124-134 -/
def rgbToGrey (c : Color) : Res Color := do
  let g ← greyByte (luma c)
  return { c with mode := .grey, b0 := g, alpha := 255 }

/-- Color.cpp:120-148 -/
def toGreyScale (c : Color) : Res Color :=
  match c.mode with
  | .rgb => rgbToGrey c
  | .grey => .ok c
  | .cmyk => rgbToGrey c.toRgb

/-- `static_cast<uint8>(x)` -/
def toByte (x : F32) : Res Byte := do
  let v ← toIntRange 0 255 x
  return BitVec.ofInt 8 v

/-- Color.cpp:160-162 -/
def frac (b : Byte) : F32 := fl b / lit 255 1
/-- Color.cpp:165 -/
def keyOf (r g b : F32) : F32 := lit 1 1 - fmax r (fmax g b)
/-- Color.cpp:168, 171, 174 -/
def ink (x k : F32) : F32 := (lit 1 1 - x - k) / (lit 1 1 - k)

/-- Color.cpp:154-182 -/
def rgbToCmyk (c : Color) : Res Color := do
  let r := frac c.b0
  let g := frac c.b1
  let b := frac c.b2
  let k := keyOf r g b
  let b0 ← toByte (lit 255 1 * ink r k)
  let b1 ← toByte (lit 255 1 * ink g k)
  let b2 ← toByte (lit 255 1 * ink b k)
  let b3 ← toByte (lit 255 1 * k)
  return ⟨.cmyk, b0, b1, b2, b3, 255⟩

/-- Color.cpp:150-200 -/
def toCmyk (c : Color) : Res Color :=
  match c.mode with
  | .rgb => rgbToCmyk c
  | .grey => .ok ⟨.cmyk, 0, 0, 0, BitVec.ofInt 8 (255 - c.b0.toNat), 255⟩
  | .cmyk => .ok c

/-- Color.cpp:253-268 -/
def isWhite (c : Color) : Bool :=
  match c.mode with
  | .rgb => c.b0 == 255 && c.b1 == 255 && c.b2 == 255
  | .grey => c.b0 == 255
  | .cmyk => c.b0 == 0 && c.b1 == 0 && c.b2 == 0 && c.b3 == 0

/-- Color.cpp:275-276 -/
def maxOf (c : Color) : Nat := max (max c.b0.toNat c.b1.toNat) c.b2.toNat
def minOf (c : Color) : Nat := min (min c.b0.toNat c.b1.toNat) c.b2.toNat

/-- the conversion of the `int` difference of two `uint8` to `float` -/
def diff (a b : Byte) : F32 := ofInt ((a.toNat : Int) - b.toNat)

/-- Color.cpp:283-288; the last `else if` is the only case left -/
def rawHue (t : Color) : F32 :=
  let mm := ofInt ((maxOf t : Int) - minOf t)
  if maxOf t = minOf t then zero
  else if maxOf t = t.b0.toNat then lit 60 1 * diff t.b1 t.b2 / mm
  else if maxOf t = t.b1.toNat then lit 60 1 * (lit 2 1 + diff t.b2 t.b0 / mm)
  else lit 60 1 * (lit 4 1 + diff t.b0 t.b1 / mm)

/-- Color.cpp:290 -/
def wrapHue (h : F32) : F32 := if lt h zero then h + lit 360 1 else h
/-- Color.cpp:270-303, the three results -/
def hue (c : Color) : F32 := wrapHue (rawHue c.toRgb)
def saturation (c : Color) : F32 :=
  let t := c.toRgb
  if maxOf t = minOf t then zero else ofInt ((maxOf t : Int) - minOf t) / ofInt (maxOf t)
def value (c : Color) : F32 := ofInt (maxOf c.toRgb) / lit 255 1

/-- the call of `fromRgb` with three converted floats, e.g. Color.cpp:409-410 -/
def rgbOf (junk : Byte) (r g b : F32) : Res Color := do
  let r ← toByte (r * lit 255 1)
  let g ← toByte (g * lit 255 1)
  let b ← toByte (b * lit 255 1)
  return fromRgb junk r g b 255

/-- Color.cpp:405-437 -/
def sector (junk : Byte) (hi : Int) (v p q t : F32) : Res Color :=
  if hi = 0 ∨ hi = 6 then rgbOf junk v t p
  else if hi = 1 then rgbOf junk q v p
  else if hi = 2 then rgbOf junk p v t
  else if hi = 3 then rgbOf junk p q v
  else if hi = 4 then rgbOf junk t p v
  else if hi = 5 then rgbOf junk v p q
  else .ok (new junk)

/-- Color.cpp:401-403 -/
def pOf (v s : F32) : F32 := v * (lit 1 1 - s)
def qOf (v s f : F32) : F32 := v * (lit 1 1 - s * f)
def tOf (v s f : F32) : F32 := v * (lit 1 1 - s * (lit 1 1 - f))

/-- Color.cpp:393-442 -/
def fromHsv (junk : Byte) (hue s v a : F32) : Res Color := do
  let hi ← toIntRange (-(2 ^ 31)) (2 ^ 31 - 1) (floor (hue / lit 60 1))
  let f := hue / lit 60 1 - ofInt hi
  let c ← sector junk hi v (pOf v s) (qOf v s f) (tOf v s f)
  let b ← toByte (a * lit 255 1)
  return c.setAlpha b

/-- Color.cpp:446-454 -/
def pdAlpha (alphaBackground alphaForeground : Byte) : Byte :=
  BitVec.ofNat 8 (alphaForeground.toNat + ((255 - alphaForeground.toNat) * alphaBackground.toNat) / 255)

/-- Color.cpp:461-467, the value of `C` -/
def pdMix (cb ab cf af : Byte) : F32 :=
  let alphaA := frac af
  let alphaB := frac ab
  let A := frac cf
  let B := frac cb
  let alphaC := frac (pdAlpha ab af)
  (alphaA * A + (lit 1 1 - alphaA) * alphaB * B) / alphaC

/-- Color.cpp:458-470 -/
def pdColour (cb ab cf af : Byte) : Res Byte := toByte (pdMix cb ab cf af * lit 255 1)

/-- Color.cpp:478-482 -/
def mixByte (alpha f b : Byte) : Byte :=
  BitVec.ofNat 8 ((alpha.toNat * f.toNat + (255 - alpha.toNat) * b.toNat) / 255)

/-- Color.cpp:472-496 -/
def blend (junk : Byte) (background foreground : Color) (alpha : Byte) : Res Color :=
  if background.alpha = 255 ∧ foreground.alpha = 255 then
    .ok { new junk with
      b0 := mixByte alpha foreground.b0 background.b0
      b1 := mixByte alpha foreground.b1 background.b1
      b2 := mixByte alpha foreground.b2 background.b2 }
  else do
    let r ← pdColour background.b0 background.alpha foreground.b0 foreground.alpha
    let g ← pdColour background.b1 background.alpha foreground.b1 foreground.alpha
    let b ← pdColour background.b2 background.alpha foreground.b2 foreground.alpha
    return ⟨.rgb, r, g, b, junk, pdAlpha background.alpha foreground.alpha⟩

/-- e.g. Color.cpp:501-502 -/
def interByte (a b : Byte) (percent : F32) : Res Byte := toByte (fl a + diff b a * percent)

/-- Color.cpp:498-509 -/
def interpolate (junk : Byte) (c1 c2 : Color) (percent : F32) : Res Color := do
  let r ← interByte c1.b0 c2.b0 percent
  let g ← interByte c1.b1 c2.b1 percent
  let b ← interByte c1.b2 c2.b2 percent
  let a ← interByte c1.alpha c2.alpha percent
  return ⟨.rgb, r, g, b, junk, a⟩

/-- Color.cpp:512-539 `operator==` -/
def eqColor (c1 c2 : Color) : Bool :=
  if c1.mode ≠ c2.mode then false
  else
    (match c1.mode with
      | .grey => c1.b0 == c2.b0
      | .rgb => c1.b0 == c2.b0 && c1.b1 == c2.b1 && c1.b2 == c2.b2
      | .cmyk => c1.b0 == c2.b0 && c1.b1 == c2.b1 && c1.b2 == c2.b2 && c1.b3 == c2.b3)
    && c1.alpha == c2.alpha

/-- Color.cpp:546-571 `operator-` -/
def sub (c1 c2 : Color) : Color :=
  let r := match c1.mode with
    | .grey => { c1 with b0 := c1.b0 - c2.b0 }
    | .rgb => { c1 with b0 := c1.b0 - c2.b0, b1 := c1.b1 - c2.b1, b2 := c1.b2 - c2.b2 }
    | .cmyk => { c1 with b0 := c1.b0 - c2.b0, b1 := c1.b1 - c2.b1, b2 := c1.b2 - c2.b2, b3 := c1.b3 - c2.b3 }
  { r with alpha := r.alpha - c2.alpha }

/-- Color.cpp:573-599 `operator+` -/
def add (c1 c2 : Color) : Color :=
  let r := match c1.mode with
    | .grey => { c1 with b0 := c1.b0 + c2.b0 }
    | .rgb => { c1 with b0 := c1.b0 + c2.b0, b1 := c1.b1 + c2.b1, b2 := c1.b2 + c2.b2 }
    | .cmyk => { c1 with b0 := c1.b0 + c2.b0, b1 := c1.b1 + c2.b1, b2 := c1.b2 + c2.b2, b3 := c1.b3 + c2.b3 }
  { r with alpha := r.alpha + c2.alpha }

end Color
end Verif.Color
