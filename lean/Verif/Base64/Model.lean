import Verif.Base
/-
Model of src/core/Base64.cpp.

The `uint8` arithmetic is done in C++ in `int` and stored back to `uint8`; all
intermediate results that matter are masked to 8 bits, so it is written here directly on
`BitVec 8` (`c1 << 2` on line 146 and `c3 << 6` on line 165 lose the same high bits when
the result is stored to a `uint8`).
-/
namespace Verif.Base64
open Verif

/-- Base64.cpp:37 -/
def fillchar : Byte := 61#8

/-- Base64.cpp:38 `gBase64cvt` (character codes of the alphabet string; the terminating NUL
of the literal is index 64 and never reached). -/
def cvt : List Byte :=
  "ABCDEFGHIJKLMNOPQRSTUVWXYZabcdefghijklmnopqrstuvwxyz0123456789+/".toList.map
    (fun c => BitVec.ofNat 8 c.toNat)

/-- Base64.cpp:40-73 `gBase64rcvt`, 256 entries. -/
def rcvtNat : List Nat := [
  66, 66, 66, 66, 66, 66, 66, 66, 66, 66, 64, 66, 66, 66, 66, 66, 66, 66, 66, 66,
  66, 66, 66, 66, 66, 66, 66, 66, 66, 66, 66, 66, 66, 66, 66, 66, 66, 66, 66, 66,
  66, 66, 66, 62, 66, 66, 66, 63, 52, 53, 54, 55, 56, 57, 58, 59, 60, 61, 66, 66,
  66, 65, 66, 66, 66, 0, 1, 2, 3, 4, 5, 6, 7, 8, 9, 10, 11, 12, 13, 14,
  15, 16, 17, 18, 19, 20, 21, 22, 23, 24, 25, 66, 66, 66, 66, 66, 66, 26, 27, 28,
  29, 30, 31, 32, 33, 34, 35, 36, 37, 38, 39, 40, 41, 42, 43, 44, 45, 46, 47, 48,
  49, 50, 51, 66, 66, 66, 66, 66, 66, 66, 66, 66, 66, 66, 66, 66, 66, 66, 66, 66,
  66, 66, 66, 66, 66, 66, 66, 66, 66, 66, 66, 66, 66, 66, 66, 66, 66, 66, 66, 66,
  66, 66, 66, 66, 66, 66, 66, 66, 66, 66, 66, 66, 66, 66, 66, 66, 66, 66, 66, 66,
  66, 66, 66, 66, 66, 66, 66, 66, 66, 66, 66, 66, 66, 66, 66, 66, 66, 66, 66, 66,
  66, 66, 66, 66, 66, 66, 66, 66, 66, 66, 66, 66, 66, 66, 66, 66, 66, 66, 66, 66,
  66, 66, 66, 66, 66, 66, 66, 66, 66, 66, 66, 66, 66, 66, 66, 66, 66, 66, 66, 66,
  66, 66, 66, 66, 66, 66, 66, 66, 66, 66, 66, 66, 66, 66, 66, 66]

/-- Base64.cpp:40-73, as `uint8`. -/
def rcvt : List Byte := rcvtNat.map (BitVec.ofNat 8)

/-- Base64.cpp:85-116: body of the encoding loop, from index `i` on; `out` is what was
written to `ret`, whose allocated size is `cap` (line 79-81). -/
def encodeLoop (data : Buf) (cap i : Nat) (out : Buf) : Res Buf :=
  if i < data.length then do
    let b1 ← rd data i
    let b2 ← if i + 1 < data.length then rd data (i + 1) else pure 0#8
    let b3 ← if i + 2 < data.length then rd data (i + 2) else pure 0#8
    let c1 := (b1 >>> 2) &&& 0x3f#8
    let c2 := (b1 <<< 4) &&& 0x3f#8
    let c2 := if i + 1 < data.length then c2 ||| ((b2 >>> 4) &&& 0x0f#8) else c2
    let c3 := (b2 <<< 2) &&& 0x3f#8
    let c3 := if i + 2 < data.length then c3 ||| ((b3 >>> 6) &&& 0x03#8) else c3
    let c4 := b3 &&& 0x3f#8
    let o1 ← rd cvt c1.toNat
    let out ← emit cap out o1
    let o2 ← rd cvt c2.toNat
    let out ← emit cap out o2
    let o3 ← if i + 1 < data.length then rd cvt c3.toNat else pure fillchar
    let out ← emit cap out o3
    let o4 ← if i + 2 < data.length then rd cvt c4.toNat else pure fillchar
    let out ← emit cap out o4
    encodeLoop data cap (i + 3) out
  else .ok out
termination_by data.length - i

/-- Base64.cpp:75-120 `Base64::encode`; the returned length is the length of the list. -/
def encode (data : Buf) : Res Buf := do
  let cap := ((data.length / 3) + 1) * 4
  let out ← encodeLoop data cap 0 []
  if out.length > cap then .error .thrown else return out

/-- Base64.cpp:134-169: body of the decoding loop. -/
def decodeLoop (data : Buf) (cap i : Nat) (out : Buf) : Res Buf :=
  if i < data.length then do
    let c1 ← rd rcvt (← rd data i).toNat
    let c2 ← rd rcvt (← rd data (i + 1)).toNat
    let c3 ← rd rcvt (← rd data (i + 2)).toNat
    let c4 ← rd rcvt (← rd data (i + 3)).toNat
    -- lines 141-148
    let brk := decide (c2.toNat ≥ 65)
    let c2 := if c2.toNat ≥ 65 then 0#8 else c2
    let out ← emit cap out ((c1 <<< 2) ||| ((c2 >>> 4) &&& 0x3#8))
    if brk then return out
    -- lines 151-158
    let brk := decide (c3.toNat ≥ 65)
    let c3 := if c3.toNat ≥ 65 then 0#8 else c3
    let out ← emit cap out (((c2 <<< 4) &&& 0xf0#8) ||| ((c3 >>> 2) &&& 0xf#8))
    if brk then return out
    -- lines 160-167
    let brk := decide (c4.toNat ≥ 65)
    let c4 := if c4.toNat ≥ 65 then 0#8 else c4
    let out ← emit cap out (((c3 <<< 6) &&& 0xc0#8) ||| c4)
    if brk then return out
    decodeLoop data cap (i + 4) out
  else .ok out
termination_by data.length - i

/-- Base64.cpp:122-172 `Base64::decode`.  `len * 3` (line 128) is `int` arithmetic:
signed overflow is UB. -/
def decode (data : Buf) : Res Buf :=
  if data.length * 3 < 2 ^ 31 then decodeLoop data ((data.length * 3) / 4) 0 []
  else .error .ub

end Verif.Base64
