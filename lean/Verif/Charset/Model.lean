import Verif.Base
/-
Model of src/core/UTF8Decoder.cpp, src/core/UTF16Decoder.cpp and RawDecoder
(src/core/CharsetDecoder.cpp).

A C string is a memory block of bytes; reading at or behind its end is UB.  `ByteArray` results
are byte lists: a `ByteArray(n, 0)` has `n` cells, writes go through `emit` and are UB beyond them
(the additional cell for the final NUL is not used by the encoders).  `constData()` of such an
array is the block `bytes ++ [0]` (ByteArray.cpp:81-87).  The `uint32` counters do not overflow
below 4 GB.
-/
namespace Verif.Charset
open Verif

abbrev Ch := BitVec 16

/-! ### UTF-8 -/

/-- UTF8Decoder.cpp:51-67: byte order mark at the start: the first byte behind it, or an exception. -/
def utf8Start (c : Buf) : Res Nat := do
  let b0 ← rd c 0
  if b0 = 0xFE then
    let b1 ← rd c 1
    if b1 = 0xFF then .error .thrown else return 0
  else if b0 = 0xFF then
    let b1 ← rd c 1
    if b1 = 0xFE then .error .thrown else return 0
  else if b0 = 0xEF then
    let b1 ← rd c 1
    if b1 = 0xBB then
      let b2 ← rd c 2
      if b2 = 0xBF then return 3 else return 0
    else return 0
  else return 0

/-- UTF8Decoder.cpp:73-98: length in bytes the lead byte announces. -/
def leadLength (c : Byte) : Nat :=
  if c &&& 0x80 = 0 then 1
  else if c &&& 0xE0 = 0xC0 then 2
  else if c &&& 0xF0 = 0xE0 then 3
  else if c &&& 0xF8 = 0xF0 then 4
  else 1

theorem leadLength_pos (c : Byte) : 0 < leadLength c := by
  unfold leadLength; (repeat' split) <;> omega

/-- UTF8Decoder.cpp:69-99: first pass, number of characters. -/
def utf8Count (c : Buf) (cntC strLength : Nat) : Res Nat :=
  if h : cntC < c.length then
    if c[cntC] = 0 then .ok strLength
    else utf8Count c (cntC + leadLength c[cntC]) (strLength + 1)
  else .error .ub
termination_by c.length - cntC
decreasing_by have := leadLength_pos c[cntC]; omega

/-- UTF8Decoder.cpp:103-149: second pass. -/
def utf8Fill (c : Buf) (strLength cntC : Nat) (out : List Ch) : Res (List Ch) :=
  if out.length < strLength then
    if h : cntC < c.length then
      let b := c[cntC]
      let w : Ch := b.setWidth 16
      if b &&& 0x80 = 0 then utf8Fill c strLength (cntC + 1) (out ++ [w])
      else if b &&& 0xE0 = 0xC0 then do
        let d ← rd c (cntC + 1)
        utf8Fill c strLength (cntC + 2) (out ++ [((w &&& 0x1F) <<< 6) ||| (d &&& 0x3F).setWidth 16])
      else if b &&& 0xF0 = 0xE0 then do
        let d ← rd c (cntC + 1)
        let e ← rd c (cntC + 2)
        utf8Fill c strLength (cntC + 3)
          (out ++ [((w &&& 0x0F) <<< 12) ||| ((d &&& 0x3F).setWidth 16 <<< 6) ||| (e &&& 0x3F).setWidth 16])
      else if b &&& 0xF8 = 0xF0 then do
        let d ← rd c (cntC + 1)
        let e ← rd c (cntC + 2)
        let f ← rd c (cntC + 3)
        utf8Fill c strLength (cntC + 4)
          (out ++ [((w &&& 0x07) <<< 18) ||| ((d &&& 0x3F).setWidth 16 <<< 12) ||| ((e &&& 0x3F).setWidth 16 <<< 6)
            ||| (f &&& 0x3F).setWidth 16])
      else do
        let skip ← (if b = 0xFF then do let d ← rd c (cntC + 1); return decide (d = 0xFE) else .ok false : Res Bool)
        if skip then utf8Fill c strLength (cntC + 2) out
        else utf8Fill c strLength (cntC + 1) (out ++ [w])
    else .error .ub
  else .ok out
termination_by c.length - cntC

/-- UTF8Decoder.cpp:41-150 `decode` -/
def utf8Decode (c : Buf) : Res (List Ch) := do
  let start ← utf8Start c
  let n ← utf8Count c start 0
  utf8Fill c n start []

/-- UTF8Decoder.cpp:156-172: bytes needed. -/
def utf8Size : List Ch → Nat
  | [] => 0
  | c :: l => (if c.toNat < 0x80 then 1 else if c.toNat < 0x800 then 2 else 3) + utf8Size l

/-- UTF8Decoder.cpp:174-198: second pass of `encode`. -/
def utf8Write (cap : Nat) : List Ch → List Byte → Res (List Byte)
  | [], out => .ok out
  | c :: l, out =>
    if c.toNat < 0x80 then do
      let out ← emit cap out (c.setWidth 8)
      utf8Write cap l out
    else if c.toNat < 0x800 then do
      let out ← emit cap out (((c >>> 6) &&& 0x1F).setWidth 8 ||| 0xC0)
      let out ← emit cap out ((c &&& 0x3F).setWidth 8 ||| 0x80)
      utf8Write cap l out
    else do
      let out ← emit cap out (((c >>> 12) &&& 0x0F).setWidth 8 ||| 0xE0)
      let out ← emit cap out (((c >>> 6) &&& 0x3F).setWidth 8 ||| 0x80)
      let out ← emit cap out ((c &&& 0x3F).setWidth 8 ||| 0x80)
      utf8Write cap l out

/-- UTF8Decoder.cpp:154-199 `encode` -/
def utf8Encode (l : List Ch) : Res (List Byte) := utf8Write (utf8Size l) l []

/-! ### UTF-16 -/

/-- UTF16Decoder.cpp:47-67: initial `(cntC, start)`. -/
def utf16Start (be : Bool) (c : Buf) : Res (Nat × Nat) := do
  let dflt := (if be then 1 else 0, 0)
  let b0 ← rd c 0
  if b0 = 0xFE then
    let b1 ← rd c 1
    if b1 = 0xFF then return (2, 2) else return dflt
  else if b0 = 0xFF then
    let b1 ← rd c 1
    if b1 = 0xFE then return (2, 2) else return dflt
  else if b0 = 0xEF then
    let b1 ← rd c 1
    if b1 = 0xBB then
      let b2 ← rd c 2
      if b2 = 0xBF then .error .thrown else return dflt
    else return dflt
  else return dflt

/-- UTF16Decoder.cpp:70-74: every second byte is tested for zero. -/
def utf16Count (c : Buf) (cntC n : Nat) : Res Nat :=
  if h : cntC < c.length then
    if c[cntC] = 0 then .ok n else utf16Count c (cntC + 2) (n + 1)
  else .error .ub
termination_by c.length - cntC

/-- UTF16Decoder.cpp:78-86 -/
def utf16Fill (be : Bool) (c : Buf) : Nat → Nat → Res (List Ch)
  | 0, _ => .ok []
  | n + 1, i => do
    let c1 ← rd c i
    let c2 ← rd c (i + 1)
    let x : Ch := if be then (c1.setWidth 16 <<< 8) ||| c2.setWidth 16 else c1.setWidth 16 ||| (c2.setWidth 16 <<< 8)
    let r ← utf16Fill be c n (i + 2)
    return x :: r

/-- UTF16Decoder.cpp:41-88 `decode` -/
def utf16Decode (be : Bool) (c : Buf) : Res (List Ch) := do
  let s ← utf16Start be c
  let n ← utf16Count c s.1 0
  utf16Fill be c n s.2

/-- UTF16Decoder.cpp:90-106 `encode`: both byte orders write the high byte first. -/
def utf16Encode (_be : Bool) (l : List Ch) : List Byte :=
  l.flatMap (fun (c : Ch) => [(c >>> 8).setWidth 8, c.setWidth 8])

/-! ### Raw -/

/-- CharsetDecoder.cpp:54-55 -/
def rawCount (c : Buf) (n : Nat) : Res Nat :=
  if h : n < c.length then
    if c[n] = 0 then .ok n else rawCount c (n + 1)
  else .error .ub
termination_by c.length - n

/-- CharsetDecoder.cpp:51-65 `RawDecoder::decode`: `Char(cstring[a])` widens a signed `char`. -/
def rawDecode (c : Buf) : Res (List Ch) := do
  let n ← rawCount c 0
  return (c.take n).map (fun b => b.signExtend 16)

/-- CharsetDecoder.cpp:67-77 `RawDecoder::encode` -/
def rawEncode (l : List Ch) : List Byte := l.map (fun (c : Ch) => c.setWidth 8)

end Verif.Charset
