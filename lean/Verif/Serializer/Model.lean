import Verif.Base
/-
Model of src/core/Serializer.cpp (lines 35-252).

`uint32 offset` arithmetic wraps modulo 2^32 (`ix32`); the overloads that take
`int64 offset` (`ByteArray` versions) are covered by the same definitions because
for the offsets that do not wrap both compute the same index.
`ByteArray::operator[] const` (src/core/ByteArray.cpp) is an unchecked access as well.
The functions return the constant number of bytes (`return 2;` …), modelled by the
second component.
-/
namespace Verif.Serializer
open Verif

/-- `offset + k` computed in `uint32`. -/
def ix32 (offset k : Nat) : Nat := (offset + k) % 2 ^ 32

/-- `(uint8)value`. -/
def lo {w : Nat} (v : BitVec w) : Byte := v.setWidth 8

/-- `value >>= 8` on a signed type (arithmetic shift). -/
def sar8 {w : Nat} (v : BitVec w) : BitVec w := v.sshiftRight 8

/-- `value >>= 8` on an unsigned type. -/
def shr8 {w : Nat} (v : BitVec w) : BitVec w := v >>> 8

/-- Serializer.cpp:35-41 -/
def serializeBEInt16 (b : Buf) (o : Nat) (v : BitVec 16) : Res (Buf × Nat) := do
  let b ← wr b (ix32 o 1) (lo v)
  let v := sar8 v
  let b ← wr b (ix32 o 0) (lo v)
  return (b, 2)

/-- Serializer.cpp:43-51 -/
def serializeBEInt24 (b : Buf) (o : Nat) (v : BitVec 32) : Res (Buf × Nat) := do
  let b ← wr b (ix32 o 2) (lo v)
  let v := sar8 v
  let b ← wr b (ix32 o 1) (lo v)
  let v := sar8 v
  let b ← wr b (ix32 o 0) (lo v)
  return (b, 3)

/-- Serializer.cpp:53-63 -/
def serializeBEInt32 (b : Buf) (o : Nat) (v : BitVec 32) : Res (Buf × Nat) := do
  let b ← wr b (ix32 o 3) (lo v)
  let v := sar8 v
  let b ← wr b (ix32 o 2) (lo v)
  let v := sar8 v
  let b ← wr b (ix32 o 1) (lo v)
  let v := sar8 v
  let b ← wr b (ix32 o 0) (lo v)
  return (b, 4)

/-- Serializer.cpp:65-83 -/
def serializeBEInt64 (b : Buf) (o : Nat) (v : BitVec 64) : Res (Buf × Nat) := do
  let b ← wr b (ix32 o 7) (lo v)
  let v := sar8 v
  let b ← wr b (ix32 o 6) (lo v)
  let v := sar8 v
  let b ← wr b (ix32 o 5) (lo v)
  let v := sar8 v
  let b ← wr b (ix32 o 4) (lo v)
  let v := sar8 v
  let b ← wr b (ix32 o 3) (lo v)
  let v := sar8 v
  let b ← wr b (ix32 o 2) (lo v)
  let v := sar8 v
  let b ← wr b (ix32 o 1) (lo v)
  let v := sar8 v
  let b ← wr b (ix32 o 0) (lo v)
  return (b, 8)

/-- Serializer.cpp:85-91 -/
def serializeLEInt16 (b : Buf) (o : Nat) (v : BitVec 16) : Res (Buf × Nat) := do
  let b ← wr b (ix32 o 0) (lo v)
  let v := sar8 v
  let b ← wr b (ix32 o 1) (lo v)
  return (b, 2)

/-- Serializer.cpp:93-99 -/
def serializeLEUInt16 (b : Buf) (o : Nat) (v : BitVec 16) : Res (Buf × Nat) := do
  let b ← wr b (ix32 o 0) (lo v)
  let v := shr8 v
  let b ← wr b (ix32 o 1) (lo v)
  return (b, 2)

/-- Serializer.cpp:101-109 -/
def serializeLEInt24 (b : Buf) (o : Nat) (v : BitVec 32) : Res (Buf × Nat) := do
  let b ← wr b (ix32 o 0) (lo v)
  let v := sar8 v
  let b ← wr b (ix32 o 1) (lo v)
  let v := sar8 v
  let b ← wr b (ix32 o 2) (lo v)
  return (b, 3)

/-- Serializer.cpp:111-121 -/
def serializeLEInt32 (b : Buf) (o : Nat) (v : BitVec 32) : Res (Buf × Nat) := do
  let b ← wr b (ix32 o 0) (lo v)
  let v := sar8 v
  let b ← wr b (ix32 o 1) (lo v)
  let v := sar8 v
  let b ← wr b (ix32 o 2) (lo v)
  let v := sar8 v
  let b ← wr b (ix32 o 3) (lo v)
  return (b, 4)

/-- Serializer.cpp:123-141 -/
def serializeLEInt64 (b : Buf) (o : Nat) (v : BitVec 64) : Res (Buf × Nat) := do
  let b ← wr b (ix32 o 0) (lo v)
  let v := sar8 v
  let b ← wr b (ix32 o 1) (lo v)
  let v := sar8 v
  let b ← wr b (ix32 o 2) (lo v)
  let v := sar8 v
  let b ← wr b (ix32 o 3) (lo v)
  let v := sar8 v
  let b ← wr b (ix32 o 4) (lo v)
  let v := sar8 v
  let b ← wr b (ix32 o 5) (lo v)
  let v := sar8 v
  let b ← wr b (ix32 o 6) (lo v)
  let v := sar8 v
  let b ← wr b (ix32 o 7) (lo v)
  return (b, 8)

/-- Serializer.cpp:254-282 `serializeLEDouble`: the `double` is its 64-bit pattern
(`union conv`), shifted as `uint64`. -/
def serializeLEDouble (b : Buf) (o : Nat) (v : BitVec 64) : Res (Buf × Nat) := do
  let b ← wr b (ix32 o 0) (lo v)
  let v := shr8 v
  let b ← wr b (ix32 o 1) (lo v)
  let v := shr8 v
  let b ← wr b (ix32 o 2) (lo v)
  let v := shr8 v
  let b ← wr b (ix32 o 3) (lo v)
  let v := shr8 v
  let b ← wr b (ix32 o 4) (lo v)
  let v := shr8 v
  let b ← wr b (ix32 o 5) (lo v)
  let v := shr8 v
  let b ← wr b (ix32 o 6) (lo v)
  let v := shr8 v
  let b ← wr b (ix32 o 7) (lo v)
  return (b, 8)

/-- Serializer.cpp:284-304 `serializeLEFloat`: `v` is the content of the union, whose
upper 32 bits are indeterminate; only the low four bytes are written. -/
def serializeLEFloat (b : Buf) (o : Nat) (v : BitVec 64) : Res (Buf × Nat) := do
  let b ← wr b (ix32 o 0) (lo v)
  let v := shr8 v
  let b ← wr b (ix32 o 1) (lo v)
  let v := shr8 v
  let b ← wr b (ix32 o 2) (lo v)
  let v := shr8 v
  let b ← wr b (ix32 o 3) (lo v)
  return (b, 4)

/-- A `uint8` operand of `<<` / `|` promoted to `int` (32 bit). -/
def int (x : Byte) : BitVec 32 := x.setWidth 32

/-- Serializer.cpp:143-156 `deserializeBEUInt16`, `deserializeBEInt16`
(same bits, the return type only fixes their reading as signed or unsigned). -/
def deserializeBE16 (b : Buf) (o : Nat) : Res (BitVec 16) := do
  let b0 ← rd b (ix32 o 0)
  let b1 ← rd b (ix32 o 1)
  return ((int b0 <<< 8) ||| int b1).setWidth 16

/-- Serializer.cpp:158-180 `deserializeBEUInt32`, `deserializeBEInt32`. -/
def deserializeBE32 (b : Buf) (o : Nat) : Res (BitVec 32) := do
  let b0 ← rd b (ix32 o 0)
  let b1 ← rd b (ix32 o 1)
  let b2 ← rd b (ix32 o 2)
  let b3 ← rd b (ix32 o 3)
  return (int b0 <<< 24) ||| (int b1 <<< 16) ||| (int b2 <<< 8) ||| int b3

/-- Serializer.cpp:182-194 `deserializeBEInt64`: two `uint32` halves widened to `int64`. -/
def deserializeBE64 (b : Buf) (o : Nat) : Res (BitVec 64) := do
  let p1 ← deserializeBE32 b o
  let p2 ← deserializeBE32 b (ix32 o 4)
  return (p1.setWidth 64 <<< 32) ||| p2.setWidth 64

/-- Serializer.cpp:196-214 `deserializeLEUInt16`, `deserializeLEInt16`. -/
def deserializeLE16 (b : Buf) (o : Nat) : Res (BitVec 16) := do
  let b1 ← rd b (ix32 o 1)
  let b0 ← rd b (ix32 o 0)
  return ((int b1 <<< 8) ||| int b0).setWidth 16

/-- Serializer.cpp:216-238 `deserializeLEUInt32`, `deserializeLEInt32`. -/
def deserializeLE32 (b : Buf) (o : Nat) : Res (BitVec 32) := do
  let b3 ← rd b (ix32 o 3)
  let b2 ← rd b (ix32 o 2)
  let b1 ← rd b (ix32 o 1)
  let b0 ← rd b (ix32 o 0)
  return (int b3 <<< 24) ||| (int b2 <<< 16) ||| (int b1 <<< 8) ||| int b0

/-- Serializer.cpp:240-252 `deserializeLEInt64`. -/
def deserializeLE64 (b : Buf) (o : Nat) : Res (BitVec 64) := do
  let p1 ← deserializeLE32 b (ix32 o 4)
  let p2 ← deserializeLE32 b o
  return (p1.setWidth 64 <<< 32) ||| p2.setWidth 64

/-- Serializer.cpp:306-314 `deserializeLEDouble`: reinterprets eight bytes of memory; on
the little-endian targets of the library this is the bit pattern assembled from the
bytes in ascending order (modelling assumption: little-endian host, alignment ignored). -/
def deserializeLEDouble (b : Buf) (o : Nat) : Res (BitVec 64) := do
  let b0 ← rd b (ix32 o 0)
  let b1 ← rd b (ix32 o 1)
  let b2 ← rd b (ix32 o 2)
  let b3 ← rd b (ix32 o 3)
  let b4 ← rd b (ix32 o 4)
  let b5 ← rd b (ix32 o 5)
  let b6 ← rd b (ix32 o 6)
  let b7 ← rd b (ix32 o 7)
  return b7 ++ b6 ++ b5 ++ b4 ++ b3 ++ b2 ++ b1 ++ b0

end Verif.Serializer
