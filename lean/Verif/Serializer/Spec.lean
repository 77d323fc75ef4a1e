import Verif.Base
/-
Specification of fixed-width integer layout, independent of the code:
byte `k` of a number `x` is `(x / 256^k) mod 256`; a window of a buffer is replaced.
-/
namespace Verif.Serializer.Spec
open Verif

/-- `k`-th least significant byte of the number represented by `v` (as unsigned). -/
def byteOf {w : Nat} (v : BitVec w) (k : Nat) : Byte := BitVec.ofNat 8 (v.toNat / 256 ^ k)

/-- The `n` bytes of `v`, least significant first. -/
def leBytes {w : Nat} (n : Nat) (v : BitVec w) : List Byte := (List.range n).map (byteOf v)

/-- The `n` bytes of `v`, most significant first. -/
def beBytes {w : Nat} (n : Nat) (v : BitVec w) : List Byte := (leBytes n v).reverse

/-- `buf` with the bytes `bs` stored from position `o` on, everything else unchanged. -/
def splice (buf : List Byte) (o : Nat) (bs : List Byte) : List Byte :=
  buf.take o ++ bs ++ buf.drop (o + bs.length)

end Verif.Serializer.Spec
