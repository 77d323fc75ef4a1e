import Verif.Base
/-
RFC 4648 section 4, written from the RFC text: 24-bit groups are read as four 6-bit groups,
each translated by Table 1; a final group of 8 bits yields two characters and two `=`, one of
16 bits three characters and one `=`.
-/
namespace Verif.Base64.Spec
open Verif

/-- Table 1 of RFC 4648: 'A'..'Z' = 0..25, 'a'..'z' = 26..51, '0'..'9' = 52..61, '+', '/'. -/
def letter (n : Nat) : Byte :=
  BitVec.ofNat 8 (if n < 26 then 65 + n else if n < 52 then 97 + (n - 26)
    else if n < 62 then 48 + (n - 52) else if n = 62 then 43 else 47)

/-- The four 6-bit groups of a 24-bit number, most significant first. -/
def sextet (n24 k : Nat) : Nat := n24 / 64 ^ (3 - k) % 64

def pad : Byte := 61#8

def group (a b c : Byte) : Nat := a.toNat * 65536 + b.toNat * 256 + c.toNat

def encode : List Byte → List Byte
  | [] => []
  | [a] => let n := group a 0 0; [letter (sextet n 0), letter (sextet n 1), pad, pad]
  | [a, b] => let n := group a b 0; [letter (sextet n 0), letter (sextet n 1), letter (sextet n 2), pad]
  | a :: b :: c :: t =>
    let n := group a b c
    letter (sextet n 0) :: letter (sextet n 1) :: letter (sextet n 2) :: letter (sextet n 3) :: encode t

end Verif.Base64.Spec
