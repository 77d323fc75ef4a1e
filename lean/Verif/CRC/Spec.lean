import Verif.Base
/-
Bit-serial reflected CRC-16 with generator x^16 + x^15 + x^2 + 1 (0x8005, reflected 0xA001):
a shift register that shifts right one bit at a time.
-/
namespace Verif.CRC.Spec
open Verif

/-- One clock of the shift register. -/
def shift (x : BitVec 16) : BitVec 16 :=
  if x.getLsbD 0 then (x >>> 1) ^^^ 0xA001#16 else x >>> 1

def shift8 (x : BitVec 16) : BitVec 16 :=
  shift (shift (shift (shift (shift (shift (shift (shift x)))))))

/-- The CRC register after the bytes `l`, starting from `s`. -/
def crc (s : BitVec 16) (l : List Byte) : BitVec 16 :=
  l.foldl (fun s b => shift8 (s ^^^ b.setWidth 16)) s

end Verif.CRC.Spec
