import Verif.Base
/-
Specification of guessing a character set.
-/
namespace Verif.Guess.Spec
open Verif

/-- the number of zero bytes among the first 4096 bytes at positions of the given parity -/
def zeros (b : List Byte) (parity : Nat) : Nat :=
  ((List.range (min 4096 b.length)).filter fun i => i % 2 = parity && b[i]? = some 0).length

/-- more than nine in ten of every second byte are zero -/
def HalfZero (b : List Byte) (parity : Nat) : Prop := 9 * min 4096 b.length < 20 * zeros b parity

instance (b : List Byte) (parity : Nat) : Decidable (HalfZero b parity) := by unfold HalfZero; infer_instance

/-- bytes below 128 -/
def Ascii (b : List Byte) : Prop := ∀ x ∈ b, x.toNat < 0x80

/-- the stream begins with one of the three marks -/
def Marked (b : List Byte) : Prop := [0xFE, 0xFF] <+: b ∨ [0xFF, 0xFE] <+: b ∨ [0xEF, 0xBB, 0xBF] <+: b

/-- characters U+0001 … U+00FF in UTF-16 without a mark, low byte first -/
def utf16le (text : List Byte) : List Byte := text.flatMap fun c => [c, 0]

/-- the same, high byte first -/
def utf16be (text : List Byte) : List Byte := text.flatMap fun c => [0, c]

end Verif.Guess.Spec
