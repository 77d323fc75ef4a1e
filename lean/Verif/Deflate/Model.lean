import Verif.Base
/-
C106: the class Deflater (Deflater.cpp).  zlib is a parameter: `z x` is the complete stream zlib makes of the bytes `x` at level
Z_BEST_COMPRESSION; one call of `::deflate` with Z_FINISH writes the beginning of that stream that fits.
-/
namespace Verif.Deflate
open Verif

abbrev Zlib := List Byte → List Byte

/-- Deflater.h:92-98.  `input` is the memory behind `mUncompBytes` and `mUncompLength`; `none` before the first setInput or reset, when
both are not initialised (Deflater.cpp:36-40).  The totals are unbounded here (int64 in the code). -/
structure Deflater where
  input : Option (List Byte × Int)
  totalIn : Int
  totalOut : Int

/-- Deflater.cpp:36-40 -/
def Deflater.new : Deflater := ⟨none, 0, 0⟩

/-- Deflater.cpp:46-52 -/
def Deflater.setInput (d : Deflater) (buffer : List Byte) (length : Int) : Deflater :=
  { d with input := some (buffer, length), totalIn := d.totalIn + length }

/-- Deflater.cpp:79-86 -/
def Deflater.reset (_ : Deflater) : Deflater := ⟨some ([], 0), 0, 0⟩

/-- Deflater.cpp:54-77: the bytes written to the new buffer; their number is `length`.  `new uint8[n]` throws for negative n;
`(uInt)` keeps the low 32 bits of the length, for input and output. -/
def Deflater.deflate (z : Zlib) (d : Deflater) : Res (List Byte × Deflater) :=
  match d.input with
  | none => .error .ub
  | some (buffer, length) =>
    if length < 0 then .error .thrown
    else
      let avail := length.toNat % 2 ^ 32
      if buffer.length < avail then .error .ub
      else
        let out := (z (buffer.take avail)).take avail
        .ok (out, { d with totalOut := d.totalOut + out.length })

/-- Deflater.cpp:88-96 -/
def Deflater.totalInSize (d : Deflater) : Int := d.totalIn
def Deflater.totalOutSize (d : Deflater) : Int := d.totalOut

/-- calls of a client -/
inductive Call where
  | setInput (buffer : List Byte)
  | deflate
  | reset

/-- a history of calls: the outputs of the deflate calls and the object; `setInput` is called with the right length -/
def run (z : Zlib) (d : Deflater) : List Call → Res (List (List Byte) × Deflater)
  | [] => .ok ([], d)
  | .setInput b :: h => run z (d.setInput b b.length) h
  | .reset :: h => run z d.reset h
  | .deflate :: h =>
    match d.deflate z with
    | .error e => .error e
    | .ok (o, d) => (run z d h).map (fun p => (o :: p.1, p.2))

end Verif.Deflate
