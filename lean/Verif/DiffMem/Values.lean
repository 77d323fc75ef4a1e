import Verif.Charset.Pages
import Verif.Math.FpModel
import Verif.Diff.Model
import Verif.Str.Model
/-
Model of the lines of the report for the values of an object: DiffInfo::print for numbers and strings
(src/core/DiffInfo.cpp:47-236).

 * What is written to `std::cout` is a list of bytes.
 * `std::cout << integer` is the decimal numeral (no flags are set on the stream by the library).
 * `std::cout << double` is a parameter `pr`.
 * `std::cout << String` (String.cpp:1167-1175) encodes with the charset of the console, Windows-1252 unless it is set, and
   writes the bytes before the first zero.
-/
namespace Verif.DiffMem
open Verif Verif.Diff
open Verif.Charset (Ch)

/-- the bytes of a literal -/
def asc (s : String) : List Byte := s.toList.map fun c => BitVec.ofNat 8 c.toNat

/-- `out << char*` stops before the zero (String.cpp:1173) -/
def untilZero (b : List Byte) : List Byte := b.takeWhile (fun c => c != 0)

/-- String.cpp:1167-1175, with the default charset of the console -/
def con (s : List Ch) : List Byte := untilZero (Charset.win1252Encode s)

/-- decimal digits of a number -/
def decN (n : Nat) : List Byte :=
  if n < 10 then [BitVec.ofNat 8 (0x30 + n)] else decN (n / 10) ++ [BitVec.ofNat 8 (0x30 + n % 10)]
termination_by n

/-- `std::cout << z` -/
def dec (z : Int) : List Byte := if z < 0 then 0x2d :: decN z.natAbs else decN z.natAbs

/-- the beginning of a line: `"  " << label << ": "` -/
def lead (label : List Ch) : List Byte := asc "  " ++ con label ++ asc ": "

/-- DiffInfo.cpp:63-86 -/
def printU64 (op : DOp) (a b : BitVec 64) (label : List Ch) : Res (List Byte) :=
  match op with
  | .add => .ok (lead label ++ dec a.toNat ++ asc "\n")
  | .delete => .ok (lead label ++ dec a.toNat ++ asc "\n")
  | .modified =>
    if a ≠ b then .ok (lead label ++ dec a.toNat ++ asc " -> " ++ dec b.toNat ++ asc " delta: " ++ dec (b - a).toNat ++ asc "\n")
    else .ok []
  | _ => .ok []

/-- DiffInfo.cpp:88-111; `obj2 - obj1` is a signed subtraction -/
def printI64 (op : DOp) (a b : BitVec 64) (label : List Ch) : Res (List Byte) :=
  match op with
  | .add => .ok (lead label ++ dec a.toInt ++ asc "\n")
  | .delete => .ok (lead label ++ dec a.toInt ++ asc "\n")
  | .modified =>
    if a ≠ b then
      if BitVec.ssubOverflow b a then .error .ub
      else .ok (lead label ++ dec a.toInt ++ asc " -> " ++ dec b.toInt ++ asc " delta: " ++ dec (b - a).toInt ++ asc "\n")
    else .ok []
  | _ => .ok []

/-- DiffInfo.cpp:47-53 -/
def printI32 (op : DOp) (a b : BitVec 32) (label : List Ch) : Res (List Byte) :=
  printI64 op (a.signExtend 64) (b.signExtend 64) label

/-- DiffInfo.cpp:55-61 -/
def printU32 (op : DOp) (a b : BitVec 32) (label : List Ch) : Res (List Byte) :=
  printU64 op (a.setWidth 64) (b.setWidth 64) label

/-- DiffInfo.cpp:113-136 -/
def printF64 (pr : Fp.F64 → List Byte) (op : DOp) (a b : Fp.F64) (label : List Ch) : List Byte :=
  match op with
  | .add => lead label ++ pr a ++ asc "\n"
  | .delete => lead label ++ pr a ++ asc "\n"
  | .modified =>
    if Math.Fl.isNotEqual a b then lead label ++ pr a ++ asc " -> " ++ pr b ++ asc " delta: " ++ pr (b - a) ++ asc "\n" else []
  | _ => []

/-- DiffInfo.cpp:138-160; `equals` on the characters (String.cpp:628-656, see `Verif/Str/CmpProps`) -/
def printStr (op : DOp) (a b : List Ch) (label : List Ch) : List Byte :=
  match op with
  | .add => lead label ++ con a ++ asc "\n"
  | .delete => lead label ++ con a ++ asc "\n"
  | .modified => if a ≠ b then lead label ++ con a ++ asc " -> " ++ con b ++ asc "\n" else []
  | _ => []

/-- DiffInfo.cpp:162-184; `equalsIgnoreCase` on the characters (String.cpp:628-656, see `Verif/Str/CmpProps`) -/
def printStrIgnoreCase (op : DOp) (a b : List Ch) (label : List Ch) : List Byte :=
  match op with
  | .add => lead label ++ con a ++ asc "\n"
  | .delete => lead label ++ con a ++ asc "\n"
  | .modified => if a.map Str.toLowerCh ≠ b.map Str.toLowerCh then lead label ++ con a ++ asc " -> " ++ con b ++ asc "\n" else []
  | _ => []

/-- Vertex2.cpp:203-207, Vertex3.cpp:211-215 (`out << "[" << x << " " << y << " " << z << "]"`) -/
def showV (pr : Fp.F64 → List Byte) (l : List Fp.F64) : List Byte :=
  asc "[" ++ ((l.map pr).intersperse (asc " ")).flatten ++ asc "]"

/-- Vertex2.cpp:198-201, Vertex3.cpp:228-231; a vertex is the list of its two or three coordinates -/
def vertexNe : List Fp.F64 → List Fp.F64 → Bool
  | x :: a, y :: b => Math.Fl.isNotEqual x y || vertexNe a b
  | _, _ => false

/-- DiffInfo.cpp:186-210 (Vertex2) and 212-236 (Vertex3) -/
def printV (pr : Fp.F64 → List Byte) (op : DOp) (a b : List Fp.F64) (label : List Ch) : List Byte :=
  match op with
  | .add => lead label ++ showV pr a ++ asc "\n"
  | .delete => lead label ++ showV pr a ++ asc "\n"
  | .modified => if vertexNe a b then lead label ++ showV pr a ++ asc " -> " ++ showV pr b ++ asc "\n" else []
  | _ => []

end Verif.DiffMem
