import Verif.Xml.Model
import Verif.Num.Model
import Verif.DoubleText.Model
import Verif.Guess.Model
/-
Model of the numeric overloads of XMLWriter::writeAttribute (src/core/XMLWriter.cpp:216-243), of the typed readers of
SAXAttributes and of its access by position (src/core/SAXAttributes.cpp:93-178).
-/
namespace Verif.Xml
open Verif Verif.Str

/-- The conversion `double` to `float`: rounded to nearest.  (A number too large for a `float` becomes infinite, as IEEE 754
demands; the C++ standard alone leaves it undefined.) -/
def toFloat : Fp.F64 → Fp32.F32
  | .nan => .nan
  | .num s b _ => if b = Fp.infBits then Fp32.mk s Fp32.infBits else Fp32.ofUnits s (Fp.sgn s (Fp.mag b)) (2 ^ 925)

/-- XMLWriter.h:99-155: the second argument of `writeAttribute`.  There is no overload for `bool`: a `bool` is promoted to
`int32`. -/
inductive TVal where
  | text (s : List Ch)
  | int32 (z : Int)
  | uint32 (n : Nat)
  | int64 (z : Int)
  | uint64 (n : Nat)
  | float (x : Fp32.F32)
  | double (x : Fp.F64)
  | bool (b : Bool)

/-- XMLWriter.cpp:216-243, String.cpp:1034-1042: `String::valueOf` of the argument; an `int32` or `uint32` becomes `int64`, a
`float` becomes `double` -/
def TVal.content : TVal → Res (List Ch)
  | .text s => .ok s
  | .int32 z => Num.valueOf z
  | .uint32 n => Num.valueOf n
  | .int64 z => Num.valueOf z
  | .uint64 n => Num.valueOfU n
  | .float x => .ok (DoubleText.valueOf (Guess.toDouble x))
  | .double x => .ok (DoubleText.valueOf x)
  | .bool b => Num.valueOf (if b then 1 else 0)

/-- XMLWriter.cpp:201-243: `writeAttribute` with an argument of any type -/
def W.writeTyped (w : W) (name : List Ch) (v : TVal) : Res W := do
  let s ← v.content
  w.writeAttribute name s

/-- the attributes of an element, one call after the other -/
def W.writeAll (w : W) : List (List Ch × TVal) → Res W
  | [] => .ok w
  | a :: as => do
    let w ← w.writeTyped a.1 a.2
    w.writeAll as

/-- the text of a document: calls, the start of an element, its attributes, further calls -/
def writtenWith (pre : List Call) (n : List Ch) (as : List (List Ch × TVal)) (post : List Call) : Res (List Ch) := do
  let w ← runCalls W.new.startDocument pre
  let w ← w.startElement n
  let w ← w.writeAll as
  let w ← runCalls w post
  return w.out

/-- SAXAttributes.cpp:93-96: the `uri` is ignored -/
def Attrs.indexOfNs (a : Attrs) (_uri localName : List Ch) : Int := a.indexOf localName

/-- SAXAttributes.cpp:98-101 -/
def Attrs.count (a : Attrs) : Nat := a.names.length % 2 ^ 32

/-- `std::vector::at` -/
def at? (l : List (List Ch)) (i : Nat) : Res (List Ch) :=
  match l[i]? with
  | some x => .ok x
  | none => .error .thrown

/-- SAXAttributes.cpp:103-106 -/
def Attrs.localName (a : Attrs) (i : Nat) : Res (List Ch) := at? a.names i

/-- SAXAttributes.cpp:108-111 -/
def Attrs.qualifiedName (a : Attrs) (i : Nat) : Res (List Ch) := at? a.names i

/-- SAXAttributes.cpp:113-126: the same for every argument -/
def Attrs.type (_ : Attrs) : List Ch := lit "CDATA"

/-- SAXAttributes.cpp:128-131 -/
def Attrs.uri (_ : Attrs) (_ : Nat) : List Ch := []

/-- SAXAttributes.cpp:133-136 -/
def Attrs.valueAt (a : Attrs) (i : Nat) : Res (List Ch) := at? a.values i

/-- SAXAttributes.cpp:145-148 -/
def Attrs.valueAsInt (a : Attrs) (q : List Ch) : Res Int := do
  let v ← a.value q
  Num.toInt v

/-- SAXAttributes.cpp:150-153 -/
def Attrs.valueAsFloat (a : Attrs) (q : List Ch) : Res Fp32.F32 := do
  let v ← a.value q
  return toFloat (DoubleText.toDouble v)

/-- SAXAttributes.cpp:155-158 -/
def Attrs.valueAsDouble (a : Attrs) (q : List Ch) : Res Fp.F64 := do
  let v ← a.value q
  return DoubleText.toDouble v

/-- SAXAttributes.cpp:160-163 -/
def Attrs.valueAsBool (a : Attrs) (q : List Ch) : Res Bool := do
  let v ← a.value q
  let s ← Verif.Str.ofChars v
  let t ← Verif.Str.ofChars (lit "true")
  Verif.Str.equalsIgnoreCase s t

/-- SAXAttributes.cpp:173-178 -/
def Attrs.valueNs (a : Attrs) (uri localName : List Ch) : Res (List Ch) :=
  if a.indexOfNs uri localName > -1 then at? a.values (a.indexOfNs uri localName).toNat else .ok []

end Verif.Xml
