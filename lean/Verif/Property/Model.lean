import Verif.Math.FpModel
import Verif.Str.Model
/-
Model of src/core/Property.cpp: the value of a property and its comparisons.

 * The union `mNumberValue` (include/core/Property.h:395-402) is its 64 bits.  Reading another member than the one written last
   reads its bytes, as all compilers in use define it; `bool` is the byte in front (little endian), and a byte other than 0 and 1 is no
   `bool`: undefined behaviour.
 * Strings are sequences of characters (`String::equals` compares them, C08).
 * Group, name, hint, icon, read-only flag, change mode play no role for the value and are left out.
-/
namespace Verif.Property
open Verif Verif.Str

/-- a string literal of the source -/
def lit (s : String) : List Ch := s.toList.map fun c => BitVec.ofNat 16 c.toNat

/-- Property.h:59-69 -/
inductive PType where
  | string | integer | double | dwgColour | dwgLayer | dwgLineType | boolean | value
  deriving DecidableEq

/-- Property.h:335-404: the members -/
structure Property where
  type : PType
  id : List Ch
  editor : List Ch
  number : BitVec 64
  text : List Ch
  deriving DecidableEq

/-- the double with the given bits -/
def toF64 (v : BitVec 64) : Fp.F64 :=
  if h : v.toNat % 2 ^ 63 ≤ Fp.infBits then .num v.msb (v.toNat % 2 ^ 63) h else .nan

/-- Property.cpp:36-53: `Property()` (with an empty id), `Property(id)` -/
def Property.new (id : List Ch) : Property := ⟨.string, id, [], 0, []⟩

/-- Property.cpp:56-75 -/
def Property.newWith (id editor : List Ch) : Property := ⟨.string, id, editor, 0, []⟩

namespace Property

/-- Property.cpp:87-90 -/
def setType (p : Property) (t : PType) : Property := { p with type := t }
/-- Property.cpp:142-147 -/
def setStringValue (p : Property) (v : List Ch) : Property := { p with text := v, type := .string }
/-- Property.cpp:149-155 -/
def setUnitValue (p : Property) (v : BitVec 64) (unit : List Ch) : Property := { p with text := unit, number := v, type := .value }
/-- Property.cpp:157-160 -/
def stringValue (p : Property) : List Ch := p.text
/-- Property.cpp:162-167 -/
def setIntegerValue (p : Property) (v : BitVec 64) : Property := { p with number := v, type := .integer }
/-- Property.cpp:181-184 -/
def integerValue (p : Property) : BitVec 64 := p.number
/-- Property.cpp:186-191 -/
def setDoubleValue (p : Property) (v : BitVec 64) : Property := { p with number := v, type := .double }
/-- Property.cpp:193-196 -/
def doubleValue (p : Property) : BitVec 64 := p.number
/-- Property.cpp:198-203: only one byte of the union is written -/
def setBoolValue (p : Property) (v : Bool) : Property :=
  { p with number := (p.number &&& 0xFFFFFFFFFFFFFF00) ||| (if v then 1 else 0), type := .boolean }
/-- Property.cpp:205-208 -/
def boolValue (p : Property) : Res Bool :=
  if p.number.setWidth 8 = 0 then .ok false else if p.number.setWidth 8 = 1 then .ok true else .error .ub
/-- Property.cpp:210-215 -/
def setValue (p other : Property) : Property := { p with text := other.text, number := other.number, type := other.type }
/-- Property.cpp:217-222 -/
def isValueEquals (p other : Property) : Bool :=
  if (p.text == other.text) = false then false else if p.number ≠ other.number then false else true
/-- Property.cpp:77-80 -/
def is (p : Property) (id : List Ch) : Bool := p.id == id

/-- Property.cpp:247-250: two `bool` values, both read -/
def boolsEqual (p q : Property) : Res Bool := do
  let a ← p.boolValue
  let b ← q.boolValue
  return a == b

/-- Property.cpp:232-236, 259-263: text and number, with the tolerance of `isEqual` -/
def unitsEqual (p q : Property) : Bool := p.text == q.text && Math.Fl.isEqual (toF64 p.number) (toF64 q.number)

/-- Property.cpp:224-274 `operator==` -/
def equals (p q : Property) : Res Bool :=
  if (p.id == q.id) = false then .ok false
  else if (p.editor == q.editor) = false then .ok false
  else if p.type = .value then .ok (unitsEqual p q)
  else if p.editor = lit "textfield" then .ok (p.text == q.text)
  else if p.editor = lit "number" then .ok (p.number == q.number)
  else if p.editor = lit "checkbox" then boolsEqual p q
  else if p.editor = lit "file" then .ok (p.text == q.text)
  else if p.editor = lit "combobox" then .ok (p.number == q.number)
  else if p.editor = lit "value" then .ok (unitsEqual p q)
  else if p.editor = lit "dwgcolour" then .ok (p.number == q.number)
  else if p.editor = lit "dwglayer" then .ok (p.text == q.text)
  else .ok false

end Property

/-! ### The calls that change the value -/

inductive Op where
  | string (v : List Ch) | unit (v : BitVec 64) (unit : List Ch) | integer (v : BitVec 64) | double (v : BitVec 64) | bool (v : Bool)
  | type (t : PType)

/-- one call -/
def step (p : Property) : Op → Property
  | .string v => p.setStringValue v
  | .unit v u => p.setUnitValue v u
  | .integer v => p.setIntegerValue v
  | .double v => p.setDoubleValue v
  | .bool v => p.setBoolValue v
  | .type t => p.setType t

/-- a sequence of calls -/
def run (p : Property) (ops : List Op) : Property := ops.foldl step p

/-! ### Variant (include/core/Property.h:71-157) -/

/-- Property.h:137-156: the members -/
structure Variant where
  type : PType
  number : BitVec 64
  text : List Ch
  deriving DecidableEq

namespace Variant
/-- Property.h:73-77 -/
def new : Variant := ⟨.integer, 0, []⟩
/-- Property.h:98-102 -/
def ofInt (v : BitVec 64) : Variant := ⟨.integer, v, []⟩
/-- Property.h:104-108 -/
def ofDouble (v : BitVec 64) : Variant := ⟨.double, v, []⟩
/-- Property.h:110-114; the number is not initialised (`garbage`) -/
def ofString (garbage : BitVec 64) (s : List Ch) : Variant := ⟨.string, garbage, s⟩
/-- Property.h:79-84 copy constructor -/
def copy (v : Variant) : Variant := ⟨v.type, v.number, if v.type = .string then v.text else []⟩
/-- Property.h:86-96 assignment from another object -/
def assign (w v : Variant) : Variant := ⟨v.type, v.number, if v.type = .string then v.text else w.text⟩
/-- Property.h:116-119 -/
def toInt64 (v : Variant) : BitVec 64 := v.number
/-- Property.h:121-124 -/
def toInt32 (v : Variant) : BitVec 32 := v.number.setWidth 32
/-- Property.h:126-129 -/
def toDouble (v : Variant) : BitVec 64 := v.number
/-- Property.h:131-134 -/
def toString (v : Variant) : List Ch := v.text
end Variant

end Verif.Property
