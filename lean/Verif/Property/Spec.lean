import Verif.Property.Model
/-
Specification of property values.
-/
namespace Verif.Property.Spec
open Verif Verif.Str Verif.Property

/-- the text a call sets -/
def textOf : Op → Option (List Ch)
  | .string v => some v
  | .unit _ u => some u
  | _ => none

/-- the type a call sets -/
def typeOf : Op → PType
  | .string _ => .string
  | .unit _ _ => .value
  | .integer _ => .integer
  | .double _ => .double
  | .bool _ => .boolean
  | .type t => t

/-- calls that set no number -/
def KeepsNumber : Op → Prop
  | .string _ => True
  | .type _ => True
  | _ => False

/-- what a property editor edits -/
inductive Content where
  | text | number | bool | unit
  deriving DecidableEq

/-- The editors of the documentation and those the comparison knows, with what they edit. -/
def contents : List (List Ch × Content) :=
  [(lit "textfield", .text), (lit "number", .number), (lit "checkbox", .bool), (lit "file", .text), (lit "combobox", .number), (lit "value", .unit),
   (lit "dwgcolour", .number), (lit "dwglayer", .text)]

/-- The byte of the truth value is 0 or 1. -/
def BoolOk (p : Property) : Prop := p.number.setWidth 8 = 0 ∨ p.number.setWidth 8 = 1

/-- two properties show the same content -/
def Same (p q : Property) : Content → Prop
  | .text => p.text = q.text
  | .number => p.number = q.number
  | .bool => p.number.setWidth 8 = q.number.setWidth 8
  | .unit => p.text = q.text ∧ Math.Fl.isEqual (toF64 p.number) (toF64 q.number) = true

end Verif.Property.Spec
