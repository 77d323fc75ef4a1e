import Verif.Str.Model
/-
Specification for Preferences: a map from keys to values; values keep their line breaks as the two characters \ and n.
-/
namespace Verif.Prefs.Spec
open Verif Verif.Str

/-- Each line break (CR LF, CR or LF) becomes the two characters `\` `n`. -/
def oneLine : List Ch → List Ch
  | [] => []
  | [c] => if c = 0x0D ∨ c = 0x0A then [0x5C, 0x6E] else [c]
  | c :: d :: l =>
    if c = 0x0D ∧ d = 0x0A then 0x5C :: 0x6E :: oneLine l
    else if c = 0x0D ∨ c = 0x0A then 0x5C :: 0x6E :: oneLine (d :: l)
    else c :: oneLine (d :: l)

abbrev Map := List Ch → Option (List Ch)

/-- what clients do with preferences -/
inductive Op where
  | setValue (key value : List Ch)
  | hasValue (key : List Ch)
  | value (key : List Ch)
  | valueOr (key default : List Ch)

inductive Out where
  | unit
  | bool (b : Bool)
  | text (t : List Ch)
deriving DecidableEq

/-- one call: the map afterwards and the answer -/
def step (m : Map) : Op → Map × Out
  | .setValue k v => (fun x => if x = k then some (oneLine v) else m x, .unit)
  | .hasValue k => (m, .bool (m k).isSome)
  | .value k => (m, .text ((m k).getD []))
  | .valueOr k d => (m, .text (match m k with
      | none => d
      | some [] => d
      | some v => v))

def steps (m : Map) : List Op → Map × List Out
  | [] => (m, [])
  | o :: os => let r := step m o; let s := steps r.1 os; (s.1, r.2 :: s.2)

/-- A key which can be written to a file: not empty, no line breaks, no `=`, no NUL, no white space around, no byte
order mark in front. -/
def PlainKey (k : List Ch) : Prop :=
  k ≠ [] ∧ (0x3D : Ch) ∉ k ∧ (0x0D : Ch) ∉ k ∧ (0x0A : Ch) ∉ k ∧ (0 : Ch) ∉ k ∧ k.head? ≠ some 0xFEFF ∧
    (∀ c, k.head? = some c → isWhitespace c = false) ∧ (∀ c, k.getLast? = some c → isWhitespace c = false)

/-- `\` as `\\` and the tabulator as `\t` -/
def escape : List Ch → List Ch
  | [] => []
  | c :: l => if c = 0x5C then 0x5C :: 0x5C :: escape l else if c = 9 then 0x5C :: 0x74 :: escape l else c :: escape l

/-- A value which survives: no line breaks, no `\` followed by `n`, no NUL, no white space around (a tabulator is
allowed), and if it ends with a backslash its escaped form must not fill whole blocks of 16 characters. -/
def PlainValue (v : List Ch) : Prop :=
  (0x0D : Ch) ∉ v ∧ (0x0A : Ch) ∉ v ∧ (0 : Ch) ∉ v ∧ (¬ ∃ a b, v = a ++ 0x5C :: 0x6E :: b) ∧
    (∀ c, v.head? = some c → isWhitespace c = true → c = 9) ∧ (∀ c, v.getLast? = some c → isWhitespace c = true → c = 9) ∧
    (v.getLast? = some 0x5C → (escape v).length % 16 ≠ 0)

end Verif.Prefs.Spec
