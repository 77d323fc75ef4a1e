import Verif.Str.Model
/-
Specification of date patterns, after the documentation in include/core/Date.h:437-463: a pattern is a
sequence of runs of one letter and of texts in apostrophes; a run of a known letter stands for a part of the
date, other characters and the texts stand for themselves.
-/
namespace Verif.DateFmt.Spec
open Verif Verif.Str

/-- the characters of an ASCII text -/
def txt (s : String) : List Ch := s.toList.map fun c => BitVec.ofNat 16 c.toNat

/-- a part of a pattern: a letter repeated `n` times, or a text in apostrophes -/
inductive Item where
  | run (c : Ch) (n : Nat)
  | quoted (s : List Ch)

/-- the part as it is written -/
def Item.src : Item → List Ch
  | .run c n => List.replicate n c
  | .quoted s => 0x27 :: s ++ [0x27]

def Item.Valid : Item → Prop
  | .run c n => c ≠ 0x27 ∧ 0 < n
  | .quoted s => 0x27 ∉ s

/-- Two runs next to each other have different letters. -/
def Apart : Item → Item → Prop
  | .run c _, .run d _ => c ≠ d
  | _, _ => True

/-- a sequence of parts as it is read off a pattern: each part is valid and apart from the next one -/
def Valid : List Item → Prop
  | [] => True
  | [i] => i.Valid
  | i :: j :: l => i.Valid ∧ Apart i j ∧ Valid (j :: l)

/-- the pattern text -/
def src (items : List Item) : List Ch := items.flatMap Item.src

/-- the parts of a point in time: month from 0, weekday from 0 (Sunday) -/
structure Clock where
  year : Nat
  month : Nat
  day : Nat
  weekday : Nat
  hour : Nat
  minute : Nat
  second : Nat
  milli : Nat

/-- the decimal digits of a number -/
def dec (n : Nat) : List Ch :=
  if n < 10 then [BitVec.ofNat 16 (48 + n)] else dec (n / 10) ++ [BitVec.ofNat 16 (48 + n % 10)]
termination_by n

/-- the last `w` decimal digits, with zeros in front -/
def padded : Nat → Nat → List Ch
  | 0, _ => []
  | w + 1, n => padded w (n / 10) ++ [BitVec.ofNat 16 (48 + n % 10)]

def days : List (List Ch) :=
  [txt "Sonntag", txt "Montag", txt "Dienstag", txt "Mittwoch", txt "Donnerstag", txt "Freitag", txt "Samstag"]
def shortMonths : List (List Ch) :=
  [txt "Jan", txt "Feb", txt "Mrz", txt "Apr", txt "Mai", txt "Jun", txt "Jul", txt "Aug", txt "Sep", txt "Okt", txt "Nov", txt "Dez"]
def months : List (List Ch) :=
  [txt "January", txt "February", txt "March", txt "April", txt "May", txt "June", txt "July", txt "August", txt "September",
   txt "October", txt "November", txt "December"]

/-- the letters that stand for a part of the date: y M d E H m s S -/
def letters : List Ch := txt "yMdEHmsS"

/-- What the letter `c`, written `n` times, stands for.  `names` are the long names of the months, which `tr`
translates. -/
def field (names : List (List Ch)) (tr : List Ch → List Ch) (k : Clock) (c : Ch) (n : Nat) : List Ch :=
  if c = 0x79 then (if n = 2 then padded 2 (k.year % 100) else dec k.year)
  else if c = 0x4d then
    (if n = 1 then dec (k.month + 1) else if n = 2 then padded 2 (k.month + 1) else if n = 3 then shortMonths.getD k.month []
     else tr (names.getD k.month []))
  else if c = 0x64 then (if n = 2 then padded 2 k.day else dec k.day)
  else if c = 0x45 then
    (if n = 1 then (days.getD k.weekday []).take 1 else if n = 2 then (days.getD k.weekday []).take 2 else days.getD k.weekday [])
  else if c = 0x48 then (if n = 2 then padded 2 k.hour else dec k.hour)
  else if c = 0x6d then (if n = 2 then padded 2 k.minute else dec k.minute)
  else if c = 0x73 then (if n = 2 then padded 2 k.second else dec k.second)
  else if c = 0x53 then (if n ≤ 1 then dec k.milli else padded 3 k.milli)
  else List.replicate n c

/-- what a part of the pattern stands for -/
def meaning (names : List (List Ch)) (tr : List Ch → List Ch) (k : Clock) : Item → List Ch
  | .run c n => field names tr k c n
  | .quoted s => s

/-- No run stands directly before a text in apostrophes. -/
def NoRunBeforeText : List Item → Prop
  | [] => True
  | .run _ _ :: .quoted _ :: _ => False
  | _ :: l => NoRunBeforeText l

end Verif.DateFmt.Spec
