import Verif.Date.Model
import Verif.Num.Model
/-
Model of src/core/DateFormatter.cpp (the class is declared in include/core/Date.h:464-529).

 * Strings are character sequences (what the operations of String do to them is proved in Verif/Str).
 * The linked list of patterns (`mPatterns`, `mLast`) is a list; its first element, the empty pattern, adds nothing.
 * `Tr(...)`, the translation of an English name (I18nBundle), is a parameter `tr`.
 * The position `a` in the pattern text (uint32) does not wrap: the text has fewer than 2^32 characters.
-/
namespace Verif.DateFmt
open Verif Verif.Str Verif.Num

/-- a string literal of the source -/
def lit (s : String) : List Ch := s.toList.map fun c => BitVec.ofNat 16 c.toNat

/-- include/core/Date.h:483-503; the values never assigned (week, AM/PM, time zone, ...) are left out. -/
inductive PType where
  | empty | text | year | month | dayInMonth | dayInWeek | hour | minute | second | milli
  deriving DecidableEq, Repr

/-- include/core/Date.h:505-524 `struct Pattern` without `next` -/
structure Pattern where
  type : PType
  length : Nat
  text : List Ch
  deriving DecidableEq, Repr

/-- DateFormatter.cpp:133-141 `Pattern(value, true)`; `length` stays uninitialised and is not read -/
def mkText (value : List Ch) : Pattern := ⟨.text, 0, value⟩

/-- DateFormatter.cpp:146-184: the switch over the first character -/
def kind (c : Ch) : PType :=
  if c = 0x79 then .year
  else if c = 0x6d then .minute
  else if c = 0x4d then .month
  else if c = 0x64 then .dayInMonth
  else if c = 0x48 then .hour
  else if c = 0x45 then .dayInWeek
  else if c = 0x73 then .second
  else if c = 0x53 then .milli
  else .text

/-- DateFormatter.cpp:133-186 `Pattern(value)`; the length is stored in 8 bits -/
def mkPat (value : List Ch) : Res Pattern := do
  let c ← rd value 0
  return ⟨kind c, value.length % 256, if kind c = .text then value else []⟩

/-- the local variables of the constructor and the list built so far -/
structure Scan where
  token : List Ch
  inText : Bool
  isText : Bool
  pats : List Pattern

/-- DateFormatter.cpp:52-64: an apostrophe -/
def scanQuote (s : Scan) : Scan :=
  if !s.inText then { s with inText := true, isText := true }
  else if s.isText then { token := [], inText := false, isText := false, pats := s.pats ++ [mkText s.token] }
  else { s with inText := false }

/-- DateFormatter.cpp:71-72: the first character of the token -/
def firstOf (token : List Ch) (c : Ch) : Res Ch := if token.length > 0 then rd token 0 else .ok c

/-- DateFormatter.cpp:69-84: a character outside of apostrophes -/
def scanPlain (s : Scan) (c : Ch) : Res Scan := do
  let l ← firstOf s.token c
  if c ≠ l then do
    let p ← mkPat s.token
    .ok { s with token := [c], pats := s.pats ++ [p] }
  else .ok { s with token := s.token ++ [c] }

/-- DateFormatter.cpp:50-84: one character -/
def scanStep (s : Scan) (c : Ch) : Res Scan :=
  if c = 0x27 then .ok (scanQuote s)
  else if s.inText then .ok { s with token := s.token ++ [c] }
  else scanPlain s c

/-- DateFormatter.cpp:48-85: the loop -/
def scan : Scan → List Ch → Res Scan
  | s, [] => .ok s
  | s, c :: l => do
    let s ← scanStep s c
    scan s l

/-- DateFormatter.cpp:87-92: the token that is left -/
def finish (s : Scan) : Res (List Pattern) :=
  if s.token.length > 0 then do
    let p ← mkPat s.token
    return s.pats ++ [p]
  else .ok s.pats

/-- DateFormatter.cpp:36-93: the constructor -/
def construct (pattern : List Ch) : Res (List Pattern) := do
  let s ← scan ⟨[], false, false, []⟩ pattern
  finish s

/-- `if(v < 10)value.append('0'); value.append(String::valueOf(v))` -/
def two (v : Int) : Res (List Ch) := do
  let n ← valueOf v
  return (if v < 10 then [0x30] else []) ++ n

/-- DateFormatter.cpp:201-209 -/
def fYear (length : Nat) (t : Int) : Res (List Ch) :=
  if length = 2 then do
    let y ← Date.yearFromTime t
    two (y.tmod 100)
  else do
    let y ← Date.yearFromTime t
    valueOf y

/-- DateFormatter.cpp:211-219 -/
def fHour (length : Nat) (t : Int) : Res (List Ch) := do
  let h ← Date.hourFromTime t
  if length = 2 then two h else valueOf h

/-- DateFormatter.cpp:221-230 -/
def fMinute (length : Nat) (t : Int) : Res (List Ch) := do
  let d ← Date.minuteFromTime t
  if length = 2 then two (if d < 0 then 0 else d) else valueOf d

/-- DateFormatter.cpp:232-240 -/
def fSecond (length : Nat) (t : Int) : Res (List Ch) := do
  let s ← Date.secondFromTime t
  if length = 2 then two s else valueOf s

/-- DateFormatter.cpp:245-248 -/
def three (s : Int) : Res (List Ch) := do
  let n ← valueOf s
  return (if s < 10 then [0x30] else []) ++ (if s < 100 then [0x30] else []) ++ n

/-- DateFormatter.cpp:242-251 -/
def fMilli (length : Nat) (t : Int) : Res (List Ch) := do
  let s ← Date.milliFromTime t
  if length > 1 then three s else valueOf s

/-- DateFormatter.cpp:253-262 -/
def fDate (length : Nat) (t : Int) : Res (List Ch) := do
  let d ← Date.dateFromTime t
  if length = 2 then two (if d < 0 then 0 else d) else valueOf d

/-- DateFormatter.cpp:264-364: the weekday; no case matches a value outside 0..6 -/
def dayName (length : Nat) (d : Int) : List Ch :=
  if length = 1 then
    if d = 1 then lit "M" else if d = 2 then lit "D" else if d = 3 then lit "M" else if d = 4 then lit "D"
    else if d = 5 then lit "F" else if d = 6 then lit "S" else if d = 0 then lit "S" else []
  else if length = 2 then
    if d = 1 then lit "Mo" else if d = 2 then lit "Di" else if d = 3 then lit "Mi" else if d = 4 then lit "Do"
    else if d = 5 then lit "Fr" else if d = 6 then lit "Sa" else if d = 0 then lit "So" else []
  else
    if d = 1 then lit "Montag" else if d = 2 then lit "Dienstag" else if d = 3 then lit "Mittwoch"
    else if d = 4 then lit "Donnerstag" else if d = 5 then lit "Freitag" else if d = 6 then lit "Samstag"
    else if d = 0 then lit "Sonntag" else []

/-- DateFormatter.cpp:264-364 -/
def fWeekday (length : Nat) (t : Int) : Res (List Ch) := do
  let d ← Date.weekDay t
  return dayName length d

/-- DateFormatter.cpp:379-428 -/
def shortMonth (m : Int) : List Ch :=
  if m = 0 then lit "Jan" else if m = 1 then lit "Feb" else if m = 2 then lit "Mrz" else if m = 3 then lit "Apr"
  else if m = 4 then lit "Mai" else if m = 5 then lit "Jun" else if m = 6 then lit "Jul" else if m = 7 then lit "Aug"
  else if m = 8 then lit "Sep" else if m = 9 then lit "Okt" else if m = 10 then lit "Nov" else if m = 11 then lit "Dez"
  else []

/-- DateFormatter.cpp:432-481 -/
def longMonth (tr : List Ch → List Ch) (m : Int) : List Ch :=
  if m = 0 then tr (lit "January") else if m = 1 then tr (lit "February") else if m = 2 then tr (lit "March")
  else if m = 3 then tr (lit "April") else if m = 4 then tr (lit "May") else if m = 5 then tr (lit "June")
  else if m = 6 then tr (lit "July") else if m = 7 then tr (lit "August") else if m = 8 then tr (lit "Septemper")
  else if m = 9 then tr (lit "October") else if m = 10 then tr (lit "November") else if m = 11 then tr (lit "December")
  else []

/-- DateFormatter.cpp:366-483 -/
def fMonth (tr : List Ch → List Ch) (length : Nat) (t : Int) : Res (List Ch) := do
  let m ← Date.monthFromTime t
  if length = 1 then valueOf (m + 1)
  else if length = 2 then two (m + 1)
  else if length = 3 then .ok (shortMonth m)
  else .ok (longMonth tr m)

/-- DateFormatter.cpp:189-511 `appendPattern`: what is appended for the time stamp `t` (the local time is UTC,
Date.cpp:239-252) -/
def appended (tr : List Ch → List Ch) (p : Pattern) (t : Int) : Res (List Ch) :=
  match p.type with
  | .empty => .ok []
  | .text => .ok p.text
  | .year => fYear p.length t
  | .hour => fHour p.length t
  | .minute => fMinute p.length t
  | .second => fSecond p.length t
  | .milli => fMilli p.length t
  | .dayInMonth => fDate p.length t
  | .dayInWeek => fWeekday p.length t
  | .month => fMonth tr p.length t

/-- DateFormatter.cpp:110-115: the loop of `format` -/
def formatLoop (tr : List Ch → List Ch) (t : Int) : List Pattern → List Ch → Res (List Ch)
  | [], value => .ok value
  | p :: ps, value => do
    let a ← appended tr p t
    formatLoop tr t ps (value ++ a)

/-- DateFormatter.cpp:121-125 `format(pattern, date)`: construction, then `format` (106-118) -/
def format (tr : List Ch → List Ch) (pattern : List Ch) (t : Int) : Res (List Ch) := do
  let ps ← construct pattern
  formatLoop tr t ps []

end Verif.DateFmt
