import Verif.Math.Model
import Verif.Str.Model
/-
Model of src/core/Date.cpp.  int64 values are integers; where a result can leave int64 (the product in
timeFromYear and the sum in makeDate) it is checked and leaving is UB.  The local time zone is UTC in the code
(localTimeZoneAdjustment and daylightSavingTimeAdjustment return 0), so localTime and utc are the identity.
-/
namespace Verif.Date
open Verif Verif.Math Verif.Str

/-- include/core/Date.h:61-68 -/
def MS_PER_DAY : Int := 86400000
def MS_PER_HOUR : Int := 3600000
def MS_PER_MINUTE : Int := 60000
def MS_PER_SECOND : Int := 1000

/-- a signed 64 bit result -/
def chk (x : Int) : Res Int := if isInt64 x then .ok x else .error .ub

/-- Date.cpp:97-100 -/
def day (t : Int) : Res Int := divFloor t MS_PER_DAY

/-- Date.cpp:102-105 -/
def timeWithinDay (t : Int) : Int := t.tmod MS_PER_DAY

/-- Date.cpp:107-113 -/
def daysInYear (y : Int) : Int :=
  if y.tmod 4 ≠ 0 then 365
  else if y.tmod 100 ≠ 0 then 366
  else if y.tmod 400 ≠ 0 then 365
  else 366

/-- Date.cpp:115-121 -/
def dayFromYear (y : Int) : Res Int := do
  let a ← divFloor (y - 1969) 4
  let b ← divFloor (y - 1901) 100
  let c ← divFloor (y - 1601) 400
  return 365 * (y - 1970) + a - b + c

/-- Date.cpp:123-126 -/
def timeFromYear (y : Int) : Res Int := do
  let d ← dayFromYear y
  chk (MS_PER_DAY * d)

/-- Date.cpp:132-138: the loop for `t ≥ 0`; `startYear = 1970 + k`.  `fuel` bounds the rounds (running out is
reported as UB); `yearFromTime` passes enough, as `components_spec` shows. -/
def yearUp (t : Int) : Nat → Nat → Res Int
  | 0, _ => .error .ub
  | fuel + 1, k => do
    let s ← timeFromYear (1970 + k)
    if s ≤ t then yearUp t fuel (k + 1) else return 1970 + k - 1

/-- Date.cpp:142-146: the loop for `t < 0`; `startYear = 1970 - k` -/
def yearDown (t : Int) : Nat → Nat → Res Int
  | 0, _ => .error .ub
  | fuel + 1, k => do
    let s ← timeFromYear (1970 - k)
    if s > t then yearDown t fuel (k + 1) else return 1970 - k

/-- Date.cpp:128-148 -/
def yearFromTime (t : Int) : Res Int :=
  if t ≥ 0 then yearUp t (t.natAbs + 2) 0 else yearDown t (t.natAbs + 2) 0

/-- Date.cpp:150-156 -/
def inLeapYear (t : Int) : Res Int := do
  let y ← yearFromTime t
  return if daysInYear y = 365 then 0 else if daysInYear y = 366 then 1 else -1

/-- Date.cpp:158-161 -/
def dayWithinYear (t : Int) : Res Int := do
  let d ← day t
  let y ← yearFromTime t
  let f ← dayFromYear y
  return d - f

/-- Date.cpp:168-179: the month for the day within the year -/
def monthOf (dwy ily : Int) : Int :=
  if 0 ≤ dwy ∧ dwy < 31 then 0
  else if 31 ≤ dwy ∧ dwy < 59 + ily then 1
  else if 59 + ily ≤ dwy ∧ dwy < 90 + ily then 2
  else if 90 + ily ≤ dwy ∧ dwy < 120 + ily then 3
  else if 120 + ily ≤ dwy ∧ dwy < 151 + ily then 4
  else if 151 + ily ≤ dwy ∧ dwy < 181 + ily then 5
  else if 181 + ily ≤ dwy ∧ dwy < 212 + ily then 6
  else if 212 + ily ≤ dwy ∧ dwy < 243 + ily then 7
  else if 243 + ily ≤ dwy ∧ dwy < 273 + ily then 8
  else if 273 + ily ≤ dwy ∧ dwy < 304 + ily then 9
  else if 304 + ily ≤ dwy ∧ dwy < 334 + ily then 10
  else if 334 + ily ≤ dwy ∧ dwy < 365 + ily then 11
  else -1

/-- Date.cpp:163-182 -/
def monthFromTime (t : Int) : Res Int := do
  let dwy ← dayWithinYear t
  let ily ← inLeapYear t
  return monthOf dwy ily

/-- Date.cpp:190-230: the switch of `dateFromTime` -/
def dateOf (dwy ily mft : Int) : Int :=
  if mft = 0 then dwy + 1
  else if mft = 1 then dwy - 30
  else if mft = 2 then dwy - 58 - ily
  else if mft = 3 then dwy - 89 - ily
  else if mft = 4 then dwy - 119 - ily
  else if mft = 5 then dwy - 150 - ily
  else if mft = 6 then dwy - 180 - ily
  else if mft = 7 then dwy - 211 - ily
  else if mft = 8 then dwy - 242 - ily
  else if mft = 9 then dwy - 272 - ily
  else if mft = 10 then dwy - 303 - ily
  else if mft = 11 then dwy - 333 - ily
  else -1

/-- Date.cpp:184-231 -/
def dateFromTime (t : Int) : Res Int := do
  let dwy ← dayWithinYear t
  let ily ← inLeapYear t
  let mft ← monthFromTime t
  return dateOf dwy ily mft

/-- Date.cpp:233-237 -/
def weekDay (t : Int) : Res Int := do
  let d ← day t
  return (d + 4).tmod 7

/-- Date.cpp:259-262 -/
def hourFromTime (t : Int) : Res Int := do
  let h ← divFloor t MS_PER_HOUR
  modFloor h 24

/-- Date.cpp:264-267 -/
def minuteFromTime (t : Int) : Res Int := do
  let m ← divFloor t MS_PER_MINUTE
  modFloor m 60

/-- Date.cpp:269-272 -/
def secondFromTime (t : Int) : Res Int := do
  let s ← divFloor t MS_PER_SECOND
  modFloor s 60

/-- Date.cpp:274-277 -/
def milliFromTime (t : Int) : Res Int := modFloor t MS_PER_SECOND

/-- Date.cpp:279-282 -/
def makeTime (hour minute second milli : Int) : Int :=
  hour * MS_PER_HOUR + minute * MS_PER_MINUTE + second * MS_PER_SECOND + milli

/-- Date.cpp:300-353: the switch of `makeDay` (`0xFFFFFFFFFFFFFFFFLL` is -1) -/
def monthStart (theMonth ily : Int) : Int :=
  if theMonth = 0 then 0 * MS_PER_DAY
  else if theMonth = 1 then 31 * MS_PER_DAY
  else if theMonth = 2 then (59 + ily) * MS_PER_DAY
  else if theMonth = 3 then (90 + ily) * MS_PER_DAY
  else if theMonth = 4 then (120 + ily) * MS_PER_DAY
  else if theMonth = 5 then (151 + ily) * MS_PER_DAY
  else if theMonth = 6 then (181 + ily) * MS_PER_DAY
  else if theMonth = 7 then (212 + ily) * MS_PER_DAY
  else if theMonth = 8 then (243 + ily) * MS_PER_DAY
  else if theMonth = 9 then (273 + ily) * MS_PER_DAY
  else if theMonth = 10 then (304 + ily) * MS_PER_DAY
  else if theMonth = 11 then (334 + ily) * MS_PER_DAY
  else -1

/-- Date.cpp:284-358 -/
def makeDay (year month date : Int) : Res Int := do
  let q ← divFloor month 12
  let tfy ← timeFromYear (year + q)
  let ily ← inLeapYear tfy
  let r7 ← chk (tfy + monthStart (month.tmod 12) ily)
  let d ← day r7
  return d + date - 1

/-- Date.cpp:360-363 -/
def makeDate (day millis : Int) : Res Int := chk (day * MS_PER_DAY + millis)

/-- Date.cpp:65-79: the constructors from components (`uint16` arguments, at most 65535) -/
def construct (year month day hours minutes seconds millis : Nat) : Res Int := do
  let d ← makeDay year month day
  makeDate d (makeTime hours minutes seconds millis)

/-- `'0' + n` stored in a char -/
def dig (n : Int) : Ch := BitVec.ofInt 16 (((48 + n).bmod 256))

/-- Date.cpp:465-504 `toString`; characters as the String constructor makes them of ASCII bytes.  (A byte
outside ASCII, which arises for negative years, would be decoded as UTF-8; not modelled.) -/
def toString (t : Int) : Res (List Ch) := do
  let year ← yearFromTime t
  let month ← monthFromTime t
  let date ← dateFromTime t
  let hour ← hourFromTime t
  let minute ← minuteFromTime t
  let second ← secondFromTime t
  let milli ← milliFromTime t
  let y := year.tmod 10000
  let y1 := y.tmod 1000
  let y2 := y1.tmod 100
  let m := 1 + month.tmod 100
  let d := date.tmod 100
  let h := hour.tmod 100
  let mi := minute.tmod 100
  let s := second.tmod 100
  let ms := milli.tmod 1000
  let ms1 := ms.tmod 100
  return [dig (y.tdiv 1000), dig (y1.tdiv 100), dig (y2.tdiv 10), dig (y2.tmod 10), 45,
    dig (m.tdiv 10), dig (m.tmod 10), 45, dig (d.tdiv 10), dig (d.tmod 10), 84,
    dig (h.tdiv 10), dig (h.tmod 10), 58, dig (mi.tdiv 10), dig (mi.tmod 10), 58,
    dig (s.tdiv 10), dig (s.tmod 10), 46, dig (ms.tdiv 100), dig (ms1.tdiv 10), dig (ms1.tmod 10), 90]

/-- Date.cpp:506-511 `compareTo` -/
def compareTo (t u : Int) : Int := if t < u then -1 else if t > u then 1 else 0

end Verif.Date
